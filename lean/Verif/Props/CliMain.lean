import Verif.Model.CliMain
import Verif.Props.Cli

/-! # C42 for the whole program, including invalid arguments -/

set_option autoImplicit false

namespace Mty
open Spec Cli

/-- Did `clap` accept an error mode although the arguments are invalid? -/
def Spec.FallbackMode : ClapResult → Prop
  | .ok _ _ => False
  | .error _ _ fallback => ∃ m, fallback = some m ∧ m ≠ .default

/-- Is the error mode `silent` chosen? -/
def Spec.SilentMode : ClapResult → Prop
  | .ok _ m => m = .silent
  | .error .. => False

/-- **C42** for the whole program, except for the error `Unknown` (`C42_silent`) and for invalid arguments with an error mode
(`C42_arguments_silent`): if the exit status is failure, something is printed to stderr, unless the mode is `silent` or the text of
`clap` is empty. -/
theorem C42_program_partial {parse : Parser} {fmt : Fmt} {fs : Fs} {args : ClapResult} {trace : List (Nat × Ev)} {stderr : Str}
    (h : ProgramRun parse fmt fs args trace stderr false) (hf : ¬FallbackMode args) (hm : ¬SilentMode args)
    (hu : ∀ i s, (i, .report s .unknown) ∉ trace) (ht : ∀ usage m, args ≠ .error [] usage m) : stderr ≠ [] := by
  generalize he : false = exit at h
  cases h with
  | command h =>
    subst he
    exact C42_failure_partial h (fun e => hm e) hu
  | @exit text usage fallback h =>
    cases usage with
    | false => cases he
    | true =>
      intro e
      exact ht true fallback (by rw [show text = [] from e])
  | fallback h => exact absurd ⟨_, rfl, h⟩ hf

/-- **C42** does not hold for invalid arguments: if they can be read as only an error mode `json` (`mintyml-cli --error-mode json`),
the program fails without printing anything, and also without doing anything. -/
theorem C42_arguments_silent (parse : Parser) (fmt : Fmt) (fs : Fs) (text : Str) :
    ProgramRun parse fmt fs (.error text true (some .json)) [] [] false := by
  have : reporterRun fmt [.mode .json, .close] = [] := rfl
  rw [← this]
  exact .fallback (by decide)

/-- C42: the hypotheses hold for arguments that are not valid in any way. -/
example : ProgramRun ExRun.parse ExRun.fmt ExRun.fs (.error "error: unexpected argument".toList true none) []
    "error: unexpected argument".toList false :=
  .exit rfl

/-- C42_program_partial. -/
example : "error: unexpected argument".toList ≠ [] :=
  C42_program_partial (parse := ExRun.parse) (fmt := ExRun.fmt) (fs := ExRun.fs) (args := .error "error: unexpected argument".toList true none)
    (trace := []) (.exit rfl) (by rintro ⟨m, ⟨⟩, -⟩) id (by simp) (by intro u m h; cases h)

end Mty
