import Verif.Spec.Schedule

/-!
# C70: runs of the command line that are stopped before they end
-/

set_option autoImplicit false

namespace Mty.Spec
open Cli

/-- The contents of a file when a run has been stopped: what it was, or a beginning of the output for the source it is the destination of. -/
inductive WhenStopped (parse : Parser) (o : ConvertOptions) (ident : Str → Nat) (tasks : List Task) (w : World) (f : Nat) : Option Str → Prop
  | untouched : WhenStopped parse o ident tasks w f (w.files f)
  | beginning {t : Task} {s d c out v : Str} : t ∈ tasks → t.src = .file s → t.dest = .file d → ident d = f → w.files (ident s) = some c →
      outputFor parse o c = some out → v <+: out → WhenStopped parse o ident tasks w f (some v)

/-- Any number of runs with the same arguments, each of which was stopped at some moment: only the events `done` of those that would have
happened did happen. `fs`: what the program finds when it looks for files and directories, which may differ from run to run, as long as
the conversions to do are the same. -/
inductive StoppedRuns (parse : Parser) (fmt : Fmt) (a : ConvertArgs) (mode : ErrorMode) (ident : Str → Nat) (tasks : List Task) :
    World → World → Prop
  | none {w : World} : StoppedRuns parse fmt a mode ident tasks w w
  | again {w w1 w2 : World} {fs : Fs} {p : Plan} {done rest : List (Nat × Ev)} {stderr : Str} {exit : Bool} :
      StoppedRuns parse fmt a mode ident tasks w w1 → plan fs a = .ok p → p.tasks a.options = tasks →
      MainRun parse fmt fs a mode (done ++ rest) stderr exit → Happens ident w1 done w2 →
      StoppedRuns parse fmt a mode ident tasks w w2

end Mty.Spec
