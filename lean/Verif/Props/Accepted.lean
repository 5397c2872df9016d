import Verif.Proofs.AcceptParse
import Verif.Props.Messages
import Verif.Props.PartsErrors
import Verif.Props.PlainText

/-!
# C80: what can keep a source from being read

Specification: `Spec/Accepted.lean`.
-/

set_option autoImplicit false

namespace Mty
open Spec

/-- **C80.** The grammar accepts every source in which `<`, `}` and `]` are only part of escape sequences, `>` is part of one, at the
beginning or after white space, and each backslash begins an escape sequence. So a source is rejected only because of one of these five
characters, whatever else is in it: braces and brackets that are not closed, quotes, fences, selectors, control characters. -/
theorem C80_accepted (alnum : Char → Bool) (hal : LettersAndDigits alnum) (src : Str) (h : Harmless true src) :
    ∃ d, Grammar.parse alnum src = some d :=
  Grammar.Accept.parse_harmless hal h

/-- **C80.** The errors of such a source are never ones of the parser: each is an escape sequence that is not valid, a delimiter without
its end, or an item that is invalid or not where it can be. -/
theorem C80_errors (alnum : Char → Bool) (hal : LettersAndDigits alnum) (parse : Parser)
    (hp : ∀ src d, Grammar.parse alnum src = some d → parse src = .ok d) (src : Str) (h : Harmless true src) (cfg : OutputConfig) :
    ∀ e ∈ reported (convert parse src cfg), ∃ c, Complains e.kind c := by
  obtain ⟨d, hd⟩ := C80_accepted alnum hal src h
  have hr := Grammar.conforms_positions (Grammar.parse_conforms hd)
  intro e he
  cases hc : convert parse src cfg with
  | ok o => rw [hc] at he; cases he
  | error x =>
    rw [hc] at he
    cases x with
    | «syntax» es s => exact ((convert_errors (hp _ _ hd) hr hc).2 e he).2.complains
    | semantic es s => cases he
    | unknown => cases he

theorem guarded_harmless : ∀ (b : Bool) (t : Str), Harmless b (guarded t)
  | _, [] => .nil
  | b, c :: t => by
    rw [guarded]
    split
    · exact .escape (guarded_harmless false t)
    · rename_i hc
      by_cases hw : White c
      · exact .white hw (guarded_harmless true t)
      · exact .other hw hc (guarded_harmless false t)

/-- **C80.** Any text is accepted once these five characters are written as escape sequences. -/
theorem C80_guarded (alnum : Char → Bool) (hal : LettersAndDigits alnum) (text : Str) : ∃ d, Grammar.parse alnum (guarded text) = some d :=
  C80_accepted alnum hal _ (guarded_harmless true text)

namespace Ex

/-- Nothing in it is closed, and there are escape sequences. -/
def untidy : Str := "> a { b [c=\" \\} > ''' \\< d\n\\q e".toList

/-- A test for harmless sources without code points. -/
def harmless : Bool → Str → Bool
  | _, [] => true
  | _, ['\\'] => false
  | _, '\\' :: _ :: s => harmless false s
  | b, '>' :: s => b && harmless false s
  | _, c :: s => !(c ∈ ['<', '}', ']']) && harmless (isWhitespace c) s

theorem harmless_ok : ∀ (b : Bool) (s : Str), harmless b s = true → Harmless b s := by
  intro b s
  induction b, s using harmless.induct with
  | case1 b => exact fun _ => .nil
  | case2 b => intro h; cases h
  | case3 b c s ih => intro h; exact .escape (ih h)
  | case4 b s ih =>
    intro h
    rw [harmless] at h
    simp only [Bool.and_eq_true] at h
    rw [h.1]
    exact .arrow (ih h.2)
  | case5 b c s h1 h2 h3 ih =>
    intro h
    rw [harmless] at h
    · simp only [Bool.and_eq_true, Bool.not_eq_true', decide_eq_false_iff_not] at h
      have hs := ih h.2
      by_cases hw : White c
      · rw [(Grammar.white_iff c).2 hw] at hs
        exact .white hw hs
      · rw [Grammar.Accept.not_white hw] at hs
        refine .other hw ?_ hs
        intro hm
        simp only [List.mem_cons, List.not_mem_nil, or_false] at hm h
        have h4 : c ≠ '>' := fun e => h3 e
        have h5 : c ≠ '\\' := by
          rintro rfl
          cases s with
          | nil => exact h1 rfl rfl
          | cons d s => exact h2 d s rfl rfl
        tauto
    · exact h1
    · exact h2
    · exact h3

theorem untidy_harmless : Harmless true untidy := harmless_ok true untidy (by decide +kernel)

example : ∃ d, Grammar.parse Char.isAlphanum untidy = some d := C80_accepted _ ascii_lettersAndDigits _ untidy_harmless

example : ∀ e ∈ reported (convert RepoTests.parser untidy {}), ∃ c, Complains e.kind c :=
  C80_errors _ ascii_lettersAndDigits RepoTests.parser (fun src d h => by simp only [RepoTests.parser, h]) _ untidy_harmless _

set_option maxRecDepth 20000 in
example : reported (convert RepoTests.parser untidy {}) =
    [⟨⟨4, 5⟩, .unclosed .block⟩, ⟨⟨8, 9⟩, .unclosed .attributeList⟩, ⟨⟨10, 12⟩, .misplacedItem (.mustPrecede .selector [.element])⟩,
      ⟨⟨13, 26⟩, .misplacedItem (.mustNotFollow [.text] .element)⟩, ⟨⟨27, 29⟩, .invalidEscape⟩] := by decide +kernel

/-- A code point. -/
example : Harmless true "\\u{3c}".toList := .code (ds := ['3', 'c']) (s := []) (by unfold HexDigits; decide) .nil

set_option maxRecDepth 20000 in
/-- Each of the five characters can keep a source from being read. -/
example : ["a < b", "a }", "a ]", "a->b", "a \\"].all (fun s => (Grammar.parse Char.isAlphanum s.toList).isNone) = true ∧
    ["a < b", "a }", "a ]", "a->b", "a \\"].all (fun s => (Grammar.parse Char.isAlphanum (guarded s.toList)).isSome) = true := by
  decide +kernel

end Ex

end Mty
