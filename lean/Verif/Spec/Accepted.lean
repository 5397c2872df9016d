import Verif.Spec.PlainText

/-!
# Sources that have no syntax error of the grammar (independent of the code)

Only five characters can keep a source from being read at all: `<`, `>`, `}`, `]` and the backslash
(`/repo/README.md`, "Escape sequences").
-/

set_option autoImplicit false

namespace Mty.Spec

/-- The digits of a code point. -/
def HexDigits (ds : Str) : Prop := ∀ c ∈ ds, c ∈ "0123456789abcdefABCDEF".toList

/-- `Harmless true s`: in `s`, the characters `<`, `}`, `]` are only part of escape sequences, `>` is part of one, at the beginning, or
after white space, and each backslash begins an escape sequence. `Harmless false s` is the same with no `>` at the beginning. -/
inductive Harmless : Bool → Str → Prop
  | nil {b} : Harmless b []
  | white {b c s} : White c → Harmless true s → Harmless b (c :: s)
  | other {b c s} : ¬ White c → c ∉ ['<', '>', '}', ']', '\\'] → Harmless false s → Harmless b (c :: s)
  | arrow {s} : Harmless false s → Harmless true ('>' :: s)
  | escape {b c s} : Harmless false s → Harmless b ('\\' :: c :: s)
  | code {b ds s} : HexDigits ds → Harmless false s → Harmless b ('\\' :: 'u' :: '{' :: ds ++ '}' :: s)

/-- A text in which the five characters are written as escape sequences. -/
def guarded : Str → Str
  | [] => []
  | c :: s => if c ∈ ['<', '>', '}', ']', '\\'] then '\\' :: c :: guarded s else c :: guarded s

end Mty.Spec
