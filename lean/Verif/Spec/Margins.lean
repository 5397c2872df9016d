import Verif.Spec.LineEnds

/-!
# Specification: the margins of lines

The margins are the spaces and tabs at the beginning of a line, and the spaces, tabs and carriage returns at its end.
-/

set_option autoImplicit false

namespace Mty.Spec

/-- The second text is the first one with wider margins: before every line feed there may be more spaces, tabs and carriage returns, and
after it more spaces and tabs. `Q u v` says that `u` and `v` may be added before and after a line feed. -/
inductive Margins (Q : Str → Str → Prop) : Str → Str → Prop
  | nil : Margins Q [] []
  | char {c s s'} : c ≠ '\n' → Margins Q s s' → Margins Q (c :: s) (c :: s')
  | line {u v s s'} : (∀ c ∈ u, c = ' ' ∨ c = '\t' ∨ c = '\r') → (∀ c ∈ v, c = ' ' ∨ c = '\t') ∧ Q u v → Margins Q s s' →
      Margins Q ('\n' :: s) (u ++ '\n' :: (v ++ s'))

/-- A text without the spaces, tabs and carriage returns at the ends of its lines. -/
def endsTrimmed : Str → Str
  | [] => []
  | c :: s => if (c = ' ' ∨ c = '\t' ∨ c = '\r') ∧ (endsTrimmed s).head? = some '\n' then endsTrimmed s else c :: endsTrimmed s

/-- A text without the spaces and tabs at the beginnings of its lines. The first argument says whether it is at the beginning of a line. -/
def startsTrimmed : Bool → Str → Str
  | _, [] => []
  | atStart, c :: s => if atStart = true ∧ (c = ' ' ∨ c = '\t') then startsTrimmed true s else c :: startsTrimmed (c = '\n') s

/-- A source without the margins of its lines. -/
def trimmedLines (src : Str) : Str := startsTrimmed true (endsTrimmed src)

/-- Every line further in by the same indentation. -/
def indentedBy (indent : Str) (src : Str) : Str := indent ++ src.flatMap fun c => if c = '\n' then '\n' :: indent else [c]

/-- A block of text of which all lines begin with the indentation of the line with the closing delimiter, and the last line is not empty. -/
def Flush (body : Str) : Prop := ∃ (pre : Str) (ls : List Str) (l : Str), body = joinLines ([] :: (ls ++ [l]).map (pre ++ ·) ++ [pre]) ∧
  (∀ c ∈ pre, c = ' ' ∨ c = '\t') ∧ (∀ x ∈ ls ++ [l], '\n' ∉ x) ∧ l ≠ [] ∧ l.getLast? ≠ some '\r'

/-- No text, comment, name or value in the source goes over the end of a line, apart from blocks of text, of which all lines are indented like
the closing delimiter, or further. -/
def Indentable (src : Str) : Ast.Document → Prop
  | ⟨.mk _ lines _⟩ => linesWithin src Flush lines

end Mty.Spec
