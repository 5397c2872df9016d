import Verif.Spec.Same

/-!
# Specification: the two kinds of line ends

A line ends with a line feed, or with a carriage return and a line feed.
-/

set_option autoImplicit false

namespace Mty.Spec

/-- The same text with a carriage return before each line feed. -/
def crlf : Str → Str
  | [] => []
  | c :: s => if c = '\n' then '\r' :: '\n' :: crlf s else c :: crlf s

/-- No line ends in a backslash. -/
def NoSlashBreak (s : Str) : Prop := ∀ a b, s ≠ a ++ '\\' :: '\n' :: b

/-- The texts of a part of a selector. -/
def Part.texts : Part → List Str
  | .id v => [v]
  | .cls v => [v]
  | .attribute n none => [n]
  | .attribute n (some v) => [n, v]

section
variable (src : Str)

/-- The text in this range has no line end. -/
def OneLine (r : Range) : Prop := '\n' ∉ r.slice src

/-- A text that does not go over the end of a line. -/
def textWithin : Ast.InlineText → Prop
  | .segment r => OneLine src r
  | .verbatim _ _ t => OneLine src (verbatimRange t)
  | .comment c => OneLine src c.inner
  | .interpolation r => OneLine src r

/-- A selector of which no name and no value goes over the end of a line. -/
def selectorWithin (s : Ast.Selector) : Prop :=
  (∀ n, writtenName src s = some n → '\n' ∉ n) ∧ ∀ p ∈ writtenParts src s, ∀ t ∈ p.texts, '\n' ∉ t

variable (blocks : Str → Prop)

mutual
  /-- No text inside goes over the end of a line, apart from the blocks of text that are allowed by `blocks`. -/
  def typeWithin : Ast.NodeType → Prop
    | .multiline _ a b => blocks (Range.slice ⟨a, b⟩ src)
    | .text t => textWithin src t
    | .selector s => selectorWithin src s
    | .line _ => True
    | .block _ (.mk _ lines _) _ => linesWithin lines
    | .inline _ inner _ => nodesWithin inner
    | .special _ _ (.mk _ lines _) _ => linesWithin lines
    | .code r => OneLine src ⟨r.start + 2, r.stop - 2⟩
  /-- The same for nodes. -/
  def nodesWithin : List Ast.Node → Prop
    | [] => True
    | .mk _ _ _ ty :: ns => typeWithin ty ∧ nodesWithin ns
  /-- The same for lines. -/
  def linesWithin : List Ast.Line → Prop
    | [] => True
    | .mk _ ns _ :: ls => nodesWithin ns ∧ linesWithin ls
end

/-- No text, comment, name or value in the source goes over the end of a line; in particular there are no blocks of text. (Paragraphs and
elements with blocks may go over the end of a line.) -/
def WithinLines : Ast.Document → Prop
  | ⟨.mk _ lines _⟩ => linesWithin src (fun _ => False) lines

end

end Mty.Spec
