import Verif.Spec.Leaves
import Verif.Spec.PlainText

/-!
# Specification: parts of a source that stand on their own

For C76: what it takes that a text, a blank line and another text are converted one after the other.
-/

set_option autoImplicit false

namespace Mty.Spec

/-- Text, a block, or inline or multi-line formatting: neither a comment, nor a selector, nor a `>`. -/
def IsVisible (n : Ast.Node) : Prop := nodeShape n ≠ .comment ∧ nodeShape n ≠ .selector ∧ nodeShape n ≠ .arrow

/-- The line stands for something visible: there is something other than comments, selectors and `>`, or it ends with a `>`. -/
def ShowsContent (ns : List Ast.Node) : Prop := (∃ n ∈ ns, IsVisible n) ∨ ∃ n, ns.getLast? = some n ∧ nodeShape n = .arrow

/-! ## Texts that are closed -/

/-- The source does not have the beginning of a multi-line text at this position. -/
def noFence (src : Str) (pos : Nat) : Bool :=
  Range.slice ⟨pos, pos + 3⟩ src ∉ ["\"\"\"".toList, "'''".toList, "```".toList]

/-- The source does not have the beginning of an interpolation at this position. -/
def noBraces (src : Str) (pos : Nat) : Bool := Range.slice ⟨pos, pos + 2⟩ src ∉ ["{{".toList, "{%".toList]

/-- The brackets of a selector are closed. -/
def bracketsClosed (s : Ast.Selector) : Bool :=
  (match s.first with
    | .attributes a => a.rBracket.isSome
    | .tag _ _ => true) &&
  s.segments.all fun
    | .attributes a => a.rBracket.isSome
    | .classLike _ => true

mutual
  /-- Everything that has a closing delimiter has been closed; no text begins like a multi-line text and no block like an interpolation,
  which would be read as such if the end followed later. -/
  def closedType (src : Str) : Ast.NodeType → Bool
    | .multiline _ _ _ => true
    | .text (.segment r) => noFence src r.start
    | .text (.comment c) => c.close.isSome
    | .text (.verbatim _ _ _) => true
    | .text (.interpolation _) => true
    | .selector s => noFence src s.start && bracketsClosed s
    | .line _ => true
    | .block l (.mk _ lines _) r => noBraces src l.start && r.isSome && closedLines src lines
    | .inline _ ns r => r.isSome && closedNodes src ns
    | .special _ _ (.mk _ lines _) r => r.isSome && closedLines src lines
    | .code _ => true
  def closedNodes (src : Str) : List Ast.Node → Bool
    | [] => true
    | .mk _ _ _ ty :: ns => closedType src ty && closedNodes src ns
  def closedLines (src : Str) : List Ast.Line → Bool
    | [] => true
    | .mk _ ns _ :: ls => closedNodes src ns && closedLines src ls
end

/-- `closedLines`, for a whole source and its syntax tree. -/
def Closed (src : Str) (d : Ast.Document) : Prop :=
  match d.content with
  | .mk _ lines _ => closedLines src lines = true

/-- The first line of the source stands for something visible. -/
def BeginsVisibly (d : Ast.Document) : Prop :=
  match d.content with
  | .mk _ (.mk _ ns _ :: _) _ => ShowsContent ns
  | .mk _ [] _ => False

/-- `JoinedBy cfg out1 out2 out`: `out` is `out1` and `out2`, with white space between them. If the output is indented, the line break at
the end of `out1` may be replaced by that white space. -/
def JoinedBy (cfg : OutputConfig) (out1 out2 out : Str) : Prop :=
  ∃ o e w, out1 = o ++ e ∧ (e = [] ∨ (e = ['\n'] ∧ cfg.indent.isSome)) ∧ (∀ c ∈ w, White c) ∧ out = o ++ w ++ out2

/-- The texts with blank lines between them. -/
def withBlankLines : List Str → Str
  | [] => []
  | [t] => t
  | t :: ts => t ++ "\n\n".toList ++ withBlankLines ts

/-- The outputs one after the other, joined by `JoinedBy`. -/
inductive JoinedAll (cfg : OutputConfig) : List Str → Str → Prop
  | one {o} : JoinedAll cfg [o] o
  | cons {o os rest out} : JoinedAll cfg os rest → JoinedBy cfg o rest out → JoinedAll cfg (o :: os) out

/-! ## White space around a source -/

/-- Blank lines, and an indentation by spaces and tabs. -/
def BlankBefore (pre : Str) : Prop :=
  ∃ lines indent : Str, pre = lines ++ indent ∧ (∀ c ∈ lines, White c) ∧ (lines = [] ∨ lines.getLast? = some '\n') ∧
    ∀ c ∈ indent, c = ' ' ∨ c = '\t'

/-- Nothing, or a line break and any white space. -/
def BlankAfter (post : Str) : Prop := post = [] ∨ ∃ w, post = '\n' :: w ∧ ∀ c ∈ w, White c

/-! ## Errors -/

/-- The syntax errors that a conversion reports. -/
def reported : Except ConvertError Str → List SyntaxError
  | .error (.syntax es _) => es
  | _ => []

/-- The same error, `k` bytes further on in the source. -/
def movedBy (k : Nat) (e : SyntaxError) : SyntaxError := ⟨⟨k + e.range.start, k + e.range.stop⟩, e.kind⟩

/-- The errors of texts that follow each other with blank lines between them: those of each text, moved by the length of what is before. -/
def inTurn (f : Str → List SyntaxError) : List Str → List SyntaxError
  | [] => []
  | t :: ts => f t ++ (inTurn f ts).map (movedBy (byteLen (t ++ "\n\n".toList)))

end Mty.Spec
