import Verif.Model.Ast
import Verif.Spec.Escape

/-!
# Which parsed documents are well-formed (independent of the model of the code)

A line is a sequence of items. An item is something inline (text, verbatim text, interpolation,
`<( .. )>`, special inline elements, inline code), a comment, a multiline block, a `{ .. }` block, a
selector or a child combinator `>`. `ok` says that the item has no error inside.
-/

namespace Mty.Spec

inductive Shape where
  | inl | comment | multiline | block | selector | arrow
deriving DecidableEq

structure Item where
  shape : Shape
  ok : Prop

/-- What has just been read in a chain of selectors and `>`. -/
inductive ChainState where
  | selector | arrow

/-- How a chain ends: with an element, followed by the given items, or at the end of the line
without an element. -/
inductive Outcome where
  | element (rest : List Item)
  | dangling

/-- The visible things of a line: nothing but inline items, or one element / multiline block
(`true`) on its own. -/
def OneOrInline (visible : List Bool) : Prop := (∀ b ∈ visible, b = false) ∨ visible = [true]

/-- The child of a combinator is the rest of the line unless a selector, block or combinator
follows. -/
def StartsChildren : List Item → Prop
  | [] => True
  | i :: _ => i.shape = .inl ∨ i.shape = .comment ∨ i.shape = .multiline

mutual
  /-- `Chain st l o`: the items `l` correctly continue a chain in state `st`, with outcome `o`. -/
  inductive Chain : ChainState → List Item → Outcome → Prop
    /-- a selector at the end of the line is ignored. -/
    | selectorEnd : Chain .selector [] .dangling
    | selectorComment {i l o} : i.shape = .comment → i.ok → Chain .selector l o →
        Chain .selector (i :: l) o
    | selectorArrow {i l o} : i.shape = .arrow → Chain .arrow l o → Chain .selector (i :: l) o
    | selectorBlock {i l} : i.shape = .block → i.ok → Chain .selector (i :: l) (.element l)
    | arrowSelector {i l o} : i.shape = .selector → i.ok → Chain .selector l o →
        Chain .arrow (i :: l) o
    | arrowArrow {i l o} : i.shape = .arrow → Chain .arrow l o → Chain .arrow (i :: l) o
    | arrowBlock {i l} : i.shape = .block → i.ok → Chain .arrow (i :: l) (.element l)
    | arrowLine {l v rest} : StartsChildren l → Items l v rest → OneOrInline v →
        Chain .arrow l (.element rest)
  /-- `Items l visible ignored`: the items `l` are a correct sequence with the given visible
  things. `ignored` are the items after the block of a chain that begins with `>`, which are not
  looked at. -/
  inductive Items : List Item → List Bool → List Item → Prop
    | nil : Items [] [] []
    | comment {i l v r} : i.shape = .comment → i.ok → Items l v r → Items (i :: l) v r
    | inl {i l v r} : i.shape = .inl → i.ok → Items l v r → Items (i :: l) (false :: v) r
    | multiline {i l v r} : i.shape = .multiline → i.ok → Items l v r → Items (i :: l) (true :: v) r
    | block {i l v r} : i.shape = .block → i.ok → Items l v r → Items (i :: l) (true :: v) r
    | selector {i l l' v r} : i.shape = .selector → i.ok → Chain .selector l (.element l') →
        Items l' v r → Items (i :: l) (true :: v) r
    | selectorDangling {i l} : i.shape = .selector → i.ok → Chain .selector l .dangling →
        Items (i :: l) [] []
    | arrow {i l r} : i.shape = .arrow → Chain .arrow l (.element r) → Items (i :: l) [true] r
    | arrowDangling {i l} : i.shape = .arrow → Chain .arrow l .dangling → Items (i :: l) [] []
end

/-- A well-formed line of which the items `ignored` are not looked at. -/
def LineOkWith (l ignored : List Item) : Prop := ∃ v, Items l v ignored ∧ OneOrInline v

/-- A well-formed line. -/
def LineOk (l : List Item) : Prop := ∃ ignored, LineOkWith l ignored

/-- All escape sequences in a text are accepted. -/
def EscapesOk (s : Str) : Prop := ∃ u, Unescapes Accepted s u

/-- A class, id or invalid part of a selector. -/
def ClassLikeOk : Ast.ClassLike → Prop
  | .invalid _ => False
  | _ => True

/-- Part of a selector. -/
def SegmentOk : Ast.SelectorSegment → Prop
  | .attributes a => a.rBracket.isSome
  | .classLike items => ∀ i ∈ items, ClassLikeOk i

/-- A selector: no invalid part and all brackets closed. -/
def SelectorOk (s : Ast.Selector) : Prop :=
  (match s.first with
    | .attributes a => a.rBracket.isSome = true
    | .tag _ classLike => ∀ i ∈ classLike, ClassLikeOk i) ∧
  ∀ g ∈ s.segments, SegmentOk g

/-- The shape of a node. -/
def shapeOf : Ast.NodeType → Shape
  | .multiline _ _ _ => .multiline
  | .text (.comment _) => .comment
  | .text _ => .inl
  | .selector _ => .selector
  | .line _ => .arrow
  | .block _ _ _ => .block
  | .inline _ _ _ => .inl
  | .special _ _ _ _ => .inl
  | .code _ => .inl

mutual
  /-- The item a node is. -/
  def itemOf (src : Str) : Ast.Node → Item
    | .mk _ _ _ ty => ⟨shapeOf ty, TypeOk src ty⟩
  /-- No error inside a node: delimiters closed, escapes valid, selectors valid, contents
  well-formed. -/
  def TypeOk (src : Str) : Ast.NodeType → Prop
    | .multiline .escaped start stop => EscapesOk (Range.slice ⟨start, stop⟩ src)
    | .multiline _ _ _ => True
    | .text (.segment r) => EscapesOk (r.slice src)
    | .text (.comment c) => c.close.isSome
    | .text _ => True
    | .selector s => SelectorOk s
    | .line _ => True
    | .block _ (.mk _ lines _) close => close.isSome ∧ LinesOk src lines
    | .inline _ inner close => close.isSome ∧ LineOk (itemsOf src inner)
    | .special _ _ (.mk _ lines _) close => close.isSome ∧ LinesOk src lines
    | .code _ => True
  /-- The items of a line. -/
  def itemsOf (src : Str) : List Ast.Node → List Item
    | [] => []
    | n :: ns => itemOf src n :: itemsOf src ns
  /-- All lines are well-formed. -/
  def LinesOk (src : Str) : List Ast.Line → Prop
    | [] => True
    | .mk _ nodes _ :: ls => LineOk (itemsOf src nodes) ∧ LinesOk src ls
end

/-- A well-formed document. -/
def WellFormed (src : Str) (d : Ast.Document) : Prop :=
  match d.content with
  | .mk _ lines _ => LinesOk src lines

end Mty.Spec
