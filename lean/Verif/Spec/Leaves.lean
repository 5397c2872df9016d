import Verif.Model.Ast
import Verif.Model.Errors
import Verif.Spec.Syntax
import Verif.Spec.Escape

/-!
# Content of a syntax tree and of a document (independent of the code)

A leaf is a piece of text or a comment with its range in the source.
-/

namespace Mty.Spec

/-- A piece of content. For text: are backslash escapes resolved, is markup escaped when written,
is it an interpolation, is it a multiline block. -/
inductive Leaf where
  | comment (range : Range)
  | text (range : Range) (resolved escaped interpolation multiline : Bool)
deriving DecidableEq, Repr

/-! ## Which nodes of a line are looked at -/

/-- Reading position in a line: between items, after a selector, after a `>`. -/
inductive LineSt where
  | top | selector | arrow
deriving DecidableEq

/-- The part of a line that is never looked at. `k` counts the selectors whose
child is being read: the end of an element that began with a bare `>` ends all enclosing elements
up to the nearest one that began with a selector, and if there is none the rest of the line is
ignored (`k = 0`). -/
def ignoredFrom {α : Type} (shape : α → Shape) : LineSt → Nat → List α → List α
  | _, _, [] => []
  | .top, k, i :: l =>
    match shape i with
    | .selector => ignoredFrom shape .selector (k + 1) l
    | .arrow => ignoredFrom shape .arrow k l
    | _ => ignoredFrom shape .top k l
  | .arrow, k, i :: l =>
    match shape i, k with
    | .selector, _ => ignoredFrom shape .selector k l
    | .arrow, _ => ignoredFrom shape .arrow k l
    | .block, 0 => l
    | .block, k + 1 => ignoredFrom shape .top k l
    | _, _ => ignoredFrom shape .top k l
  | .selector, k, i :: l =>
    match shape i, k with
    | .comment, _ => ignoredFrom shape .selector k l
    | .arrow, _ => ignoredFrom shape .arrow k l
    | .block, 0 => l
    | .block, k + 1 => ignoredFrom shape .top k l
    | .selector, 0 => i :: l
    | .selector, k + 1 => ignoredFrom shape .selector (k + 1) l
    | _, 0 => i :: l
    | _, k + 1 => ignoredFrom shape .top k l

/-- The shape of a syntax node. -/
def nodeShape : Ast.Node → Shape
  | .mk _ _ _ ty => shapeOf ty

/-- The ignored end of a line. -/
def ignored (nodes : List Ast.Node) : List Ast.Node := ignoredFrom nodeShape .top 0 nodes

/-- How many nodes of a line are looked at. -/
def visited (nodes : List Ast.Node) : Nat := nodes.length - (ignored nodes).length

/-- Every `>` of a line follows a selector, possibly with comments in between. -/
def EveryArrowAfterSelector : Bool → List Shape → Prop
  | _, [] => True
  | _, .selector :: l => EveryArrowAfterSelector true l
  | after, .comment :: l => EveryArrowAfterSelector after l
  | after, .arrow :: l => after = true ∧ EveryArrowAfterSelector false l
  | _, _ :: l => EveryArrowAfterSelector false l

/-! ## Leaves of a syntax tree -/

/-- The content of a verbatim text `<[##[…]##]>`: the token after `<[` without its `##[` and
`]##]>`. -/
def verbatimRange : Ast.VerbatimTail → Range
  | .verbatim0 r => ⟨r.start + 1, r.stop - 3⟩
  | .verbatim1 r => ⟨r.start + 2, r.stop - 4⟩
  | .verbatim2 r => ⟨r.start + 3, r.stop - 5⟩

/-- The leaves of inline text. -/
def textLeaf : Ast.InlineText → Leaf
  | .segment r => .text r true true false false
  | .verbatim _ raw tail => .text (verbatimRange tail) false raw.isNone false false
  | .comment c => .comment c.inner
  | .interpolation r => .text r false false true false

mutual
  /-- The leaves of a node; `all` = including the ignored parts of lines. -/
  def nodeLeaves (all : Bool) : Ast.Node → List Leaf
    | .mk _ _ _ ty => typeLeaves all ty
  def typeLeaves (all : Bool) : Ast.NodeType → List Leaf
    | .multiline kind start stop => [.text ⟨start, stop⟩ (kind = .escaped) true false true]
    | .text t => [textLeaf t]
    | .selector _ => []
    | .line _ => []
    | .block _ (.mk _ lines _) _ => linesLeaves all lines
    | .inline _ inner _ =>
      ((nodesLeaves all inner).take (if all then inner.length else visited inner)).flatten
    | .special _ _ (.mk _ lines _) _ => linesLeaves all lines
    | .code r => [.text ⟨r.start + 2, r.stop - 2⟩ false true false false]
  /-- The leaves of each node. -/
  def nodesLeaves (all : Bool) : List Ast.Node → List (List Leaf)
    | [] => []
    | n :: ns => nodeLeaves all n :: nodesLeaves all ns
  def linesLeaves (all : Bool) : List Ast.Line → List Leaf
    | [] => []
    | .mk _ nodes _ :: ls =>
      ((nodesLeaves all nodes).take (if all then nodes.length else visited nodes)).flatten ++
        linesLeaves all ls
end

/-- The content of a parsed document, in order: everything, or what is looked at. -/
def astLeaves (all : Bool) (d : Ast.Document) : List Leaf :=
  match d.content with
  | .mk _ lines _ => linesLeaves all lines

mutual
  /-- No line in the node has an ignored part. -/
  def NodeAll : Ast.Node → Prop
    | .mk _ _ _ ty => TypeAll ty
  def TypeAll : Ast.NodeType → Prop
    | .block _ (.mk _ lines _) _ => LinesAll lines
    | .inline _ inner _ => ignored inner = [] ∧ NodesAll inner
    | .special _ _ (.mk _ lines _) _ => LinesAll lines
    | _ => True
  def NodesAll : List Ast.Node → Prop
    | [] => True
    | n :: ns => NodeAll n ∧ NodesAll ns
  def LinesAll : List Ast.Line → Prop
    | [] => True
    | .mk _ nodes _ :: ls => (ignored nodes = [] ∧ NodesAll nodes) ∧ LinesAll ls
end

/-- Nothing in the document is ignored. -/
def NothingIgnored (d : Ast.Document) : Prop :=
  match d.content with
  | .mk _ lines _ => LinesAll lines

/-! ## Leaves of a document -/

/-- The source range of a slice. -/
def sliceRange : TextSlice → Range
  | .fromSource r => r
  | .provided _ => ⟨0, 0⟩

mutual
  def docNodeLeaves : Node → List Leaf
    | .text _ (.text t) => [.text (sliceRange t.slice) t.unescapeIn t.escapeOut t.raw t.multiline]
    | .text _ (.comment s) => [.comment (sliceRange s)]
    | .text _ (.space _) => []
    | .elem _ _ children => docLeaves children
  /-- The content of a built document, in order. -/
  def docLeaves : List Node → List Leaf
    | [] => []
    | n :: ns => docNodeLeaves n ++ docLeaves ns
end

/-! ## Errors that every visited delimiter, selector part or text must give -/

/-- The error for a delimiter that is not closed. -/
def closeErr (opening : Range) (kind : UnclosedKind) : Option Range → List SyntaxError
  | some _ => []
  | none => [⟨opening, .unclosed kind⟩]

/-- The errors of an attribute list. -/
def attrErrs (a : Ast.AttributeSelector) : List SyntaxError :=
  closeErr a.lBracket .attributeList a.rBracket

/-- The errors of a class, id or invalid part. -/
def classErrs : Ast.ClassLike → List SyntaxError
  | .invalid r => [⟨r, .invalidItem .selector⟩]
  | _ => []

/-- The errors of a segment of a selector. -/
def segmentErrs : Ast.SelectorSegment → List SyntaxError
  | .attributes a => attrErrs a
  | .classLike items => items.flatMap classErrs

/-- The errors of a selector. -/
def selectorErrs (s : Ast.Selector) : List SyntaxError :=
  (match s.first with
    | .attributes a => attrErrs a
    | .tag _ cl => cl.flatMap classErrs) ++ s.segments.flatMap segmentErrs

/-- The form of a special inline element. -/
def formKind : Ast.SpecialForm → SpecialKind
  | .emphasis => .emphasis
  | .strong => .strong
  | .underline => .underline
  | .strike => .strike
  | .quote => .quote

section
/- `bad r` are the ranges of the invalid escape sequences of the source text in the range `r`. -/
variable (bad : Range → List Range)

/-- One error for each invalid escape sequence. -/
def escErrs (r : Range) : List SyntaxError := (bad r).map fun e => ⟨e, .invalidEscape⟩

mutual
  /-- The errors inside a node, in order, other than misplaced items. -/
  def nodeErrs : Ast.Node → List SyntaxError
    | .mk _ _ _ ty => typeErrs ty
  def typeErrs : Ast.NodeType → List SyntaxError
    | .multiline .escaped start stop => escErrs bad ⟨start, stop⟩
    | .multiline _ _ _ => []
    | .text (.segment r) => escErrs bad r
    | .text (.comment c) => closeErr c.open_ .comment c.close
    | .text _ => []
    | .selector s => selectorErrs s
    | .line _ => []
    | .block l (.mk _ lines _) r => closeErr l .block r ++ linesErrs lines
    | .inline o inner c =>
      closeErr o .inline c ++ ((nodesErrs inner).take (visited inner)).flatten
    | .special form o (.mk _ lines _) c =>
      closeErr o (.specialInline (formKind form)) c ++ linesErrs lines
    | .code _ => []
  def nodesErrs : List Ast.Node → List (List SyntaxError)
    | [] => []
    | n :: ns => nodeErrs n :: nodesErrs ns
  def linesErrs : List Ast.Line → List SyntaxError
    | [] => []
    | .mk _ nodes _ :: ls => ((nodesErrs nodes).take (visited nodes)).flatten ++ linesErrs ls
end

/-- The errors of a parsed document, in order, other than misplaced items. -/
def astErrs (d : Ast.Document) : List SyntaxError :=
  match d.content with
  | .mk _ lines _ => linesErrs bad lines

end

/-- Is it an error about a misplaced item? -/
def isMisplaced (e : SyntaxError) : Bool :=
  match e.kind with
  | .misplacedItem _ => true
  | _ => false

end Mty.Spec
