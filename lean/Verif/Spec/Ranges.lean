import Verif.Model.Ast

/-!
# Specification: which source positions syntax trees and documents mention

`ValidRange` and `isBoundary` (file `Model/Str.lean`) say that slicing the source does not panic.
-/

namespace Mty.Spec

/-- `r` is a valid range of `src` that lies between the positions `lo` and `hi`. -/
def Within (src : Str) (lo hi : Nat) (r : Range) : Prop :=
  ValidRange src r ∧ lo ≤ r.start ∧ r.stop ≤ hi

/-- At `r`, `src` reads `open_ ++ body ++ close` for some `body`. -/
def Delimited (src open_ close : Str) (r : Range) : Prop :=
  ∃ pre body post, src = pre ++ (open_ ++ (body ++ (close ++ post))) ∧
    r = ⟨byteLen pre, byteLen (pre ++ (open_ ++ (body ++ close)))⟩

/-- At `r`, `src` reads `token`. -/
def TokenAt (src token : Str) (r : Range) : Prop :=
  ∃ pre post, src = pre ++ (token ++ post) ∧ r = ⟨byteLen pre, byteLen (pre ++ token)⟩

/-- The opening tokens of special elements. -/
def specialOpener : Ast.SpecialForm → Str
  | .emphasis => "</".toList
  | .strong => "<#".toList
  | .underline => "<_".toList
  | .strike => "<~".toList
  | .quote => "<\"".toList

/-- The token of a verbatim tail: `[..]]>`, `#[..]#]>` or `##[..]##]>`. -/
def verbatimTailOk (src : Str) : Ast.VerbatimTail → Prop
  | .verbatim0 r => Delimited src "[".toList "]]>".toList r
  | .verbatim1 r => Delimited src "#[".toList "]#]>".toList r
  | .verbatim2 r => Delimited src "##[".toList "]##]>".toList r

/-- The range of a verbatim tail. -/
def verbatimTailRange : Ast.VerbatimTail → Range
  | .verbatim0 r | .verbatim1 r | .verbatim2 r => r

/-- Ranges of inline text. -/
def inlineTextIn (src : Str) (lo hi : Nat) : Ast.InlineText → Prop
  | .segment r => Within src lo hi r
  | .verbatim o _ tail => Within src lo hi o ∧ Within src lo hi (verbatimTailRange tail) ∧
      verbatimTailOk src tail
  | .comment c => Within src lo hi ⟨c.start, c.stop⟩ ∧ Within src lo hi c.open_ ∧
      Within src lo hi c.inner ∧ TokenAt src "<!".toList c.open_
  | .interpolation r => Within src lo hi r

/-- Ranges of an attribute. A quoted value is delimited by two quotation marks. -/
def attributeIn (src : Str) (a : Ast.Attribute) : Prop :=
  ValidRange src ⟨a.start, a.stop⟩ ∧ ValidRange src a.name ∧
    match a.value with
    | none => True
    | some (.unquoted r) => ValidRange src r
    | some (.quoted r) => ∃ q : Char, q ∈ ['"', '\''] ∧ Delimited src [q] [q] r

/-- Ranges of an attribute list. -/
def attributesIn (src : Str) (a : Ast.AttributeSelector) : Prop :=
  ValidRange src ⟨a.start, a.stop⟩ ∧ ValidRange src a.lBracket ∧ (∀ p ∈ a.parts, attributeIn src p) ∧
    TokenAt src "[".toList a.lBracket

/-- Ranges of a class, id or invalid part. -/
def classLikeIn (src : Str) : Ast.ClassLike → Prop
  | .cls a b => ValidRange src a ∧ ValidRange src b
  | .id a b => ValidRange src a ∧ ValidRange src b
  | .invalid r => ValidRange src r

/-- Ranges of a selector. -/
def selectorIn (src : Str) (s : Ast.Selector) : Prop :=
  (match s.first with
    | .attributes a => attributesIn src a
    | .tag e cs => (∀ c ∈ cs, classLikeIn src c) ∧
        match e with
        | none => True
        | some (.name r) => ValidRange src r
        | some (.star r) => ValidRange src r) ∧
  ∀ g ∈ s.segments, match g with
    | .attributes a => attributesIn src a
    | .classLike cs => ∀ c ∈ cs, classLikeIn src c

mutual
  /-- All ranges of the node are valid, lie between `lo` and `hi`, and are nested and ordered as
  the parts of the node are. -/
  def nodeIn (src : Str) (lo hi : Nat) : Ast.Node → Prop
    | .mk sp a b ty =>
      (match sp with
        | none => True
        | some s => Within src lo a s) ∧ Within src lo hi ⟨a, b⟩ ∧ typeIn src a b ty
  /-- See `nodeIn`. -/
  def typeIn (src : Str) (a b : Nat) : Ast.NodeType → Prop
    | .multiline _ s e => Within src a b ⟨s, e⟩
    | .text t => inlineTextIn src a b t
    | .selector s => Within src a b ⟨s.start, s.stop⟩ ∧ selectorIn src s
    | .line c => Within src a b c
    | .block l (.mk s lines e) _ =>
      Within src a b l ∧ Within src l.stop b ⟨s, e⟩ ∧ linesIn src s e lines ∧ TokenAt src "{".toList l
    | .inline o inner c =>
      Within src a b o ∧ (match c with
        | none => True
        | some r => Within src o.stop b r) ∧
      nodesIn src o.stop ((c.map Range.start).getD b) inner ∧ TokenAt src "<(".toList o
    | .special f o (.mk s lines e) _ =>
      Within src a b o ∧ Within src o.stop b ⟨s, e⟩ ∧ linesIn src s e lines ∧ TokenAt src (specialOpener f) o
    | .code r => Within src a b r ∧ Delimited src "<`".toList "`>".toList r
  /-- The nodes follow each other between `lo` and `hi`. -/
  def nodesIn (src : Str) (lo hi : Nat) : List Ast.Node → Prop
    | [] => lo ≤ hi
    | .mk sp a b ty :: ns => nodeIn src lo hi (.mk sp a b ty) ∧ nodesIn src b hi ns
  /-- The lines follow each other between `lo` and `hi`. -/
  def linesIn (src : Str) (lo hi : Nat) : List Ast.Line → Prop
    | [] => lo ≤ hi
    | .mk s ns e :: ls => Within src lo hi ⟨s, e⟩ ∧ nodesIn src s e ns ∧ linesIn src e hi ls
end

/-- The parser reported positions of `src`: every range is a valid range, in the order and nesting
of the source, and delimited tokens carry their delimiters. -/
def PositionsOk (src : Str) (d : Ast.Document) : Prop :=
  match d.content with
  | .mk s lines e => ValidRange src ⟨s, e⟩ ∧ linesIn src s e lines

/-! ## The ranges stored in a document -/

/-- The source range of a slice. -/
def sliceRanges : TextSlice → List Range
  | .fromSource r => [r]
  | .provided _ => []

/-- Source ranges of a text, comment or space. -/
def textLikeRanges : TextLike → List Range
  | .text t => sliceRanges t.slice
  | .comment s => sliceRanges s
  | .space (.inline (some s)) => sliceRanges s
  | .space _ => []

/-- Source ranges of a selector part. -/
def itemRanges : SelectorItem → List Range
  | .id r v => r :: sliceRanges v
  | .cls r v => r :: sliceRanges v
  | .attributes r as => r :: as.flatMap fun a =>
      a.range :: sliceRanges a.name ++ a.value.toList.flatMap sliceRanges

/-- Source ranges of a tag. -/
def tagRanges : Tag → List Range
  | .explicit v => sliceRanges v
  | .implicit => []
  | .wildcard r => [r]

/-- Source ranges of a selector. -/
def selectorRanges (s : Selector) : List Range :=
  s.range :: tagRanges s.tag ++ s.items.flatMap itemRanges

/-- Source ranges of a delimiter. -/
def delimRanges : Delim → List Range
  | .line c => [c]
  | .block b => [b]
  | .lineBlock c b => [c, b]

/-- Source ranges of an element type. -/
def elementTypeRanges : ElementType → List Range
  | .standard d => delimRanges d
  | .inline (some d) => delimRanges d
  | _ => []

/-- Source ranges of an element without its children. -/
def headRanges (h : EHead) : List Range :=
  h.range :: h.contentRange :: elementTypeRanges h.ty ++ h.selectors.flatMap selectorRanges

mutual
  /-- All source ranges of a node. -/
  def nodeRanges : Node → List Range
    | .text r t => r :: textLikeRanges t
    | .elem r h cs => r :: headRanges h ++ nodesRanges cs
  /-- All source ranges of a list of nodes. -/
  def nodesRanges : List Node → List Range
    | [] => []
    | n :: ns => nodeRanges n ++ nodesRanges ns
end

/-- All source ranges of a document. -/
def docRanges (d : Document) : List Range :=
  d.range :: d.contentRange :: nodesRanges d.nodes

end Mty.Spec
