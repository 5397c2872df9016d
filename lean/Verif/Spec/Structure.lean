import Verif.Spec.Leaves
import Verif.Spec.Paragraphs

/-!
# Specification: the structure of a document without syntax errors

What the lines of a syntax tree stand for: `div.a#b > p > text` is an element `div` that contains an element `p` that contains the rest of
the line, `div { .. }` is an element with the content of the block, and so on. Elements are described completely: by their selectors (a
chain `a > b` is one element with two selectors, the outermost first), the way they are written, their content, and the positions of the
element and of its content in the source.
-/

set_option autoImplicit false

namespace Mty.Spec

/-! ## Selectors -/

/-- A part of a selector after the name of the element. -/
inductive Part where
  | id (name : Str)
  | cls (name : Str)
  | attribute (name : Str) (value : Option Str)
deriving DecidableEq, Repr

variable (src : Str)

/-- The text of a value; quotation marks are not part of it. -/
def valueText : Ast.AttributeValue → Str
  | .unquoted r => r.slice src
  | .quoted r => Range.slice ⟨r.start + 1, r.stop - 1⟩ src

/-- The attributes in brackets. -/
def attributeParts (a : Ast.AttributeSelector) : List Part :=
  a.parts.map fun p => .attribute (p.name.slice src) (p.value.map (valueText src))

/-- Classes and ids. -/
def classParts : List Ast.ClassLike → List Part
  | [] => []
  | .cls _ name :: l => .cls (name.slice src) :: classParts l
  | .id _ name :: l => .id (name.slice src) :: classParts l
  | .invalid _ :: l => classParts l

/-- The parts of a segment. -/
def segmentParts : Ast.SelectorSegment → List Part
  | .attributes a => attributeParts src a
  | .classLike l => classParts src l

/-- The parts of a selector in the order written. -/
def writtenParts (s : Ast.Selector) : List Part :=
  (match s.first with
    | .attributes a => attributeParts src a
    | .tag _ l => classParts src l) ++ s.segments.flatMap (segmentParts src)

/-- The name of the element, if there is one. -/
def writtenName (s : Ast.Selector) : Option Str :=
  match s.first with
  | .tag (some (.name r)) _ => some (r.slice src)
  | _ => none

/-- The parts of a selector of the document. -/
def documentParts : List SelectorItem → List Part
  | [] => []
  | .id _ v :: l => .id (v.asStr src) :: documentParts l
  | .cls _ v :: l => .cls (v.asStr src) :: documentParts l
  | .attributes _ as :: l => (as.map fun a => .attribute (a.name.asStr src) (a.value.map (·.asStr src))) ++ documentParts l

/-- The name of the element: written, `*`, or nothing. -/
def TagIs (s : Ast.Selector) (tag : Tag) : Prop :=
  match s.first with
  | .tag (some (.name r)) _ => ∃ x, tag = .explicit x ∧ x.asStr src = r.slice src
  | .tag (some (.star r)) _ => tag = .wildcard r
  | _ => tag = .implicit

/-- The selector of the document is the one written. -/
def SelectorIs (s : Ast.Selector) (t : Selector) : Prop :=
  TagIs src s t.tag ∧ documentParts src t.items = writtenParts src s ∧ t.range = ⟨s.start, s.stop⟩

/-- A selector without name and parts, for a `>` without selector at position `p`. -/
def NoSelector (p : Nat) (t : Selector) : Prop := t.tag = .implicit ∧ t.items = [] ∧ t.range = ⟨p, p⟩

/-! ## Elements -/

/-- An element with these selectors, written this way, in the range `range` of the source, with the content `nodes` in the range
`content`. -/
def element (chain : List Selector) (ty : ElementType) (range content : Range) (nodes : List Node) : Node :=
  .elem range { range := range, selectors := chain, contentRange := content, ty := ty, formatInline := false, isRaw := false } nodes

/-- The white space before a node is kept. -/
def spaceBefore : Option Range → List Node
  | none => []
  | some r => [.text r (.space (.inline (some (.fromSource r))))]

/-- Where a text or comment is. -/
def textRange : Ast.InlineText → Range
  | .segment r => r
  | .verbatim o _ (.verbatim0 r) => ⟨min o.start r.start, max o.stop r.stop⟩
  | .verbatim o _ (.verbatim1 r) => ⟨min o.start r.start, max o.stop r.stop⟩
  | .verbatim o _ (.verbatim2 r) => ⟨min o.start r.start, max o.stop r.stop⟩
  | .comment c => ⟨c.start, c.stop⟩
  | .interpolation r => r

/-- The text or comment that is a leaf: the part of the source, with its marks. -/
def leafText : Leaf → TextLike
  | .comment r => .comment (.fromSource r)
  | .text r resolved escaped interpolation multiline =>
    .text { slice := .fromSource r, multiline := multiline, unescapeIn := resolved, escapeOut := escaped, raw := interpolation }

/-- The node is a text or comment at `r`, namely the leaf `l`. -/
def IsLeaf (r : Range) (l : Leaf) (n : Node) : Prop := n = .text r (leafText l)

/-- A text or comment of the document for one of the syntax tree. -/
def TextIs (t : Ast.InlineText) (n : Node) : Prop := IsLeaf (textRange t) (textLeaf t) n

/-- The first node of a line, apart from spaces and comments, is an element that is not in `<( .. )>`. -/
def FirstIsElement (pre : List Node) (n : Node) : Prop :=
  (∀ x ∈ pre, x.isVisible = false) ∧ ∃ r h ch d, n = .elem r h ch ∧ h.ty = .standard d

/-- Neither a selector nor `>`. -/
def IsItem : Ast.NodeType → Prop
  | .selector _ => False
  | .line _ => False
  | _ => True

/-- After a `>` the rest of the line is the content: it does not go on with a selector, a block or another `>`. -/
def BeginsContent : List Ast.Node → Prop
  | .mk _ _ _ (.selector _) :: _ => False
  | .mk _ _ _ (.line _) :: _ => False
  | .mk _ _ _ (.block _ _ _) :: _ => False
  | _ => True

/-- Where an element ends that begins in `p` and has the nodes `out` until the end of the line. -/
def upTo (p : Range) (out : List Node) : Range :=
  match out.getLast? with
  | some n => ⟨min p.start n.range.start, max p.stop n.range.stop⟩
  | none => p

mutual
  /-- `ItemIs range ty nodes`: a node of the syntax tree at `range`, other than selectors and `>`, and what it stands for. -/
  inductive ItemIs : Range → Ast.NodeType → List Node → Prop
    | text {rg t n} : TextIs t n → ItemIs rg (.text t) [n]
    /-- `''' .. '''`, `""" .. """` and code blocks. -/
    | multiline {rg k a b n} : IsLeaf ⟨a, b⟩ (.text ⟨a, b⟩ (k = .escaped) true false true) n →
        ItemIs rg (.multiline k a b) [element [] (.multiline k) rg ⟨a, b⟩ [n]]
    /-- `` <`code`> `` -/
    | code {rg c n} : IsLeaf ⟨c.start + 2, c.stop - 2⟩ (.text ⟨c.start + 2, c.stop - 2⟩ false true false false) n →
        ItemIs rg (.code c) [element [] (.special .code) rg ⟨c.start + 2, c.stop - 2⟩ [n]]
    /-- `</ emphasis />` and so on. -/
    | special {rg form o a lines b c content} : ContentIs false a lines content →
        ItemIs rg (.special form o (.mk a lines b) c) [element [] (.special (formKind form)) rg ⟨a, b⟩ content]
    /-- A block without selector. -/
    | block {rg l a lines b c content} : ContentIs true a lines content →
        ItemIs rg (.block l (.mk a lines b) c) [element [] (.standard (.block rg)) rg ⟨a, b⟩ content]
    /-- `<( element )>`: the element becomes an inline element, which is all of `<( .. )>`. -/
    | inlineElement {rg o inner c rest r h ch d pre post} : LineIs inner (pre ++ .elem r h ch :: post) rest →
        (∀ x ∈ pre, x.isVisible = false) → h.ty = .standard d →
        ItemIs rg (.inline o inner c) (pre ++ .elem rg { h with ty := .inline (some d), range := rg } ch :: post)
    /-- `<( text )>`: an inline element without selector. -/
    | inlineText {rg o inner c rest line} : LineIs inner line rest →
        (∀ pre n post, line = pre ++ n :: post → ¬ FirstIsElement pre n) →
        ItemIs rg (.inline o inner c) [element [] (.inline none) rg ⟨o.stop, (c.map Range.start).getD rg.stop⟩ line]
  /-- `LineIs nodes out rest`: the nodes of a line, what they stand for, and the rest of the line that is not part of it: an element
  that begins with a bare `>` and has a block ends the line (the defect of C11). -/
  inductive LineIs : List Ast.Node → List Node → List Ast.Node → Prop
    | nil : LineIs [] [] []
    | item {sp a b ty nodes ns out rest} : IsItem ty → ItemIs ⟨a, b⟩ ty ns → LineIs nodes out rest →
        LineIs (.mk sp a b ty :: nodes) (spaceBefore sp ++ ns ++ out) rest
    | selector {sp a b s t nodes el rest out rest'} : SelectorIs src s t → AfterSelector [t] ⟨a, b⟩ nodes el rest → LineIs rest out rest' →
        LineIs (.mk sp a b (.selector s) :: nodes) (spaceBefore sp ++ el ++ out) rest'
    | arrow {sp a b c t nodes el rest} : NoSelector a t → AfterArrow [t] ⟨a, b⟩ ⟨a, b⟩ nodes el rest →
        LineIs (.mk sp a b (.line c) :: nodes) (spaceBefore sp ++ el) rest
  /-- `AfterSelector chain read nodes out rest`: the element that begins with the selectors `chain`, preceded by the comments between the
  selector and the rest of the element. `read` is the range of what comes before `nodes`. -/
  inductive AfterSelector : List Selector → Range → List Ast.Node → List Node → List Ast.Node → Prop
    /-- A selector at the end of a line stands for nothing. -/
    | dangling {chain p} : AfterSelector chain p [] [] []
    | comment {chain p sp a b c n nodes out rest} : TextIs (.comment c) n → AfterSelector chain ⟨p.start, b⟩ nodes out rest →
        AfterSelector chain p (.mk sp a b (.text (.comment c)) :: nodes) (n :: out) rest
    | arrow {chain p sp a b c nodes out rest} : AfterArrow chain ⟨p.start, b⟩ c nodes out rest →
        AfterSelector chain p (.mk sp a b (.line c) :: nodes) out rest
    /-- The element reaches from its first selector to the end of the block. -/
    | block {chain p sp a b l s lines e c nodes content} : ContentIs true s lines content →
        AfterSelector chain p (.mk sp a b (.block l (.mk s lines e) c) :: nodes)
          [element chain (.standard (.block ⟨p.start, b⟩)) ⟨p.start, b⟩ ⟨s, e⟩ content] nodes
  /-- The same after a `>`, which is at `gt`. -/
  inductive AfterArrow : List Selector → Range → Range → List Ast.Node → List Node → List Ast.Node → Prop
    | selector {chain p gt sp a b s t nodes out rest} : SelectorIs src s t → AfterSelector (chain ++ [t]) ⟨p.start, b⟩ nodes out rest →
        AfterArrow chain p gt (.mk sp a b (.selector s) :: nodes) out rest
    | arrow {chain p gt sp a b c t nodes out rest} : NoSelector a t → AfterArrow (chain ++ [t]) ⟨p.start, b⟩ c nodes out rest →
        AfterArrow chain p gt (.mk sp a b (.line c) :: nodes) out rest
    /-- The range of the element is that of the block alone, without the selectors (see C57). -/
    | block {chain p gt sp a b l s lines e c nodes content} : ContentIs false s lines content →
        AfterArrow chain p gt (.mk sp a b (.block l (.mk s lines e) c) :: nodes)
          [element chain (.standard (.lineBlock gt ⟨a, b⟩)) ⟨a, b⟩ ⟨s, e⟩ content] nodes
    /-- The element reaches from its first selector to the end of the line, its content begins after the last `>`. -/
    | line {chain p gt nodes out rest} : BeginsContent nodes → LineIs nodes out rest →
        AfterArrow chain p gt nodes [element chain (.standard (.line gt)) (upTo p out) ⟨p.stop, (upTo p out).stop⟩ out] rest
  /-- `ContentIs paragraphs start lines nodes`: the lines of a content, laid out as in C13. -/
  inductive ContentIs : Bool → Nat → List Ast.Line → List Node → Prop
    | mk {paragraphs start lines ls nodes} : LinesAre lines ls → Layout paragraphs false start ls nodes →
        ContentIs paragraphs start lines nodes
  /-- What each line stands for. -/
  inductive LinesAre : List Ast.Line → List SrcLine → Prop
    | nil : LinesAre [] []
    | blank {a b lines ls} : LinesAre lines ls → LinesAre (.mk a [] b :: lines) (.blank b :: ls)
    | line {a b n nodes out rest lines ls} : LineIs (n :: nodes) out rest → LinesAre lines ls →
        LinesAre (.mk a (n :: nodes) b :: lines) (.line a b out :: ls)
end

end Mty.Spec
