import Verif.Model.Doc
import Batteries.Data.List.Basic

/-!
# Specification: inference of element types

After `/repo/README.md`, section "Element Inference". `Tree` is a document without positions in
which a selector chain `a > b > c` has been written out as nested elements; `inferForest` gives
names to the elements by context.
-/

namespace Mty.Spec

/-! ## Elements by the way they are written -/

/-- The node types of the tables in the manual. Line-blocks and inline elements are inferred as lines. -/
inductive Form where
  | line | block | paragraph
deriving DecidableEq, Repr

/-- The node type of an element, if it is one of those in the tables. -/
def formOf : ElementType → Option Form
  | .paragraph => some .paragraph
  | .standard (.line _) => some .line
  | .standard (.lineBlock _ _) => some .line
  | .standard (.block _) => some .block
  | .inline none => some .line
  | .inline (some (.line _)) => some .line
  | .inline (some (.lineBlock _ _)) => some .line
  | .inline (some (.block _)) => none
  | .special _ => none
  | .multiline _ => none
  | .unknown => none

/-! ## Contexts -/

/-- The contexts of the manual ("Standard Contexts", "Specialized Contexts"), and `picture`, the
top of a page (`html`) and elements with raw content (`script`, `style`). -/
inductive Context where
  | section | paragraph | list | table | row | details | fieldset | descriptionList | label
  | dataList | select | columnGroup | imageMap | picture | html | raw
deriving DecidableEq, Repr

/-- Elements that contain phrasing content or nothing. -/
def phrasingNames : List String :=
  ["p", "h1", "h2", "h3", "h4", "h5", "h6", "span", "b", "i", "q", "s", "u", "em", "strong", "code",
   "small", "sub", "sup", "mark", "cite", "dfn", "kbd", "samp", "var", "time", "data", "button",
   "caption", "dt", "legend", "meter", "option", "output", "pre", "progress", "summary", "textarea",
   "area", "base", "br", "col", "embed", "hr", "img", "input", "link", "meta", "param", "source",
   "track", "wbr"]

/-- Elements that contain sections and paragraphs. -/
def sectionNames : List String :=
  ["body", "main", "article", "header", "footer", "section", "nav", "aside", "figure", "dialog",
   "blockquote", "div", "template", "hgroup"]

/-- The context inside an element with a known name, if the name determines it. -/
def contextOfName (name : Str) : Option Context :=
  let isOneOf (l : List String) : Bool := l.any fun n => name = n.toList
  if isOneOf phrasingNames then some .paragraph
  else if isOneOf sectionNames then some .section
  else if isOneOf ["ul", "ol", "menu"] then some .list
  else if isOneOf ["table", "thead", "tbody", "tfoot"] then some .table
  else if isOneOf ["tr"] then some .row
  else if isOneOf ["details"] then some .details
  else if isOneOf ["fieldset"] then some .fieldset
  else if isOneOf ["dl"] then some .descriptionList
  else if isOneOf ["label"] then some .label
  else if isOneOf ["datalist", "optgroup"] then some .dataList
  else if isOneOf ["select"] then some .select
  else if isOneOf ["colgroup"] then some .columnGroup
  else if isOneOf ["map"] then some .imageMap
  else if isOneOf ["picture"] then some .picture
  else if isOneOf ["html"] then some .html
  else if isOneOf ["script", "style"] then some .raw
  else none

/-- The context inside an element: by its name, otherwise by the way it is written ("section context
if declared as a block element and paragraph context if declared as a line, line-block, or inline
element"). -/
def contextInside (name : Option Str) (form : Option Form) : Context :=
  match name.bind contextOfName with
  | some c => c
  | none =>
    match form with
    | some .line | some .paragraph => .paragraph
    | some .block | none => .section

/-- The name given to an element of the given form in a context (tables "Inference by context and
node type"). `first`, `last`: it is the first or last node of its content; `header`: the
grandparent is a `thead`. `some ""` = it becomes plain content; `none` = no name is given. The
rules `first` in `details` and `html` and `header` in rows apply to elements of any form. -/
def nameIn (c : Context) (form : Option Form) (first last header : Bool) : Option String :=
  match c, form with
  | .section, some .line => some "p"
  | .section, some .block => some "div"
  | .section, some .paragraph => some "p"
  | .raw, some .line => some "p"
  | .raw, some .block => some "div"
  | .raw, some .paragraph => some "p"
  | .paragraph, some .line => some "span"
  | .paragraph, some .block => some "span"
  | .paragraph, some .paragraph => some ""
  | .list, some _ => some "li"
  | .table, some _ => some "tr"
  | .row, some _ => if header then some "th" else some "td"
  | .row, none => if header then some "th" else none
  | .descriptionList, some .line => some "dt"
  | .descriptionList, some _ => some "dd"
  | .label, some .line => some "input"
  | .label, some .block => some "div"
  | .label, some .paragraph => some "p"
  | .select, some .block => some "optgroup"
  | .select, some _ => some "option"
  | .dataList, some _ => some "option"
  | .columnGroup, some _ => some "col"
  | .imageMap, some _ => some "area"
  | .picture, some .line => if last then some "img" else some "source"
  | .details, some .block => if first then some "summary" else some "div"
  | .details, some _ => if first then some "summary" else some "p"
  | .details, none => if first then some "summary" else none
  | .fieldset, some .paragraph => if first then some "legend" else some "p"
  | .fieldset, some .line => some "p"
  | .fieldset, some .block => some "div"
  | .html, some .paragraph => if first then some "title" else some "body"
  | .html, some _ => if first then some "head" else some "body"
  | .html, none => if first then some "head" else none
  | _, none => none
  | .picture, some _ => none

/-! ## Trees -/

/-- A document without positions. `sel` is the selector of an element: its name, if it has one, and
its classes, ids and attributes. `raw`: text in it is not escaped. `inlineFormat`: no line breaks
are inserted in it. -/
inductive Tree where
  | leaf (t : TextLike)
  | elem (form : Option Form) (raw inlineFormat : Bool) (sel : Option (Option Str × List SelectorItem))
      (children : List Tree)

/-- Name and items of a selector. -/
def selOf (src : Str) (s : Selector) : Option Str × List SelectorItem :=
  (s.tag.name.map fun n => n.asStr src, s.items)

/-- Elements in which no line breaks are inserted: those in one line and paragraphs, inline and short forms, multiline texts, and
those marked so. Not: blocks, and elements that are added. -/
def onOneLine (h : EHead) : Bool :=
  h.formatInline ||
    match h.ty with
    | .standard (.line _) => true
    | .inline _ => true
    | .special _ => true
    | .paragraph => true
    | .multiline _ => true
    | _ => false

/-- The nested elements for a selector chain. -/
def chainTree (src : Str) (h : EHead) : List Selector → List Tree → Tree
  | [], kids => .elem (formOf h.ty) h.isRaw (onOneLine h) none kids
  | [s], kids => .elem (formOf h.ty) h.isRaw (onOneLine h) (some (selOf src s)) kids
  | s :: s2 :: ss, kids =>
    .elem (formOf h.ty) h.isRaw true (some (selOf src s)) [chainTree src h (s2 :: ss) kids]

mutual
  /-- The tree of a node. -/
  def treeOf (src : Str) : Node → Tree
    | .text _ t => .leaf t
    | .elem _ h ch => chainTree src h h.selectors (forestOf src ch)
  /-- The trees of nodes. -/
  def forestOf (src : Str) : List Node → List Tree
    | [] => []
    | n :: ns => treeOf src n :: forestOf src ns
end

/-! ## Inference -/

/-- The selector of an element after inference: a written name stays, otherwise the name from the
tables is filled in. -/
def namedSel (c : Context) (form : Option Form) (first last header : Bool) :
    Option (Option Str × List SelectorItem) → Option (Option Str × List SelectorItem)
  | some (some n, items) => some (some n, items)
  | sel =>
    match nameIn c form first last header with
    | none => sel
    | some "" => none
    | some n => some (some n.toList, (sel.map (·.2)).getD [])

mutual
  /-- Inference for a node in context `c`; `parent`, `grand`: names of the element that contains it
  and of the one that contains that. -/
  def inferTree (c : Context) (parent grand : Option Str) (first last : Bool) : Tree → Tree
    | .leaf t => .leaf t
    | .elem form raw fmt sel ch =>
      let sel' := namedSel c form first last (grand = some "thead".toList) sel
      let name := sel'.bind (·.1)
      let inside := contextInside name form
      .elem form (raw || inside = .raw) fmt sel' (inferForest inside name parent true ch)
  /-- Inference for the nodes of a content, of which the first one is or is not the first node. -/
  def inferForest (c : Context) (parent grand : Option Str) (first : Bool) : List Tree → List Tree
    | [] => []
    | t :: ts => inferTree c parent grand first ts.isEmpty t :: inferForest c parent grand false ts
end

/-! ## Properties of documents and trees -/

/-- Paragraphs have no selectors, as in every document that is built. -/
inductive PlainParagraphs : Node → Prop
  | text {r t} : PlainParagraphs (.text r t)
  | elem {r h ch} : (h.ty = .paragraph → h.selectors = []) → (∀ c ∈ ch, PlainParagraphs c) →
      PlainParagraphs (.elem r h ch)

/-- No element has more than one selector. -/
inductive SingleSelectors : Node → Prop
  | text {r t} : SingleSelectors (.text r t)
  | elem {r h ch} : h.selectors.length ≤ 1 → (∀ c ∈ ch, SingleSelectors c) →
      SingleSelectors (.elem r h ch)

/-- `t` consists of one element for each of the selectors, each the only child of the one before,
and the innermost one has the given children. -/
inductive Nested (kids : List Tree) : List (Option Str × List SelectorItem) → Tree → Prop
  | single {f raw fmt s} : Nested kids [s] (.elem f raw fmt (some s) kids)
  | cons {f raw fmt s ss t} : Nested kids ss t → Nested kids (s :: ss) (.elem f raw fmt (some s) [t])

/-- Every name of `t` is found in `t'` at the same place, with the same classes, ids and
attributes; classes, ids and attributes without a name are found there too, possibly with a name.
Nothing else but missing names and `raw` differs. -/
inductive Kept : Tree → Tree → Prop
  | leaf {t} : Kept (.leaf t) (.leaf t)
  | elem {f raw raw' fmt sel sel' ch ch'} :
      (∀ n items, sel = some (some n, items) → sel' = some (some n, items)) →
      (∀ items, sel = some (none, items) → ∃ n, sel' = some (n, items)) →
      (sel = none → sel' = none ∨ ∃ n, sel' = some (some n, [])) →
      List.Forall₂ Kept ch ch' →
      Kept (.elem f raw fmt sel ch) (.elem f raw' fmt sel' ch')

mutual
  /-- Text, comments and space in order. -/
  def nodeTexts : Node → List TextLike
    | .text _ t => [t]
    | .elem _ _ ch => nodesTexts ch
  def nodesTexts : List Node → List TextLike
    | [] => []
    | n :: ns => nodeTexts n ++ nodesTexts ns
end

/-- A tree in a context in which every line, block and paragraph has a name. Exceptions: a
paragraph in a paragraph context, which is plain content, and blocks and paragraphs in `picture`. -/
inductive Decided : Context → Tree → Prop
  | leaf {c t} : Decided c (.leaf t)
  | elem {c f raw fmt sel ch} :
      (f = none ∨ (sel.bind (·.1)).isSome ∨ (c = .paragraph ∧ f = some .paragraph ∧ sel = none) ∨
        (c = .picture ∧ f ≠ some .line)) →
      (∀ t ∈ ch, Decided (contextInside (sel.bind (·.1)) f) t) →
      Decided c (.elem f raw fmt sel ch)

/-- `t'` is `t` with names given to the elements, and every line, block and paragraph of `t` without
a name whose parent is a `tr` is a `th` in `t'` if the parent of that `tr` is a `thead` and a `td`
otherwise. `parent`, `grand`: names of the parent and of its parent in `t'`. -/
inductive Cells : Option Str → Option Str → Tree → Tree → Prop
  | leaf {p g t} : Cells p g (.leaf t) (.leaf t)
  | elem {p g f raw raw' fmt sel sel' ch ch'} :
      (p = some "tr".toList → f ≠ none → sel.bind (·.1) = none →
        sel'.bind (·.1) = some (if g = some "thead".toList then "th".toList else "td".toList)) →
      ch.length = ch'.length →
      (∀ (i : Nat) t t', ch[i]? = some t → ch'[i]? = some t' → Cells (sel'.bind (·.1)) p t t') →
      Cells p g (.elem f raw fmt sel ch) (.elem f raw' fmt sel' ch')

/-! ## The manual -/

/-- The tables "Inference by context and node type" of `/repo/README.md`, word for word. Empty cells
and the contexts described only in words are `none`. -/
def manualName : Context → Form → Option String
  | .section, .line => some "p"
  | .section, .block => some "div"
  | .section, .paragraph => some "p"
  | .paragraph, .line => some "span"
  | .paragraph, .block => some "span"
  | .paragraph, .paragraph => some ""
  | .list, _ => some "li"
  | .table, _ => some "tr"
  | .row, _ => some "td"
  | .descriptionList, .line => some "dt"
  | .descriptionList, _ => some "dd"
  | .label, .line => some "input"
  | .label, .block => some "div"
  | .label, .paragraph => some "p"
  | .select, .block => some "optgroup"
  | .select, _ => some "option"
  | .dataList, _ => some "option"
  | .columnGroup, .line => some "col"
  | .columnGroup, .block => some "col"
  | .imageMap, .line => some "area"
  | .imageMap, .block => some "area"
  | _, _ => none

/-- The elements that the manual lists for each context. (It calls the element of the image map
context `imagemap`; HTML has `map`.) -/
def manualContexts : List (String × Context) :=
  ["body", "main", "article", "header", "footer", "section", "nav", "aside", "figure", "dialog",
    "blockquote", "div", "template", "hgroup"].map (·, .section) ++
  ["p", "h1", "h2", "h3", "h4", "h5", "h6", "span", "em", "strong", "u", "s", "q", "code"].map
    (·, .paragraph) ++
  ["ul", "ol", "menu"].map (·, .list) ++
  ["table", "thead", "tbody", "tfoot"].map (·, .table) ++
  [("tr", .row), ("details", .details), ("fieldset", .fieldset), ("dl", .descriptionList),
   ("label", .label), ("datalist", .dataList), ("optgroup", .dataList), ("select", .select),
   ("colgroup", .columnGroup), ("map", .imageMap)]

end Mty.Spec
