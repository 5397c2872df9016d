import Verif.Model.Str

/-! # The document tree (`/repo/mintyml/src/document/*.rs`, type definitions) -/

namespace Mty

/-- `TextSlice` (`/repo/mintyml/src/document/text.rs:10-15`). -/
inductive TextSlice where
  | fromSource (range : Range)
  | provided (value : Str)
deriving DecidableEq, Repr

/-- `TextSlice::as_str` (`/repo/mintyml/src/document/text.rs:18-23`). -/
def TextSlice.asStr (t : TextSlice) (src : Str) : Str :=
  match t with
  | .fromSource r => r.slice src
  | .provided v => v

/-- `TextSlice::is_empty` (`/repo/mintyml/src/document/text.rs:63-68`). -/
def TextSlice.isEmpty : TextSlice → Bool
  | .fromSource r => decide (r.stop ≤ r.start)
  | .provided v => v.isEmpty

/-- `Text` (`/repo/mintyml/src/document/text.rs:79-85`). -/
structure Text where
  slice : TextSlice := .provided []
  multiline : Bool := false
  unescapeIn : Bool := false
  escapeOut : Bool := false
  raw : Bool := false
deriving DecidableEq, Repr

/-- `Space` (`/repo/mintyml/src/document/text.rs:106-116`). -/
inductive Space where
  | lineEnd
  | paragraphEnd
  | inline (slice : Option TextSlice)
deriving DecidableEq, Repr

/-- `TextLike` (`/repo/mintyml/src/document/text.rs:88-95`) with `Comment`
(`text.rs:119-122`, single variant `Tag`) inlined. -/
inductive TextLike where
  | text (t : Text)
  | comment (slice : TextSlice)
  | space (s : Space)
deriving DecidableEq, Repr

/-- `ElementDelimiter` (`/repo/mintyml/src/document/elements.rs:18-28`). -/
inductive Delim where
  | line (combinator : Range)
  | block (block : Range)
  | lineBlock (combinator block : Range)
deriving DecidableEq, Repr

/-- `SpecialKind` (`/repo/mintyml/src/document/elements.rs:169-191`). -/
inductive SpecialKind where
  | emphasis | strong | underline | strike | quote | code | codeBlockContainer
deriving DecidableEq, Repr

/-- `MultilineKind` (`/repo/mintyml/src/document/elements.rs:196-206`). -/
inductive MultilineKind where
  | escaped | unescaped | code
deriving DecidableEq, Repr

/-- `ElementType` (`/repo/mintyml/src/document/elements.rs:32-45`). -/
inductive ElementType where
  | paragraph
  | standard (d : Delim)
  | inline (d : Option Delim)
  | special (k : SpecialKind)
  | multiline (k : MultilineKind)
  | unknown
deriving DecidableEq, Repr

/-- `Tag` (`/repo/mintyml/src/document/selectors.rs:76-83`). -/
inductive Tag where
  | explicit (value : TextSlice)
  | implicit
  | wildcard (range : Range)
deriving DecidableEq, Repr

/-- `Tag::name` (`/repo/mintyml/src/document/selectors.rs:86-91`). -/
def Tag.name : Tag → Option TextSlice
  | .explicit v => some v
  | _ => none

/-- `Attribute` (`/repo/mintyml/src/document/selectors.rs:126-130`). -/
structure Attribute where
  range : Range
  name : TextSlice
  value : Option TextSlice
deriving DecidableEq, Repr

/-- `SelectorItem` (`/repo/mintyml/src/document/selectors.rs:107-123`). -/
inductive SelectorItem where
  | id (hash : Range) (value : TextSlice)
  | cls (dot : Range) (value : TextSlice)
  | attributes (range : Range) (attributes : List Attribute)
deriving DecidableEq, Repr

/-- `Selector` (`/repo/mintyml/src/document/selectors.rs:15-19`). -/
structure Selector where
  range : Range := ⟨0, 0⟩
  tag : Tag := .implicit
  items : List SelectorItem := []
deriving DecidableEq, Repr

namespace Selector

/-- `Selector::uninferred` (`/repo/mintyml/src/document/selectors.rs:22-27`). -/
def uninferred (s : Selector) : Bool :=
  match s.tag with
  | .explicit _ => false
  | _ => true

/-- `Selector::class_names` (`/repo/mintyml/src/document/selectors.rs:29-34`). -/
def classNames (s : Selector) : List TextSlice :=
  s.items.filterMap fun
    | .cls _ v => some v
    | _ => none

/-- `Selector::id` (`/repo/mintyml/src/document/selectors.rs:36-41`): the first one. -/
def id (s : Selector) : Option TextSlice :=
  s.items.findSome? fun
    | .id _ v => some v
    | _ => none

/-- `Selector::attributes` (`/repo/mintyml/src/document/selectors.rs:43-53`). -/
def attributes (s : Selector) : List (TextSlice × Option TextSlice) :=
  (s.items.flatMap fun
    | .attributes _ as => as
    | _ => []).map fun a => (a.name, a.value)

/-- `Selector::empty` (`/repo/mintyml/src/document/selectors.rs:57-65`). -/
def empty (loc : Nat) : Selector := { range := ⟨loc, loc⟩ }

/-- `Selector::with_tag` (`/repo/mintyml/src/document/selectors.rs:67-72`). -/
def withTag (s : Selector) (t : TextSlice) : Selector := { s with tag := .explicit t }

end Selector

/-- The fields of `Element` (`/repo/mintyml/src/document/elements.rs:60-67`) except the child
nodes, which are stored next to it in `Node.elem`; `contentRange` is `content.range`. -/
structure EHead where
  range : Range
  selectors : List Selector := []
  contentRange : Range
  ty : ElementType
  formatInline : Bool := false
  isRaw : Bool := false
deriving DecidableEq, Repr

/-- `Node`/`NodeType` (`/repo/mintyml/src/document/mod.rs:26-29,85-90`). An element is its head and
its `content.nodes`. -/
inductive Node where
  | text (range : Range) (t : TextLike)
  | elem (range : Range) (h : EHead) (children : List Node)
deriving Repr

namespace Node

/-- `Node.range` (`/repo/mintyml/src/document/mod.rs:27`). -/
def range : Node → Range
  | .text r _ => r
  | .elem r _ _ => r

/-- `Node::is_visible` (`/repo/mintyml/src/document/mod.rs:65-72`): not a space or comment. -/
def isVisible : Node → Bool
  | .text _ (.comment _) => false
  | .text _ (.space _) => false
  | _ => true

/-- `Node::is_space` (`/repo/mintyml/src/document/mod.rs:74-81`). -/
def isSpace : Node → Bool
  | .text _ (.space _) => true
  | _ => false

/-- `Node::as_element` (`/repo/mintyml/src/document/mod.rs:50-55`): the head of an element. -/
def asElement : Node → Option EHead
  | .elem _ h _ => some h
  | .text _ _ => none

end Node

/-- `Document` (`/repo/mintyml/src/document/mod.rs:252-255`): `content` is `contentRange` and
`nodes`. -/
structure Document where
  range : Range
  contentRange : Range
  nodes : List Node
deriving Repr

/-- `Element::new` (`/repo/mintyml/src/document/elements.rs:70-82`). -/
def EHead.new (range : Range) (ty : ElementType) : EHead :=
  { range, contentRange := range, ty }

/-- `Element::format_inline` (`/repo/mintyml/src/document/elements.rs:122-133`). -/
def EHead.fmtInline (h : EHead) : Bool :=
  h.formatInline ||
    match h.ty with
    | .standard (.line _) => true
    | .inline _ => true
    | .special _ => true
    | .paragraph => true
    | .multiline _ => true
    | _ => false

/-- `Element::apply_tags` (`/repo/mintyml/src/document/elements.rs:135-159`). -/
def EHead.applyTags (h : EHead) (tags : List TextSlice) : EHead :=
  match tags.filter (fun t => !t.isEmpty) with
  | [] => { h with selectors := h.selectors.drop 1 }
  | first :: rest =>
    match h.selectors with
    | s :: ss =>
      { h with selectors := { s with tag := .explicit first } ::
          (rest.map fun t => (Selector.empty s.range.stop).withTag t) ++ ss }
    | [] =>
      { h with selectors := (Selector.empty h.range.start).withTag first ::
          rest.map fun t => (Selector.empty h.range.start).withTag t }

/-- `impl From<Element> for Node` (`/repo/mintyml/src/document/elements.rs:208-215`). -/
def Node.ofElem (h : EHead) (children : List Node) : Node := .elem h.range h children

/-- `Element::split_at(1)` as used by `split_first`
(`/repo/mintyml/src/document/elements.rs:88-120`): an element with more than one selector becomes
an element with the first selector that contains an element with the others. -/
def splitFirst (h : EHead) (children : List Node) : EHead × List Node :=
  match h.selectors with
  | s :: s2 :: ss =>
    let newRange := h.contentRange.combine ⟨s2.range.start, h.range.stop⟩
    let inner : EHead := { h with range := newRange, selectors := s2 :: ss }
    ({ h with
        selectors := [s]
        contentRange := h.contentRange.combine newRange
        formatInline := true },
      [Node.ofElem inner children])
  | _ => (h, children)

end Mty
