import Verif.Model.Doc
import Verif.Model.Config

/-! # Metadata (`/repo/mintyml/src/transform/metadata.rs`) -/

namespace Mty

/-- `XMLNS_URI` (`/repo/mintyml/src/transform/metadata.rs:15`). -/
def xmlnsUri : Str := "tag:youngspe.github.io,2024:mintyml/metadata".toList

/-- `bool_string` (`/repo/mintyml/src/transform/metadata.rs:37-43`). -/
def boolString (b : Bool) : Str := if b then "true".toList else "false".toList

/-- `AttributeFactory::add` (`/repo/mintyml/src/transform/metadata.rs:50-76`): the attribute that is
pushed; `loc` is `location`. -/
def metaAttr (loc : Nat) (name : String) (value : Str) : Attribute :=
  { range := ⟨loc, loc⟩, name := .provided name.toList, value := some (.provided value) }

/-- `AttributeFactory::add_range` with `add_location`
(`/repo/mintyml/src/transform/metadata.rs:78-98`). -/
def metaRange (loc : Nat) (startName endName : String) (r : Range) : List Attribute :=
  if r.start ≤ r.stop then
    [metaAttr loc startName (Nat.toDigits 10 r.start), metaAttr loc endName (Nat.toDigits 10 r.stop)]
  else []

/-- `AttributeFactory::add_bool_except` (`/repo/mintyml/src/transform/metadata.rs:100-115`). -/
def metaBoolExcept (loc : Nat) (name : String) (value default : Bool) : List Attribute :=
  if value != default then [metaAttr loc name (boolString value)] else []

/-- `build_selector_item` and `finish` (`/repo/mintyml/src/transform/metadata.rs:117-131`): the
selector with the attributes added. -/
def metaFinish (loc : Nat) (attrs : List Attribute) (s : Selector) : Selector :=
  if attrs.isEmpty then s else { s with items := s.items ++ [.attributes ⟨loc, loc⟩ attrs] }

/-- The constants of one run of the loop in `handle_element`
(`/repo/mintyml/src/transform/metadata.rs:154-184`). -/
structure MetaCx where
  elements : Bool
  outerRange : Range
  outerIndex : Nat
  root : Bool
  isRaw : Bool
  contentRange : Range

/-- The loop of `handle_element` over the selectors, from the last to the first
(`/repo/mintyml/src/transform/metadata.rs:184-217`): the changed selectors and `content_range`
after them. The number is the index of the first selector of the list. -/
def metaSelectors (cx : MetaCx) : Nat → List Selector → List Selector × Range
  | _, [] => ([], cx.contentRange)
  | i, s :: rest =>
    let (rest', contentRange) := metaSelectors cx (i + 1) rest
    if s.uninferred && !cx.elements then (s :: rest', contentRange)
    else
      let s := if s.uninferred then
        { s with tag := .explicit (.provided "mty:element".toList) } else s
      let loc := s.range.stop
      let outer := i == cx.outerIndex
      let attrs :=
        if outer then
          (if cx.root then [metaAttr loc "xmlns:mty" xmlnsUri] else []) ++
            metaBoolExcept loc "mty:raw" cx.isRaw false
        else []
      let range :=
        if outer then cx.outerRange
        else contentRange.combine ⟨s.range.start, cx.outerRange.stop⟩
      let attrs := attrs ++ metaRange loc "mty:start" "mty:end" range ++
        metaRange loc "mty:content-start" "mty:content-end" cx.contentRange
      (metaFinish loc attrs s :: rest', contentRange.combine range)

/-- `handle_element` (`/repo/mintyml/src/transform/metadata.rs:154-220`). -/
def metaElement (opts : MetadataConfig) (outerRange : Range) (h : EHead) (root : Bool) : EHead :=
  let hasTag := h.selectors.any fun s => !s.uninferred
  if !hasTag && !opts.elements then h
  else
    let h := if !hasTag && h.selectors.isEmpty then
      { h with selectors := [Selector.empty outerRange.start] } else h
    let outerIndex :=
      if opts.elements then 0
      else (h.selectors.findIdx? fun s => !s.uninferred).getD 0
    { h with selectors :=
        (metaSelectors
          { elements := opts.elements, outerRange, outerIndex, root, isRaw := h.isRaw,
            contentRange := h.contentRange } 0 h.selectors).1 }

/-- The text case of `process_node` (`/repo/mintyml/src/transform/metadata.rs:236-257`). Line 249
sets `is_raw = text.escape_out`. -/
def metaText (opts : MetadataConfig) (range : Range) (t : Text) (root : Bool) : Node :=
  let attrs := metaBoolExcept range.start "mty:verbatim" (!t.unescapeIn) false ++
    metaBoolExcept range.start "mty:multiline" t.multiline false
  let sel := metaFinish range.start attrs
    ((Selector.empty range.start).withTag (.provided "mty:text".toList))
  let h : EHead :=
    { EHead.new range .unknown with
      isRaw := t.escapeOut, formatInline := true, contentRange := Range.INVALID, selectors := [sel] }
  Node.ofElem (metaElement opts range h root) [.text range (.text t)]

/-- The comment case of `process_node` (`/repo/mintyml/src/transform/metadata.rs:258-280`). -/
def metaComment (opts : MetadataConfig) (range : Range) (slice : TextSlice) (root : Bool) : Node :=
  let h : EHead :=
    { (EHead.new range .unknown).applyTags [.provided "mty:comment".toList] with
      formatInline := true }
  Node.ofElem (metaElement opts range h root)
    [.text range (.text { slice, escapeOut := true })]

mutual
  /-- `process_node` (`/repo/mintyml/src/transform/metadata.rs:221-286`). -/
  def metaNode (opts : MetadataConfig) : Node → Bool → Node
    | .elem r h ch, root => .elem r (metaElement opts r h root) (metaNodes opts ch false)
    | .text r (.text t), root =>
      if opts.elements && !t.raw then metaText opts r t root else .text r (.text t)
    | .text r (.comment s), root =>
      if opts.elements then metaComment opts r s root else .text r (.comment s)
    | .text r (.space s), _ => .text r (.space s)
  /-- `process_node` on each node (`/repo/mintyml/src/transform/metadata.rs:231-234,295-300`). -/
  def metaNodes (opts : MetadataConfig) : List Node → Bool → List Node
    | [], _ => []
    | n :: ns, root => metaNode opts n root :: metaNodes opts ns root
end

/-- `add_metadata` (`/repo/mintyml/src/transform/metadata.rs:289-303`). -/
def addMetadata (doc : Document) (opts : MetadataConfig) : Document :=
  { doc with nodes := metaNodes opts doc.nodes true }

end Mty
