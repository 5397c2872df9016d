import Verif.Spec.Transform
import Verif.Spec.Ranges

/-!
# Specification: metadata elements and positions

After `/repo/docs/general/metadata.md`. (The attributes of elements are in `Spec/Transform.lean`.)
-/

set_option autoImplicit false

namespace Mty.Spec

/-! ## Metadata elements -/

/-- The metadata of a text: whether escapes are left intact, whether it was written as multiline text, then as for elements; a text has no
content. -/
def textMetadata (root raw : Bool) (t : Text) (range : Range) : List (String × Str) :=
  (if t.unescapeIn then [] else [("mty:verbatim", "true".toList)]) ++
  (if t.multiline then [("mty:multiline", "true".toList)] else []) ++ metadataOf root raw range ⟨1, 0⟩

/-- Names and values as attributes of a document. -/
def metadataAttributes (l : List (String × Str)) : List (TextSlice × Option TextSlice) :=
  l.map fun p => (.provided p.1.toList, some (.provided p.2))

/-- The head of an element with this name and these attributes and nothing else. -/
def MetadataHead (name : String) (attributes : List (String × Str)) (h : EHead) : Prop :=
  ∃ s, h.selectors = [s] ∧ s.tag = .explicit (.provided name.toList) ∧ s.attributes = metadataAttributes attributes ∧
    eraseItems s.items = []

/-- With metadata elements: every text is in an element `mty:text`, every comment is an element `mty:comment`, elements without name are
`mty:element`, and all elements have their metadata. `rawText` is the value of `mty:raw` for a text. -/
inductive MetadataElements (rawText : Text → Bool) : Bool → Node → Node → Prop
  | space {root r s} : MetadataElements rawText root (.text r (.space s)) (.text r (.space s))
  /-- Interpolations are not changed. -/
  | interpolation {root r t} : t.raw = true → MetadataElements rawText root (.text r (.text t)) (.text r (.text t))
  | text {root r t h} : t.raw = false → MetadataHead "mty:text" (textMetadata root (rawText t) t r) h → h.isRaw = rawText t →
      h.fmtInline = true → MetadataElements rawText root (.text r (.text t)) (.elem r h [.text r (.text t)])
  | comment {root r s h} : MetadataHead "mty:comment" (metadataOf root false r r) h → h.isRaw = false → h.fmtInline = true →
      MetadataElements rawText root (.text r (.comment s))
        (.elem r h [.text r (.text { slice := s, multiline := false, unescapeIn := false, escapeOut := true, raw := false })])
  | named {root r h s s' ch ch'} : h.selectors = [s] → s.tag.name.isSome →
      s' = { s with items := s'.items } → eraseItems s'.items = eraseItems s.items →
      s'.attributes = s.attributes ++ metadataAttributes (metadataOf root h.isRaw r h.contentRange) →
      List.Forall₂ (MetadataElements rawText false) ch ch' →
      MetadataElements rawText root (.elem r h ch) (.elem r { h with selectors := [s'] } ch')
  | unnamed {root r h s' ch ch'} : h.selectors.length ≤ 1 → (∀ s ∈ h.selectors, s.tag.name = none) →
      s'.tag = .explicit (.provided "mty:element".toList) →
      eraseItems s'.items = h.selectors.flatMap (fun s => eraseItems s.items) →
      s'.attributes = h.selectors.flatMap Selector.attributes ++ metadataAttributes (metadataOf root h.isRaw r h.contentRange) →
      List.Forall₂ (MetadataElements rawText false) ch ch' →
      MetadataElements rawText root (.elem r h ch) (.elem r { h with selectors := [s'] } ch')

/-! ## Places -/

/-- The places of the nodes of a document: of texts, and of elements and their contents. -/
inductive Place where
  | text (range : Range)
  | elem (range content : Range) (kids : List Place)

/-- The smallest range with both ranges. -/
def cover (a b : Range) : Range := ⟨min a.start b.start, max a.stop b.stop⟩

/-- The places of a chain of elements `s1 > s2 > ..` at `range` that ends at `stop`: the elements after the first one begin with
their selectors. -/
def chainPlace (range : Range) (stop : Nat) (content : Range) : List Selector → List Place → Place
  | _ :: s2 :: ss, kids =>
    let inner := cover content ⟨s2.range.start, stop⟩
    .elem range (cover content inner) [chainPlace inner inner.stop content (s2 :: ss) kids]
  | _, kids => .elem range content kids

mutual
  /-- The place of a node; a chain of selectors stands for nested elements. -/
  def placeOf : Node → Place
    | .text r _ => .text r
    | .elem r h ch => chainPlace r h.range.stop h.contentRange h.selectors (placesOf ch)
  def placesOf : List Node → List Place
    | [] => []
    | n :: ns => placeOf n :: placesOf ns
end

mutual
  /-- The ranges of a place and of the places in it. -/
  def placeRanges : Place → List Range
    | .text r => [r]
    | .elem r c kids => r :: c :: placesRanges kids
  def placesRanges : List Place → List Range
    | [] => []
    | p :: ps => placeRanges p ++ placesRanges ps
end

end Mty.Spec
