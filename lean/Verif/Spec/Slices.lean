import Verif.Model.Config
import Verif.Model.Doc
import Mathlib.Data.List.Forall2

/-!
# Specification: which parts of the source the writer reads

A document holds text either as characters or as a range of the source, which is read when the text
is used. Reading a range that is not a range of the source is a panic in Rust.
-/

namespace Mty.Spec

/-- The range of the source a text stands for, if it is one. -/
def sourceOf : TextSlice → List Range
  | .fromSource r => [r]
  | .provided _ => []

/-- The texts of a text, comment or space. -/
def textLikeSlices : TextLike → List TextSlice
  | .text t => [t.slice]
  | .comment s => [s]
  | .space (.inline (some s)) => [s]
  | .space _ => []

/-- The texts of a part of a selector: an id, a class, or the names and values of attributes. -/
def itemSlices : SelectorItem → List TextSlice
  | .id _ v => [v]
  | .cls _ v => [v]
  | .attributes _ as => as.flatMap fun a => a.name :: a.value.toList

/-- The texts of a selector. -/
def selectorSlices (s : Selector) : List TextSlice :=
  s.tag.name.toList ++ s.items.flatMap itemSlices

mutual
  /-- All texts in a node. -/
  def nodeSlices : Node → List TextSlice
    | .text _ t => textLikeSlices t
    | .elem _ h cs => h.selectors.flatMap selectorSlices ++ nodesSlices cs
  /-- All texts in a list of nodes. -/
  def nodesSlices : List Node → List TextSlice
    | [] => []
    | n :: ns => nodeSlices n ++ nodesSlices ns
end

/-- The ranges of the source that have to be read to write the nodes. -/
def sourceSlices (ns : List Node) : List Range := (nodesSlices ns).flatMap sourceOf

/-! ## Reading all of them -/

section
variable (src : Str)

/-- A text and its characters. Characters stay; a range is read: there is nothing to read if it is not a range of the
source. -/
inductive TextRead : TextSlice → TextSlice → Prop
  | given (v : Str) : TextRead (.provided v) (.provided v)
  | source (a m b : Str) : src = a ++ m ++ b → TextRead (.fromSource ⟨byteLen a, byteLen (a ++ m)⟩) (.provided m)

/-- A text, comment or space and its characters. -/
inductive LeafRead : TextLike → TextLike → Prop
  | text {t : Text} {s : TextSlice} : TextRead src t.slice s → LeafRead (.text t) (.text { t with slice := s })
  | comment {s s' : TextSlice} : TextRead src s s' → LeafRead (.comment s) (.comment s')
  | lineEnd : LeafRead (.space .lineEnd) (.space .lineEnd)
  | paragraphEnd : LeafRead (.space .paragraphEnd) (.space .paragraphEnd)
  | blank : LeafRead (.space (.inline none)) (.space (.inline none))
  | inline {s s' : TextSlice} : TextRead src s s' → LeafRead (.space (.inline (some s))) (.space (.inline (some s')))

/-- An attribute and its characters. -/
inductive AttributeRead : Attribute → Attribute → Prop
  | flag {r : Range} {n n' : TextSlice} : TextRead src n n' → AttributeRead ⟨r, n, none⟩ ⟨r, n', none⟩
  | value {r : Range} {n n' v v' : TextSlice} : TextRead src n n' → TextRead src v v' →
      AttributeRead ⟨r, n, some v⟩ ⟨r, n', some v'⟩

/-- A part of a selector and its characters. -/
inductive ItemRead : SelectorItem → SelectorItem → Prop
  | id {r : Range} {v v' : TextSlice} : TextRead src v v' → ItemRead (.id r v) (.id r v')
  | cls {r : Range} {v v' : TextSlice} : TextRead src v v' → ItemRead (.cls r v) (.cls r v')
  | attributes {r : Range} {l l' : List Attribute} : List.Forall₂ (AttributeRead src) l l' →
      ItemRead (.attributes r l) (.attributes r l')

/-- A name and its characters. -/
inductive TagRead : Tag → Tag → Prop
  | explicit {v v' : TextSlice} : TextRead src v v' → TagRead (.explicit v) (.explicit v')
  | implicit : TagRead .implicit .implicit
  | wildcard (r : Range) : TagRead (.wildcard r) (.wildcard r)

/-- A selector and its characters. -/
inductive SelectorRead : Selector → Selector → Prop
  | mk {r : Range} {t t' : Tag} {l l' : List SelectorItem} : TagRead src t t' → List.Forall₂ (ItemRead src) l l' →
      SelectorRead ⟨r, t, l⟩ ⟨r, t', l'⟩

mutual
  /-- A node and its characters. -/
  inductive NodeRead : Node → Node → Prop
    | text {r : Range} {t t' : TextLike} : LeafRead src t t' → NodeRead (.text r t) (.text r t')
    | elem {r : Range} {h : EHead} {l : List Selector} {ch ch' : List Node} :
        List.Forall₂ (SelectorRead src) h.selectors l → NodesRead ch ch' →
        NodeRead (.elem r h ch) (.elem r { h with selectors := l } ch')
  /-- Nodes and their characters. -/
  inductive NodesRead : List Node → List Node → Prop
    | nil : NodesRead [] []
    | cons {n n' : Node} {ns ns' : List Node} : NodeRead n n' → NodesRead ns ns' → NodesRead (n :: ns) (n' :: ns')
end

end

end Mty.Spec
