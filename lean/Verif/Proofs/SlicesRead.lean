import Verif.Proofs.Slices
import Verif.Proofs.Ranges
import Verif.Proofs.SameOut
import Verif.Proofs.PlainAst

/-! # Writing a document whose texts have been read (for C74) -/

set_option autoImplicit false

namespace Mty.Slices
open Spec

variable {src : Str}

/-! ## The texts can be read -/

theorem text_read {t : TextSlice} (h : ∀ r ∈ sourceOf t, ValidRange src r) : ∃ t', TextRead src t t' := by
  cases t with
  | provided v => exact ⟨_, .given v⟩
  | fromSource r =>
    obtain ⟨a, m, b, h1, rfl, -⟩ := (h r (by simp [sourceOf])).split
    exact ⟨_, .source a m b (by simp [h1])⟩

theorem texts_read {t : TextSlice} {l : List TextSlice} (h : Ok (ValidRange src) l) (ht : t ∈ l) : ∃ t', TextRead src t t' :=
  text_read (h t ht)

theorem all_read {α : Type} {R : α → α → Prop} : ∀ {l : List α}, (∀ x ∈ l, ∃ y, R x y) → ∃ l', List.Forall₂ R l l'
  | [], _ => ⟨[], .nil⟩
  | x :: l, h => by
    obtain ⟨y, hy⟩ := h x (by simp)
    obtain ⟨l', hl⟩ := all_read (l := l) fun z hz => h z (by simp [hz])
    exact ⟨y :: l', .cons hy hl⟩

theorem leaf_read {t : TextLike} (h : Ok (ValidRange src) (textLikeSlices t)) : ∃ t', LeafRead src t t' := by
  match t, h with
  | .text t, h => obtain ⟨s, hs⟩ := texts_read h (t := t.slice) (by simp [textLikeSlices]); exact ⟨_, .text hs⟩
  | .comment s, h => obtain ⟨s, hs⟩ := texts_read h (t := s) (by simp [textLikeSlices]); exact ⟨_, .comment hs⟩
  | .space .lineEnd, _ => exact ⟨_, .lineEnd⟩
  | .space .paragraphEnd, _ => exact ⟨_, .paragraphEnd⟩
  | .space (.inline none), _ => exact ⟨_, .blank⟩
  | .space (.inline (some s)), h =>
    obtain ⟨s, hs⟩ := texts_read h (t := s) (by simp [textLikeSlices]); exact ⟨_, .inline hs⟩

theorem item_read {i : SelectorItem} (h : Ok (ValidRange src) (itemSlices i)) : ∃ i', ItemRead src i i' := by
  cases i with
  | id r v => obtain ⟨s, hs⟩ := texts_read h (t := v) (by simp [itemSlices]); exact ⟨_, .id hs⟩
  | cls r v => obtain ⟨s, hs⟩ := texts_read h (t := v) (by simp [itemSlices]); exact ⟨_, .cls hs⟩
  | attributes r l =>
    rw [itemSlices, ok_flatMap] at h
    obtain ⟨l', hl⟩ := all_read (R := AttributeRead src) (l := l) (by
      rintro ⟨r, n, v⟩ ha
      have h1 := h _ ha
      obtain ⟨n', hn⟩ := texts_read h1 (t := n) (by simp)
      cases v with
      | none => exact ⟨_, .flag hn⟩
      | some v => obtain ⟨v', hv⟩ := texts_read h1 (t := v) (by simp); exact ⟨_, .value hn hv⟩)
    exact ⟨_, .attributes hl⟩

theorem selector_read {s : Selector} (h : Ok (ValidRange src) (selectorSlices s)) : ∃ s', SelectorRead src s s' := by
  rw [sel_ok] at h
  obtain ⟨l, hl⟩ := all_read fun i hi => item_read (h.2 i hi)
  rcases s with ⟨r, t, items⟩
  cases t with
  | explicit v => obtain ⟨v', hv⟩ := texts_read h.1 (t := v) (by simp [Tag.name]); exact ⟨_, .mk (.explicit hv) hl⟩
  | implicit => exact ⟨_, .mk .implicit hl⟩
  | wildcard r => exact ⟨_, .mk (.wildcard r) hl⟩

mutual
  theorem node_read : ∀ {n : Node}, NodeOk (ValidRange src) n → ∃ n', NodeRead src n n'
    | .text r t, h => by obtain ⟨t', ht⟩ := leaf_read (t := t) h; exact ⟨_, .text ht⟩
    | .elem r hd ch, h => by
      rw [elem_ok] at h
      obtain ⟨l, hl⟩ := all_read fun s hs => selector_read (h.1 s hs)
      obtain ⟨ch', hc⟩ := nodes_read h.2
      exact ⟨_, .elem hl hc⟩
  theorem nodes_read : ∀ {ns : List Node}, (∀ n ∈ ns, NodeOk (ValidRange src) n) → ∃ ns', NodesRead src ns ns'
    | [], _ => ⟨[], .nil⟩
    | n :: ns, h => by
      obtain ⟨n', hn⟩ := node_read (h n (by simp))
      obtain ⟨ns', hs⟩ := nodes_read (ns := ns) fun x hx => h x (by simp [hx])
      exact ⟨_, .cons hn hs⟩
end

/-! ## Writing -/

open Same (withSrc)

theorem read_str {t t' : TextSlice} (h : TextRead src t t') : t.asStr src = t'.asStr [] := by
  cases h with
  | given v => rfl
  | source a m b hs =>
    subst hs
    rw [List.append_assoc]
    exact Grammar.slice_mid a m b

theorem read_empty {t t' : TextSlice} (h : TextRead src t t') : t.isEmpty = t'.isEmpty := by
  cases h with
  | given v => rfl
  | source a m b hs =>
    cases m with
    | nil => simp [TextSlice.isEmpty]
    | cons c m =>
      have := c.utf8Size_pos
      simp [TextSlice.isEmpty, byteLen_append, byteLen]
      omega

theorem leaf_act (cx : OutCx) {t t' : TextLike} (h : LeafRead src t t') :
    writeTextLike (withSrc cx src) t = writeTextLike (withSrc cx []) t' := by
  cases h with
  | text h => simp only [writeTextLike, writeText, withSrc, read_empty h, read_str h]; rfl
  | comment h => simp only [writeTextLike, writeComment, withSrc, read_str h]
  | lineEnd => rfl
  | paragraphEnd => rfl
  | blank => rfl
  | inline h =>
    simp only [writeTextLike, withSrc]
    congr 1
    funext fs
    simp only [space]
    rw [read_str h]

theorem attributes_read : ∀ {l l' : List Attribute}, List.Forall₂ (AttributeRead src) l l' →
    (l.map fun a => Spec.Part.attribute (a.name.asStr src) (a.value.map (·.asStr src))) =
      l'.map fun a => Spec.Part.attribute (a.name.asStr []) (a.value.map (·.asStr []))
  | _, _, .nil => rfl
  | _, _, .cons h hs => by
    rw [List.map_cons, List.map_cons, attributes_read hs]
    cases h with
    | flag hn => rw [read_str hn]; rfl
    | value hn hv => rw [read_str hn, Option.map_some, Option.map_some, read_str hv]

theorem parts_read : ∀ {l l' : List SelectorItem}, List.Forall₂ (ItemRead src) l l' → documentParts src l = documentParts [] l'
  | _, _, .nil => rfl
  | _, _, .cons h hs => by
    have ih := parts_read hs
    cases h with
    | id h => rw [documentParts, documentParts, ih, read_str h]
    | cls h => rw [documentParts, documentParts, ih, read_str h]
    | attributes h => rw [documentParts, documentParts, ih, attributes_read h]

/-- Tags with the same names and parts. -/
def TagsRead (src : Str) : List (TextSlice × Selector) → List (TextSlice × Selector) → Prop :=
  List.Forall₂ fun a b => a.1.asStr src = b.1.asStr [] ∧ documentParts src a.2.items = documentParts [] b.2.items

theorem validTags_read : ∀ {l l' : List Selector}, List.Forall₂ (SelectorRead src) l l' →
    TagsRead src (l.filterMap fun s => s.tag.name.map fun n => (n, s)) (l'.filterMap fun s => s.tag.name.map fun n => (n, s))
  | _, _, .nil => .nil
  | _, _, .cons h hs => by
    have ih := validTags_read hs
    cases h with
    | mk ht hl =>
      cases ht with
      | explicit hv => exact .cons ⟨read_str hv, parts_read hl⟩ ih
      | implicit => exact ih
      | wildcard r => exact ih

theorem openTags_read (cx : OutCx) (b : Bool) : ∀ {l l' : List (TextSlice × Selector)}, TagsRead src l l' →
    writeOpenTags (withSrc cx src) b l = writeOpenTags (withSrc cx []) b l'
  | _, _, .nil => rfl
  | (t, s) :: l, (t', s') :: l', .cons h hs => by
    have hn : l.isEmpty = l'.isEmpty := by cases hs <;> rfl
    rw [writeOpenTags, writeOpenTags, openTags_read cx b hs, hn]
    dsimp only at h
    rw [show (withSrc cx src).src = src from rfl, show (withSrc cx []).src = [] from rfl, h.1,
      Same.writeOpenTag_same cx _ (.of_eq h.2)]

theorem closeTags_read (cx : OutCx) (b : Bool) : ∀ {l l' : List (TextSlice × Selector)}, TagsRead src l l' →
    writeCloseTags (withSrc cx src) b l = writeCloseTags (withSrc cx []) b l'
  | _, _, .nil => rfl
  | (t, s) :: l, (t', s') :: l', .cons h hs => by
    rw [writeCloseTags, writeCloseTags, closeTags_read cx b hs]
    dsimp only at h ⊢
    rw [show (withSrc cx src).src = src from rfl, show (withSrc cx []).src = [] from rfl, h.1]
    rfl

theorem lastTag_read {l l' : List (TextSlice × Selector)} (cfg : OutputConfig) (h : TagsRead src l l') :
    (l.getLast?.map fun (t, _) => getInfo cfg (t.asStr src)) = l'.getLast?.map fun (t, _) => getInfo cfg (t.asStr []) := by
  rw [← List.head?_reverse, ← List.head?_reverse]
  have h := List.rel_reverse h
  generalize l.reverse = a at h
  generalize l'.reverse = b at h
  cases h with
  | nil => rfl
  | cons h _ => simp only [List.head?_cons, Option.map_some, h.1]

theorem element_act {h : EHead} {l : List Selector} (hs : List.Forall₂ (SelectorRead src) h.selectors l) (b : Bool)
    {content content' : OutCx → Act} (hc : ∀ cx, content (withSrc cx src) = content' (withSrc cx [])) (cx : OutCx) :
    elementAct (withSrc cx src) h b content = elementAct (withSrc cx []) { h with selectors := l } b content' := by
  have ht : TagsRead src (validTags h) (validTags { h with selectors := l }) := validTags_read hs
  unfold elementAct
  dsimp only
  revert ht
  generalize validTags h = t
  generalize validTags { h with selectors := l } = t'
  intro ht
  have he : t.isEmpty = t'.isEmpty := by cases ht <;> rfl
  have hi : ∀ s, (withSrc cx s).inContent h = withSrc (cx.inContent h) s := fun _ => rfl
  have hi2 : ∀ s, (withSrc cx s).inContent { h with selectors := l } = withSrc (cx.inContent h) s := fun _ => rfl
  rw [he, hi, hi2, hc]
  split
  · rfl
  · have h1 := lastTag_read (withSrc cx src).cfg ht
    have h2 : TagsRead src t.reverse t'.reverse := List.rel_reverse ht
    have h3 : ∀ n, TagsRead src (t.reverse.drop n) (t'.reverse.drop n) := fun n => List.forall₂_drop n h2
    rw [show (withSrc cx src).src = src from rfl, show (withSrc cx []).src = [] from rfl,
      show (withSrc cx []).cfg = (withSrc cx src).cfg from rfl, h1, openTags_read cx _ ht, closeTags_read _ _ (h3 _),
      Same.indent_withSrc, Same.indent_withSrc, hc, Same.line_withSrc _ src [], Same.line_withSrc (cx.inContent h) src []]

theorem read_space {n n' : Node} (h : NodeRead src n n') : n.isSpace = n'.isSpace := by
  cases h with
  | text h => cases h <;> rfl
  | elem _ _ => rfl

mutual
  theorem node_act : ∀ {n n' : Node}, NodeRead src n n' → ∀ cx, processNode n (withSrc cx src) = processNode n' (withSrc cx [])
    | _, _, .text h, cx => leaf_act cx h
    | _, _, .elem (ch := ch) (ch' := ch') hs hc, cx => by
      have hn : ch.isEmpty = ch'.isEmpty := by cases hc <;> rfl
      rw [processNode, processNode, hn]
      exact element_act hs _ (fun cx => by rw [nodes_act hc]) cx
  theorem nodes_act : ∀ {ns ns' : List Node}, NodesRead src ns ns' → ∀ cx, nodeActs ns (withSrc cx src) = nodeActs ns' (withSrc cx [])
    | _, _, .nil, _ => rfl
    | _, _, .cons h hs, cx => by
      rw [nodeActs, nodeActs]
      dsimp only
      rw [node_act h, nodes_act hs, read_space h]
end

theorem output_read {d d' : Document} (cfg : OutputConfig) (h : NodesRead src d.nodes d'.nodes) :
    outputHtmlTo src d cfg = outputHtmlTo [] d' cfg := by
  have := nodes_act h { cfg, src := src, indentLevel := 0, fmtInline := false, isRaw := false }
  dsimp only [withSrc] at this
  simp only [outputHtmlTo, processContent]
  rw [this]
  rfl

end Mty.Slices
