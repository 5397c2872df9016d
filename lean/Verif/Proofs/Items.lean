import Verif.Proofs.Texts
import Verif.Proofs.Clean

/-! # The items of a document -/

set_option autoImplicit false

namespace Mty
open Spec

theorem inner_flatMap {β : Type} (f : Node → List β) (hf : ∀ n, inner.isSpaceNode n = true → f n = []) (ns : List Node) :
    (inner ns).flatMap f = ns.flatMap f := by
  have dw : ∀ l : List Node, (l.dropWhile inner.isSpaceNode).flatMap f = l.flatMap f := by
    intro l
    induction l with
    | nil => rfl
    | cons n l ih =>
      rw [List.dropWhile_cons]
      split
      · rename_i h; rw [ih, List.flatMap_cons, hf n h, List.nil_append]
      · rfl
  have rev : ∀ m : List Node, ((m.dropWhile inner.isSpaceNode).reverse).flatMap f = m.reverse.flatMap f := by
    intro m
    induction m with
    | nil => rfl
    | cons n l ih =>
      rw [List.dropWhile_cons]
      split
      · rename_i h; rw [ih, List.reverse_cons, List.flatMap_append]; simp [hf n h]
      · rfl
  rw [inner, rev, List.reverse_reverse, dw]

theorem isSpace_items {n : Node} (h : inner.isSpaceNode n = true) : ∃ r s, n = .text r (.space s) := by
  match n, h with
  | .text r (.space s), _ => exact ⟨r, s, rfl⟩

theorem trimSpaces_select {β : Type} (sel : OutItem → Option β) (hg : ∀ i s, sel (.gap i s) = none)
    (xml : Bool) (src : Str) (raw : Bool) (inl : Margin) (ch : List Node) :
    (trimSpaces (contentItems xml src raw inl ch)).filterMap sel =
      ch.flatMap fun n => (nodeItems xml src raw inl n).filterMap sel := by
  rw [trimSpaces_eq, List.filterMap_flatMap, inner_flatMap]
  intro n hn
  obtain ⟨r, s, rfl⟩ := isSpace_items hn
  simp [nodeItems, hg]

/-- The margin of the content of an element. -/
def contentMargin (src : Str) (l : Margin) (h : EHead) : Margin :=
  match namedBy h with
  | none => ⟨(onOneLine h), l.depth⟩
  | some (n, _) => l.inside (onOneLine h) (n.asStr src)

/-- What is selected from an element that comes from its content. -/
theorem elem_select {β : Type} (sel : OutItem → Option β) (hg : ∀ i s, sel (.gap i s) = none)
    (hs : ∀ n i e, sel (.start n i e) = none) (he : ∀ n, sel (.stop n) = none)
    (xml : Bool) (src : Str) (raw : Bool) (inl : Margin) (r : Range) (h : EHead) (ch : List Node) :
    (nodeItems xml src raw inl (.elem r h ch)).filterMap sel =
      ch.flatMap fun n => (nodeItems xml src (raw || h.isRaw) (contentMargin src inl h) n).filterMap sel := by
  rw [nodeItems, contentMargin]
  rcases hn : namedBy h with _ | ⟨n, s⟩ <;> dsimp only
  · exact trimSpaces_select sel hg ..
  · split
    · rename_i hx
      have : ch = [] := by simp at hx; exact hx.2
      subst this
      simp [hs]
    · rw [List.filterMap_cons, hs, List.filterMap_append]
      have e2 : ∀ (b : Bool) (m : Str), (if b then [] else [OutItem.stop m]).filterMap sel = [] := by
        intro b m; cases b <;> simp [he]
      rw [e2, List.append_nil]
      cases ch with
      | nil => simp
      | cons n ns =>
        rw [if_neg (by simp)]
        simp only [List.filterMap_append, List.filterMap_cons, hg, List.filterMap_nil, List.append_nil]
        exact trimSpaces_select sel hg ..

theorem documentItems_select {β : Type} (sel : OutItem → Option β) (hg : ∀ i s, sel (.gap i s) = none)
    (hd : sel .doctype = none) (cfg : OutputConfig) (src : Str) (doc : Document) :
    (documentItems cfg src doc).filterMap sel =
      doc.nodes.flatMap fun n => (nodeItems cfg.isXml src false ⟨false, 0⟩ n).filterMap sel := by
  have hx : (decide (cfg.xml = some true)) = cfg.isXml := by rw [OutputConfig.isXml, Bool.eq_iff_iff]; simp
  rw [documentItems, hx, List.filterMap_append, List.filterMap_append, trimSpaces_select _ hg]
  have e1 : ∀ b : Bool, (if b then [OutItem.doctype] else []).filterMap sel = [] := by
    intro b; cases b <;> simp [hd]
  simp [e1, hg]

mutual
  theorem nodeItems_texts (xml : Bool) (src : Str) : ∀ (raw : Bool) (inl : Margin) (n : Node),
      itemTexts (nodeItems xml src raw inl n) = nodeTextModes xml raw n
    | raw, inl, .text _ (.text t) => by simp [nodeItems, itemTexts, nodeTextModes]
    | raw, inl, .text _ (.comment s) => by simp [nodeItems, itemTexts, nodeTextModes]
    | raw, inl, .text _ (.space s) => by simp [nodeItems, itemTexts, nodeTextModes]
    | raw, inl, .elem r h ch => by
      rw [itemTexts, elem_select _ (fun _ _ => rfl) (fun _ _ _ => rfl) (fun _ => rfl), nodeTextModes]
      exact nodesItems_texts xml src _ _ ch
  theorem nodesItems_texts (xml : Bool) (src : Str) : ∀ (raw : Bool) (inl : Margin) (ns : List Node),
      ns.flatMap (fun n => itemTexts (nodeItems xml src raw inl n)) = nodesTextModes xml raw ns
    | _, _, [] => rfl
    | raw, inl, n :: ns => by
      rw [List.flatMap_cons, nodeItems_texts xml src raw inl n, nodesItems_texts xml src raw inl ns, nodesTextModes]
end

/-- The texts that are written. -/
theorem documentItems_texts (cfg : OutputConfig) (src : Str) (doc : Document) :
    itemTexts (documentItems cfg src doc) = nodesTextModes cfg.isXml false doc.nodes := by
  rw [itemTexts, documentItems_select _ (fun _ _ => rfl) rfl]
  exact nodesItems_texts cfg.isXml src false ⟨false, 0⟩ doc.nodes

mutual
  theorem nodeItems_comments (xml : Bool) (src : Str) : ∀ (raw : Bool) (inl : Margin) (n : Node),
      itemComments (nodeItems xml src raw inl n) = (nodeTexts n).filterMap fun | .comment s => some s | _ => none
    | raw, inl, .text _ (.text t) => by simp [nodeItems, itemComments, nodeTexts]
    | raw, inl, .text _ (.comment s) => by simp [nodeItems, itemComments, nodeTexts]
    | raw, inl, .text _ (.space s) => by simp [nodeItems, itemComments, nodeTexts]
    | raw, inl, .elem r h ch => by
      rw [itemComments, elem_select _ (fun _ _ => rfl) (fun _ _ _ => rfl) (fun _ => rfl), nodeTexts]
      exact nodesItems_comments xml src _ _ ch
  theorem nodesItems_comments (xml : Bool) (src : Str) : ∀ (raw : Bool) (inl : Margin) (ns : List Node),
      ns.flatMap (fun n => itemComments (nodeItems xml src raw inl n)) =
        (nodesTexts ns).filterMap fun | .comment s => some s | _ => none
    | _, _, [] => rfl
    | raw, inl, n :: ns => by
      rw [List.flatMap_cons, nodeItems_comments xml src raw inl n, nodesItems_comments xml src raw inl ns, nodesTexts,
        List.filterMap_append]
end

/-- The comments that are written. -/
theorem documentItems_comments (cfg : OutputConfig) (src : Str) (doc : Document) :
    itemComments (documentItems cfg src doc) = (nodesTexts doc.nodes).filterMap fun | .comment s => some s | _ => none := by
  rw [itemComments, documentItems_select _ (fun _ _ => rfl) rfl]
  exact nodesItems_comments cfg.isXml src false ⟨false, 0⟩ doc.nodes

mutual
  theorem nodeTextModes_fst (xml : Bool) : ∀ (raw : Bool) (n : Node),
      (nodeTextModes xml raw n).map (·.1) = (nodeTexts n).filterMap fun | .text t => some t | _ => none
    | raw, .text _ (.text t) => rfl
    | raw, .text _ (.comment s) => rfl
    | raw, .text _ (.space s) => rfl
    | raw, .elem r h ch => by rw [nodeTextModes, nodeTexts, nodesTextModes_fst xml _ ch]
  theorem nodesTextModes_fst (xml : Bool) : ∀ (raw : Bool) (ns : List Node),
      (nodesTextModes xml raw ns).map (·.1) = (nodesTexts ns).filterMap fun | .text t => some t | _ => none
    | _, [] => rfl
    | raw, n :: ns => by
      rw [nodesTextModes, nodesTexts, List.map_append, List.filterMap_append, nodeTextModes_fst xml raw n,
        nodesTextModes_fst xml raw ns]
end

/-! ## Start tags -/

theorem namedBy_selectors {h : EHead} (hl : h.selectors.length ≤ 1) :
    h.selectors.filterMap (fun s => s.tag.name.map fun n => (n, s.items)) =
      ((namedBy h).map fun p => (p.1, p.2.items)).toList := by
  unfold namedBy
  rcases hs : h.selectors with _ | ⟨s, _ | ⟨s2, ss⟩⟩
  · rfl
  · cases hn : s.tag.name <;> simp [hn]
  · rw [hs] at hl; simp at hl

mutual
  theorem nodeItems_starts (xml : Bool) (src : Str) : ∀ (raw : Bool) (inl : Margin) (n : Node), SingleSelectors n →
      itemStarts (nodeItems xml src raw inl n) = (namedSelectors [n]).map fun p => (p.1.asStr src, p.2)
    | raw, inl, .text _ (.text t), _ => by simp [nodeItems, itemStarts, namedSelectors, nodesSelectors, nodeSelectors]
    | raw, inl, .text _ (.comment s), _ => by simp [nodeItems, itemStarts, namedSelectors, nodesSelectors, nodeSelectors]
    | raw, inl, .text _ (.space s), _ => by simp [nodeItems, itemStarts, namedSelectors, nodesSelectors, nodeSelectors]
    | raw, inl, .elem r h ch, hs => by
      have hch : ∀ (raw : Bool) (inl : Margin), itemStarts (trimSpaces (contentItems xml src raw inl ch)) =
          (namedSelectors ch).map fun p => (p.1.asStr src, p.2) := by
        intro raw inl
        rw [itemStarts, trimSpaces_select _ (fun _ _ => rfl)]
        exact nodesItems_starts xml src _ _ ch (by cases hs with | elem _ h => exact h)
      have hl : h.selectors.length ≤ 1 := by cases hs with | elem h _ => exact h
      have hns : namedSelectors [.elem r h ch] = ((namedBy h).map fun p => (p.1, p.2.items)).toList ++ namedSelectors ch := by
        rw [← namedBy_selectors hl]
        simp only [namedSelectors, nodesSelectors, nodeSelectors, List.append_nil, List.filterMap_append]
      rw [hns, nodeItems]
      cases hn : namedBy h with
      | none => simpa using hch _ _
      | some p =>
        obtain ⟨n, s⟩ := p
        dsimp only
        split
        · rename_i hx
          have : ch = [] := by simp at hx; exact hx.2
          subst this
          simp [itemStarts, namedSelectors, nodesSelectors]
        · have h1 := hch (raw || h.isRaw) (inl.inside (onOneLine h) (n.asStr src))
          have e2 : ∀ (b : Bool) (m : Str), itemStarts (if b then [] else [OutItem.stop m]) = [] := by
            intro b m; cases b <;> rfl
          have e3 : ∀ a b, itemStarts (a ++ b) = itemStarts a ++ itemStarts b := fun a b => List.filterMap_append
          have e4 : ∀ n i e l, itemStarts (.start n i e :: l) = (n, i) :: itemStarts l := fun _ _ _ _ => by
            simp [itemStarts]
          have e5 : ∀ i s l, itemStarts (.gap i s :: l) = itemStarts l := fun _ _ _ => by simp [itemStarts]
          rw [e4, e3, e2, List.append_nil]
          simp only [Option.map_some, Option.toList_some, List.singleton_append, List.map_cons, List.cons.injEq, true_and]
          cases ch with
          | nil => simp [itemStarts, namedSelectors, nodesSelectors]
          | cons m ms =>
            rw [if_neg (by simp), e3, e5, h1]
            simp [itemStarts]
  theorem nodesItems_starts (xml : Bool) (src : Str) : ∀ (raw : Bool) (inl : Margin) (ns : List Node), (∀ n ∈ ns, SingleSelectors n) →
      ns.flatMap (fun n => itemStarts (nodeItems xml src raw inl n)) = (namedSelectors ns).map fun p => (p.1.asStr src, p.2)
    | _, _, [], _ => rfl
    | raw, inl, n :: ns, h => by
      rw [List.flatMap_cons, nodeItems_starts xml src raw inl n (h n (List.mem_cons_self ..)),
        nodesItems_starts xml src raw inl ns (fun m hm => h m (List.mem_cons_of_mem _ hm)), namedSelectors_cons n ns,
        List.map_append]
end

theorem documentItems_starts (cfg : OutputConfig) (src : Str) (doc : Document) (hs : ∀ n ∈ doc.nodes, SingleSelectors n) :
    itemStarts (documentItems cfg src doc) = (namedSelectors doc.nodes).map fun p => (p.1.asStr src, p.2) := by
  rw [itemStarts, documentItems_select _ (fun _ _ => rfl) rfl]
  exact nodesItems_starts cfg.isXml src false ⟨false, 0⟩ doc.nodes hs

theorem singles_of {ns : List Node} (h : ∀ n ∈ ns, SingleSelectors n) : Singles ns := by
  have key : ∀ n, SingleSelectors n → Single n := by
    intro n h
    induction h with
    | text => trivial
    | elem h1 _ ih => exact ⟨h1, singles_iff.2 ih⟩
  exact singles_iff.2 fun n hn => key n (h n hn)

/-! ## Contained pieces -/

theorem contains_prefix {ps : List Str} {s : Str} (a : Str) (h : Contains ps s) : Contains ps (a ++ s) := by
  cases h with
  | nil => exact .nil
  | @cons p ps b s h =>
    have := Contains.cons (p := p) (a := a ++ b) h
    simpa using this

/-- The pieces of selected items are found in the output. -/
theorem weaves_contains {piece : OutItem → Str} {src : Str} {indent : Option Str} {ws ws' : Bool} {items : List OutItem}
    {out : Str} (h : Weaves piece src indent ws items out ws') (sel : OutItem → Bool) (hg : ∀ i s, sel (.gap i s) = false) :
    Contains ((items.filter sel).map piece) out := by
  have key : ∀ (i : OutItem) (is : List OutItem) (o : Str), Contains ((is.filter sel).map piece) o →
      Contains (((i :: is).filter sel).map piece) (piece i ++ o) := by
    intro i is o h
    rw [List.filter_cons]
    split
    · rw [List.map_cons]
      exact Contains.cons (a := []) h
    · exact contains_prefix _ h
  have skip : ∀ (b : Margin) (s : Option Space) (is : List OutItem) (a o : Str), Contains ((is.filter sel).map piece) o →
      Contains (((OutItem.gap b s :: is).filter sel).map piece) (a ++ o) := by
    intro b s is a o h
    rw [List.filter_cons, if_neg (by simp [hg])]
    exact contains_prefix _ h
  induction h with
  | nil => exact .nil
  | doctype _ ih => exact key _ _ _ ih
  | start _ ih => exact key _ _ _ ih
  | stop _ ih => exact key _ _ _ ih
  | comment _ ih => exact key _ _ _ ih
  | text _ _ _ ih => exact key _ _ _ ih
  | dropped _ ih => exact skip _ _ _ [] _ ih
  | space _ _ ih => exact skip _ _ _ _ _ ih
  | noBreak _ _ ih => exact skip _ _ _ [] _ ih
  | break_ _ _ _ ih => exact skip _ _ _ _ _ ih

end Mty
