import Verif.Proofs.Items
import Verif.Props.Document

/-! # Spaces and interpolations -/

set_option autoImplicit false

namespace Mty
open Build Spec

/-! ## Removing spaces -/

theorem all_append (a b : List Act) : Act.all (a ++ b) = Act.seq (Act.all a) (Act.all b) := by
  induction a with
  | nil =>
    funext fs
    rw [List.nil_append, Act.all, seq_out rfl]
    simp [Act.skip]
  | cons x a ih =>
    rw [List.cons_append, Act.all, Act.all, ih]
    funext fs
    simp only [Act.seq]
    split
    · split <;> simp_all
    · rfl

theorem space_then (cx : OutCx) (s s' : Space) (rest : Act) :
    Act.seq (writeTextLike cx (.space s)) (Act.seq (writeTextLike cx (.space s')) rest) =
      Act.seq (writeTextLike cx (.space s)) rest := by
  funext fs
  have h := (space_weaves (cx := cx) (l := ⟨cx.fmtInline, cx.indentLevel⟩) ⟨rfl, fun _ => rfl⟩ (s := s) fs (piece := fun _ => [])).1
  have h1 : (writeTextLike cx (.space s) fs).fs = true := by
    have := (space_weaves (cx := cx) (l := ⟨cx.fmtInline, cx.indentLevel⟩) ⟨rfl, fun _ => rfl⟩ (s := s) fs (piece := fun _ => [])).2
    generalize writeTextLike cx (.space s) fs = r at this
    obtain ⟨o, f, k⟩ := r
    dsimp only at this ⊢
    cases this with
    | dropped h => cases h; rfl
    | space _ h => cases h; rfl
  rw [seq_out h, seq_out h, h1]
  have h2 : writeTextLike cx (.space s') true = ⟨[], true, true⟩ := rfl
  rw [seq_out (by rw [h2]), h2]
  simp

theorem dropWhile_space_append (a b : List Node) :
    (a ++ b).dropWhile inner.isSpaceNode =
      if (a.dropWhile inner.isSpaceNode).isEmpty then b.dropWhile inner.isSpaceNode
      else a.dropWhile inner.isSpaceNode ++ b := List.dropWhile_append

theorem inner_snoc_space (ns : List Node) (r : Range) (s : Space) : inner (ns ++ [.text r (.space s)]) = inner ns := by
  rw [inner, inner, dropWhile_space_append]
  split
  · rename_i h
    rw [List.isEmpty_iff] at h
    rw [h]; rfl
  · rw [List.reverse_append, List.reverse_singleton, List.singleton_append, List.dropWhile_cons]
    rfl

/-- Content on both sides is kept. -/
theorem inner_double (pre post : List Node) (n n' : Node) (hn : inner.isSpaceNode n = true) (hn' : inner.isSpaceNode n' = true) :
    inner (pre ++ n :: n' :: post) = inner (pre ++ n :: post) ∨
    ∃ a b, inner (pre ++ n :: n' :: post) = a ++ n :: n' :: b ∧ inner (pre ++ n :: post) = a ++ n :: b := by
  have e0 : ∀ l, (n :: l).dropWhile inner.isSpaceNode = l.dropWhile inner.isSpaceNode := by
    intro l; rw [List.dropWhile_cons, if_pos hn]
  have e1 : ∀ l, (n' :: l).dropWhile inner.isSpaceNode = l.dropWhile inner.isSpaceNode := by
    intro l; rw [List.dropWhile_cons, if_pos hn']
  rw [inner, inner, dropWhile_space_append, dropWhile_space_append]
  split
  · left; rw [e0, e1, e0]
  · generalize pre.dropWhile inner.isSpaceNode = p
    rw [List.reverse_append, List.reverse_append, List.reverse_cons, List.reverse_cons, List.reverse_cons,
      List.append_assoc, List.append_assoc, List.append_assoc, dropWhile_space_append post.reverse, dropWhile_space_append post.reverse]
    split
    · left
      simp only [List.singleton_append]
      rw [e1]
    · right
      refine ⟨p, (List.dropWhile inner.isSpaceNode post.reverse).reverse, ?_, ?_⟩ <;> simp

theorem tidied_content {ns ns' : List Node} (h : Tidied ns ns') :
    ns.isEmpty = ns'.isEmpty ∧ ∀ cx, contentActs (nodeActs ns cx) = contentActs (nodeActs ns' cx) := by
  induction h with
  | @first r s ns hne =>
    refine ⟨?_, fun cx => ?_⟩
    · cases ns <;> simp_all
    · rw [contentActs_eq, contentActs_eq]
      rfl
  | @last r s ns hne =>
    refine ⟨?_, fun cx => ?_⟩
    · cases ns <;> simp_all
    · rw [contentActs_eq, contentActs_eq, inner_snoc_space]
  | @double pre r s r' s' post =>
    refine ⟨by cases pre <;> rfl, fun cx => ?_⟩
    rw [contentActs_eq, contentActs_eq]
    rcases inner_double pre post (.text r (.space s)) (.text r' (.space s')) rfl rfl with e | ⟨a, b, e1, e2⟩
    · rw [e]
    · rw [e1, e2]
      simp only [List.map_append, List.map_cons, all_append, Act.all, processNode, space_then]
  | @inside pre r h ch ch' post _ ih =>
    refine ⟨by cases pre <;> rfl, fun cx => ?_⟩
    have : ∀ cx, processNode (.elem r h ch) cx = processNode (.elem r h ch') cx := by
      intro cx
      simp only [processNode, ih.1]
      congr 1
      funext cx'
      exact ih.2 cx'
    have e : nodeActs (pre ++ .elem r h ch :: post) cx = nodeActs (pre ++ .elem r h ch' :: post) cx := by
      rw [nodeActs_eq, nodeActs_eq]
      simp only [List.map_append, List.map_cons, this]
      rfl
    rw [e]

theorem tidied_output {src : Str} {cfg : OutputConfig} {doc : Document} {nodes : List Node} (h : Tidied doc.nodes nodes) :
    outputHtmlTo src doc cfg = outputHtmlTo src { doc with nodes } cfg := by
  simp only [outputHtmlTo, processContent, (tidied_content h).2]

/-! ## Written items -/

theorem written_item {xml : Bool} {src : Str} {i : OutItem} (h : Writable xml src i) (hg : ∀ b s, i ≠ .gap b s) :
    Writes xml src i (pieceOf xml src i) := by
  have key : ∀ s, Exact xml src i s → Writes xml src i (pieceOf xml src i) := by
    intro s hs
    rw [pieceOf_eq hs]
    exact exact_writes hs
  cases i with
  | doctype => exact key _ .doctype
  | start n a e => obtain ⟨_, ha⟩ := h; exact key _ (.start ha)
  | stop n => exact key _ .stop
  | text t v => obtain ⟨_, ht⟩ := h; exact key _ (.text ht)
  | comment s => exact key _ .comment
  | gap b s => exact absurd rfl (hg b s)

theorem weaves_chars {piece : OutItem → Str} {src : Str} {indent : Option Str} {ws ws' : Bool} {items : List OutItem} {out : Str}
    (hi : ∀ s, indent = some s → s.all isBlank = true)
    (hs : ∀ b t, OutItem.gap b (some (.inline (some t))) ∈ items → (t.asStr src).all isBlank = true)
    (h : Weaves piece src indent ws items out ws') :
    out.filter (fun c => !isBlank c) =
      items.flatMap fun i => match i with
        | .gap _ _ => []
        | i => (piece i).filter fun c => !isBlank c := by
  have hb : ∀ w : Str, w.all isBlank = true → w.filter (fun c => !isBlank c) = [] := by
    intro w hw
    rw [List.filter_eq_nil_iff]
    intro c hc
    simp [List.all_eq_true.1 hw c hc]
  have hbr : ∀ (k : Nat) i, indent = some i → ('\n' :: (List.replicate k i).flatten).all isBlank = true := by
    intro k i h
    rw [List.all_cons, Bool.and_eq_true]
    refine ⟨by decide, ?_⟩
    rw [List.all_eq_true]
    intro c hc
    obtain ⟨l, hl, hc⟩ := List.mem_flatten.1 hc
    rw [List.mem_replicate] at hl
    rw [hl.2] at hc
    exact List.all_eq_true.1 (hi i h) c hc
  induction h with
  | nil => rfl
  | doctype _ ih => rw [List.filter_append, List.flatMap_cons, ih fun b t ht => hs b t (List.mem_cons_of_mem _ ht)]
  | start _ ih => rw [List.filter_append, List.flatMap_cons, ih fun b t ht => hs b t (List.mem_cons_of_mem _ ht)]
  | stop _ ih => rw [List.filter_append, List.flatMap_cons, ih fun b t ht => hs b t (List.mem_cons_of_mem _ ht)]
  | comment _ ih => rw [List.filter_append, List.flatMap_cons, ih fun b t ht => hs b t (List.mem_cons_of_mem _ ht)]
  | text _ _ _ ih => rw [List.filter_append, List.flatMap_cons, ih fun b t ht => hs b t (List.mem_cons_of_mem _ ht)]
  | dropped _ ih => rw [List.flatMap_cons, ih fun b t ht => hs b t (List.mem_cons_of_mem _ ht)]; rfl
  | noBreak _ _ ih => rw [List.flatMap_cons, ih fun b t ht => hs b t (List.mem_cons_of_mem _ ht)]; rfl
  | break_ h1 _ _ ih =>
    rw [List.filter_append, List.flatMap_cons, ih fun b t ht => hs b t (List.mem_cons_of_mem _ ht), hb _ (hbr _ _ h1)]
  | space h1 _ ih =>
    rw [List.filter_append, List.flatMap_cons, ih fun b t ht => hs b t (List.mem_cons_of_mem _ ht)]
    congr 1
    cases h1 with
    | written => exact hb _ (hs _ _ (List.mem_cons_self ..))
    | blank => exact hb _ (by decide)
    | unbroken => exact hb _ (by decide)
    | broken _ h2 _ => exact hb _ (hbr _ _ h2)

/-! ## Spaces -/

mutual
  theorem nodeItems_gap (xml : Bool) (src : Str) (b : Margin) (s : Space) : ∀ (raw : Bool) (inl : Margin) (n : Node),
      .gap b (some s) ∈ nodeItems xml src raw inl n → .space s ∈ nodeTexts n
    | raw, inl, .text _ (.text t), h => by simp [nodeItems] at h
    | raw, inl, .text _ (.comment t), h => by simp [nodeItems] at h
    | raw, inl, .text _ (.space t), h => by simp [nodeItems] at h; simp [nodeTexts, h.2]
    | raw, inl, .elem r h ch, hm => by
      rw [nodeTexts]
      have key : ∀ raw inl, .gap b (some s) ∈ trimSpaces (contentItems xml src raw inl ch) → .space s ∈ nodesTexts ch := by
        intro raw inl h
        rw [trimSpaces_eq, List.mem_flatMap] at h
        obtain ⟨n, hn, h⟩ := h
        exact nodesItems_gap xml src b s raw inl ch n (inner_mem hn) h
      rw [nodeItems] at hm
      split at hm
      · exact key _ _ hm
      · split at hm
        · simp at hm
        · split at hm <;> split at hm <;> simp at hm
          · exact key _ _ hm
          · exact key _ _ hm
  theorem nodesItems_gap (xml : Bool) (src : Str) (b : Margin) (s : Space) : ∀ (raw : Bool) (inl : Margin) (ns : List Node), ∀ n ∈ ns,
      .gap b (some s) ∈ nodeItems xml src raw inl n → .space s ∈ nodesTexts ns
    | _, _, [], n, hn, _ => by simp at hn
    | raw, inl, m :: ms, n, hn, h => by
      rw [nodesTexts, List.mem_append]
      rcases List.mem_cons.1 hn with e | hn
      · exact .inl (nodeItems_gap xml src b s raw inl m (e ▸ h))
      · exact .inr (nodesItems_gap xml src b s raw inl ms n hn h)
end

theorem documentItems_gap {cfg : OutputConfig} {src : Str} {doc : Document} {b : Margin} {s : Space}
    (h : .gap b (some s) ∈ documentItems cfg src doc) : .space s ∈ nodesTexts doc.nodes := by
  rw [documentItems, trimSpaces_eq] at h
  simp only [List.mem_append, List.mem_singleton] at h
  rcases h with (h | h) | h
  · split at h <;> simp at h
  · obtain ⟨n, hn, h⟩ := List.mem_flatMap.1 h
    exact nodesItems_gap _ src b s _ _ doc.nodes n (inner_mem hn) h
  · cases h

section
variable {src : Str} {ast : Ast.Document} {e e' : Errors} {doc : Document} {cfg : OutputConfig}

theorem transform_spaces (h : fromAst src ast e = (some doc, e')) {t : TextSlice}
    (ht : .space (.inline (some t)) ∈ nodesTexts (transformDocument doc src cfg).nodes) :
    .space (.inline (some t)) ∈ nodesTexts doc.nodes := by
  rw [transform_texts cfg h] at ht
  obtain ⟨y, hy, hyt⟩ := List.mem_map.1 ht
  have : y = .space (.inline (some t)) := by
    cases y with
    | text t => cases hyt
    | space s => exact hyt
    | comment s => simp only [metaTextLike] at hyt; split at hyt <;> cases hyt
  subst this
  rcases toInfer_texts src cfg doc with ⟨-, h1⟩ | h1 | h1
  · rwa [h1] at hy
  · exact h1.mem_iff.1 hy
  · rcases List.mem_cons.1 (h1.mem_iff.1 hy) with h | h
    · cases h
    · exact h

/-! ## Interpolations -/

/-- The characters of an interpolation. -/
def rawOf (src : Str) : TextLike → Option Str
  | .text t => if t.raw then some (t.slice.asStr src) else none
  | _ => none

/-- Is it an interpolation? -/
def isInterpolation : OutItem → Bool
  | .text t _ => t.raw
  | _ => false

theorem interpolations_append (src : Str) (a b : List Leaf) :
    interpolations src (a ++ b) = interpolations src a ++ interpolations src b := List.filterMap_append

mutual
  theorem nodeLeaves_raw (src : Str) (strict : Prop) : ∀ n : Node, (∀ x ∈ nodeTexts n, KnownText src strict x) →
      interpolations src (docNodeLeaves n) = (nodeTexts n).filterMap (rawOf src)
    | .text _ (.text t), h => by
      obtain ⟨⟨r, hr⟩, -⟩ := h (.text t) (by simp [nodeTexts])
      cases ht : t.raw with
      | true => simp [docNodeLeaves, nodeTexts, interpolations, rawOf, ht, hr, sliceRange, TextSlice.asStr]
      | false => simp [docNodeLeaves, nodeTexts, interpolations, rawOf, ht]
    | .text _ (.comment s), _ => by simp [docNodeLeaves, nodeTexts, interpolations, rawOf]
    | .text _ (.space s), _ => by simp [docNodeLeaves, nodeTexts, interpolations, rawOf]
    | .elem _ _ ch, h => by
      rw [docNodeLeaves, nodeTexts]
      exact docLeaves_raw src strict ch h
  theorem docLeaves_raw (src : Str) (strict : Prop) : ∀ ns : List Node, (∀ x ∈ nodesTexts ns, KnownText src strict x) →
      interpolations src (docLeaves ns) = (nodesTexts ns).filterMap (rawOf src)
    | [], _ => rfl
    | n :: ns, h => by
      rw [docLeaves, nodesTexts, interpolations_append, List.filterMap_append,
        nodeLeaves_raw src strict n fun x hx => h x (by rw [nodesTexts]; exact List.mem_append_left _ hx),
        docLeaves_raw src strict ns fun x hx => h x (by rw [nodesTexts]; exact List.mem_append_right _ hx)]
end

theorem fromAst_interpolations (h : fromAst src ast e = (some doc, e')) :
    interpolations src (astLeaves false ast) = (nodesTexts doc.nodes).filterMap (rawOf src) := by
  rw [← C11_content_exact src ast _ _ doc h]
  exact docLeaves_raw src _ _ (fromAst_texts h)

theorem transform_interpolations (h : fromAst src ast e = (some doc, e')) :
    (nodesTexts (transformDocument doc src cfg).nodes).filterMap (rawOf src) =
      (nodesTexts (toInfer cfg src doc)).filterMap (rawOf src) := by
  rw [transform_texts cfg h, List.filterMap_map]
  congr 1
  funext x
  cases x with
  | text t => rfl
  | space s => rfl
  | comment s => simp only [Function.comp, metaTextLike]; split <;> rfl

theorem toInfer_interpolations :
    ((nodesTexts (toInfer cfg src doc)).filterMap (rawOf src)).Perm ((nodesTexts doc.nodes).filterMap (rawOf src)) ∧
    (cfg.completePage.getD false = false →
      (nodesTexts (toInfer cfg src doc)).filterMap (rawOf src) = (nodesTexts doc.nodes).filterMap (rawOf src)) := by
  refine ⟨?_, fun hc => ?_⟩
  · rcases toInfer_texts src cfg doc with ⟨-, h1⟩ | h1 | h1
    · rw [h1]
    · exact h1.filterMap _
    · exact h1.filterMap _
  · have : nodesTexts (toInfer cfg src doc) = nodesTexts doc.nodes := by
      rw [toInfer, hc]; exact specialNodes_texts _ _
    rw [this]

mutual
  theorem nodeTextModes_raw (xml : Bool) : ∀ (raw : Bool) (n : Node), ∀ p ∈ nodeTextModes xml raw n, p.1.raw = true → p.2 = true
    | raw, .text _ (.text t), p, hp, h => by
      simp only [nodeTextModes, List.mem_singleton] at hp; subst hp; simp at h; simp [h]
    | raw, .text _ (.comment _), p, hp, h => by simp [nodeTextModes] at hp
    | raw, .text _ (.space _), p, hp, h => by simp [nodeTextModes] at hp
    | raw, .elem _ _ ch, p, hp, h => by
      rw [nodeTextModes] at hp
      exact nodesTextModes_raw xml _ ch p hp h
  theorem nodesTextModes_raw (xml : Bool) : ∀ (raw : Bool) (ns : List Node), ∀ p ∈ nodesTextModes xml raw ns,
      p.1.raw = true → p.2 = true
    | _, [], p, hp, _ => by simp [nodesTextModes] at hp
    | raw, n :: ns, p, hp, h => by
      rw [nodesTextModes, List.mem_append] at hp
      exact hp.elim (fun hp => nodeTextModes_raw xml raw n p hp h) (fun hp => nodesTextModes_raw xml raw ns p hp h)
end

mutual
  theorem nodeTextModes_xml : ∀ (raw : Bool) (n : Node), ∀ p ∈ nodeTextModes true raw n, p.2 = p.1.raw
    | raw, .text _ (.text t), p, hp => by
      simp only [nodeTextModes, List.mem_singleton] at hp; subst hp; simp
    | raw, .text _ (.comment _), p, hp => by simp [nodeTextModes] at hp
    | raw, .text _ (.space _), p, hp => by simp [nodeTextModes] at hp
    | raw, .elem _ _ ch, p, hp => by
      rw [nodeTextModes] at hp
      exact nodesTextModes_xml _ ch p hp
  theorem nodesTextModes_xml : ∀ (raw : Bool) (ns : List Node), ∀ p ∈ nodesTextModes true raw ns, p.2 = p.1.raw
    | _, [], p, hp => by simp [nodesTextModes] at hp
    | raw, n :: ns, p, hp => by
      rw [nodesTextModes, List.mem_append] at hp
      exact hp.elim (nodeTextModes_xml raw n p) (nodesTextModes_xml raw ns p)
end

/-- The pieces of interpolations. -/
theorem interpolation_pieces {strict : Prop} {piece : OutItem → Str} {doc : Document}
    (hk : ∀ x ∈ nodesTexts doc.nodes, KnownText src strict x)
    (hpc : ∀ i ∈ documentItems cfg src doc, (∀ b s, i ≠ .gap b s) → Writes cfg.isXml src i (piece i)) :
    ((documentItems cfg src doc).filter isInterpolation).map piece = (nodesTexts doc.nodes).filterMap (rawOf src) := by
  have h1 : ((documentItems cfg src doc).filter isInterpolation).map piece =
      (itemTexts (documentItems cfg src doc)).filterMap (fun p => rawOf src (.text p.1)) := by
    rw [itemTexts, List.filterMap_filterMap, ← List.filterMap_eq_map, List.filterMap_filter]
    apply List.filterMap_congr
    intro i hi
    cases i with
    | text t v =>
      cases ht : t.raw with
      | false => simp [isInterpolation, rawOf, ht]
      | true =>
        have hm : (t, v) ∈ itemTexts (documentItems cfg src doc) := List.mem_filterMap.2 ⟨_, hi, rfl⟩
        rw [documentItems_texts] at hm
        have hv := nodesTextModes_raw _ _ _ _ hm ht
        simp only at hv
        subst hv
        have hm2 : t ∈ (nodesTextModes cfg.isXml false doc.nodes).map (·.1) := List.mem_map.2 ⟨_, hm, rfl⟩
        rw [nodesTextModes_fst] at hm2
        obtain ⟨x, hx, he⟩ := List.mem_filterMap.1 hm2
        cases x with
        | text t' =>
          simp only [Option.some.injEq] at he
          subst he
          obtain ⟨hu, hml⟩ := (hk _ hx).2.2 ht
          have hw := hpc _ hi (by simp)
          have : ∀ o, Writes cfg.isXml src (.text t' true) o → o = t'.slice.asStr src := by
            intro o hw
            cases hw with
            | verbatim hw =>
              cases hw with
              | plain _ h => simpa [hu] using h
              | block h => rw [hml] at h; cases h
              | short h => rw [hml] at h; cases h
          simp [isInterpolation, rawOf, ht, this _ hw]
        | _ => simp at he
    | _ => simp [isInterpolation]
  rw [h1, documentItems_texts]
  have h2 : ∀ l : List (Text × Bool), l.filterMap (fun p => rawOf src (.text p.1)) =
      (l.map (·.1)).filterMap (fun t => rawOf src (.text t)) := by
    intro l; rw [List.filterMap_map]; rfl
  rw [h2, nodesTextModes_fst, List.filterMap_filterMap]
  congr 1
  funext x
  cases x <;> rfl

end

/-! ## Attributes without backslashes -/

theorem unescapes_self {s : Str} (h : '\\' ∉ s) : Unescapes Accepted s s := by
  induction s with
  | nil => exact .nil
  | cons c s ih =>
    simp only [List.mem_cons, not_or] at h
    exact .plain (fun e => h.1 e.symm) (ih h.2)

theorem forall2_self {α β : Type} {R : α → β → Prop} (f : α → β) (l : List α) (h : ∀ a ∈ l, R a (f a)) :
    List.Forall₂ R l (l.map f) := by
  induction l with
  | nil => exact .nil
  | cons a l ih => exact .cons (h a (List.mem_cons_self ..)) (ih fun b hb => h b (List.mem_cons_of_mem _ hb))

theorem attrsRead_plain {xml : Bool} {src : Str} {items : List SelectorItem}
    (h1 : ∀ s ∈ idsOf items ++ classesOf items, '\\' ∉ s.asStr src)
    (h2 : ∀ a ∈ attributesOf items, '\\' ∉ a.name.asStr src ∧ ∀ v, a.value = some v → '\\' ∉ v.asStr src) :
    ∃ attrs, AttrsRead xml src items attrs := by
  refine ⟨_, .mk (forall2_self (fun s => s.asStr src) _ ?_) (forall2_self (fun s => s.asStr src) _ ?_)
    (forall2_self (fun a => (a.name.asStr src,
      match a.value with | some v => some (v.asStr src) | none => if xml then some [] else none)) _ ?_)⟩
  · exact fun s hs => unescapes_self (h1 s (List.mem_append_left _ (List.mem_of_mem_take hs)))
  · exact fun s hs => unescapes_self (h1 s (List.mem_append_right _ hs))
  · intro a ha
    obtain ⟨g1, g2⟩ := h2 a ha
    refine ⟨unescapes_self g1, ?_⟩
    cases hv : a.value with
    | none => rfl
    | some v => exact ⟨_, rfl, unescapes_self (g2 v hv)⟩

end Mty
