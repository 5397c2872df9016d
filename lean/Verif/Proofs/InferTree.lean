import Verif.Proofs.Plain

/-! # Consequences of the tables of inference -/

set_option autoImplicit false

namespace Mty
open Spec

/-- Paragraphs without a name have no selector. -/
inductive PlainTree : Tree → Prop
  | leaf {t} : PlainTree (.leaf t)
  | elem {f raw fmt sel ch} : (f = some .paragraph → sel = none) → (∀ t ∈ ch, PlainTree t) →
      PlainTree (.elem f raw fmt sel ch)

theorem chainTree_plain (src : Str) (h : EHead) (hp : h.ty = .paragraph → h.selectors = []) (kids : List Tree)
    (hk : ∀ t ∈ kids, PlainTree t) : ∀ ss, (h.selectors = [] → ss = []) → PlainTree (chainTree src h ss kids)
  | [], _ => by rw [chainTree]; exact .elem (by simp) hk
  | [s], hs => by
    rw [chainTree]
    refine .elem (fun e => ?_) hk
    have : h.ty = .paragraph := by
      revert e; unfold formOf; split <;> simp_all
    have := hs (hp this)
    simp at this
  | s :: s2 :: ss, hs => by
    rw [chainTree]
    refine .elem (fun e => ?_) ?_
    · have : h.ty = .paragraph := by
        revert e; unfold formOf; split <;> simp_all
      have := hs (hp this)
      simp at this
    · simp only [List.mem_singleton, forall_eq]
      exact chainTree_plain src h hp kids hk (s2 :: ss) fun e => by have := hs e; simp at this

theorem treeOf_plain (src : Str) {n : Node} (h : PlainParagraphs n) : PlainTree (treeOf src n) := by
  induction h with
  | text => exact .leaf
  | elem h1 h2 ih =>
    rw [treeOf]
    refine chainTree_plain src _ h1 _ ?_ _ fun e => e
    rw [forestOf_eq]
    intro t ht
    obtain ⟨c, hc, rfl⟩ := List.mem_map.1 ht
    exact ih c hc

theorem inferForest_forall₂ {R : Tree → Tree → Prop} (c : Context) (p g : Option Str) :
    ∀ (ts : List Tree) (first : Bool), (∀ t ∈ ts, ∀ fi la, R t (inferTree c p g fi la t)) →
      List.Forall₂ R ts (inferForest c p g first ts)
  | [], _, _ => by simp [inferForest]
  | t :: ts, first, h => by
    rw [inferForest]
    exact .cons (h t (List.mem_cons_self ..) _ _) (inferForest_forall₂ c p g ts false fun x hx => h x (List.mem_cons_of_mem _ hx))

theorem inferForest_forall {P : Tree → Prop} (c : Context) (p g : Option Str) :
    ∀ (ts : List Tree) (first : Bool), (∀ t ∈ ts, ∀ fi la, P (inferTree c p g fi la t)) →
      ∀ t ∈ inferForest c p g first ts, P t
  | [], _, _ => by simp [inferForest]
  | t :: ts, first, h => by
    rw [inferForest]
    intro x hx
    rcases List.mem_cons.1 hx with rfl | hx
    · exact h t (List.mem_cons_self ..) _ _
    · exact inferForest_forall c p g ts false (fun x hx => h x (List.mem_cons_of_mem _ hx)) x hx

/-- Induction over trees. -/
theorem Tree.ind {P : Tree → Prop} (leaf : ∀ t, P (.leaf t))
    (elem : ∀ f raw fmt sel ch, (∀ t ∈ ch, P t) → P (.elem f raw fmt sel ch)) : ∀ t, P t
  | .leaf t => leaf t
  | .elem f raw fmt sel ch => elem f raw fmt sel ch fun t _ => Tree.ind leaf elem t

theorem namedSel_named {c : Context} {f : Option Form} {fi la th : Bool} (n : Str) (items : List SelectorItem) :
    namedSel c f fi la th (some (some n, items)) = some (some n, items) := rfl

theorem namedSel_cases (c : Context) (f : Option Form) (fi la th : Bool)
    (sel : Option (Option Str × List SelectorItem)) (hs : sel.bind (·.1) = none) :
    (nameIn c f fi la th = none ∧ namedSel c f fi la th sel = sel) ∨
    (nameIn c f fi la th = some "" ∧ namedSel c f fi la th sel = none) ∨
    (∃ t, t ≠ "" ∧ nameIn c f fi la th = some t ∧
      namedSel c f fi la th sel = some (some t.toList, (sel.map (·.2)).getD [])) := by
  cases ht : nameIn c f fi la th with
  | none =>
    left
    refine ⟨rfl, ?_⟩
    unfold namedSel
    split
    · simp at hs
    · rw [ht]
  | some t =>
    right
    by_cases h0 : t = ""
    · left
      subst h0
      refine ⟨rfl, ?_⟩
      unfold namedSel
      split
      · simp at hs
      · rw [ht]; simp
    · right
      exact ⟨t, h0, rfl, namedSel_fill ht h0 hs⟩

theorem inferTree_kept : ∀ (t : Tree), PlainTree t → ∀ (c : Context) (p g : Option Str) (fi la : Bool),
    Kept t (inferTree c p g fi la t) := by
  refine Tree.ind (fun t _ c p g fi la => by rw [inferTree]; exact .leaf) ?_
  intro f raw fmt sel ch ih hp c p g fi la
  cases hp with
  | elem h1 h2 =>
    rw [inferTree]
    refine .elem ?_ ?_ ?_ (inferForest_forall₂ _ _ _ _ _ fun t ht fi la => ih t ht (h2 t ht) _ _ _ _ _)
    · rintro n items rfl; rfl
    · rintro items rfl
      rcases namedSel_cases c f fi la (decide (g = some "thead".toList)) (some (none, items)) rfl with
        ⟨_, h⟩ | ⟨h, _⟩ | ⟨t, _, _, h⟩
      · exact ⟨_, h⟩
      · have := h1 (nameIn_empty h); simp at this
      · exact ⟨_, h⟩
    · rintro rfl
      rcases namedSel_cases c f fi la (decide (g = some "thead".toList)) none rfl with
        ⟨_, h⟩ | ⟨_, h⟩ | ⟨t, _, _, h⟩
      · exact .inl h
      · exact .inl h
      · exact .inr ⟨_, h⟩

theorem nameIn_some (c : Context) (f : Form) (fi la th : Bool) :
    (∃ t, t ≠ "" ∧ nameIn c (some f) fi la th = some t) ∨ (c = .paragraph ∧ f = .paragraph ∧
      nameIn c (some f) fi la th = some "") ∨ (c = .picture ∧ f ≠ .line ∧ nameIn c (some f) fi la th = none) := by
  cases c <;> cases f <;> cases fi <;> cases la <;> cases th <;> simp [nameIn]

theorem inferTree_decided : ∀ (t : Tree), PlainTree t → ∀ (c : Context) (p g : Option Str) (fi la : Bool),
    Decided c (inferTree c p g fi la t) := by
  refine Tree.ind (fun t _ c p g fi la => by rw [inferTree]; exact .leaf) ?_
  intro f raw fmt sel ch ih hp c p g fi la
  cases hp with
  | elem h1 h2 =>
    rw [inferTree]
    refine .elem ?_ (inferForest_forall _ _ _ _ _ fun t ht fi la => ih t ht (h2 t ht) _ _ _ _ _)
    cases f with
    | none => exact .inl rfl
    | some f =>
      right
      cases hs : sel.bind (·.1) with
      | some n =>
        left
        match sel, hs with
        | some (some n, items), _ => rfl
      | none =>
        rcases namedSel_cases c (some f) fi la (decide (g = some "thead".toList)) sel hs with
          ⟨h, h'⟩ | ⟨h, h'⟩ | ⟨t, _, _, h'⟩
        · rcases nameIn_some c f fi la (decide (g = some "thead".toList)) with ⟨t, _, e⟩ | ⟨_, _, e⟩ | ⟨e1, e2, _⟩
          · rw [e] at h; cases h
          · rw [e] at h; cases h
          · exact .inr (.inr ⟨e1, by simpa using e2⟩)
        · rcases nameIn_some c f fi la (decide (g = some "thead".toList)) with ⟨t, h0, e⟩ | ⟨e1, e2, _⟩ | ⟨_, _, e⟩
          · rw [e] at h; exact absurd (Option.some.inj h) h0
          · exact .inr (.inl ⟨e1, by rw [e2], h'⟩)
          · rw [e] at h; cases h
        · left
          rw [h']; rfl

theorem inferTree_cells : ∀ (t : Tree) (c : Context) (p g : Option Str) (fi la : Bool),
    (p = some "tr".toList → c = .row) → Cells p g t (inferTree c p g fi la t) := by
  refine Tree.ind (fun t c p g fi la _ => by rw [inferTree]; exact .leaf) ?_
  intro f raw fmt sel ch ih c p g fi la hc
  rw [inferTree]
  refine .elem ?_ (inferForest_length ..).symm fun i t t' h1 h2 => ?_
  · intro hp hf hs
    have := hc hp
    subst this
    rcases namedSel_cases .row f fi la (decide (g = some "thead".toList)) sel hs with
          ⟨h, h'⟩ | ⟨h, h'⟩ | ⟨t, _, h, h'⟩
    · cases f with
      | none => exact absurd rfl hf
      | some f =>
        simp only [nameIn] at h
        split at h <;> cases h
    · cases f with
      | none => exact absurd rfl hf
      | some f =>
        simp only [nameIn] at h
        split at h <;> simp at h
    · rw [h']
      cases f with
      | none => exact absurd rfl hf
      | some f =>
        simp only [nameIn, decide_eq_true_eq] at h
        split at h
        · rename_i e; cases h; rw [if_pos e]; rfl
        · rename_i e; cases h; rw [if_neg e]; rfl
  · rw [inferForest_getElem?, h1] at h2
    cases h2
    refine ih t (List.mem_of_getElem? h1) _ _ _ _ _ fun e => ?_
    rw [e]
    rfl

theorem fill_stable (c : Context) (f : Option Form) (fi la th : Bool) (sel : Option (Option Str × List SelectorItem)) :
    namedSel c f fi la th (namedSel c f fi la th sel) = namedSel c f fi la th sel := by
  cases hs : sel.bind (·.1) with
  | some n =>
    match sel, hs with
    | some (some n, items), _ => rfl
  | none =>
    rcases namedSel_cases c f fi la th sel hs with ⟨h, h'⟩ | ⟨h, h'⟩ | ⟨t, _, h, h'⟩
    · rw [h', h']
    · rw [h']
      simp [namedSel, h]
    · rw [h']
      rfl

theorem inferTree_stable : ∀ (t : Tree) (c : Context) (p g : Option Str) (fi la : Bool),
    inferTree c p g fi la (inferTree c p g fi la t) = inferTree c p g fi la t := by
  refine Tree.ind (fun t c p g fi la => by rw [inferTree, inferTree]) ?_
  intro f raw fmt sel ch ih c p g fi la
  simp only [inferTree, fill_stable, Bool.or_assoc, Bool.or_self]
  congr 1
  have : ∀ (ch : List Tree) (c : Context) (p g : Option Str) (first : Bool),
      (∀ t ∈ ch, ∀ c p g fi la, inferTree c p g fi la (inferTree c p g fi la t) = inferTree c p g fi la t) →
      inferForest c p g first (inferForest c p g first ch) = inferForest c p g first ch := by
    intro ch c p g
    induction ch with
    | nil => intro first _; rfl
    | cons t ts ih =>
      intro first h
      simp only [inferForest]
      have hl : (inferForest c p g false ts).isEmpty = ts.isEmpty := by cases ts <;> rfl
      rw [hl, h t (List.mem_cons_self ..), ih false fun x hx => h x (List.mem_cons_of_mem _ hx)]
  exact this ch _ _ _ true ih

theorem inferTree_nested {kids : List Tree} {ss : List (Option Str × List SelectorItem)} {t : Tree}
    (h : Nested kids ss t) (hn : ∀ s ∈ ss, s.1.isSome) : ∀ (c : Context) (p g : Option Str) (fi la : Bool),
    ∃ c' p' g', Nested (inferForest c' p' g' true kids) ss (inferTree c p g fi la t) := by
  induction h with
  | @single f raw fmt s =>
    intro c p g fi la
    rw [inferTree]
    obtain ⟨n, items⟩ := s
    have := hn _ (List.mem_singleton.2 rfl)
    obtain ⟨n, rfl⟩ := Option.isSome_iff_exists.1 this
    exact ⟨_, _, _, .single⟩
  | @cons f raw fmt s ss t ht ih =>
    intro c p g fi la
    rw [inferTree]
    obtain ⟨n, items⟩ := s
    have := hn _ (List.mem_cons_self ..)
    obtain ⟨n, rfl⟩ := Option.isSome_iff_exists.1 this
    obtain ⟨c', p', g', h'⟩ := ih (fun s hs => hn s (List.mem_cons_of_mem _ hs))
      (contextInside (some n) f) (some n) p true true
    exact ⟨c', p', g', .cons h'⟩

theorem chainTree_nested (src : Str) (h : EHead) (kids : List Tree) : ∀ ss, ss ≠ [] →
    Nested kids (ss.map (selOf src)) (chainTree src h ss kids)
  | [], e => absurd rfl e
  | [s], _ => .single
  | s :: s2 :: ss, _ => .cons (chainTree_nested src h kids (s2 :: ss) (by simp))

/-! ## Texts -/

mutual
  def treeTexts : Tree → List TextLike
    | .leaf t => [t]
    | .elem _ _ _ _ ch => forestTexts ch
  def forestTexts : List Tree → List TextLike
    | [] => []
    | n :: ns => treeTexts n ++ forestTexts ns
end

theorem chainTree_texts (src : Str) (h : EHead) (kids : List Tree) : ∀ ss,
    treeTexts (chainTree src h ss kids) = forestTexts kids
  | [] => rfl
  | [s] => rfl
  | s :: s2 :: ss => by
    rw [chainTree, treeTexts, forestTexts, forestTexts, chainTree_texts src h kids (s2 :: ss), List.append_nil]

mutual
  theorem treeOf_texts (src : Str) : ∀ n, treeTexts (treeOf src n) = nodeTexts n
    | .text _ t => rfl
    | .elem _ h ch => by rw [treeOf, chainTree_texts, forestOf_texts src ch, nodeTexts]
  theorem forestOf_texts (src : Str) : ∀ ns, forestTexts (forestOf src ns) = nodesTexts ns
    | [] => rfl
    | n :: ns => by rw [forestOf, forestTexts, treeOf_texts src n, forestOf_texts src ns, nodesTexts]
end

mutual
  theorem inferTree_texts (c : Context) (p g : Option Str) (fi la : Bool) : ∀ t,
      treeTexts (inferTree c p g fi la t) = treeTexts t
    | .leaf t => rfl
    | .elem f raw fmt sel ch => by
      rw [inferTree]
      exact inferForest_texts _ _ _ _ ch
  theorem inferForest_texts (c : Context) (p g : Option Str) (fi : Bool) : ∀ ts,
      forestTexts (inferForest c p g fi ts) = forestTexts ts
    | [] => rfl
    | t :: ts => by
      rw [inferForest, forestTexts, inferTree_texts c p g _ _ t, inferForest_texts c p g _ ts, forestTexts]
end

/-! ## Later steps keep the number of selectors -/

theorem metaSelectors_length (cx : MetaCx) (ss : List Selector) : ∀ (i : Nat),
    (metaSelectors cx i ss).1.length = ss.length := by
  induction ss with
  | nil => intro i; rfl
  | cons s rest ih =>
    intro i
    rw [metaSelectors]
    dsimp only
    split <;> simp only [List.length_cons, ih]

theorem metaElement_single (m : MetadataConfig) (r : Range) (h : EHead) (root : Bool)
    (hl : h.selectors.length ≤ 1) : (metaElement m r h root).selectors.length ≤ 1 := by
  unfold metaElement
  dsimp only
  split
  · exact hl
  · simp only [metaSelectors_length]
    split
    · simp
    · exact hl

mutual
  theorem metaNode_single (m : MetadataConfig) : ∀ (n : Node) (root : Bool), SingleSelectors n →
      SingleSelectors (metaNode m n root)
    | .elem r h ch, root, hs => by
      rw [metaNode]
      cases hs with
      | elem h1 h2 => exact .elem (metaElement_single m r h root h1) (metaNodes_single m ch false h2)
    | .text r (.text t), root, _ => by
      rw [metaNode]
      split
      · refine .elem (metaElement_single _ _ _ _ ?_) ?_
        · simp
        · simp only [List.mem_singleton, forall_eq]; exact .text
      · exact .text
    | .text r (.comment s), root, _ => by
      rw [metaNode]
      split
      · refine .elem (metaElement_single _ _ _ _ ?_) ?_
        · simp [EHead.applyTags, EHead.new, TextSlice.isEmpty]
        · simp only [List.mem_singleton, forall_eq]; exact .text
      · exact .text
    | .text r (.space s), root, _ => by rw [metaNode]; exact .text
  theorem metaNodes_single (m : MetadataConfig) : ∀ (ns : List Node) (root : Bool),
      (∀ n ∈ ns, SingleSelectors n) → ∀ n ∈ metaNodes m ns root, SingleSelectors n
    | [], _, _ => by simp [metaNodes]
    | n :: ns, root, h => by
      rw [metaNodes]
      intro x hx
      rcases List.mem_cons.1 hx with rfl | hx
      · exact metaNode_single m n root (h n (List.mem_cons_self ..))
      · exact metaNodes_single m ns root (fun y hy => h y (List.mem_cons_of_mem _ hy)) x hx
end

theorem langSelectors_length (l : Str) : ∀ ss : List Selector, (langSelectors l ss).length = ss.length
  | [] => rfl
  | s :: ss => by
    rw [langSelectors]
    split
    · rfl
    · simp [langSelectors_length l ss]

theorem langNode_single (l : Str) {n : Node} (h : SingleSelectors n) : SingleSelectors (langNode l n) := by
  cases h with
  | text => exact .text
  | elem h1 h2 => exact .elem (by simpa [langSelectors_length] using h1) h2

/-! ## One pass resolves all -/

open Infer in
theorem inferTagPass_states (src : Str) (m : Method) (parent : Option PredCx) :
    ∀ (is : List Nat) (nodes : List Node) (states : List (Option Nat)), is.Nodup →
      (∀ i ∈ is, i < nodes.length ∧ states[i]? = some (some 0)) →
      (inferTagPass src m.tags parent is nodes states).2.1.length = states.length ∧
      ∀ j, (inferTagPass src m.tags parent is nodes states).2.1[j]? =
        if j ∈ is then some none else states[j]?
  | [], nodes, states, _, _ => by simp [inferTagPass]
  | i :: is, nodes, states, hnd, hall => by
    obtain ⟨hi, hsi⟩ := hall i (by simp)
    obtain ⟨n, hn⟩ : ∃ n, nodes[i]? = some n := ⟨nodes[i], by simp [hi]⟩
    rw [List.nodup_cons] at hnd
    have hall' : ∀ j ∈ is, j < (nodes.set i (tagNode src m parent nodes.length i n)).length ∧
        (states.set i none)[j]? = some (some 0) := by
      intro j hj
      obtain ⟨h1, h2⟩ := hall j (by simp [hj])
      have : i ≠ j := fun e => hnd.1 (e ▸ hj)
      exact ⟨by simpa using h1, by rw [List.getElem?_set_ne this]; exact h2⟩
    obtain ⟨e1, e2⟩ := inferTagPass_states src m parent is _ _ hnd.2 hall'
    have hlt : i < states.length := (List.getElem?_eq_some_iff.1 hsi).1
    have hx : (inferTagPass src m.tags parent (i :: is) nodes states).2.1 =
        (inferTagPass src m.tags parent is (nodes.set i (tagNode src m parent nodes.length i n))
          (states.set i none)).2.1 := by
      simp only [inferTagPass, inferTagNode_eq src m parent nodes states i n hn hsi]
    rw [hx]
    refine ⟨by simpa using e1, fun j => ?_⟩
    rw [e2 j]
    by_cases hji : j = i
    · subst hji
      rw [if_neg hnd.1, if_pos (by simp), List.getElem?_set_self hlt]
    · rw [List.getElem?_set_ne (fun e => hji e.symm)]
      simp [hji]

open Infer in
theorem inferTagPass_resolves (src : Str) (m : Method) (parent : Option PredCx) (nodes : List Node) :
    ∃ nodes' states, inferTagPass src m.tags parent (List.range nodes.length) nodes
      (List.replicate nodes.length (some 0)) = (nodes', states, nodes.length) ∧ ∀ s ∈ states, s = none := by
  have hall : ∀ i ∈ List.range nodes.length, i < nodes.length ∧
      (List.replicate nodes.length (some 0))[i]? = some (some 0) := by
    intro i hi; simp at hi; exact ⟨hi, by simp [hi]⟩
  obtain ⟨ns, st, e1, -, -⟩ := inferTagPass_eq src m parent (List.range nodes.length) nodes
    (List.replicate nodes.length (some 0)) List.nodup_range hall
  obtain ⟨h1, h2⟩ := inferTagPass_states src m parent (List.range nodes.length) nodes
    (List.replicate nodes.length (some 0)) List.nodup_range hall
  rw [e1] at h1 h2
  refine ⟨ns, st, by simpa using e1, fun s hs => ?_⟩
  obtain ⟨j, hj⟩ := List.mem_iff_getElem?.1 hs
  have hlt : j < nodes.length := by
    have := (List.getElem?_eq_some_iff.1 hj).1
    simpa [h1] using this
  have := h2 j
  rw [if_pos (by simpa using hlt), hj] at this
  exact Option.some.inj this

end Mty