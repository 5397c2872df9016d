import Verif.Spec.Slices
import Verif.Model.Convert

/-! # Every step of the transformation keeps the ranges of the source (for C74) -/

set_option autoImplicit false

namespace Mty.Slices
open Spec

variable (V : Range → Prop)

/-- The ranges in the texts satisfy `V`. -/
def Ok (l : List TextSlice) : Prop := ∀ t ∈ l, ∀ r ∈ sourceOf t, V r

variable {V}

theorem ok_nil : Ok V [] := by simp [Ok]

theorem ok_append {a b : List TextSlice} : Ok V (a ++ b) ↔ Ok V a ∧ Ok V b := by
  simp only [Ok, List.mem_append]
  exact ⟨fun h => ⟨fun t ht => h t (.inl ht), fun t ht => h t (.inr ht)⟩,
    fun h t ht => ht.elim (h.1 t) (h.2 t)⟩

theorem ok_cons {t : TextSlice} {l : List TextSlice} : Ok V (t :: l) ↔ (∀ r ∈ sourceOf t, V r) ∧ Ok V l := by
  simp [Ok]

theorem ok_provided {v : Str} {l : List TextSlice} : Ok V (.provided v :: l) ↔ Ok V l := by
  simp [ok_cons, sourceOf]

theorem ok_flatMap {α : Type} {l : List α} {f : α → List TextSlice} :
    Ok V (l.flatMap f) ↔ ∀ x ∈ l, Ok V (f x) := by
  simp only [Ok, List.mem_flatMap]
  exact ⟨fun h x hx t ht => h t ⟨x, hx, ht⟩, fun h t ⟨x, hx, ht⟩ => h x hx t ht⟩

theorem nodesSlices_eq : ∀ ns : List Node, nodesSlices ns = ns.flatMap nodeSlices
  | [] => rfl
  | n :: ns => by rw [nodesSlices, nodesSlices_eq ns, List.flatMap_cons]

variable (V) in
/-- The ranges in a node satisfy `V`. -/
def NodeOk (n : Node) : Prop := Ok V (nodeSlices n)

variable (V) in
/-- The ranges in the selectors satisfy `V`. -/
def SelsOk (l : List Selector) : Prop := ∀ s ∈ l, Ok V (selectorSlices s)

theorem nodes_ok {ns : List Node} : Ok V (nodesSlices ns) ↔ ∀ n ∈ ns, NodeOk V n := by
  rw [nodesSlices_eq, ok_flatMap]; rfl

theorem elem_ok {r : Range} {h : EHead} {ch : List Node} :
    NodeOk V (.elem r h ch) ↔ SelsOk V h.selectors ∧ ∀ n ∈ ch, NodeOk V n := by
  unfold NodeOk
  rw [nodeSlices, ok_append, ok_flatMap, nodes_ok]; rfl

theorem sel_ok {s : Selector} :
    Ok V (selectorSlices s) ↔ Ok V s.tag.name.toList ∧ ∀ i ∈ s.items, Ok V (itemSlices i) := by
  rw [selectorSlices, ok_append, ok_flatMap]

theorem provided_sel {t : Str} {l : Nat} : Ok V (selectorSlices ((Selector.empty l).withTag (.provided t))) := by
  rw [sel_ok]
  simp [Selector.withTag, Selector.empty, Tag.name, Ok, sourceOf]

/-- `apply_tags` with given characters. -/
theorem applyTags_ok {h : EHead} (ts : List Str) (hh : SelsOk V h.selectors) :
    SelsOk V (h.applyTags (ts.map .provided)).selectors := by
  have hf : ∀ t ∈ (ts.map TextSlice.provided).filter (fun t => !t.isEmpty), ∃ v, t = .provided v := by
    intro t ht
    obtain ⟨v, -, rfl⟩ := List.mem_map.1 (List.mem_filter.1 ht).1
    exact ⟨v, rfl⟩
  unfold EHead.applyTags
  revert hf
  generalize (ts.map TextSlice.provided).filter (fun t => !t.isEmpty) = l
  intro hf
  match l with
  | [] => exact fun s hs => hh s (List.mem_of_mem_drop hs)
  | first :: rest =>
    obtain ⟨v, rfl⟩ := hf first (by simp)
    have hr : ∀ n : Nat, SelsOk V (rest.map fun t => (Selector.empty n).withTag t) := by
      intro n s hs
      obtain ⟨t, ht, rfl⟩ := List.mem_map.1 hs
      obtain ⟨w, rfl⟩ := hf t (by simp [ht])
      exact provided_sel
    match hsel : h.selectors with
    | s :: ss =>
      rw [hsel] at hh
      intro x hx
      simp only [List.cons_append, List.mem_cons, List.mem_append] at hx
      rcases hx with rfl | hx | hx
      · rw [sel_ok]
        exact ⟨by simp [Tag.name, Ok, sourceOf], (sel_ok.1 (hh s (by simp))).2⟩
      · exact hr _ x hx
      · exact hh x (by simp [hx])
    | [] =>
      intro x hx
      simp only [List.mem_cons] at hx
      rcases hx with rfl | hx
      · exact provided_sel
      · exact hr _ x hx

/-! ## Special tags -/

theorem specialHead_ok (c : SpecialTagConfig) {h : EHead} (hh : SelsOk V h.selectors) :
    SelsOk V (specialHead c h).selectors := by
  unfold specialHead
  split
  · exact applyTags_ok [_] hh
  · exact applyTags_ok [_, _] hh
  · exact hh

mutual
  theorem specialNode_ok (c : SpecialTagConfig) : ∀ n : Node, NodeOk V n → NodeOk V (specialNode c n)
    | .text r t, h => h
    | .elem r hd ch, h => by
      rw [elem_ok] at h
      rw [specialNode, elem_ok]
      exact ⟨specialHead_ok c h.1, specialNodes_ok c ch h.2⟩
  theorem specialNodes_ok (c : SpecialTagConfig) : ∀ ns : List Node, (∀ n ∈ ns, NodeOk V n) →
      ∀ n ∈ specialNodes c ns, NodeOk V n
    | [], _ => by simp [specialNodes]
    | n :: ns, h => by
      rw [specialNodes]
      intro x hx
      rcases List.mem_cons.1 hx with rfl | hx
      · exact specialNode_ok c n (h n (by simp))
      · exact specialNodes_ok c ns (fun y hy => h y (by simp [hy])) x hx
end

/-! ## Page -/

theorem children_ok {n : Node} (h : NodeOk V n) : ∀ x ∈ n.children, NodeOk V x := by
  cases n with
  | text r t => simp [Node.children]
  | elem r hd ch => exact (elem_ok.1 h).2

theorem splitPage_ok (src : Str) : ∀ ns : List Node, (∀ n ∈ ns, NodeOk V n) →
    (∀ n ∈ (splitPage src ns).1, NodeOk V n) ∧ ∀ n ∈ (splitPage src ns).2, NodeOk V n
  | [], _ => by simp [splitPage]
  | n :: ns, h => by
    obtain ⟨h1, h2⟩ := splitPage_ok src ns fun y hy => h y (by simp [hy])
    have hn := h n (by simp)
    rw [splitPage]
    dsimp only
    split
    · refine ⟨fun x hx => ?_, h2⟩
      rcases List.mem_append.1 hx with hx | hx
      · exact children_ok hn x hx
      · exact h1 x hx
    · split
      · refine ⟨fun x hx => ?_, h2⟩
        rcases List.mem_cons.1 hx with rfl | hx
        · exact hn
        · exact h1 x hx
      · refine ⟨h1, fun x hx => ?_⟩
        rcases List.mem_cons.1 hx with rfl | hx
        · exact hn
        · exact h2 x hx

theorem pageElement_ok (t : Str) : SelsOk V (pageElement t).selectors :=
  applyTags_ok [t] (by simp [SelsOk, EHead.new])

theorem completePage_ok (src : Str) {doc : Document} (h : ∀ n ∈ doc.nodes, NodeOk V n) :
    ∀ n ∈ (completePage src doc).nodes, NodeOk V n := by
  unfold completePage
  split
  · exact h
  · intro x hx
    simp only [List.mem_singleton] at hx
    subst hx
    unfold Node.ofElem
    rw [elem_ok]
    refine ⟨pageElement_ok _, ?_⟩
    split
    · exact h
    · obtain ⟨h1, h2⟩ := splitPage_ok src _ h
      intro y hy
      simp only [List.mem_cons, List.not_mem_nil, or_false] at hy
      rcases hy with rfl | rfl | rfl
      · rw [elem_ok]; exact ⟨pageElement_ok _, h1⟩
      · simp [NodeOk, nodeSlices, textLikeSlices, Ok]
      · rw [elem_ok]; exact ⟨pageElement_ok _, h2⟩

/-! ## Inference -/

section
open Infer

theorem applyTag_ok (t : String) {n : Node} (h : NodeOk V n) : NodeOk V (applyTag t n) := by
  cases n with
  | text r t => exact h
  | elem r hd ch =>
    rw [elem_ok] at h
    rw [applyTag, elem_ok]
    exact ⟨applyTags_ok [_] h.1, h.2⟩

theorem set_ok {ns : List Node} {i : Nat} {n : Node} (h : ∀ x ∈ ns, NodeOk V x) (hn : NodeOk V n) :
    ∀ x ∈ ns.set i n, NodeOk V x := by
  intro x hx
  rcases List.mem_or_eq_of_mem_set hx with hx | rfl
  · exact h x hx
  · exact hn

theorem inferTagNode_ok (src : Str) (defs : List (Pred × String)) (p : Option PredCx) {ns : List Node}
    (st : List (Option Nat)) (i : Nat) (h : ∀ x ∈ ns, NodeOk V x) :
    ∀ x ∈ (inferTagNode src defs p ns st i).1, NodeOk V x := by
  unfold inferTagNode
  split
  · split
    · exact h
    · rename_i node hnode
      split
      · exact h
      · split
        · exact set_ok h (applyTag_ok _ (h _ (List.mem_of_getElem? hnode)))
        · exact h
        · exact h
  · exact h

theorem inferTagPass_ok (src : Str) (defs : List (Pred × String)) (p : Option PredCx) :
    ∀ (is : List Nat) (ns : List Node) (st : List (Option Nat)), (∀ x ∈ ns, NodeOk V x) →
      ∀ x ∈ (inferTagPass src defs p is ns st).1, NodeOk V x
  | [], _, _, h => h
  | i :: is, ns, st, h => by
    rw [inferTagPass]
    exact inferTagPass_ok src defs p is _ _ (inferTagNode_ok src defs p st i h)

theorem inferTagLoop_ok (src : Str) (defs : List (Pred × String)) (p : Option PredCx) :
    ∀ (f : Nat) (rev : Bool) (t : Nat) (ns : List Node) (st : List (Option Nat)), (∀ x ∈ ns, NodeOk V x) →
      ∀ x ∈ (inferTagLoop src defs p f rev t ns st).1, NodeOk V x
  | 0, _, _, _, _, h => h
  | f + 1, rev, t, ns, st, h => by
    rw [inferTagLoop]
    dsimp only
    generalize (if rev = true then (List.range ns.length).reverse else List.range ns.length) = is
    split
    · exact inferTagPass_ok src defs p _ _ _ h
    · exact inferTagLoop_ok src defs p f _ _ _ _ (inferTagPass_ok src defs p _ _ _ h)

theorem splitFirst_ok {h : EHead} {ch : List Node} (hh : SelsOk V h.selectors) (hc : ∀ x ∈ ch, NodeOk V x) :
    SelsOk V (splitFirst h ch).1.selectors ∧ ∀ x ∈ (splitFirst h ch).2, NodeOk V x := by
  unfold splitFirst
  split
  · rename_i s s2 ss hs
    rw [hs] at hh
    refine ⟨fun x hx => hh x ?_, fun x hx => ?_⟩
    · simp only [List.mem_singleton] at hx
      simp [hx]
    · simp only [List.mem_singleton] at hx
      subst hx
      unfold Node.ofElem
      rw [elem_ok]
      exact ⟨fun y hy => hh y (List.mem_cons_of_mem _ hy), hc⟩
  · exact ⟨hh, hc⟩

theorem inferenceLevel_ok {rec : Method → Option PredCx → List Node → List Node} (src : Str)
    (ms : List (Pred × Method)) (p : Option PredCx) {ns : List Node} (i : Nat)
    (hr : ∀ m p ns, (∀ x ∈ ns, NodeOk V x) → ∀ x ∈ rec m p ns, NodeOk V x) (h : ∀ x ∈ ns, NodeOk V x) :
    ∀ x ∈ inferenceLevel rec src ms p ns i, NodeOk V x := by
  unfold inferenceLevel
  split
  · rename_i r hd ch hn
    have he := elem_ok.1 (h _ (List.mem_of_getElem? hn))
    obtain ⟨h1, h2⟩ := splitFirst_ok he.1 he.2
    dsimp only
    refine set_ok (set_ok h ?_) ?_
    · rw [elem_ok]; exact ⟨h1, by simp⟩
    · rw [elem_ok]; exact ⟨h1, hr _ _ _ h2⟩
  · exact h

theorem useMethod_ok (src : Str) : ∀ (f : Nat) (m : Method) (p : Option PredCx) (ns : List Node),
    (∀ x ∈ ns, NodeOk V x) → ∀ x ∈ useMethod src f m p ns, NodeOk V x
  | 0, _, _, _, h => h
  | f + 1, m, p, ns, h => by
    rw [useMethod]
    have h0 : ∀ x ∈ inferTagNodes src m.tags p ns, NodeOk V x := inferTagLoop_ok src _ _ _ _ _ _ _ h
    revert h0
    generalize inferTagNodes src m.tags p ns = l
    generalize List.range l.length = is
    induction is generalizing l with
    | nil => intro h0; exact h0
    | cons i is ih =>
      intro h0
      rw [List.foldl_cons]
      exact ih _ (inferenceLevel_ok src _ _ i (useMethod_ok src f) h0)

end

/-! ## Language and metadata -/

theorem langSelectors_ok (l : Str) : ∀ {ss : List Selector}, SelsOk V ss → SelsOk V (langSelectors l ss)
  | [], h => h
  | s :: ss, h => by
    rw [langSelectors]
    split
    · intro x hx
      rcases List.mem_cons.1 hx with rfl | hx
      · have := sel_ok.1 (h s (by simp))
        rw [sel_ok]
        refine ⟨this.1, fun i hi => ?_⟩
        rcases List.mem_append.1 hi with hi | hi
        · exact this.2 i hi
        · simp only [List.mem_singleton] at hi
          subst hi
          simp [itemSlices, Ok, sourceOf]
      · exact h x (by simp [hx])
    · intro x hx
      rcases List.mem_cons.1 hx with rfl | hx
      · exact h _ (by simp)
      · exact langSelectors_ok l (ss := ss) (fun y hy => h y (by simp [hy])) x hx

theorem langNode_ok (l : Str) {n : Node} (h : NodeOk V n) : NodeOk V (langNode l n) := by
  cases n with
  | text r t => exact h
  | elem r hd ch =>
    rw [elem_ok] at h
    rw [langNode, elem_ok]
    exact ⟨langSelectors_ok l h.1, h.2⟩

/-- The attributes have given names and values. -/
def Given (as : List Attribute) : Prop := ∀ a ∈ as, Ok (fun _ => False) (a.name :: a.value.toList)

theorem given_append {a b : List Attribute} (ha : Given a) (hb : Given b) : Given (a ++ b) :=
  fun x hx => (List.mem_append.1 hx).elim (ha x) (hb x)

theorem given_attr (l : Nat) (n : String) (v : Str) : Given [metaAttr l n v] := by
  simp [Given, metaAttr, Ok, sourceOf]

theorem given_range (l : Nat) (a b : String) (r : Range) : Given (metaRange l a b r) := by
  unfold metaRange
  split
  · exact given_append (given_attr l a _) (given_attr l b _)
  · simp [Given]

theorem given_bool (l : Nat) (n : String) (v d : Bool) : Given (metaBoolExcept l n v d) := by
  unfold metaBoolExcept
  split
  · exact given_attr _ _ _
  · simp [Given]

theorem metaFinish_ok {l : Nat} {as : List Attribute} {s : Selector} (ha : Given as) (h : Ok V (selectorSlices s)) :
    Ok V (selectorSlices (metaFinish l as s)) := by
  unfold metaFinish
  split
  · exact h
  · rw [sel_ok] at h ⊢
    refine ⟨h.1, fun i hi => ?_⟩
    rcases List.mem_append.1 hi with hi | hi
    · exact h.2 i hi
    · simp only [List.mem_singleton] at hi
      subst hi
      rw [itemSlices, ok_flatMap]
      exact fun a ha' t ht r hr => absurd (ha a ha' t ht r hr) id

theorem metaSelectors_ok (cx : MetaCx) : ∀ (ss : List Selector) (i : Nat), SelsOk V ss →
    SelsOk V (metaSelectors cx i ss).1
  | [], _, h => h
  | s :: ss, i, h => by
    have hr := metaSelectors_ok cx ss (i + 1) fun y hy => h y (by simp [hy])
    have hs := h s (by simp)
    rw [metaSelectors]
    dsimp only
    split
    · intro x hx
      rcases List.mem_cons.1 hx with rfl | hx
      · exact hs
      · exact hr x hx
    · intro x hx
      rcases List.mem_cons.1 hx with rfl | hx
      · refine metaFinish_ok (given_append (given_append ?_ (given_range _ _ _ _)) (given_range _ _ _ _)) ?_
        · split
          · refine given_append ?_ (given_bool _ _ _ _)
            split
            · exact given_attr _ _ _
            · simp [Given]
          · simp [Given]
        · split
          · rw [sel_ok] at hs ⊢
            exact ⟨by simp [Tag.name, Ok, sourceOf], hs.2⟩
          · exact hs
      · exact hr x hx

theorem metaElement_ok (o : MetadataConfig) (r : Range) {h : EHead} (root : Bool) (hh : SelsOk V h.selectors) :
    SelsOk V (metaElement o r h root).selectors := by
  unfold metaElement
  dsimp only
  split
  · exact hh
  · refine metaSelectors_ok _ _ _ ?_
    split
    · simp [SelsOk, selectorSlices, Selector.empty, Tag.name, Ok]
    · exact hh

mutual
  theorem metaNode_ok (o : MetadataConfig) : ∀ (n : Node) (root : Bool), NodeOk V n → NodeOk V (metaNode o n root)
    | .elem r hd ch, root, h => by
      rw [elem_ok] at h
      rw [metaNode, elem_ok]
      exact ⟨metaElement_ok o r root h.1, metaNodes_ok o ch false h.2⟩
    | .text r (.text t), root, h => by
      rw [metaNode]
      split
      · unfold metaText Node.ofElem
        dsimp only
        rw [elem_ok]
        refine ⟨metaElement_ok o r root ?_, by simpa using h⟩
        intro s hs
        simp only [List.mem_singleton] at hs
        subst hs
        exact metaFinish_ok (given_append (given_bool _ _ _ _) (given_bool _ _ _ _)) provided_sel
      · exact h
    | .text r (.comment s), root, h => by
      rw [metaNode]
      split
      · unfold metaComment Node.ofElem
        dsimp only
        rw [elem_ok]
        refine ⟨metaElement_ok o r root ?_, ?_⟩
        · exact applyTags_ok [_] (by simp [SelsOk, EHead.new])
        · intro n hn
          simp only [List.mem_singleton] at hn
          subst hn
          exact h
      · exact h
    | .text r (.space s), _, h => h
  theorem metaNodes_ok (o : MetadataConfig) : ∀ (ns : List Node) (root : Bool), (∀ n ∈ ns, NodeOk V n) →
      ∀ n ∈ metaNodes o ns root, NodeOk V n
    | [], _, _ => by simp [metaNodes]
    | n :: ns, root, h => by
      rw [metaNodes]
      intro x hx
      rcases List.mem_cons.1 hx with rfl | hx
      · exact metaNode_ok o n root (h n (by simp))
      · exact metaNodes_ok o ns root (fun y hy => h y (by simp [hy])) x hx
end

/-! ## All steps -/

theorem mem_sourceSlices {ns : List Node} : (∀ r ∈ sourceSlices ns, V r) ↔ ∀ n ∈ ns, NodeOk V n := by
  rw [← nodes_ok, sourceSlices]
  simp only [List.mem_flatMap, Ok]
  exact ⟨fun h t ht r hr => h r ⟨t, ht, hr⟩, fun h r ⟨t, ht, hr⟩ => h t ht r hr⟩

theorem infer_ok (src : Str) {ns : List Node} (h : ∀ n ∈ ns, NodeOk V n) : ∀ n ∈ Infer.infer src ns, NodeOk V n :=
  useMethod_ok src _ _ _ _ h

theorem page_ok (cfg : OutputConfig) (src : Str) {doc : Document} (h : ∀ n ∈ doc.nodes, NodeOk V n) :
    ∀ n ∈ (if cfg.completePage.getD false then completePage src (applySpecialTags cfg doc)
      else applySpecialTags cfg doc).nodes, NodeOk V n := by
  have h1 : ∀ n ∈ (applySpecialTags cfg doc).nodes, NodeOk V n := specialNodes_ok _ _ h
  split
  · exact completePage_ok src h1
  · exact h1

theorem transform_ok (cfg : OutputConfig) (src : Str) {doc : Document} (h : ∀ n ∈ doc.nodes, NodeOk V n) :
    ∀ n ∈ (transformDocument doc src cfg).nodes, NodeOk V n := by
  have h3 := infer_ok src (page_ok cfg src h)
  have hl : ∀ (l : Str) {ns : List Node}, (∀ n ∈ ns, NodeOk V n) → ∀ n ∈ ns.map (langNode l), NodeOk V n := by
    intro l ns hns n hn
    obtain ⟨m, hm, rfl⟩ := List.mem_map.1 hn
    exact langNode_ok _ (hns m hm)
  unfold transformDocument applyLang addMetadata
  cases cfg.metadata with
  | none =>
    cases cfg.lang with
    | none => exact h3
    | some l => exact hl l h3
  | some m =>
    cases cfg.lang with
    | none => exact metaNodes_ok m _ _ h3
    | some l => exact hl l (metaNodes_ok m _ _ h3)

end Mty.Slices
