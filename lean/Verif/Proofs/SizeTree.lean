import Mathlib.Tactic.Ring
import Verif.Proofs.Size

/-! # The size of the output (for C82): the stages between building and writing -/

set_option autoImplicit false

namespace Mty.Size

open Infer (PredCx Pred)

variable {src : Str}

theorem selW_ge (s : Selector) : 24 ≤ selW src s := by
  rw [selW]
  cases s.tag <;> simp only [tagW] <;> omega

theorem headW_cons (s : Selector) (ss : List Selector) : headW src (s :: ss) = selsW src (s :: ss) := by
  have := selW_ge (src := src) s
  rw [headW, selsW]
  omega

theorem selsW_append (a b : List Selector) : selsW src (a ++ b) = selsW src a + selsW src b := by
  induction a with
  | nil => simp [selsW]
  | cons x a ih => simp only [List.cons_append, selsW, ih]; omega

theorem nodesW_append (a b : List Node) : nodesW src (a ++ b) = nodesW src a + nodesW src b := by
  induction a with
  | nil => simp [nodesW]
  | cons x a ih => simp only [List.cons_append, nodesW, ih]; omega

/-- What a tag adds. -/
def newW (l : List TextSlice) : Nat := (l.map fun t => 8 + 2 * max 8 (len src t)).sum

theorem newW_filter (p : TextSlice → Bool) (l : List TextSlice) : newW (src := src) (l.filter p) ≤ newW (src := src) l := by
  induction l with
  | nil => exact Nat.le_refl _
  | cons a l ih =>
    rw [List.filter_cons]
    split <;> simp only [newW, List.map_cons, List.sum_cons] at ih ⊢ <;> omega

theorem new_sels (p : Nat) (l : List TextSlice) : selsW src (l.map fun t => (Selector.empty p).withTag t) = newW (src := src) l := by
  induction l with
  | nil => rfl
  | cons a l ih =>
    rw [List.map_cons, selsW, ih]
    simp only [newW, List.map_cons, List.sum_cons, selW, Selector.withTag, Selector.empty, tagW, itemsW]
    omega

theorem drop_le (ss : List Selector) : headW src (ss.drop 1) ≤ headW src ss := by
  cases ss with
  | nil => exact Nat.le_refl _
  | cons s ss =>
    rw [headW, headW]
    simp only [List.drop_succ_cons, List.drop_zero, selsW]
    omega

theorem apply_le (h : EHead) (ts : List TextSlice) : headW src (h.applyTags ts).selectors ≤ headW src h.selectors + newW (src := src) ts := by
  have hf := newW_filter (src := src) (fun t => !t.isEmpty) ts
  rw [EHead.applyTags]
  split
  · exact Nat.le_trans (drop_le _) (Nat.le_add_right _ _)
  · rename_i t rest ht
    rw [ht] at hf
    split
    · rename_i s ss hss
      rw [hss, headW_cons]
      dsimp only [List.cons_append]
      rw [headW_cons, selsW, selsW, selsW_append, new_sels]
      simp only [newW, List.map_cons, List.sum_cons, selW, tagW] at hf ⊢
      omega
    · rename_i hss
      dsimp only
      rw [headW_cons, selsW, new_sels]
      simp only [newW, List.map_cons, List.sum_cons, selW, tagW, Selector.withTag, Selector.empty, itemsW] at hf ⊢
      omega

/-! ## Special tags, pages, language -/

/-- What special tags can add to an element. -/
def specialW (c : SpecialTagConfig) : Nat :=
  newW (src := []) [.provided (specialTagName c .emphasis)] + newW (src := []) [.provided (specialTagName c .strong)] +
  newW (src := []) [.provided (specialTagName c .underline)] + newW (src := []) [.provided (specialTagName c .strike)] +
  newW (src := []) [.provided (specialTagName c .quote)] + newW (src := []) [.provided (specialTagName c .code)] +
  newW (src := []) [.provided (specialTagName c .codeBlockContainer)]

theorem newW_provided (s : Str) : newW (src := src) [.provided s] = newW (src := []) [.provided s] := rfl

theorem special_head (c : SpecialTagConfig) (h : EHead) : headW src (specialHead c h).selectors ≤ headW src h.selectors + specialW c := by
  rw [specialHead]
  split
  · rename_i k _
    refine Nat.le_trans (apply_le _ _) (Nat.add_le_add_left ?_ _)
    rw [newW_provided, specialW]
    cases k <;> omega
  · refine Nat.le_trans (apply_le _ _) (Nat.add_le_add_left ?_ _)
    simp only [newW, List.map_cons, List.sum_cons, List.map_nil, List.sum_nil, specialW, len, TextSlice.asStr]
    omega
  · omega

mutual
  theorem special_node (c : SpecialTagConfig) : ∀ n : Node, nodeW src (specialNode c n) ≤ nodeW src n * (1 + specialW c)
    | .text _ t => by
      rw [specialNode]
      exact Nat.le_mul_of_pos_right _ (by omega)
    | .elem _ h ch => by
      rw [specialNode, nodeW, nodeW, Nat.add_mul]
      have h1 := special_head (src := src) c h
      have h2 := special_nodes c ch
      have h3 : headW src h.selectors + specialW c ≤ headW src h.selectors * (1 + specialW c) := by
        have : 1 ≤ headW src h.selectors := by rw [headW]; omega
        have := Nat.mul_le_mul_right (specialW c) this
        rw [Nat.mul_add]
        omega
      omega
  theorem special_nodes (c : SpecialTagConfig) : ∀ ns : List Node, nodesW src (specialNodes c ns) ≤ nodesW src ns * (1 + specialW c)
    | [] => by rw [specialNodes, nodesW]; omega
    | n :: ns => by
      have := special_node c n; have := special_nodes c ns
      rw [specialNodes, nodesW, nodesW, Nat.add_mul]
      omega
end

theorem children_le (n : Node) : nodesW src n.children ≤ nodeW src n := by
  cases n with
  | text => exact Nat.zero_le _
  | elem => rw [Node.children, nodeW]; omega

theorem split_le : ∀ ns : List Node, nodesW src (splitPage src ns).1 + nodesW src (splitPage src ns).2 ≤ nodesW src ns
  | [] => Nat.le_refl _
  | n :: ns => by
    have h := split_le ns
    have := children_le (src := src) n
    rw [splitPage]
    dsimp only
    split
    · simp only [nodesW, nodesW_append]; omega
    · split
      · simp only [nodesW]; omega
      · simp only [nodesW]; omega

theorem page_head (t : Str) (h : t.length ≤ 8) (hn : t ≠ []) : headW src (pageElement t).selectors = 24 := by
  cases t with
  | nil => exact absurd rfl hn
  | cons c t =>
    simp only [List.length_cons] at h
    simp only [pageElement, EHead.applyTags, EHead.new, TextSlice.isEmpty, List.isEmpty_cons, Bool.not_false, List.filter_cons, if_true,
      List.filter_nil, List.map_nil, headW, selsW, selW, Selector.withTag, Selector.empty, tagW, itemsW, len, TextSlice.asStr, List.length_cons]
    omega

theorem page_le (doc : Document) : nodesW src (completePage src doc).nodes ≤ nodesW src doc.nodes + 73 := by
  have h1 : headW src (pageElement "html".toList).selectors = 24 := page_head _ (by decide) (by decide)
  have h2 : headW src (pageElement "head".toList).selectors = 24 := page_head _ (by decide) (by decide)
  have h3 : headW src (pageElement "body".toList).selectors = 24 := page_head _ (by decide) (by decide)
  rw [completePage]
  split
  · omega
  · dsimp only
    simp only [nodesW, nodeW, Node.ofElem, h1]
    split
    · omega
    · have := split_le (src := src) doc.nodes
      simp only [nodesW, nodeW, Node.ofElem, h2, h3, textW]
      omega

def langW (l : Str) : Nat := 40 + 9 * l.length

theorem itemsW_append (a b : List SelectorItem) : itemsW src (a ++ b) = itemsW src a + itemsW src b := by
  induction a with
  | nil => simp [itemsW]
  | cons x a ih => simp only [List.cons_append, itemsW, ih]; omega

theorem lang_sels (l : Str) : ∀ ss : List Selector, selsW src (langSelectors l ss) ≤ selsW src ss + langW l
  | [] => Nat.zero_le _
  | s :: ss => by
    rw [langSelectors]
    have := lang_sels l ss
    split
    · have e : "lang".toList.length = 4 := by decide
      simp only [selsW, selW, itemsW_append, itemsW, itemW, attrsW, attrW, len, TextSlice.asStr, e, Option.map_some, Option.getD_some, langW]
      omega
    · simp only [selsW]
      omega

theorem lang_nodes (l : Str) : ∀ ns : List Node, nodesW src (ns.map (langNode l)) ≤ nodesW src ns * (1 + langW l)
  | [] => by simp [nodesW]
  | n :: ns => by
    have := lang_nodes l ns
    rw [List.map_cons, nodesW, nodesW, Nat.add_mul]
    suffices nodeW src (langNode l n) ≤ nodeW src n * (1 + langW l) by omega
    cases n with
    | text => exact Nat.le_mul_of_pos_right _ (by omega)
    | elem r h ch =>
      have h1 := lang_sels (src := src) l h.selectors
      rw [langNode, nodeW, nodeW, Nat.add_mul]
      have h2 : headW src h.selectors + langW l ≤ headW src h.selectors * (1 + langW l) := by
        have : 1 ≤ headW src h.selectors := by rw [headW]; omega
        have := Nat.mul_le_mul_right (langW l) this
        rw [Nat.mul_add]
        omega
      have h3 : nodesW src ch ≤ nodesW src ch * (1 + langW l) := Nat.le_mul_of_pos_right _ (by omega)
      have h4 : headW src (langSelectors l h.selectors) ≤ headW src h.selectors + langW l := by
        rw [headW, headW]; omega
      dsimp only
      omega

/-! ## Inference -/

theorem set_le {n : Node} : ∀ {ns : List Node} {i : Nat} {m : Node}, ns[i]? = some m → nodeW src n ≤ nodeW src m →
    nodesW src (ns.set i n) ≤ nodesW src ns
  | [], _, _, h, _ => by simp at h
  | a :: ns, 0, m, h, hn => by
    simp only [List.getElem?_cons_zero, Option.some.injEq] at h
    subst h
    simp only [List.set_cons_zero, nodesW]
    omega
  | a :: ns, i + 1, m, h, hn => by
    have := set_le (ns := ns) (i := i) (by simpa using h) hn
    simp only [List.set_cons_succ, nodesW]
    omega

theorem infer_apply {t : String} (ht : t.toList.length ≤ 8) {r : Range} {h : EHead} {ch : List Node}
    (hn : ((h.selectors.head?).bind fun s => s.tag.name) = none) : nodeW src (Infer.applyTag t (.elem r h ch)) ≤ nodeW src (.elem r h ch) := by
  rw [Infer.applyTag, nodeW, nodeW]
  suffices headW src (h.applyTags [.provided t.toList]).selectors ≤ headW src h.selectors by omega
  rw [EHead.applyTags]
  split
  · exact drop_le _
  · rename_i a rest ha
    have hm : a = .provided t.toList ∧ rest = [] := by
      rw [List.filter_cons] at ha
      split at ha
      · cases ha; exact ⟨rfl, rfl⟩
      · cases ha
    obtain ⟨rfl, rfl⟩ := hm
    split
    · rename_i s ss hs
      rw [hs] at hn ⊢
      rw [headW_cons]
      dsimp only [List.map_nil, List.cons_append, List.nil_append]
      rw [headW_cons, selsW, selsW]
      have : tagW src s.tag = 8 := by
        cases h : s.tag with
        | explicit v => simp [h, Tag.name] at hn
        | _ => rfl
      rw [selW, selW, this, List.map_nil, List.nil_append]
      simp only [tagW, len, TextSlice.asStr]
      omega
    · dsimp only [List.map_nil]
      rw [headW_cons]
      simp only [List.map_nil, selsW, selW, Selector.withTag, Selector.empty, tagW, itemsW, len, TextSlice.asStr, headW]
      omega

theorem def_mem {α : Type} (cx : PredCx) : ∀ (l : List (Pred × α)) (i start : Nat) {t : α},
    Infer.defTest src cx l i start = .ok (some t) → ∃ p, (p, t) ∈ l
  | [], _, _, _, h => by simp [Infer.defTest] at h
  | (p, v) :: l, i, start, t, h => by
    rw [Infer.defTest] at h
    split at h
    · split at h
      · cases h
      · cases h; exact ⟨p, List.mem_cons_self⟩
      · obtain ⟨q, hq⟩ := def_mem cx l _ _ h
        exact ⟨q, List.mem_cons_of_mem _ hq⟩
    · obtain ⟨q, hq⟩ := def_mem cx l _ _ h
      exact ⟨q, List.mem_cons_of_mem _ hq⟩

/-- The names that are inferred are short. -/
def Short (defs : List (Pred × String)) : Prop := ∀ p t, (p, t) ∈ defs → t.toList.length ≤ 8

theorem short_tags (m : Infer.Method) : Short m.tags := by
  have key : ∀ l : List String, (m.tags.map Prod.snd = l) → (∀ t ∈ l, t.toList.length ≤ 8) → Short m.tags := by
    intro l e h p t hm
    exact h t (e ▸ List.mem_map_of_mem (f := Prod.snd) hm)
  cases m <;> exact key _ rfl (by decide)

theorem tag_node {defs : List (Pred × String)} (hd : Short defs) (parent : Option PredCx) (nodes : List Node) (st : List (Option Nat)) (i : Nat) :
    nodesW src (Infer.inferTagNode src defs parent nodes st i).1 ≤ nodesW src nodes := by
  rw [Infer.inferTagNode]
  split
  · split
    · exact Nat.le_refl _
    · rename_i node hn
      split
      · exact Nat.le_refl _
      · rename_i hs
        split
        · rename_i t ht
          obtain ⟨p, hp⟩ := def_mem _ _ _ _ ht
          refine set_le hn ?_
          cases node with
          | text => exact Nat.le_refl _
          | elem r h ch =>
            refine infer_apply (hd p t hp) ?_
            simpa [Node.asElement] using hs
        · exact Nat.le_refl _
        · exact Nat.le_refl _
  · exact Nat.le_refl _

theorem tag_pass {defs : List (Pred × String)} (hd : Short defs) (parent : Option PredCx) : ∀ (is : List Nat) (nodes : List Node) (st : List (Option Nat)),
    nodesW src (Infer.inferTagPass src defs parent is nodes st).1 ≤ nodesW src nodes
  | [], _, _ => Nat.le_refl _
  | i :: is, nodes, st => by
    rw [Infer.inferTagPass]
    exact Nat.le_trans (tag_pass hd parent is _ _) (tag_node hd parent nodes st i)

theorem tag_loop {defs : List (Pred × String)} (hd : Short defs) (parent : Option PredCx) : ∀ (k : Nat) (b : Bool) (n : Nat) (nodes : List Node)
    (st : List (Option Nat)), nodesW src (Infer.inferTagLoop src defs parent k b n nodes st).1 ≤ nodesW src nodes
  | 0, _, _, _, _ => Nat.le_refl _
  | k + 1, b, n, nodes, st => by
    rw [Infer.inferTagLoop]
    dsimp only
    generalize (if b then (List.range nodes.length).reverse else List.range nodes.length) = is
    have h := tag_pass (src := src) hd parent is nodes st
    split
    · exact h
    · exact Nat.le_trans (tag_loop hd parent k _ _ _ _) h

theorem first_eq (r : Range) (h : EHead) (ch : List Node) :
    headW src (splitFirst h ch).1.selectors + nodesW src (splitFirst h ch).2 = nodeW src (.elem r h ch) := by
  rw [splitFirst, nodeW]
  split
  · rename_i s s2 ss hs
    simp only [nodesW, Node.ofElem, nodeW, hs, headW_cons, selsW]
    omega
  · rfl

theorem level_le {rec : Infer.Method → Option PredCx → List Node → List Node} (hr : ∀ m p ns, nodesW src (rec m p ns) ≤ nodesW src ns)
    (ms : List (Pred × Infer.Method)) (parent : Option PredCx) (nodes : List Node) (i : Nat) :
    nodesW src (Infer.inferenceLevel rec src ms parent nodes i) ≤ nodesW src nodes := by
  rw [Infer.inferenceLevel]
  split
  · rename_i r h ch hn
    have e := first_eq (src := src) r h ch
    dsimp only
    rw [List.set_set]
    refine set_le hn ?_
    rw [nodeW]
    have := hr (Infer.methodLoop src (PredCx.mk (nodes.set i (.elem r (splitFirst h ch).1 [])) i parent) ms (ms.length + 1) 0)
      (some (PredCx.mk (nodes.set i (.elem r (splitFirst h ch).1 [])) i parent)) (splitFirst h ch).2
    dsimp only
    omega
  · exact Nat.le_refl _

theorem fold_le {f : List Node → Nat → List Node} (hf : ∀ ns i, nodesW src (f ns i) ≤ nodesW src ns) : ∀ (is : List Nat) (ns : List Node),
    nodesW src (is.foldl f ns) ≤ nodesW src ns
  | [], _ => Nat.le_refl _
  | i :: is, ns => by
    rw [List.foldl_cons]
    exact Nat.le_trans (fold_le hf is _) (hf ns i)

theorem use_le : ∀ (k : Nat) (m : Infer.Method) (p : Option PredCx) (ns : List Node), nodesW src (Infer.useMethod src k m p ns) ≤ nodesW src ns
  | 0, _, _, _ => Nat.le_refl _
  | k + 1, m, p, ns => by
    rw [Infer.useMethod]
    refine Nat.le_trans (fold_le (fun ns i => level_le (fun m p ns => use_le k m p ns) _ _ _ _) _ _) ?_
    rw [Infer.inferTagNodes]
    exact tag_loop (short_tags m) _ _ _ _ _ _

theorem inferred_le (ns : List Node) : nodesW src (Infer.infer src ns) ≤ nodesW src ns := use_le _ _ _ _

theorem transformed_le (cfg : OutputConfig) (hm : cfg.metadata = none) :
    ∃ K, ∀ src doc, nodesW src (transformDocument doc src cfg).nodes ≤ K * (nodesW src doc.nodes + 1) := by
  refine ⟨(1 + specialW cfg.specialTags + 73) * (1 + langW (cfg.lang.getD [])), fun src doc => ?_⟩
  rw [transformDocument]
  simp only [hm]
  have h1 : nodesW src (applySpecialTags cfg doc).nodes ≤ nodesW src doc.nodes * (1 + specialW cfg.specialTags) := by
    rw [applySpecialTags]
    exact special_nodes _ _
  generalize applySpecialTags cfg doc = d1 at h1 ⊢
  have h2 : nodesW src (if cfg.completePage.getD false then completePage src d1 else d1).nodes ≤ nodesW src d1.nodes + 73 := by
    split
    · exact page_le _
    · omega
  generalize (if cfg.completePage.getD false then completePage src d1 else d1) = d2 at h2 ⊢
  have h3 := inferred_le (src := src) d2.nodes
  generalize Infer.infer src d2.nodes = ns at h3 ⊢
  have h4 : nodesW src (applyLang { d2 with nodes := ns } cfg.lang).nodes ≤ nodesW src ns * (1 + langW (cfg.lang.getD [])) := by
    cases cfg.lang with
    | none => exact Nat.le_mul_of_pos_right _ (by omega)
    | some l => exact lang_nodes l ns
  refine Nat.le_trans h4 ?_
  rw [Nat.mul_right_comm]
  refine Nat.mul_le_mul_right _ ?_
  have e : (1 + specialW cfg.specialTags + 73) * (nodesW src doc.nodes + 1) =
    nodesW src doc.nodes * (1 + specialW cfg.specialTags) + 73 * nodesW src doc.nodes + (1 + specialW cfg.specialTags + 73) := by ring
  omega

end Mty.Size
