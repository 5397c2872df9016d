import Verif.Spec.Trail
import Verif.Proofs.Outline
import Verif.Model.Transform
import Verif.Model.Metadata

/-! # Inference along the way to an element (for C92) -/

set_option autoImplicit false

namespace Mty.Spec

/-- Inference along a trail. -/
def nameTrail (c : Context) (parent grand : Option Str) : List Seen → List Seen
  | [] => []
  | s :: ss =>
    let name := newName s.name (nameIn c s.form s.first s.last (grand = some "thead".toList))
    { s with name := name } :: nameTrail (contextInside name s.form) name parent ss

theorem length_inferForest (c : Context) (parent grand : Option Str) :
    ∀ (fi : Bool) (ts : List Tree), (inferForest c parent grand fi ts).length = ts.length
  | _, [] => by simp [inferForest]
  | _, _ :: ts => by simp [inferForest, length_inferForest c parent grand false ts]

theorem get_inferForest (c : Context) (parent grand : Option Str) :
    ∀ (ts : List Tree) (fi : Bool) (i : Nat), (inferForest c parent grand fi ts)[i]? =
      ts[i]?.map (inferTree c parent grand (fi && decide (i = 0)) (decide (i + 1 = ts.length)))
  | [], _, _ => by simp [inferForest]
  | t :: ts, fi, 0 => by
    cases ts <;> simp [inferForest]
  | t :: ts, fi, i + 1 => by
    have := get_inferForest c parent grand ts false i
    simp only [inferForest, List.getElem?_cons_succ, this, Bool.false_and, List.length_cons]
    simp

theorem trail_inferForest : ∀ (p : List Nat) (c : Context) (parent grand : Option Str) (ts : List Tree),
    trail p (inferForest c parent grand true ts) = (trail p ts).map (nameTrail c parent grand)
  | [], _, _, _, _ => by simp [trail, nameTrail]
  | i :: p, c, parent, grand, ts => by
    simp only [trail, get_inferForest, length_inferForest]
    cases h : ts[i]? with
    | none => simp
    | some t =>
      cases t with
      | leaf t => simp [inferTree]
      | elem form raw fmt sel ch =>
        simp only [Option.map_some, inferTree, Bool.true_and, namedSel_name]
        rw [trail_inferForest p]
        cases trail p ch with
        | none => simp
        | some rest => simp [nameTrail]

/-! ## Changes that keep the names -/

/-- Trees with the same elements with the same names. -/
inductive Twin : Tree → Tree → Prop
  | leaf {t t'} : Twin (.leaf t) (.leaf t')
  | elem {form raw raw' fmt fmt' sel sel' ch ch'} : sel.bind (·.1) = sel'.bind (·.1) → List.Forall₂ Twin ch ch' →
      Twin (.elem form raw fmt sel ch) (.elem form raw' fmt' sel' ch')

theorem forall₂_get {α β : Type} {R : α → β → Prop} {l : List α} {l' : List β} (h : List.Forall₂ R l l') (i : Nat) :
    (l[i]? = none ∧ l'[i]? = none) ∨ ∃ a b, l[i]? = some a ∧ l'[i]? = some b ∧ R a b := by
  induction h generalizing i with
  | nil => exact .inl ⟨by simp, by simp⟩
  | cons hab _ ih =>
    cases i with
    | zero => exact .inr ⟨_, _, by simp, by simp, hab⟩
    | succ i => simpa using ih i

theorem forall₂_length {α β : Type} {R : α → β → Prop} {l : List α} {l' : List β} (h : List.Forall₂ R l l') : l.length = l'.length := by
  induction h with
  | nil => rfl
  | cons _ _ ih => simp [ih]

theorem trail_twin : ∀ (p : List Nat) {ts ts' : List Tree}, List.Forall₂ Twin ts ts' → trail p ts = trail p ts'
  | [], _, _, _ => rfl
  | i :: p, ts, ts', h => by
    simp only [trail, forall₂_length h]
    rcases forall₂_get h i with ⟨h1, h2⟩ | ⟨a, b, h1, h2, hab⟩
    · rw [h1, h2]
    · rw [h1, h2]
      cases hab with
      | leaf => rfl
      | elem hn hc => simp only [trail_twin p hc, hn]

/-- The written or inferred names of selectors. -/
def selNames (src : Str) (ss : List Selector) : List (Option Str) := ss.map fun s => s.tag.name.map fun n => n.asStr src

theorem chain_twin (src : Str) (h h' : EHead) (ht : h.ty = h'.ty) : ∀ (ss ss' : List Selector), selNames src ss = selNames src ss' →
    ∀ {kids kids' : List Tree}, List.Forall₂ Twin kids kids' → Twin (chainTree src h ss kids) (chainTree src h' ss' kids')
  | [], [], _, _, _, hk => by
    rw [chainTree, chainTree, ht]
    exact .elem rfl hk
  | [s], [s'], hs, _, _, hk => by
    simp only [chainTree, ht]
    refine .elem ?_ hk
    simpa [selNames, selOf] using hs
  | s :: s2 :: ss, s' :: s2' :: ss', hs, _, _, hk => by
    simp only [chainTree, ht]
    simp only [selNames, List.map_cons, List.cons.injEq] at hs
    refine .elem ?_ (.cons (chain_twin src h h' ht (s2 :: ss) (s2' :: ss') ?_ hk) .nil)
    · simpa [selOf] using hs.1
    · simpa [selNames] using hs.2
  | [], _ :: _, hs, _, _, _ => by simp [selNames] at hs
  | _ :: _, [], hs, _, _, _ => by simp [selNames] at hs
  | [_], _ :: _ :: _, hs, _, _, _ => by simp [selNames] at hs
  | _ :: _ :: _, [_], hs, _, _, _ => by simp [selNames] at hs

mutual
  theorem twin_refl : ∀ t : Tree, Twin t t
    | .leaf _ => .leaf
    | .elem _ _ _ _ ch => .elem rfl (twins_refl ch)
  theorem twins_refl : ∀ ts : List Tree, List.Forall₂ Twin ts ts
    | [] => .nil
    | t :: ts => .cons (twin_refl t) (twins_refl ts)
end

theorem selNames_lang (src lang : Str) : ∀ ss, selNames src (langSelectors lang ss) = selNames src ss
  | [] => rfl
  | s :: ss => by
    rw [langSelectors]
    split
    · rfl
    · simpa [selNames] using selNames_lang src lang ss

theorem lang_twin (src lang : Str) : ∀ ns : List Node, List.Forall₂ Twin (forestOf src (ns.map (langNode lang))) (forestOf src ns)
  | [] => .nil
  | .text r t :: ns => .cons .leaf (lang_twin src lang ns)
  | .elem r h ch :: ns => by
    rw [List.map_cons, langNode, forestOf, forestOf, treeOf, treeOf]
    exact .cons (chain_twin src { h with selectors := langSelectors lang h.selectors } h rfl _ _ (selNames_lang src lang h.selectors)
      (twins_refl _)) (lang_twin src lang ns)

theorem finish_tag (loc : Nat) (attrs : List Attribute) (s : Selector) : (metaFinish loc attrs s).tag = s.tag := by
  unfold metaFinish
  split <;> rfl

theorem selNames_meta (src : Str) (cx : MetaCx) (hc : cx.elements = false) : ∀ (i : Nat) (ss : List Selector),
    selNames src (metaSelectors cx i ss).1 = selNames src ss
  | _, [] => rfl
  | i, s :: ss => by
    have ih := selNames_meta src cx hc (i + 1) ss
    simp only [selNames] at ih
    simp only [metaSelectors, hc, Bool.not_false, Bool.and_true, selNames]
    split
    · simp [ih]
    · rename_i hu
      simp only [List.map_cons, ih, finish_tag]

theorem selNames_metaElement (src : Str) (opts : MetadataConfig) (ho : opts.elements = false) (r : Range) (h : EHead) (root : Bool) :
    selNames src (metaElement opts r h root).selectors = selNames src h.selectors ∧ (metaElement opts r h root).ty = h.ty := by
  unfold metaElement
  by_cases ht : (h.selectors.any fun s => !s.uninferred) = true
  · simp only [ht, ho, Bool.not_true, Bool.false_and, Bool.false_eq_true, if_false]
    exact ⟨selNames_meta src _ rfl _ _, trivial⟩
  · simp [ht, ho]

mutual
  theorem meta_twin (src : Str) (opts : MetadataConfig) (ho : opts.elements = false) :
      ∀ (n : Node) (root : Bool), Twin (treeOf src (metaNode opts n root)) (treeOf src n)
    | .elem r h ch, root => by
      rw [metaNode, treeOf, treeOf]
      obtain ⟨h1, h2⟩ := selNames_metaElement src opts ho r h root
      exact chain_twin src _ _ h2 _ _ h1 (metas_twin src opts ho ch false)
    | .text r (.text t), root => by
      simp only [metaNode, ho, Bool.false_and, Bool.false_eq_true, if_false]
      exact .leaf
    | .text r (.comment s), root => by
      simp only [metaNode, ho, Bool.false_eq_true, if_false]
      exact .leaf
    | .text r (.space s), root => .leaf
  theorem metas_twin (src : Str) (opts : MetadataConfig) (ho : opts.elements = false) :
      ∀ (ns : List Node) (root : Bool), List.Forall₂ Twin (forestOf src (metaNodes opts ns root)) (forestOf src ns)
    | [], _ => .nil
    | n :: ns, root => .cons (meta_twin src opts ho n root) (metas_twin src opts ho ns root)
end

end Mty.Spec
