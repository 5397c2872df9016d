import Verif.Proofs.Squeeze
import Verif.Proofs.SameOut
import Verif.Spec.Ranges
import Verif.Proofs.Ranges

/-! # Transformation and output of documents without repeated ends of paragraphs (for C90) -/

set_option autoImplicit false

namespace Mty
open Spec

namespace Squeeze
open Same

section
variable {src : Str} {c : SpecialTagConfig}

/-! ## Special tags -/

theorem special_sep {n : Node} (h : IsSep n) : IsSep (specialNode c n) := by
  obtain ⟨r, rfl⟩ := h
  exact ⟨r, rfl⟩

mutual
  theorem special_thin : ∀ {n n' : Node}, Thin src n n' → Thin src (specialNode c n) (specialNode c n')
    | _, _, .text => .text
    | _, _, .elem (h := h) (h' := h') h1 h2 h3 h4 h5 => by
      refine .elem (specialHead_sim h1 h2) ?_ ?_ ?_ (specials_thin h5)
      · rw [(specialHead_rest h).1, (specialHead_rest h').1, h2]
      · rw [(specialHead_rest h).2.1, (specialHead_rest h').2.1, h3]
      · rw [(specialHead_rest h).2.2, (specialHead_rest h').2.2, h4]
  theorem specials_thin : ∀ {p : Bool} {ns ns' : List Node}, Kids src p ns ns' → Kids src p (specialNodes c ns) (specialNodes c ns')
    | _, _, _, .nil => .nil
    | _, _, _, .cons h0 h1 h2 => .cons (fun h => special_sep (h0 h)) (special_thin h1) (specials_thin h2)
    | _, _, _, .drop h => .drop (specials_thin h)
end

/-! ## Completed pages -/

theorem named_thin {names : List String} {n n' : Node} (h : Thin src n n') : isNamed src names n = isNamed src names n' := by
  cases h with
  | text => rfl
  | @elem r r' h h' ch ch' h1 =>
    simp only [isNamed]
    generalize h.selectors = x at *
    generalize h'.selectors = y at *
    cases h1 with
    | nil => rfl
    | @cons a b l l' h1 _ =>
      have := h1.1
      simp only [List.head?_cons, Option.bind_some]
      cases ha : a.tag.name <;> cases hb : b.tag.name <;> simp only [ha, hb, Option.map_some, Option.map_none] at this
      · rfl
      · cases this
      · cases this
      · have := Option.some.inj this
        simp only [this]

theorem children_thin {n n' : Node} (h : Thin src n n') : Kids src false (childrenOf n) (childrenOf n') := by
  cases h with
  | text => exact .nil
  | elem _ _ _ _ h => exact h

theorem any_thin {names : List String} : ∀ {p : Bool} {ns ns' : List Node}, Kids src p ns ns' →
    ns.any (isNamed src names) = ns'.any (isNamed src names)
  | _, _, _, .nil => rfl
  | _, _, _, .cons _ h1 h2 => by simp only [List.any_cons, named_thin h1]; rw [any_thin h2]
  | _, _, _, .drop h => by
    rw [List.any_cons, any_thin h]
    simp [isNamed]

theorem head_thin : ∀ {p : Bool} {ns ns' : List Node}, Kids src p ns ns' → ∀ q, Kids src q (headNodes src ns) (headNodes src ns')
  | _, _, _, .nil, _ => .nil
  | _, _, _, .cons _ h1 h2, q => by
    have ih := head_thin h2
    unfold headNodes at ih ⊢
    simp only [List.flatMap_cons]
    refine kids_append_aux ?_ ih
    rw [← named_thin h1, ← named_thin h1]
    split
    · exact kids_weaken (children_thin h1)
    · split
      · exact .cons (q := false) (by simp) h1 .nil
      · exact .nil
  | _, _, _, .drop h, q => by
    have ih := head_thin h q
    unfold headNodes at ih ⊢
    rw [List.flatMap_cons]
    exact ih

theorem body_thin : ∀ {p : Bool} {ns ns' : List Node}, Kids src p ns ns' → Kids src p (bodyNodes src ns) (bodyNodes src ns')
  | _, _, _, .nil => .nil
  | p, _, _, .cons (q := q) (n := n) (n' := n') (ns := ns) (ns' := ns') h0 h1 h2 => by
    have ih := body_thin h2
    have hs : q = true → bodyNodes src (n :: ns) = n :: bodyNodes src ns ∧ bodyNodes src (n' :: ns') = n' :: bodyNodes src ns' := by
      intro hq
      obtain ⟨r, rfl⟩ := h0 hq
      cases h1
      exact ⟨rfl, rfl⟩
    cases q with
    | true =>
      rw [(hs rfl).1, (hs rfl).2]
      exact .cons h0 h1 ih
    | false =>
      unfold bodyNodes at ih ⊢
      simp only [List.filter_cons]
      rw [← named_thin h1, ← named_thin h1]
      split
      · exact .cons h0 h1 ih
      · exact kids_weaken ih
  | _, _, _, .drop (r := r) (ns := ns) h => by
    have ih := body_thin h
    rw [show bodyNodes src (.text r (.space .paragraphEnd) :: ns) = .text r (.space .paragraphEnd) :: bodyNodes src ns from rfl]
    exact .drop ih

theorem page_thin {h h' : EHead} {name : Str} {ns ns' : List Node} (e : h = { pageElement name with contentRange := h.contentRange })
    (e' : h' = { pageElement name with contentRange := h'.contentRange }) (hs : Kids src false ns ns') :
    Thin src (Node.ofElem h ns) (Node.ofElem h' ns') := by
  have k : List.Forall₂ (SelSim src src) (pageElement name).selectors (pageElement name).selectors :=
    applyTags_sim [name] (h := EHead.new Range.INVALID .unknown) (h' := EHead.new Range.INVALID .unknown) .nil
  rw [e, e']
  exact .elem k rfl rfl rfl hs

theorem completePage_thin {d d' : Document} (h : Kids src false d.nodes d'.nodes) :
    Kids src false (completePage src d).nodes (completePage src d').nodes := by
  rcases completePage_cases src d with ⟨h1, h2⟩ | ⟨h1, h2, hd, hh, h3⟩ | ⟨h1, h2, hd, hh, h3⟩ <;>
  rcases completePage_cases src d' with ⟨k1, k2⟩ | ⟨k1, k2, kd, kh, k3⟩ | ⟨k1, k2, kd, kh, k3⟩ <;>
  (try (rw [any_thin h, k1] at h1; cases h1)) <;> (try (rw [any_thin h, k2] at h2; cases h2))
  · rw [h2, k2]; exact h
  · rw [h3, k3]; exact kids_thins (.cons (page_thin hh kh h) .nil) _
  · rw [h3, k3]
    exact kids_thins (.cons (page_thin hh kh (kids_thins (.cons (page_thin (name := "head".toList) rfl rfl (head_thin h _)) (.cons .text
      (.cons (page_thin (name := "body".toList) rfl rfl (body_thin h)) .nil))) _)) .nil) _

end

/-! ## Trees -/

section
variable (src : Str)

/-- The tree of the end of a paragraph. -/
def sepTree : Tree := .leaf (.space .paragraphEnd)

mutual
  /-- Trees that are the same apart from positions and repeated ends of paragraphs inside. -/
  inductive TThin : Tree → Tree → Prop
    | leaf {t} : TThin (.leaf t) (.leaf t)
    | elem {f raw fmt sel sel' ch ch'} : TSel src src sel sel' → TKids false ch ch' → TThin (.elem f raw fmt sel ch) (.elem f raw fmt sel' ch')
  inductive TKids : Bool → List Tree → List Tree → Prop
    | nil {p} : TKids p [] []
    | cons {p q t t' ts ts'} : (q = true → t = sepTree) → TThin t t' → TKids q ts ts' → TKids p (t :: ts) (t' :: ts')
    | drop {ts ts'} : TKids true ts ts' → TKids true (sepTree :: ts) ts'
end
end

section
variable {src : Str}

theorem chain_thin {h h' : EHead} {kids kids' : List Tree} (hk : TKids src false kids kids') (ht : formOf h.ty = formOf h'.ty)
    (hf : (onOneLine h) = (onOneLine h')) (hr : h.isRaw = h'.isRaw) : ∀ {l l' : List Selector}, List.Forall₂ (SelSim src src) l l' →
    TThin src (chainTree src h l kids) (chainTree src h' l' kids')
  | [], _, hs => by cases hs; rw [chainTree, chainTree, ht, hf, hr]; exact .elem .none hk
  | [s], _, hs => by
    cases hs with
    | cons h1 h2 => cases h2; rw [chainTree, chainTree, ht, hf, hr]; exact .elem (sel_sim h1) hk
  | s :: t :: l, _, hs => by
    cases hs with
    | cons h1 h2 =>
      have ih := chain_thin hk ht hf hr h2
      cases h2 with
      | cons h2 h3 => rw [chainTree, chainTree, ht, hr]; exact .elem (sel_sim h1) (.cons (q := false) (by simp) ih .nil)

mutual
  theorem tree_thin : ∀ {n n' : Node}, Thin src n n' → TThin src (treeOf src n) (treeOf src n')
    | _, _, .text => .leaf
    | _, _, .elem h1 h2 h3 h4 h5 => by
      rw [treeOf, treeOf]
      exact chain_thin (forest_thin h5) (formOf_kind h2) (fmt_kind h2 h3) h4 h1
  theorem forest_thin : ∀ {p : Bool} {ns ns' : List Node}, Kids src p ns ns' → TKids src p (forestOf src ns) (forestOf src ns')
    | _, _, _, .nil => .nil
    | _, _, _, .cons h0 h1 h2 => .cons (fun h => by obtain ⟨r, rfl⟩ := h0 h; rfl) (tree_thin h1) (forest_thin h2)
    | _, _, _, .drop h => .drop (forest_thin h)
end

/-! ## Inference -/

theorem tkids_isEmpty {ts ts' : List Tree} (h : TKids src false ts ts') : ts.isEmpty = ts'.isEmpty := by
  generalize hp : false = p at h
  cases h with
  | nil => rfl
  | cons => rfl
  | drop => cases hp

mutual
  theorem infer_thin : ∀ {t t' : Tree}, TThin src t t' → ∀ (c : Context) (p g : Option Str) (a b : Bool),
      TThin src (inferTree c p g a b t) (inferTree c p g a b t')
    | _, _, .leaf, _, _, _, _, _ => .leaf
    | _, _, .elem h1 h2, c, p, g, a, b => by
      have k := fun c p g a => infers_thin h2 c p g a (by simp)
      simp only [inferTree]
      have hs := namedSel_sim (c := c) (f := ‹Option Form›) (a := a) (b := b) (h := decide (g = some "thead".toList)) h1
      rw [tsel_name hs]
      exact .elem hs (k _ _ _ _)
  theorem infers_thin : ∀ {q : Bool} {ts ts' : List Tree}, TKids src q ts ts' → ∀ (c : Context) (p g : Option Str) (a : Bool),
      (q = true → a = false) → TKids src q (inferForest c p g a ts) (inferForest c p g a ts')
    | _, _, _, .nil, _, _, _, _, _ => .nil
    | _, _, _, .cons (q := q) (t := t) (t' := t') h0 h1 h2, c, p, g, a, ha => by
      have ih := infers_thin h2 c p g false (fun _ => rfl)
      have ih1 := infer_thin h1 c p g a
      rw [inferForest, inferForest]
      cases q with
      | true =>
        refine .cons (fun _ => ?_) ?_ ih
        · rw [h0 rfl]; rfl
        · have := h0 rfl
          subst this
          cases h1
          exact .leaf
      | false =>
        rw [tkids_isEmpty h2]
        exact .cons (by simp) (ih1 _) ih
    | _, _, _, .drop h, c, p, g, a, ha => by
      rw [inferForest]
      rw [ha rfl]
      exact .drop (infers_thin h c p g false (fun _ => rfl))
end

/-! ## `lang` -/

theorem thin_sel {f f' : Option Form} {raw raw' fmt fmt' : Bool} {sel sel' : Option (Option Str × List SelectorItem)} {ch ch' : List Tree}
    (h : TThin src (.elem f raw fmt sel ch) (.elem f' raw' fmt' sel' ch')) : TSel src src sel sel' ∧ raw = raw' ∧ fmt = fmt' := by
  cases h with
  | elem h => exact ⟨h, rfl, rfl⟩

theorem thin_resel {f f' : Option Form} {raw raw' fmt fmt' : Bool} {n : Str} {i i' j j' : List SelectorItem} {ch ch' : List Tree}
    (h : TThin src (.elem f raw fmt (some (some n, i)) ch) (.elem f' raw' fmt' (some (some n, i')) ch'))
    (hj : SameParts (documentParts src j) (documentParts src j')) :
    TThin src (.elem f raw fmt (some (some n, j)) ch) (.elem f' raw' fmt' (some (some n, j')) ch') := by
  cases h with
  | elem _ h => exact .elem (.some hj) h

theorem thin_not_leaf {f : Option Form} {raw fmt : Bool} {sel : Option (Option Str × List SelectorItem)} {ch : List Tree} {t : TextLike} :
    ¬ TThin src (.elem f raw fmt sel ch) (.leaf t) := by
  intro h; cases h

theorem thin_not_elem {f : Option Form} {raw fmt : Bool} {sel : Option (Option Str × List SelectorItem)} {ch : List Tree} {t : TextLike} :
    ¬ TThin src (.leaf t) (.elem f raw fmt sel ch) := by
  intro h; cases h

theorem lang_thin {l : Str} {n n' m m' : Node} (h : TThin src (treeOf src n) (treeOf src n')) (hm : LangAdded l n m) (hm' : LangAdded l n' m') :
    TThin src (treeOf src m) (treeOf src m') := by
  cases hm with
  | text =>
    cases hm' with
    | text => exact h
    | named hs _ =>
      simp only [treeOf, hs, chainTree] at h
      exact absurd h thin_not_elem
    | unnamed => exact h
  | unnamed hu =>
    cases hm' with
    | text => exact h
    | unnamed => exact h
    | @named r' h' s' ch' loc' hs' hn' =>
      rename_i r hd ch
      simp only [treeOf, hs', chainTree] at h
      obtain ⟨f, raw, fmt, k, e⟩ := chainTree_top src hd hd.selectors (forestOf src ch)
      rw [e] at h
      have := tsel_name (thin_sel h).1
      rw [unnamed_sel hu] at this
      simp only [selOf, Option.bind_some] at this
      cases hx : s'.tag.name with
      | none => simp [hx] at hn'
      | some x => simp [hx] at this
  | @named r hd s ch loc hs hn =>
    cases hm' with
    | text =>
      simp only [treeOf, hs, chainTree] at h
      exact absurd h thin_not_leaf
    | unnamed hu =>
      rename_i r' hd' ch'
      simp only [treeOf, hs, chainTree] at h
      obtain ⟨f, raw, fmt, k, e⟩ := chainTree_top src hd' hd'.selectors (forestOf src ch')
      rw [e] at h
      have := tsel_name (thin_sel h).1
      rw [unnamed_sel hu] at this
      simp only [selOf, Option.bind_some] at this
      cases hx : s.tag.name with
      | none => simp [hx] at hn
      | some x => simp [hx] at this
    | @named r' hd' s' ch' loc' hs' hn' =>
      simp only [treeOf, hs, hs', chainTree] at h ⊢
      obtain ⟨k1, k2, k3⟩ := thin_sel h
      have k4 := tsel_name k1
      simp only [selOf, Option.bind_some] at k1 k4 h ⊢
      cases hx : s.tag.name with
      | none => simp [hx] at hn
      | some x =>
        rw [hx, Option.map_some] at k4 k1 h
        rw [← k4] at k1 h
        have hp : SameParts (documentParts src s.items) (documentParts src s'.items) := by cases k1 with | some h => exact h
        have e : s'.tag.name.map (fun n => n.asStr src) = some (x.asStr src) := k4.symm
        simp only [Option.map_some]
        rw [e]
        exact thin_resel h (by rw [parts_append, parts_append]; exact hp.append (.of_eq rfl))

theorem sep_of_tree {n : Node} (h : treeOf src n = sepTree) : IsSep n := by
  cases n with
  | text r t => simp only [treeOf, sepTree, Tree.leaf.injEq] at h; subst h; exact ⟨r, rfl⟩
  | elem r hd ch =>
    obtain ⟨_, _, _, _, k⟩ := chainTree_top src hd hd.selectors (forestOf src ch)
    rw [treeOf, k] at h; cases h

theorem lang_sep {l : Str} {n m : Node} (h : IsSep n) (hm : LangAdded l n m) : m = n := by
  obtain ⟨r, rfl⟩ := h
  cases hm; rfl

theorem langs_thin {l : Str} : ∀ {p : Bool} {ts ts' : List Tree}, TKids src p ts ts' → ∀ {ns ns' : List Node}, ts = forestOf src ns →
    ts' = forestOf src ns' → (∀ n ∈ ns, SingleSelectors n) →
    (∀ n ∈ ns', SingleSelectors n) → TKids src p (forestOf src (ns.map (langNode l))) (forestOf src (ns'.map (langNode l)))
  | _, _, _, .nil, ns, ns', e, e', _, _ => by
    cases ns with
    | cons => cases e
    | nil =>
      cases ns' with
      | cons => cases e'
      | nil => exact .nil
  | _, _, _, .cons h0 h1 h2, ns, ns', e, e', g, g' => by
    have ih := @langs_thin l _ _ _ h2
    cases ns with
    | nil => cases e
    | cons n ns =>
      cases ns' with
      | nil => cases e'
      | cons n' ns' =>
        simp only [forestOf, List.cons.injEq] at e e'
        rw [e.1] at h0 h1
        rw [e'.1] at h1
        simp only [List.map_cons, forestOf]
        have a := langNode_added l n (g n (List.mem_cons_self ..))
        refine .cons (fun hq => ?_) (lang_thin h1 a (langNode_added l n' (g' n' (List.mem_cons_self ..))))
          (ih e.2 e'.2 (fun x hx => g x (List.mem_cons_of_mem _ hx)) (fun x hx => g' x (List.mem_cons_of_mem _ hx)))
        have := h0 hq
        rw [lang_sep (sep_of_tree this) a]; exact this
  | _, _, _, .drop h, ns, ns', e, e', g, g' => by
    have ih := @langs_thin l _ _ _ h
    cases ns with
    | nil => cases e
    | cons n ns =>
      simp only [forestOf, List.cons.injEq] at e
      simp only [List.map_cons, forestOf]
      have a := langNode_added l n (g n (List.mem_cons_self ..))
      rw [lang_sep (sep_of_tree e.1.symm) a, ← e.1]
      exact .drop (ih e.2 e' (fun x hx => g x (List.mem_cons_of_mem _ hx)) g')

/-! ## Output -/

/-- What is written for the end of a paragraph. -/
def sepAct (cx : OutCx) : Act := writeTextLike cx (.space .paragraphEnd)

theorem sepAct_fs (cx : OutCx) (fs : Bool) : (sepAct cx fs).ok = true ∧ (sepAct cx fs).fs = true := by
  cases fs with
  | true => simp [sepAct, writeTextLike, space, Act.seq, Act.setFs, Act.skip]
  | false =>
    cases hi : cx.cfg.indent <;> cases hf : cx.fmtInline <;>
      simp [sepAct, writeTextLike, space, lineRaw, Act.seq, Act.setFs, Act.write, hi, hf]

theorem sepAct_again (cx : OutCx) : sepAct cx true = { out := [], fs := true, ok := true } := by
  simp [sepAct, writeTextLike, space, Act.seq, Act.setFs, Act.skip]

/-- The second list has fewer ends of paragraphs in a row. -/
inductive AKids (cx : OutCx) : Bool → List (Bool × Act) → List (Bool × Act) → Prop
  | nil {p} : AKids cx p [] []
  | cons {p q x l l'} : (q = true → x = (true, sepAct cx)) → AKids cx q l l' → AKids cx p (x :: l) (x :: l')
  | drop {l l'} : AKids cx true l l' → AKids cx true ((true, sepAct cx) :: l) l'

/-- Without trailing spaces. -/
def trimE : List (Bool × Act) → List (Bool × Act)
  | [] => []
  | x :: l => if x.1 && l.all (·.1) then [] else x :: trimE l

theorem trimE_all : ∀ {l : List (Bool × Act)}, l.all (·.1) = true → trimE l = []
  | [], _ => rfl
  | x :: l, h => by rw [trimE, if_pos (by simpa using h)]

theorem dropWhile_nil {α : Type} {p : α → Bool} : ∀ {l : List α}, l.dropWhile p = [] → ∀ x ∈ l, p x = true
  | y :: l, h, x, hx => by
    rw [List.dropWhile_cons] at h
    cases hy : p y with
    | false => rw [hy] at h; simp at h
    | true =>
      rw [hy] at h
      rcases List.mem_cons.1 hx with rfl | hx
      · exact hy
      · exact dropWhile_nil h x hx

theorem trimE_eq : ∀ l : List (Bool × Act), (l.reverse.dropWhile (·.1)).reverse = trimE l
  | [] => rfl
  | x :: l => by
    have ih := trimE_eq l
    rw [trimE, List.reverse_cons]
    by_cases h : l.all (·.1) = true
    · have k : l.reverse.dropWhile (·.1) = [] := by
        rw [trimE_all h] at ih; simpa using ih
      rw [h, List.dropWhile_append, k, trimE_all h]
      cases hx : x.1 <;> simp [hx]
    · have k : l.reverse.dropWhile (·.1) ≠ [] := by
        intro k
        exact h (List.all_eq_true.2 fun y hy => dropWhile_nil k y (List.mem_reverse.2 hy))
      rw [List.dropWhile_append, if_neg (by simpa using k), List.reverse_append, ih, if_neg (by simp_all)]
      rfl

theorem akids_all {cx : OutCx} : ∀ {p : Bool} {l l' : List (Bool × Act)}, AKids cx p l l' → l.all (·.1) = l'.all (·.1)
  | _, _, _, .nil => rfl
  | _, _, _, .cons _ h => by rw [List.all_cons, List.all_cons, akids_all h]
  | _, _, _, .drop h => by rw [List.all_cons, akids_all h]; rfl

theorem akids_drop {cx : OutCx} : ∀ {p : Bool} {l l' : List (Bool × Act)}, AKids cx p l l' → ∀ q, AKids cx q (l.dropWhile (·.1)) (l'.dropWhile (·.1))
  | _, _, _, .nil, _ => .nil
  | _, _, _, .cons (q := r) (x := x) h0 h, q => by
    have ih := akids_drop h
    rw [List.dropWhile_cons, List.dropWhile_cons]
    split
    · exact ih q
    · exact .cons h0 h
  | _, _, _, .drop h, q => by
    rw [List.dropWhile_cons, if_pos rfl]
    exact akids_drop h q

theorem akids_run {cx : OutCx} : ∀ {p : Bool} {l l' : List (Bool × Act)}, AKids cx p l l' → ∀ fs, (p = true → fs = true) →
    Act.all ((trimE l).map (·.2)) fs = Act.all ((trimE l').map (·.2)) fs
  | _, _, _, .nil, _, _ => rfl
  | _, _, _, .cons (q := q) (x := x) h0 h, fs, _ => by
    have ih := akids_run h
    rw [trimE, trimE, akids_all h]
    split
    · rfl
    · simp only [List.map_cons, Act.all, Act.seq]
      have : q = true → (x.2 fs).fs = true := by
        intro hq
        rw [h0 hq]
        exact (sepAct_fs cx fs).2
      rw [ih _ this]
  | _, _, _, .drop h, fs, hf => by
    have ih := akids_run h fs hf
    have e := akids_all h
    rw [hf rfl] at ih ⊢
    rw [trimE]
    split
    · rename_i k
      rw [trimE_all (l := _) (by rw [← e]; simpa using k)]
    · simp only [List.map_cons, Act.all, Act.seq, sepAct_again]
      rw [← ih, if_pos trivial]
      simp

theorem akids_content {cx : OutCx} {p : Bool} {l l' : List (Bool × Act)} (h : AKids cx p l l') : contentActs l = contentActs l' := by
  unfold contentActs
  rw [trimE_eq, trimE_eq]
  funext fs
  exact akids_run (akids_drop h false) fs (by simp)

mutual
  theorem act_thin : ∀ {t t' : Tree}, TThin src t t' → ∀ {n n' : Node}, t = treeOf src n → t' = treeOf src n' → SingleSelectors n →
      SingleSelectors n' → (∀ cx, processNode n (withSrc cx src) = processNode n' (withSrc cx src)) ∧ n.isSpace = n'.isSpace
    | _, _, .leaf, n, n', e, e', h1, h2 => by
      cases n with
      | elem r hd ch =>
        obtain ⟨_, _, _, _, k⟩ := chainTree_top src hd hd.selectors (forestOf src ch)
        rw [treeOf, k] at e; cases e
      | text r t =>
        cases n' with
        | elem r hd ch =>
          obtain ⟨_, _, _, _, k⟩ := chainTree_top src hd hd.selectors (forestOf src ch)
          rw [treeOf, k] at e'; cases e'
        | text r' t' =>
          cases e
          cases e'
          refine ⟨fun cx => rfl, ?_⟩
          rename_i t
          cases t <;> rfl
    | _, _, .elem hs hc, n, n', e, e', h1, h2 => by
      have ih := @acts_thin _ _ _ hc
      cases n with
      | text => cases e
      | elem r hd ch =>
        cases n' with
        | text => cases e'
        | elem r' hd' ch' =>
          cases h1 with
          | elem l1 h1 =>
            cases h2 with
            | elem l2 h2 =>
              rw [treeOf, single_tree l1] at e
              rw [treeOf, single_tree l2] at e'
              cases e
              simp only [Tree.elem.injEq] at e'
              obtain ⟨e1, e2, e3, e4, e5⟩ := e'
              rw [e4] at hs
              have ih := ih rfl e5 h1 h2
              have he : ch.isEmpty = ch'.isEmpty := by
                subst e5
                have := tkids_isEmpty hc
                rw [forestOf_eq, forestOf_eq] at this
                simpa using this
              refine ⟨fun cx => ?_, rfl⟩
              simp only [processNode, he]
              exact elementAct_same _ l1 l2 hs e2 e3 (fun cx => akids_content (ih cx)) cx
  theorem acts_thin : ∀ {p : Bool} {ts ts' : List Tree}, TKids src p ts ts' → ∀ {ns ns' : List Node}, ts = forestOf src ns →
      ts' = forestOf src ns' → (∀ n ∈ ns, SingleSelectors n) → (∀ n ∈ ns', SingleSelectors n) →
      ∀ cx, AKids (withSrc cx src) p (nodeActs ns (withSrc cx src)) (nodeActs ns' (withSrc cx src))
    | _, _, _, .nil, ns, ns', e, e', _, _ => by
      cases ns with
      | cons => cases e
      | nil =>
        cases ns' with
        | cons => cases e'
        | nil => intro cx; exact .nil
    | _, _, _, .cons h0 hc hr, ns, ns', e, e', h1, h2 => by
      have i1 := @act_thin _ _ hc
      have i2 := @acts_thin _ _ _ hr
      cases ns with
      | nil => cases e
      | cons n ns =>
        cases ns' with
        | nil => cases e'
        | cons n' ns' =>
          simp only [forestOf, List.cons.injEq] at e e'
          obtain ⟨j1, j2⟩ := i1 e.1 e'.1 (h1 n (List.mem_cons_self ..)) (h2 n' (List.mem_cons_self ..))
          have j3 := i2 e.2 e'.2 (fun x hx => h1 x (List.mem_cons_of_mem _ hx)) (fun x hx => h2 x (List.mem_cons_of_mem _ hx))
          intro cx
          simp only [nodeActs, j1 cx, j2]
          refine .cons (fun hq => ?_) (j3 cx)
          obtain ⟨r, hr⟩ := sep_of_tree (e.1 ▸ h0 hq)
          rw [← j1 cx, ← j2, hr]
          rfl
    | _, _, _, .drop hr, ns, ns', e, e', h1, h2 => by
      have i2 := @acts_thin _ _ _ hr
      cases ns with
      | nil => cases e
      | cons n ns =>
        simp only [forestOf, List.cons.injEq] at e
        obtain ⟨r, rfl⟩ := sep_of_tree e.1.symm
        intro cx
        exact .drop (i2 e.2 e' (fun x hx => h1 x (List.mem_cons_of_mem _ hx)) h2 cx)
end

theorem output_thin {d d' : Document} (cfg : OutputConfig) (h : TKids src false (forestOf src d.nodes) (forestOf src d'.nodes))
    (h1 : ∀ n ∈ d.nodes, SingleSelectors n) (h2 : ∀ n ∈ d'.nodes, SingleSelectors n) : outputHtmlTo src d cfg = outputHtmlTo src d' cfg := by
  have := acts_thin h rfl rfl h1 h2 { cfg, src := src, indentLevel := 0, fmtInline := false, isRaw := false }
  have := akids_content this
  dsimp only [withSrc] at this
  simp only [outputHtmlTo, processContent]
  rw [this]

end

/-! ## Positions -/

theorem linesIn_lo {src : Str} {lo lo' hi : Nat} (hl : lo' ≤ lo) : ∀ {ls : List Ast.Line}, linesIn src lo hi ls → linesIn src lo' hi ls
  | [], h => by simp only [linesIn] at h ⊢; omega
  | .mk a ns b :: ls, h => by
    simp only [linesIn] at h ⊢
    exact ⟨⟨h.1.1, Nat.le_trans hl h.1.2.1, h.1.2.2⟩, h.2⟩

theorem within_le {src : Str} {lo hi : Nat} {r : Range} (h : Within src lo hi r) : lo ≤ r.stop := by
  exact Nat.le_trans h.2.1 h.1.1

mutual
  theorem typeIn_squeeze {src : Str} : ∀ (ty : Ast.NodeType) {a b : Nat}, typeIn src a b ty → typeIn src a b (squeezeType ty)
    | .block l (.mk s lines e) r, a, b, h => by
      simp only [squeezeType, typeIn] at h ⊢
      exact ⟨h.1, h.2.1, linesIn_squeeze lines h.2.2.1, h.2.2.2⟩
    | .special f o (.mk s lines e) r, a, b, h => by
      simp only [squeezeType, typeIn] at h ⊢
      exact ⟨h.1, h.2.1, linesIn_squeeze lines h.2.2.1, h.2.2.2⟩
    | .inline o ns r, a, b, h => by
      simp only [squeezeType, typeIn] at h ⊢
      exact ⟨h.1, h.2.1, nodesIn_squeeze ns h.2.2.1, h.2.2.2⟩
    | .multiline k x y, a, b, h => by simpa only [squeezeType] using h
    | .text t, a, b, h => by simpa only [squeezeType] using h
    | .selector s, a, b, h => by simpa only [squeezeType] using h
    | .line r, a, b, h => by simpa only [squeezeType] using h
    | .code r, a, b, h => by simpa only [squeezeType] using h
  theorem nodesIn_squeeze {src : Str} : ∀ (ns : List Ast.Node) {lo hi : Nat}, nodesIn src lo hi ns → nodesIn src lo hi (squeezeNodes ns)
    | [], _, _, h => by simpa only [squeezeNodes] using h
    | .mk sp a b ty :: ns, lo, hi, h => by
      simp only [squeezeNodes, nodesIn, nodeIn] at h ⊢
      exact ⟨⟨h.1.1, h.1.2.1, typeIn_squeeze ty h.1.2.2⟩, nodesIn_squeeze ns h.2⟩
  theorem linesIn_squeeze {src : Str} : ∀ (ls : List Ast.Line) {p : Bool} {lo hi : Nat}, linesIn src lo hi ls →
      linesIn src lo hi (squeezeLines p ls)
    | [], p, _, _, h => by cases p <;> simpa only [squeezeLines] using h
    | .mk a [] b :: ls, p, lo, hi, h => by
      simp only [linesIn] at h
      cases p
      · simp only [squeezeLines, linesIn]
        exact ⟨h.1, h.2.1, linesIn_squeeze ls h.2.2⟩
      · simp only [squeezeLines]
        exact linesIn_lo (within_le h.1) (linesIn_squeeze ls h.2.2)
    | .mk a (n :: ns) b :: ls, p, lo, hi, h => by
      rw [linesIn] at h
      have h1 := nodesIn_squeeze (n :: ns) h.2.1
      cases p <;> (simp only [squeezeLines, linesIn]; exact ⟨h.1, h1, linesIn_squeeze ls h.2.2⟩)
end

theorem positions_squeeze {src : Str} {d : Ast.Document} (h : PositionsOk src d) : PositionsOk src (squeezed d) := by
  obtain ⟨⟨a, ls, b⟩⟩ := d
  exact ⟨h.1, linesIn_squeeze ls h.2⟩

end Squeeze
end Mty
