import Verif.Proofs.SameBuild
import Verif.Proofs.Texts
import Verif.Proofs.InferTree

/-! # Transformation of documents of sources that say the same -/

set_option autoImplicit false

namespace Mty
open Spec

namespace Same

section
variable {c : SpecialTagConfig} {s1 s2 : Str}

/-! ## Special tags -/

/-- A short form and the element it stands for, with their names. -/
structure ShortB (s1 s2 : Str) (h h' : EHead) : Prop where
  sels : ∃ n t t', contextOfName n = some .paragraph ∧ h.selectors = [t] ∧ h'.selectors = [t'] ∧
    t.tag.name.map (·.asStr s1) = some n ∧ t'.tag.name.map (·.asStr s2) = some n ∧
    documentParts s1 t.items = [] ∧ documentParts s2 t'.items = []
  fmt : (onOneLine h) = true ∧ (onOneLine h') = true
  raw : h.isRaw = h'.isRaw

abbrev SimB (s1 s2 : Str) := Sim s1 s2 (ShortB s1 s2)
abbrev SimsB (s1 s2 : Str) := Sims s1 s2 (ShortB s1 s2)

theorem provided_sim (tags : List Str) (p p' : Nat) :
    List.Forall₂ (SelSim s1 s2) ((tags.map TextSlice.provided).map fun t => (Selector.empty p).withTag t)
      ((tags.map TextSlice.provided).map fun t => (Selector.empty p').withTag t) := by
  induction tags with
  | nil => exact .nil
  | cons t ts ih => exact .cons ⟨rfl, .of_eq rfl⟩ ih

theorem applyTags_sim {h h' : EHead} (tags : List Str) (hs : List.Forall₂ (SelSim s1 s2) h.selectors h'.selectors) :
    List.Forall₂ (SelSim s1 s2) (h.applyTags (tags.map .provided)).selectors (h'.applyTags (tags.map .provided)).selectors := by
  have hf : (tags.map TextSlice.provided).filter (fun t => !t.isEmpty) = (tags.filter fun t => !t.isEmpty).map .provided := by
    rw [List.filter_map]; rfl
  unfold EHead.applyTags
  rw [hf]
  cases tags.filter fun t => !t.isEmpty with
  | nil =>
    simp only [List.map_nil]
    generalize hx : h.selectors = x at *
    generalize hy : h'.selectors = y at *
    cases hs with
    | nil => exact .nil
    | cons _ h2 => exact h2
  | cons t ts =>
    simp only [List.map_cons]
    generalize hx : h.selectors = x at *
    generalize hy : h'.selectors = y at *
    cases hs with
    | nil => exact .cons ⟨rfl, .of_eq rfl⟩ (provided_sim ts _ _)
    | cons h1 h2 => exact .cons ⟨rfl, h1.2⟩ (List.rel_append (provided_sim ts _ _) h2)

theorem applyTags_rest (h : EHead) (tags : List TextSlice) :
    (h.applyTags tags).ty = h.ty ∧ (h.applyTags tags).formatInline = h.formatInline ∧ (h.applyTags tags).isRaw = h.isRaw := by
  unfold EHead.applyTags
  split
  · exact ⟨rfl, rfl, rfl⟩
  · split <;> exact ⟨rfl, rfl, rfl⟩

theorem specialHead_rest (h : EHead) :
    (specialHead c h).ty = h.ty ∧ (specialHead c h).formatInline = h.formatInline ∧ (specialHead c h).isRaw = h.isRaw := by
  unfold specialHead
  split
  · exact applyTags_rest _ _
  · exact applyTags_rest _ _
  · exact ⟨rfl, rfl, rfl⟩

theorem specialHead_sim {h h' : EHead} (hs : List.Forall₂ (SelSim s1 s2) h.selectors h'.selectors) (ht : tyKind h.ty = tyKind h'.ty) :
    List.Forall₂ (SelSim s1 s2) (specialHead c h).selectors (specialHead c h').selectors := by
  unfold specialHead
  cases h1 : h.ty with
  | special k =>
    rw [h1] at ht
    cases h2 : h'.ty with
    | special k' =>
      rw [h2] at ht
      cases ht
      exact applyTags_sim [specialTagName c k] hs
    | _ => rw [h2] at ht; cases ht
  | multiline k =>
    rw [h1] at ht
    cases h2 : h'.ty with
    | multiline k' =>
      rw [h2] at ht
      cases ht
      cases k with
      | code => exact applyTags_sim [specialTagName c .codeBlockContainer, specialTagName c .code] hs
      | _ => exact hs
    | _ => rw [h2] at ht; cases ht
  | _ =>
    rw [h1] at ht
    cases h2 : h'.ty with
    | special k => rw [h2] at ht; cases ht
    | multiline k => rw [h2] at ht; cases ht
    | _ => exact hs

theorem phrasing_ne_nil {n : Str} (h : contextOfName n = some .paragraph) : n ≠ [] := by
  rintro rfl
  exact absurd h (by decide +kernel)

theorem specialHead_short {h h' : EHead} (hs : ShortA c s2 h h') : ShortB s1 s2 (specialHead c h) (specialHead c h') := by
  obtain ⟨k, hk, hne, hc, t, ht, hn, hp⟩ := hs.special_
  obtain ⟨g, hg⟩ := hs.inline_
  have e1 : specialHead c h = h.applyTags [.provided (specialTagName c k)] := by unfold specialHead; rw [hk]
  have e2 : specialHead c h' = h' := by unfold specialHead; rw [hg]
  have e3 := specialTagName_eq c k hne
  rw [← e3] at hc hn
  have hne := phrasing_ne_nil hc
  refine ⟨⟨specialTagName c k, (Selector.empty h.range.start).withTag (.provided (specialTagName c k)), t, hc, ?_, by rw [e2]; exact ht,
    rfl, hn, rfl, hp⟩, ⟨?_, ?_⟩, ?_⟩
  · rw [e1]
    unfold EHead.applyTags
    have : [TextSlice.provided (specialTagName c k)].filter (fun t => !t.isEmpty) = [.provided (specialTagName c k)] := by
      cases hx : specialTagName c k with
      | nil => exact absurd hx hne
      | cons => rfl
    rw [this, hs.none_]
    rfl
  · unfold onOneLine; rw [(specialHead_rest h).1, hk]; simp
  · rw [e2]; unfold onOneLine; rw [hg]; simp
  · rw [(specialHead_rest h).2.2, (specialHead_rest h').2.2, hs.raw.1, hs.raw.2]

theorem specialNodes_append (c : SpecialTagConfig) (a b : List Node) : specialNodes c (a ++ b) = specialNodes c a ++ specialNodes c b := by
  induction a with
  | nil => rfl
  | cons n a ih => simp [specialNodes, ih]

theorem specialNodes_spaces {l : List Node} (h : Spaces l) : Spaces (specialNodes c l) := by
  induction l with
  | nil => exact h
  | cons n l ih =>
    intro m hm
    simp only [specialNodes, List.mem_cons] at hm
    rcases hm with rfl | hm
    · have := h n (List.mem_cons_self ..)
      cases n with
      | text r t => exact this
      | elem => cases this
    · exact ih (fun x hx => h x (List.mem_cons_of_mem _ hx)) m hm

mutual
  theorem special_sim : ∀ {n n' : Node}, SimA c s1 s2 n n' → SimB s1 s2 (specialNode c n) (specialNode c n')
    | _, _, .text h => .text h
    | _, _, .elem (h := h) (h' := h') h1 h2 h3 h4 h5 => by
      refine .elem (specialHead_sim h1 h2) ?_ ?_ ?_ (specials_sim h5)
      · rw [(specialHead_rest h).1, (specialHead_rest h').1, h2]
      · rw [(specialHead_rest h).2.1, (specialHead_rest h').2.1, h3]
      · rw [(specialHead_rest h).2.2, (specialHead_rest h').2.2, h4]
    | _, _, .short h1 h2 h3 h4 h5 => by
      have ih := specials_sim h5
      simp only [specialNode, specialNodes_append]
      refine .short (specialHead_short h1) (specialNodes_spaces h2) (specialNodes_spaces h3) ?_ ih
      intro h
      rw [specialNodes_eq, List.map_eq_nil_iff] at h
      exact h4 h
  theorem specials_sim : ∀ {ns ns' : List Node}, SimsA c s1 s2 ns ns' → SimsB s1 s2 (specialNodes c ns) (specialNodes c ns')
    | _, _, .nil => .nil
    | _, _, .cons h1 h2 => .cons (special_sim h1) (specials_sim h2)
end

/-! ## Completed pages -/

theorem phrasing_head {n : Str} (h : contextOfName n = some .paragraph) : n.map Char.toLower ≠ "head".toList := by
  have hn : phrasingNames.any (fun m => n = m.toList) = true := by
    unfold contextOfName at h
    dsimp only at h
    rw [ite_eq_iff] at h
    rcases h with ⟨h, _⟩ | ⟨_, h⟩
    · exact h
    · iterate 15 (rw [ite_eq_iff] at h; rcases h with ⟨_, h⟩ | ⟨_, h⟩; · cases h)
      cases h
  rw [List.any_eq_true] at hn
  obtain ⟨m, hm, he⟩ := hn
  have he : n = m.toList := by simpa using he
  subst he
  clear h
  revert m
  decide +kernel

theorem named_sim {names : List String} {n n' : Node} (h : SimB s1 s2 n n') : isNamed s1 names n = isNamed s2 names n' := by
  cases h with
  | text => rfl
  | @elem r r' h h' ch ch' h1 =>
    simp only [isNamed]
    generalize h.selectors = x at *
    generalize h'.selectors = y at *
    cases h1 with
    | nil => rfl
    | @cons a b l l' h1 _ =>
      have := h1.1
      simp only [List.head?_cons, Option.bind_some]
      cases ha : a.tag.name <;> cases hb : b.tag.name <;> simp only [ha, hb, Option.map_some, Option.map_none] at this
      · rfl
      · cases this
      · cases this
      · have := Option.some.inj this
        simp only [this]
  | short h =>
    obtain ⟨n, t, t', _, h1, h2, h3, h4, _⟩ := h.sels
    simp only [isNamed, h1, h2, List.head?_cons, Option.bind_some]
    obtain ⟨a, ha, rfl⟩ := Option.map_eq_some_iff.1 h3
    obtain ⟨b, hb, hb'⟩ := Option.map_eq_some_iff.1 h4
    simp only [ha, hb, hb']

theorem children_sim {n n' : Node} (h : SimB s1 s2 n n') (hn : isNamed s1 ["head"] n = true) :
    SimsB s1 s2 (childrenOf n) (childrenOf n') := by
  cases h with
  | text => cases hn
  | elem _ _ _ _ h => exact h
  | short h =>
    obtain ⟨n, t, t', hc, h1, h2, h3, h4, _⟩ := h.sels
    simp only [isNamed, h1, List.head?_cons, Option.bind_some] at hn
    obtain ⟨a, ha, rfl⟩ := Option.map_eq_some_iff.1 h3
    simp only [ha, List.any_cons, List.any_nil, Bool.or_false, decide_eq_true_eq] at hn
    exact absurd hn (phrasing_head hc)

theorem any_sim {names : List String} {ns ns' : List Node} (h : SimsB s1 s2 ns ns') :
    ns.any (isNamed s1 names) = ns'.any (isNamed s2 names) := by
  have h := sims_iff.1 h
  induction h with
  | nil => rfl
  | cons h1 _ ih => simp only [List.any_cons, named_sim h1]; rw [ih (sims_iff.2 ‹_›)]

theorem head_sim : ∀ {ns ns' : List Node}, SimsB s1 s2 ns ns' → SimsB s1 s2 (headNodes s1 ns) (headNodes s2 ns')
  | [], _, h => by cases h; exact .nil
  | n :: ns, _, h => by
    cases h with
    | @cons _ n' _ ns' h1 h2 =>
      have ih := head_sim h2
      unfold headNodes at ih ⊢
      simp only [List.flatMap_cons]
      refine sims_append ?_ ih
      rw [← named_sim h1, ← named_sim h1]
      split
      · exact children_sim h1 ‹_›
      · split
        · exact sims_one h1
        · exact .nil

theorem body_sim : ∀ {ns ns' : List Node}, SimsB s1 s2 ns ns' → SimsB s1 s2 (bodyNodes s1 ns) (bodyNodes s2 ns')
  | [], _, h => by cases h; exact .nil
  | n :: ns, _, h => by
    cases h with
    | @cons _ n' _ ns' h1 h2 =>
      have ih := body_sim h2
      unfold bodyNodes at ih ⊢
      simp only [List.filter_cons]
      rw [← named_sim h1, ← named_sim h1]
      split
      · exact .cons h1 ih
      · exact ih

theorem page_sim {h h' : EHead} {name : Str} {ns ns' : List Node} (e : h = { pageElement name with contentRange := h.contentRange })
    (e' : h' = { pageElement name with contentRange := h'.contentRange }) (hs : SimsB s1 s2 ns ns') :
    SimB s1 s2 (Node.ofElem h ns) (Node.ofElem h' ns') := by
  have k : List.Forall₂ (SelSim s1 s2) (pageElement name).selectors (pageElement name).selectors :=
    applyTags_sim [name] (h := EHead.new Range.INVALID .unknown) (h' := EHead.new Range.INVALID .unknown) .nil
  rw [e, e']
  exact .elem k rfl rfl rfl hs

theorem completePage_sim {d d' : Document} (h : SimsB s1 s2 d.nodes d'.nodes) :
    SimsB s1 s2 (completePage s1 d).nodes (completePage s2 d').nodes := by
  rcases completePage_cases s1 d with ⟨h1, h2⟩ | ⟨h1, h2, hd, hh, h3⟩ | ⟨h1, h2, hd, hh, h3⟩ <;>
  rcases completePage_cases s2 d' with ⟨k1, k2⟩ | ⟨k1, k2, kd, kh, k3⟩ | ⟨k1, k2, kd, kh, k3⟩ <;>
  (try (rw [any_sim h, k1] at h1; cases h1)) <;> (try (rw [any_sim h, k2] at h2; cases h2))
  · rw [h2, k2]; exact h
  · rw [h3, k3]; exact sims_one (page_sim hh kh h)
  · rw [h3, k3]
    exact sims_one (page_sim hh kh (.cons (page_sim (name := "head".toList) rfl rfl (head_sim h)) (.cons (.text .paragraphEnd)
      (.cons (page_sim (name := "body".toList) rfl rfl (body_sim h)) .nil))))

/-! ## Trees -/

end

section
variable (s1 s2 : Str)

/-- The same name and parts. -/
inductive TSel : Option (Option Str × List SelectorItem) → Option (Option Str × List SelectorItem) → Prop
  | none : TSel none none
  | some {n i i'} : SameParts (documentParts s1 i) (documentParts s2 i') → TSel (some (n, i)) (some (n, i'))

/-- Leaves that are white space. -/
def SpaceLeaves (l : List Tree) : Prop := ∀ t ∈ l, ∃ s, t = .leaf (.space s)

mutual
  /-- Similar trees. -/
  inductive TreeSim : Tree → Tree → Prop
    | leaf {t t'} : TextSim s1 s2 t t' → TreeSim (.leaf t) (.leaf t')
    | elem {f raw fmt sel sel' ch ch'} : TSel s1 s2 sel sel' → TreesSim ch ch' → TreeSim (.elem f raw fmt sel ch) (.elem f raw fmt sel' ch')
    | short {f f' raw fmt n i i' l l' ch ch'} : contextOfName n = some .paragraph → SameParts (documentParts s1 i) (documentParts s2 i') →
        SpaceLeaves l → SpaceLeaves l' → ch ≠ [] → TreesSim ch ch' →
        TreeSim (.elem f raw fmt (some (some n, i)) (l ++ ch)) (.elem f' raw fmt (some (some n, i')) (l' ++ ch'))
  inductive TreesSim : List Tree → List Tree → Prop
    | nil : TreesSim [] []
    | cons {t t' ts ts'} : TreeSim t t' → TreesSim ts ts' → TreesSim (t :: ts) (t' :: ts')
end
end

section
variable {s1 s2 : Str}

theorem formOf_kind {t t' : ElementType} (h : tyKind t = tyKind t') : formOf t = formOf t' := by
  have key : ∀ t, formOf t = formOf (tyKind t) := by
    intro t
    cases t with
    | standard d => cases d <;> rfl
    | inline d =>
      cases d with
      | none => rfl
      | some d => cases d <;> rfl
    | _ => rfl
  rw [key, h, ← key]

theorem fmt_kind {h h' : EHead} (ht : tyKind h.ty = tyKind h'.ty) (hf : h.formatInline = h'.formatInline) : (onOneLine h) = (onOneLine h') := by
  have key : ∀ h : EHead, (onOneLine h) = onOneLine ({ h with ty := tyKind h.ty } : EHead) := by
    intro h
    unfold onOneLine
    cases h.ty with
    | standard d => cases d <;> rfl
    | _ => rfl
  rw [key h, key h', ht]
  unfold onOneLine
  rw [hf]

theorem sel_sim {a b : Selector} (h : SelSim s1 s2 a b) : TSel s1 s2 (some (selOf s1 a)) (some (selOf s2 b)) := by
  unfold selOf
  rw [h.1]
  exact .some h.2

theorem chain_sim {h h' : EHead} {kids kids' : List Tree} (hk : TreesSim s1 s2 kids kids') (ht : formOf h.ty = formOf h'.ty)
    (hf : (onOneLine h) = (onOneLine h')) (hr : h.isRaw = h'.isRaw) : ∀ {l l' : List Selector}, List.Forall₂ (SelSim s1 s2) l l' →
    TreeSim s1 s2 (chainTree s1 h l kids) (chainTree s2 h' l' kids')
  | [], _, hs => by cases hs; rw [chainTree, chainTree, ht, hf, hr]; exact .elem .none hk
  | [s], _, hs => by
    cases hs with
    | cons h1 h2 => cases h2; rw [chainTree, chainTree, ht, hf, hr]; exact .elem (sel_sim h1) hk
  | s :: t :: l, _, hs => by
    cases hs with
    | cons h1 h2 =>
      have ih := chain_sim hk ht hf hr h2
      cases h2 with
      | cons h2 h3 => rw [chainTree, chainTree, ht, hr]; exact .elem (sel_sim h1) (.cons ih .nil)

theorem forestOf_append (src : Str) (a b : List Node) : forestOf src (a ++ b) = forestOf src a ++ forestOf src b := by
  simp [forestOf_eq]

theorem forest_spaces {src : Str} {l : List Node} (h : Spaces l) : SpaceLeaves (forestOf src l) := by
  intro t ht
  rw [forestOf_eq] at ht
  obtain ⟨n, hn, rfl⟩ := List.mem_map.1 ht
  have := h n hn
  cases n with
  | elem => cases this
  | text r t =>
    cases t with
    | space s => exact ⟨s, rfl⟩
    | _ => cases this

mutual
  theorem tree_sim : ∀ {n n' : Node}, SimB s1 s2 n n' → TreeSim s1 s2 (treeOf s1 n) (treeOf s2 n')
    | _, _, .text h => .leaf h
    | _, _, .elem h1 h2 h3 h4 h5 => by
      rw [treeOf, treeOf]
      exact chain_sim (forest_sim h5) (formOf_kind h2) (fmt_kind h2 h3) h4 h1
    | _, _, .short h1 h2 h3 h4 h5 => by
      have ih := forest_sim h5
      obtain ⟨n, t, t', hc, e1, e2, e3, e4, e5, e6⟩ := h1.sels
      rw [treeOf, treeOf, e1, e2, chainTree, chainTree, selOf, selOf, e3, e4, h1.fmt.1, h1.fmt.2, h1.raw, forestOf_append, forestOf_append]
      refine .short hc (.of_eq (e5.trans e6.symm)) (forest_spaces h2) (forest_spaces h3) ?_ ih
      intro h
      rw [forestOf_eq, List.map_eq_nil_iff] at h
      exact h4 h
  theorem forest_sim : ∀ {ns ns' : List Node}, SimsB s1 s2 ns ns' → TreesSim s1 s2 (forestOf s1 ns) (forestOf s2 ns')
    | _, _, .nil => .nil
    | _, _, .cons h1 h2 => .cons (tree_sim h1) (forest_sim h2)
end

/-! ## Inference -/

theorem nameIn_paragraph (f : Option Form) (a b h a' b' h' : Bool) : nameIn .paragraph f a b h = nameIn .paragraph f a' b' h' := by
  cases f with
  | none => rfl
  | some f => cases f <;> rfl

theorem namedSel_paragraph (f : Option Form) (a b h a' b' h' : Bool) (sel : Option (Option Str × List SelectorItem)) :
    namedSel .paragraph f a b h sel = namedSel .paragraph f a' b' h' sel := by
  unfold namedSel
  rw [nameIn_paragraph f a b h a' b' h']

theorem inferTree_paragraph (p g : Option Str) (a b a' b' : Bool) (t : Tree) :
    inferTree .paragraph p g a b t = inferTree .paragraph p g a' b' t := by
  cases t with
  | leaf => rfl
  | elem f raw fmt sel ch =>
    simp only [inferTree]
    rw [namedSel_paragraph f a b _ a' b' (decide (g = some "thead".toList))]

theorem inferForest_paragraph (p g : Option Str) (a a' : Bool) (ts : List Tree) :
    inferForest .paragraph p g a ts = inferForest .paragraph p g a' ts := by
  cases ts with
  | nil => rfl
  | cons t ts => rw [inferForest, inferForest, inferTree_paragraph p g a _ a' ts.isEmpty]

theorem inferForest_spaces (p g : Option Str) {l : List Tree} (hl : SpaceLeaves l) : ∀ (a a' : Bool) (ts : List Tree),
    inferForest .paragraph p g a (l ++ ts) = l ++ inferForest .paragraph p g a' ts := by
  induction l with
  | nil => intro a a' ts; exact inferForest_paragraph p g a a' ts
  | cons t l ih =>
    intro a a' ts
    obtain ⟨s, rfl⟩ := hl t (List.mem_cons_self ..)
    rw [List.cons_append, inferForest, ih (fun x hx => hl x (List.mem_cons_of_mem _ hx)) false a' ts]
    rfl

theorem namedSel_sim {c : Context} {f : Option Form} {a b h : Bool} {sel sel' : Option (Option Str × List SelectorItem)}
    (hs : TSel s1 s2 sel sel') : TSel s1 s2 (namedSel c f a b h sel) (namedSel c f a b h sel') := by
  have key : ∀ {sel sel' : Option (Option Str × List SelectorItem)}, sel.bind (·.1) = none → sel'.bind (·.1) = none → TSel s1 s2 sel sel' →
      TSel s1 s2 (namedSel c f a b h sel) (namedSel c f a b h sel') := by
    intro sel sel' h1 h2 hs
    rcases namedSel_cases c f a b h sel h1 with ⟨k, e⟩ | ⟨k, e⟩ | ⟨t, ht, k, e⟩ <;>
    rcases namedSel_cases c f a b h sel' h2 with ⟨k', e'⟩ | ⟨k', e'⟩ | ⟨t', ht', k', e'⟩ <;> rw [k] at k' <;> try (cases k')
    · rw [e, e']; exact hs
    · rw [e, e']; exact .none
    · exact absurd rfl ht'
    · exact absurd rfl ht
    · rw [e, e']
      cases hs with
      | none => exact .some (.of_eq rfl)
      | some hp => exact .some hp
  cases hs with
  | none => exact key rfl rfl .none
  | @some n i i' hp =>
    cases n with
    | some n => exact .some hp
    | none => exact key rfl rfl (.some hp)

theorem tsel_name {sel sel' : Option (Option Str × List SelectorItem)} (hs : TSel s1 s2 sel sel') : sel.bind (·.1) = sel'.bind (·.1) := by
  cases hs <;> rfl

theorem sims_isEmpty {ts ts' : List Tree} (h : TreesSim s1 s2 ts ts') : ts.isEmpty = ts'.isEmpty := by cases h <;> rfl

theorem contextInside_paragraph {n : Str} (h : contextOfName n = some .paragraph) (f : Option Form) : contextInside (some n) f = .paragraph := by
  unfold contextInside
  simp [h]

theorem inferForest_ne_nil {c : Context} {p g : Option Str} {a : Bool} {ts : List Tree} (h : ts ≠ []) : inferForest c p g a ts ≠ [] := by
  cases ts with
  | nil => exact absurd rfl h
  | cons => simp [inferForest]

mutual
  theorem infer_sim : ∀ {t t' : Tree}, TreeSim s1 s2 t t' → ∀ (c : Context) (p g : Option Str) (a b : Bool),
      TreeSim s1 s2 (inferTree c p g a b t) (inferTree c p g a b t')
    | _, _, .leaf h, _, _, _, _, _ => .leaf h
    | _, _, .elem h1 h2, c, p, g, a, b => by
      have k := fun c p g a => infers_sim h2 c p g a
      simp only [inferTree]
      have hs := namedSel_sim (c := c) (f := ‹Option Form›) (a := a) (b := b) (h := decide (g = some "thead".toList)) h1
      rw [tsel_name hs]
      exact .elem hs (k _ _ _ _)
    | _, _, .short (n := n) h1 h2 h3 h4 h5 h6, c, p, g, a, b => by
      have k := fun c p g a => infers_sim h6 c p g a
      simp only [inferTree, namedSel, Option.bind_some, contextInside_paragraph h1]
      rw [inferForest_spaces _ _ h3 true true, inferForest_spaces _ _ h4 true true]
      exact .short h1 h2 h3 h4 (inferForest_ne_nil h5) (k _ _ _ _)
  theorem infers_sim : ∀ {ts ts' : List Tree}, TreesSim s1 s2 ts ts' → ∀ (c : Context) (p g : Option Str) (a : Bool),
      TreesSim s1 s2 (inferForest c p g a ts) (inferForest c p g a ts')
    | _, _, .nil, _, _, _, _ => .nil
    | _, _, .cons h1 h2, c, p, g, a => by
      rw [inferForest, inferForest, sims_isEmpty h2]
      exact .cons (infer_sim h1 c p g a _) (infers_sim h2 c p g false)
end

end

end Same
end Mty
