import Verif.Spec.Parts
import Verif.Props.Same
import Verif.Props.Structure

/-! # A document of two parts with a blank line between them (for C76) -/

set_option autoImplicit false

namespace Mty
open Spec Build

namespace Parts
open Same

/-! ## Lines -/

theorem shows_tail {n : Ast.Node} {ns : List Ast.Node} (h : ShowsContent (n :: ns)) (h1 : ¬ IsVisible n) (h2 : nodeShape n ≠ .arrow) : ShowsContent ns := by
  rcases h with ⟨m, hm, hs⟩ | ⟨m, hm, hs⟩
  · rcases List.mem_cons.1 hm with rfl | hm
    · exact absurd hs h1
    · exact .inl ⟨m, hm, hs⟩
  · cases ns with
    | nil => simp at hm; subst hm; exact absurd hs h2
    | cons x ns => exact .inr ⟨m, by simpa using hm, hs⟩

theorem shows_arrow {n : Ast.Node} {ns : List Ast.Node} (h : ShowsContent (n :: ns)) (h1 : ¬ IsVisible n) : ns = [] ∨ ShowsContent ns := by
  cases ns with
  | nil => exact .inl rfl
  | cons x ns =>
    rcases h with ⟨m, hm, hs⟩ | ⟨m, hm, hs⟩
    · rcases List.mem_cons.1 hm with rfl | hm
      · exact absurd hs h1
      · exact .inr (.inl ⟨m, hm, hs⟩)
    · exact .inr (.inr ⟨m, by simpa using hm, hs⟩)

/-- Something visible is there. -/
def Vis (ns : List Node) : Prop := ∃ n ∈ ns, n.isVisible = true

theorem vis_left {a b : List Node} (h : Vis a) : Vis (a ++ b) := by
  obtain ⟨n, hn, hv⟩ := h
  exact ⟨n, List.mem_append_left _ hn, hv⟩

theorem vis_right {a b : List Node} (h : Vis b) : Vis (a ++ b) := by
  obtain ⟨n, hn, hv⟩ := h
  exact ⟨n, List.mem_append_right _ hn, hv⟩

theorem vis_elem {r : Range} {h : EHead} {ch : List Node} : Vis [.elem r h ch] := ⟨_, List.mem_singleton.2 rfl, rfl⟩

theorem item_vis {src : Str} {rg : Range} {ty : Ast.NodeType} {ns : List Node} (h : ItemIs src rg ty ns) (hs : shapeOf ty ≠ .comment) : Vis ns := by
  cases h with
  | @text _ t n h =>
    rw [TextIs, IsLeaf] at h
    subst h
    refine ⟨_, List.mem_singleton.2 rfl, ?_⟩
    cases t with
    | comment c => exact absurd rfl hs
    | segment => rfl
    | verbatim => rfl
    | interpolation => rfl
  | multiline => exact vis_elem
  | code => exact vis_elem
  | special => exact vis_elem
  | block => exact vis_elem
  | inlineElement => exact ⟨_, List.mem_append_right _ (List.mem_cons_self ..), rfl⟩
  | inlineText => exact vis_elem

mutual
  theorem line_vis {src : Str} : ∀ {ns : List Ast.Node} {out : List Node} {rest : List Ast.Node}, LineIs src ns out rest → ShowsContent ns → Vis out
    | _, _, _, .nil, h => by rcases h with ⟨n, hn, _⟩ | ⟨n, hn, _⟩ <;> simp at hn
    | _, _, _, @LineIs.item _ sp a b ty nodes ns out rest hi h1 h2, h => by
      by_cases hc : shapeOf ty = .comment
      · exact vis_right (line_vis h2 (shows_tail h (fun h => h.1 hc) (by intro e; rw [nodeShape, hc] at e; cases e)))
      · exact vis_left (vis_right (item_vis h1 hc))
    | _, _, _, .selector h1 h2 h3, h => vis_left (vis_right (selector_vis h2 (shows_tail h (fun h => h.2.1 rfl) (by intro e; cases e))))
    | _, _, _, .arrow h1 h2, h => vis_right (arrow_vis h2 (shows_arrow h (fun h => h.2.2 rfl)))
  theorem selector_vis {src : Str} : ∀ {chain : List Selector} {p : Range} {ns : List Ast.Node} {out : List Node} {rest : List Ast.Node},
      AfterSelector src chain p ns out rest → ShowsContent ns → Vis out
    | _, _, _, _, _, .dangling, h => by rcases h with ⟨n, hn, _⟩ | ⟨n, hn, _⟩ <;> simp at hn
    | _, _, _, _, _, .comment h1 h2, h =>
      vis_right (a := [_]) (selector_vis h2 (shows_tail h (fun h => h.1 rfl) (by intro e; cases e)))
    | _, _, _, _, _, .arrow h1, h => arrow_vis h1 (shows_arrow h (fun h => h.2.2 rfl))
    | _, _, _, _, _, .block _, _ => vis_elem
  theorem arrow_vis {src : Str} : ∀ {chain : List Selector} {p gt : Range} {ns : List Ast.Node} {out : List Node} {rest : List Ast.Node},
      AfterArrow src chain p gt ns out rest → ns = [] ∨ ShowsContent ns → Vis out
    | _, _, _, _, _, _, .selector h1 h2, h => by
      rcases h with h | h
      · cases h
      · exact selector_vis h2 (shows_tail h (fun h => h.2.1 rfl) (by intro e; cases e))
    | _, _, _, _, _, _, .arrow h1 h2, h => by
      rcases h with h | h
      · cases h
      · exact arrow_vis h2 (shows_arrow h (fun h => h.2.2 rfl))
    | _, _, _, _, _, _, .block _, _ => vis_elem
    | _, _, _, _, _, _, .line _ _, _ => vis_elem
end

theorem linesAre_append {src : Str} : ∀ {A B : List Ast.Line} {ls : List SrcLine}, LinesAre src (A ++ B) ls →
    ∃ l1 l2, ls = l1 ++ l2 ∧ LinesAre src A l1 ∧ LinesAre src B l2
  | [], B, ls, h => ⟨[], ls, rfl, .nil, h⟩
  | .mk a ns b :: A, B, ls, h => by
    rw [List.cons_append] at h
    cases h with
    | blank h =>
      obtain ⟨l1, l2, rfl, h1, h2⟩ := linesAre_append h
      exact ⟨_ :: l1, l2, rfl, .blank h1, h2⟩
    | line hl h =>
      obtain ⟨l1, l2, rfl, h1, h2⟩ := linesAre_append h
      exact ⟨_ :: l1, l2, rfl, .line hl h1, h2⟩

theorem endsRun_prefix {l1 l2 : List SrcLine} (h : EndsRun (l1 ++ l2)) : EndsRun l1 := by
  cases l1 with
  | nil => trivial
  | cons x l1 => exact h

/-- A run of text lines ends before a blank line. -/
theorem run_before {run rest l1 l2 : List SrcLine} {y : Nat} (h : run ++ rest = l1 ++ .blank y :: l2) (hr : ∀ l ∈ run, l.isText) :
    ∃ m, l1 = run ++ m ∧ rest = m ++ .blank y :: l2 := by
  rcases List.append_eq_append_iff.1 h with ⟨m, h1, h2⟩ | ⟨m, h1, h2⟩
  · exact ⟨m, h1, h2⟩
  · cases m with
    | nil => exact ⟨[], by simpa using h1.symm, by simpa using h2.symm⟩
    | cons x m =>
      simp only [List.cons_append, List.cons.injEq] at h2
      exact absurd (hr x (by rw [h1]; simp)) (by rw [← h2.1]; simp [SrcLine.isText])

theorem layout_parts {par before : Bool} {e y : Nat} {ls l2 : List SrcLine} {out : List Node} (h : Layout par before e ls out) :
    ∀ l1, ls = l1 ++ .blank y :: l2 → ∃ o1 e' b o2, out = o1 ++ paragraphSep e' y :: o2 ∧ Layout par before e l1 o1 ∧ Layout par b y l2 o2 := by
  induction h with
  | nil => intro l1 h; simp at h
  | blank h ih =>
    intro l1 he
    cases l1 with
    | nil =>
      simp only [List.nil_append, List.cons.injEq, SrcLine.blank.injEq] at he
      obtain ⟨rfl, rfl⟩ := he
      exact ⟨[], _, _, _, rfl, .nil, h⟩
    | cons x l1 =>
      simp only [List.cons_append, List.cons.injEq] at he
      obtain ⟨rfl, he⟩ := he
      obtain ⟨o1, e', b, o2, rfl, h1, h2⟩ := ih l1 he
      exact ⟨_ :: o1, e', b, o2, rfl, .blank h1, h2⟩
  | empty h ih =>
    intro l1 he
    cases l1 with
    | nil => simp at he
    | cons x l1 =>
      simp only [List.cons_append, List.cons.injEq] at he
      obtain ⟨rfl, he⟩ := he
      obtain ⟨o1, e', b, o2, rfl, h1, h2⟩ := ih l1 he
      exact ⟨o1, e', b, o2, rfl, .empty h1, h2⟩
  | paragraph hp hs hv ht hend hj h ih =>
    intro l1 he
    cases l1 with
    | nil => simp at he
    | cons x l1 =>
      simp only [List.cons_append, List.cons.injEq] at he
      obtain ⟨rfl, he⟩ := he
      obtain ⟨m, rfl, rfl⟩ := run_before he ht
      obtain ⟨o1, e', b, o2, rfl, h1, h2⟩ := ih m rfl
      exact ⟨_ ++ _ :: o1, e', b, o2, by simp, .paragraph hp hs hv ht (endsRun_prefix hend) hj h1, h2⟩
  | continued hn hc ht hend hj h ih =>
    intro l1 he
    cases l1 with
    | nil => simp at he
    | cons x l1 =>
      simp only [List.cons_append, List.cons.injEq] at he
      obtain ⟨rfl, he⟩ := he
      obtain ⟨m, rfl, rfl⟩ := run_before he ht
      obtain ⟨o1, e', b, o2, rfl, h1, h2⟩ := ih m rfl
      exact ⟨_ ++ _ :: o1, e', b, o2, by simp, .continued hn hc ht (endsRun_prefix hend) hj h1, h2⟩
  | other hn hc h ih =>
    intro l1 he
    cases l1 with
    | nil => simp at he
    | cons x l1 =>
      simp only [List.cons_append, List.cons.injEq] at he
      obtain ⟨rfl, he⟩ := he
      obtain ⟨o1, e', b, o2, rfl, h1, h2⟩ := ih l1 he
      exact ⟨_ ++ _ :: o1, e', b, o2, by simp, .other hn hc h1, h2⟩

/-- Separators of paragraphs. -/
def Seps (z : List Node) : Prop := ∀ n ∈ z, ∃ r, n = .text r (.space .paragraphEnd)

theorem seps_if (b : Bool) (e a : Nat) : Seps (if b then [paragraphSep e a] else []) := by
  cases b with
  | false => intro n hn; simp at hn
  | true => intro n hn; simp at hn; exact ⟨_, hn⟩

/-- What comes before only adds a separator at the beginning. -/
theorem layout_before {par before : Bool} {e a b : Nat} {ns : List Node} {ls : List SrcLine} {out : List Node} (hv : Vis ns)
    (h : Layout par before e (.line a b ns :: ls) out) :
    ∃ z o, out = z ++ o ∧ Seps z ∧ Layout par false e (.line a b ns :: ls) o := by
  generalize hg : SrcLine.line a b ns :: ls = l at h
  cases h with
  | nil => cases hg
  | blank => cases hg
  | empty =>
    cases hg
    obtain ⟨n, hn, _⟩ := hv
    simp at hn
  | paragraph hp hs hv ht hend hj h =>
    rw [List.cons_append] at hg
    cases hg
    exact ⟨_, _, rfl, seps_if _ _ _, by simpa using Layout.paragraph (before := false) (e := e) hp hs hv ht hend hj h⟩
  | continued hn hc ht hend hj h =>
    rw [List.cons_append] at hg
    cases hg
    exact ⟨_, _, List.append_assoc .., seps_if _ _ _, by simpa using Layout.continued (before := false) (e := e) hn hc ht hend hj h⟩
  | @other _ _ _ _ nodes last _ _ hn hc h =>
    cases hg
    refine ⟨_, _, List.append_assoc .., seps_if _ _ _, ?_⟩
    have ha : ∀ c : Bool, (c || (nodes ++ [last]).any Node.isVisible) = true := by
      intro c
      obtain ⟨n, hm, hv⟩ := hv
      rw [List.any_eq_true.2 ⟨n, hm, hv⟩]
      simp
    rw [ha] at h
    simpa using Layout.other (before := false) (e := e) hn hc (by rw [ha]; exact h)

/-- The content of a source with two parts. -/
theorem content_parts {c : SpecialTagConfig} {s1 s2 s : Str} {a a1 a2 x y u v : Nat} {L1 L2 A B : List Ast.Line} {ns : List Ast.Node}
    {nodes nodes1 nodes2 : List Node} (h1 : ContentIs s1 true a1 L1 nodes1) (h2 : ContentIs s2 true a2 L2 nodes2)
    (h : ContentIs s true a (A ++ .mk x [] y :: .mk u ns v :: B) nodes) (hA : SameLines c s1 s L1 A)
    (hB : SameLines c s2 s L2 (.mk u ns v :: B)) (hs : ShowsContent ns) :
    ∃ X Z Y, nodes = X ++ Z ++ Y ∧ Seps Z ∧ Z ≠ [] ∧ SimsA c s1 s nodes1 X ∧ SimsA c s2 s nodes2 Y := by
  cases h with
  | mk hl hlay =>
    obtain ⟨l1, l2, rfl, k1, k2⟩ := linesAre_append hl
    cases k2 with
    | blank k2 =>
      obtain ⟨o1, e', b, o2, rfl, j1, j2⟩ := layout_parts hlay l1 rfl
      cases ns with
      | nil => rcases hs with ⟨n, hn, _⟩ | ⟨n, hn, _⟩ <;> simp at hn
      | cons n ns =>
        cases k2 with
        | line hline k2 =>
          obtain ⟨z, o, rfl, hz, j3⟩ := layout_before (line_vis hline hs) j2
          refine ⟨o1, paragraphSep e' y :: z, o, by simp, ?_, by simp, content_sim h1 hA (.mk k1 j1), content_sim h2 hB (.mk (.line hline k2) j3)⟩
          intro m hm
          rcases List.mem_cons.1 hm with rfl | hm
          · exact ⟨_, rfl⟩
          · exact hz m hm

/-! ## Inference -/

theorem inferTree_section (p g : Option Str) (a b a' b' : Bool) (t : Tree) :
    inferTree .section p g a b t = inferTree .section p g a' b' t := by
  cases t with
  | leaf => rfl
  | elem f raw fmt sel ch =>
    have : ∀ h, namedSel .section f a b h sel = namedSel .section f a' b' h sel := by
      intro h
      have : nameIn .section f a b h = nameIn .section f a' b' h := by
        rcases f with _ | _ | _ | _ <;> rfl
      unfold namedSel
      rw [this]
    simp only [inferTree, this]

theorem inferForest_section (p g : Option Str) (a a' : Bool) (ts : List Tree) :
    inferForest .section p g a ts = inferForest .section p g a' ts := by
  cases ts with
  | nil => rfl
  | cons t ts => simp only [inferForest]; rw [inferTree_section p g a _ a' ts.isEmpty]

theorem inferForest_append (p g : Option Str) : ∀ (a : Bool) (xs ys : List Tree),
    inferForest .section p g a (xs ++ ys) = inferForest .section p g true xs ++ inferForest .section p g true ys
  | a, [], ys => inferForest_section p g a true ys
  | a, x :: xs, ys => by
    rw [List.cons_append, inferForest, inferForest, List.cons_append, inferForest_append p g false xs ys, inferForest_section p g false true xs,
      inferTree_section p g a _ true xs.isEmpty]

theorem sepTrees {s : Str} {z : List Node} (h : Seps z) (p g : Option Str) : ∀ a,
    inferForest .section p g a (forestOf s z) = forestOf s z := by
  induction z with
  | nil => intro a; rfl
  | cons n z ih =>
    intro a
    obtain ⟨r, rfl⟩ := h n (List.mem_cons_self ..)
    rw [forestOf, inferForest, ih fun m hm => h m (List.mem_cons_of_mem _ hm)]
    rfl

theorem special_seps (c : SpecialTagConfig) {z : List Node} (h : Seps z) : specialNodes c z = z := by
  induction z with
  | nil => rfl
  | cons n z ih =>
    obtain ⟨r, rfl⟩ := h n (List.mem_cons_self ..)
    rw [specialNodes, ih fun m hm => h m (List.mem_cons_of_mem _ hm)]
    rfl

theorem seps_of {s : Str} {z z' : List Node} (hz : Seps z) (h : forestOf s z' = forestOf s z) : Seps z' := by
  intro n hn
  rw [forestOf_eq, forestOf_eq] at h
  have := List.mem_map_of_mem (f := treeOf s) hn
  rw [h] at this
  obtain ⟨m, hm, e⟩ := List.mem_map.1 this
  obtain ⟨r, rfl⟩ := hz m hm
  cases n with
  | text r' t => simp only [treeOf, Tree.leaf.injEq] at e; subst e; exact ⟨_, rfl⟩
  | elem r' h ch =>
    rw [treeOf, treeOf] at e
    obtain ⟨f, raw, fmt, k, e'⟩ := chainTree_top s h h.selectors (forestOf s ch)
    rw [e'] at e
    cases e

theorem infer_leaf {p g : Option Str} {a : Bool} {t : TextLike} : ∀ {ts : List Tree}, Tree.leaf t ∈ inferForest .section p g a ts → .leaf t ∈ ts := by
  intro ts
  induction ts generalizing a with
  | nil => intro h; simp [inferForest] at h
  | cons x ts ih =>
    intro h
    rw [inferForest] at h
    rcases List.mem_cons.1 h with h | h
    · cases x with
      | leaf => rw [inferTree] at h; cases h; exact List.mem_cons_self ..
      | elem => rw [inferTree] at h; cases h
    · exact List.mem_cons_of_mem _ (ih h)

theorem leaf_node {s : Str} {n : Node} {t : TextLike} (h : treeOf s n = .leaf t) : ∃ r, n = .text r t := by
  cases n with
  | text r' t => simp only [treeOf, Tree.leaf.injEq] at h; subst h; exact ⟨_, rfl⟩
  | elem r' h' ch =>
    rw [treeOf] at h
    obtain ⟨f, raw, fmt, k, e'⟩ := chainTree_top s h' h'.selectors (forestOf s ch)
    rw [e'] at h
    cases h

/-- Texts and spaces stay. -/
theorem infer_texts {c : SpecialTagConfig} {s : Str} {X X' : List Node} {p g : Option Str} {a : Bool}
    (h : forestOf s X' = inferForest .section p g a (forestOf s (specialNodes c X))) {r : Range} {t : TextLike} (ht : .text r t ∈ X') :
    ∃ r', .text r' t ∈ X := by
  have h1 : Tree.leaf t ∈ forestOf s X' := by
    rw [forestOf_eq]
    exact List.mem_map.2 ⟨_, ht, rfl⟩
  rw [h] at h1
  have h2 := infer_leaf h1
  rw [forestOf_eq] at h2
  obtain ⟨n, hn, e⟩ := List.mem_map.1 h2
  obtain ⟨r', rfl⟩ := leaf_node e
  clear h h1 h2 ht e
  refine ⟨r', ?_⟩
  induction X with
  | nil => simp [specialNodes] at hn
  | cons x X ih =>
    rw [specialNodes] at hn
    rcases List.mem_cons.1 hn with hn | hn
    · cases x with
      | text => rw [specialNode] at hn; cases hn; exact List.mem_cons_self ..
      | elem => rw [specialNode] at hn; cases hn
    · exact List.mem_cons_of_mem _ (ih hn)

theorem lang_text {l : Str} {X : List Node} {r : Range} {t : TextLike} (h : .text r t ∈ X.map (langNode l)) : .text r t ∈ X := by
  obtain ⟨n, hn, e⟩ := List.mem_map.1 h
  cases n with
  | text => rw [langNode] at e; cases e; exact hn
  | elem r' h' ch =>
    exfalso
    rw [langNode.eq_def] at e
    dsimp only at e
    repeat' split at e
    all_goals cases e

theorem lang_seps (l : Str) {z : List Node} (h : Seps z) : Seps (z.map (langNode l)) := by
  intro n hn
  obtain ⟨m, hm, rfl⟩ := List.mem_map.1 hn
  obtain ⟨r, rfl⟩ := h m hm
  exact ⟨r, rfl⟩

/-- The nodes that are written. -/
theorem written_parts {s1 s2 s : Str} {d1 d2 d : Ast.Document} {doc1 doc2 doc : Document} {e1 e1' e2 e2' e e' : Errors} {cfg : OutputConfig}
    {X Y Z : List Node} (h1 : fromAst s1 d1 e1 = (some doc1, e1')) (h2 : fromAst s2 d2 e2 = (some doc2, e2')) (h : fromAst s d e = (some doc, e'))
    (hn : doc.nodes = X ++ Z ++ Y) (hz : Seps Z) (hz' : Z ≠ []) (hX : SimsA cfg.specialTags s1 s doc1.nodes X)
    (hY : SimsA cfg.specialTags s2 s doc2.nodes Y) (hm : cfg.metadata = none) (hc : cfg.completePage.getD false = false) :
    ∃ X' Z' Y', (transformDocument doc s cfg).nodes = X' ++ Z' ++ Y' ∧ Seps Z' ∧ Z' ≠ [] ∧
      (∀ r t, .text r t ∈ X' ++ Y' → ∃ r', .text r' t ∈ doc.nodes) ∧
      TreesSim s1 s (forestOf s1 (transformDocument doc1 s1 cfg).nodes) (forestOf s X') ∧
      TreesSim s2 s (forestOf s2 (transformDocument doc2 s2 cfg).nodes) (forestOf s Y') := by
  have ht : ∀ s (doc : Document), toInfer cfg s doc = specialNodes cfg.specialTags doc.nodes := by
    intro s doc
    unfold toInfer
    rw [hc]
    rfl
  have hi := C20_inference cfg h
  have hi1 := C20_inference cfg h1
  have hi2 := C20_inference cfg h2
  have g := (infer_tree s _ (toInfer_plain cfg h)).2
  have g1 := (infer_tree s1 _ (toInfer_plain cfg h1)).2
  have g2 := (infer_tree s2 _ (toInfer_plain cfg h2)).2
  simp only [transformDocument_eq, hm]
  rw [ht] at hi hi1 hi2 g g1 g2
  rw [ht, ht, ht]
  rw [hn, specialNodes_append, specialNodes_append, special_seps _ hz, forestOf_append, forestOf_append, inferForest_append, inferForest_append,
    sepTrees hz] at hi
  rw [hn, specialNodes_append, specialNodes_append, special_seps _ hz] at g ⊢
  obtain ⟨XZ, Y', e1, e2, e3⟩ := forest_split hi
  obtain ⟨X', Z', e4, e5, e6⟩ := forest_split e2
  subst e4
  rw [e1] at g ⊢
  have t1 := infers_sim (forest_sim (specials_sim hX)) .section none none true
  have t2 := infers_sim (forest_sim (specials_sim hY)) .section none none true
  rw [← hi1, ← e5] at t1
  rw [← hi2, ← e3] at t2
  have z1 := seps_of hz e6
  have z2 : Z' ≠ [] := by
    rintro rfl
    rw [forestOf_eq, forestOf_eq] at e6
    simp at e6
    exact hz' e6
  have z3 : ∀ r t, .text r t ∈ X' ++ Y' → ∃ r', .text r' t ∈ X ++ Z ++ Y := by
    intro r t ht
    rcases List.mem_append.1 ht with ht | ht
    · obtain ⟨r', hr⟩ := infer_texts e5 ht
      exact ⟨r', by simp [hr]⟩
    · obtain ⟨r', hr⟩ := infer_texts e3 ht
      exact ⟨r', by simp [hr]⟩
  cases cfg.lang with
  | none => exact ⟨X', Z', Y', rfl, z1, z2, z3, t1, t2⟩
  | some l =>
    refine ⟨X'.map (langNode l), Z'.map (langNode l), Y'.map (langNode l), by simp, lang_seps l z1, by simpa using z2, fun r t ht => ?_, ?_, ?_⟩
    · rw [← List.map_append] at ht
      exact z3 r t (lang_text ht)
    · exact langs_sim t1 g1 fun n hn => g n (by simp [hn])
    · exact langs_sim t2 g2 fun n hn => g n (by simp [hn])

end Parts
end Mty
