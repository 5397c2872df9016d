import Verif.Proofs.Multiline
import Verif.Proofs.Same

/-! # Sources that say the same have similar documents -/

set_option autoImplicit false

namespace Mty
open Spec

namespace Same

variable {c : SpecialTagConfig} {s1 s2 : Str}

theorem space_sim {sp sp' : Option Range} (h : SameSpace s1 s2 sp sp') : SimsA c s1 s2 (spaceBefore sp) (spaceBefore sp') := by
  cases sp <;> cases sp' <;> simp only [SameSpace] at h
  · exact .nil
  · exact sims_one (.text (.inline h))

theorem text_sim {t t' : Ast.InlineText} {n n' : Node} (h : SameText s1 s2 t t') (h1 : TextIs t n) (h2 : TextIs t' n') :
    SimA c s1 s2 n n' := by
  obtain rfl := h1
  obtain rfl := h2
  cases h with
  | segment h => exact .text (.text (.inl h) rfl rfl rfl rfl)
  | verbatim h hr =>
    refine .text (.text (.inl h) rfl rfl ?_ rfl)
    rename_i raw raw' _ _
    cases raw <;> cases raw' <;> simp_all
  | comment h => exact .text (.comment h)
  | interpolation h => exact .text (.text (.inl h) rfl rfl rfl rfl)

theorem selector_sim {s s' : Ast.Selector} {t t' : Selector} (h : SameSelector s1 s2 s s') (h1 : SelectorIs s1 s t) (h2 : SelectorIs s2 s' t') :
    SelSim s1 s2 t t' := by
  refine ⟨?_, ?_⟩
  · rw [Structure.selector_name h1, Structure.selector_name h2]; exact h.1
  · rw [h1.2.1, h2.2.1]; exact h.2.1

theorem noSelector_sim {p p' : Nat} {t t' : Selector} (h1 : NoSelector p t) (h2 : NoSelector p' t') : SelSim s1 s2 t t' := by
  refine ⟨?_, ?_⟩
  · rw [h1.1, h2.1]; rfl
  · rw [h1.2.1, h2.2.1]; exact .of_eq rfl

theorem next_item {ty : Ast.NodeType} (h : IsItem ty) : next .top ty = .top := by
  cases ty with
  | text t => cases t <;> rfl
  | selector => exact absurd h (by simp [IsItem])
  | line => exact absurd h (by simp [IsItem])
  | _ => rfl

theorem same_item {ty ty' : Ast.NodeType} (h : SameType c s1 s2 ty ty') (hi : IsItem ty) : IsItem ty' := by
  cases h <;> exact hi

theorem begins_same {st : LineSt} {ns ns' : List Ast.Node} (h : SameNodes c s1 s2 st ns ns') (hb : BeginsContent ns) : BeginsContent ns' := by
  cases h with
  | nil => trivial
  | cons _ h2 _ => cases h2 <;> exact hb

theorem arrow_top {ns ns' : List Ast.Node} (h : SameNodes c s1 s2 .arrow ns ns') (hb : BeginsContent ns) : SameNodes c s1 s2 .top ns ns' := by
  cases h with
  | nil => exact .nil
  | @cons st sp sp' a a' b b' ty ty' ns ns' h1 h2 h3 =>
    refine .cons (fun _ => h1 ?_) h2 ?_
    · cases ty <;> first | rfl | exact absurd hb (by simp [BeginsContent])
    · have : next .arrow ty = next .top ty := by
        cases ty with
        | text t => cases t <;> rfl
        | _ => first | rfl
      rw [← this]; exact h3

/-- A line of items has no rest. -/
theorem line_phrasing {src : Str} : ∀ {ns : List Ast.Node} {out : List Node} {rest : List Ast.Node}, LineIs src ns out rest → Phrasing ns → rest = []
  | _, _, _, .nil, _ => rfl
  | _, _, _, .item _ _ h, hp => line_phrasing h fun n hn => hp n (List.mem_cons_of_mem _ hn)
  | _, _, _, .selector _ _ _, hp => by
    have := hp _ (List.mem_cons_self ..)
    simp [nodeShape, shapeOf] at this
  | _, _, _, .arrow _ _, hp => by
    have := hp _ (List.mem_cons_self ..)
    simp [nodeShape, shapeOf] at this

/-- The content of a single line that is not divided into paragraphs. -/
theorem layout_single {e a b : Nat} {ns out : List Node} (h : Layout false false e [.line a b ns] out) : out = ns := by
  generalize hl : [SrcLine.line a b ns] = ls at h
  generalize hp : false = par at h
  cases h with
  | nil => cases hl
  | blank => cases hl
  | empty h => cases hl; cases h; rfl
  | paragraph hp' => rw [← hp] at hp'; cases hp'
  | @continued before e a' b' nodes last run rest e' p out' _ _ _ _ hj h =>
    simp only [List.cons_append, List.cons.injEq, SrcLine.line.injEq] at hl
    obtain ⟨⟨rfl, rfl, rfl⟩, hl⟩ := hl
    obtain ⟨rfl, rfl⟩ := List.append_eq_nil_iff.1 hl.symm
    cases hj
    cases h
    simp [← hp]
  | other _ _ h => cases hl; cases h; simp [← hp]

theorem shape_same {ty ty' : Ast.NodeType} (h : SameType c s1 s2 ty ty') : shapeOf ty = shapeOf ty' := by
  cases h with
  | text h => cases h <;> rfl
  | _ => rfl

theorem phrasing_same {st : LineSt} {ns ns' : List Ast.Node} (h : SameNodes c s1 s2 st ns ns') (hp : Phrasing ns) : Phrasing ns' := by
  induction ns generalizing ns' st with
  | nil => cases h; exact hp
  | cons n ns ih =>
    cases h with
    | cons _ h2 h3 =>
      intro m hm
      rcases List.mem_cons.1 hm with rfl | hm
      · have := hp _ (List.mem_cons_self ..)
        simp only [nodeShape] at this ⊢
        rw [← shape_same h2]; exact this
      · exact ih h3 (fun x hx => hp x (List.mem_cons_of_mem _ hx)) m hm

theorem spaces_before (sp : Option Range) : Spaces (spaceBefore sp) := by
  cases sp <;> simp [Spaces, spaceBefore, Node.isSpace]

/-- Items stand for something. -/
theorem item_nonempty {src : Str} {rg : Range} {ty : Ast.NodeType} {ns : List Node} (h : ItemIs src rg ty ns) : ns ≠ [] := by
  cases h <;> simp

theorem shape_item {ty : Ast.NodeType} (h : shapeOf ty = .inl ∨ shapeOf ty = .comment) : IsItem ty := by
  cases ty <;> simp_all [shapeOf, IsItem]

/-- `<(name> …)>` with inline content. -/
theorem inline_chain {src : Str} {rg o : Range} {sel : Ast.Selector} {a1 b1 a2 b2 : Nat} {sp2 : Option Range} {g : Range} {r : Option Range}
    {ns : List Ast.Node} {out : List Node} (hp : Phrasing ns)
    (h : ItemIs src rg (.inline o (.mk none a1 b1 (.selector sel) :: .mk sp2 a2 b2 (.line g) :: ns) r) out) :
    ∃ t p q content, SelectorIs src sel t ∧ LineIs src ns content [] ∧
      out = [.elem p { range := p, selectors := [t], contentRange := q, ty := .inline (some (.line g)), formatInline := false, isRaw := false } content] := by
  have key : ∀ {line rest}, LineIs src (.mk none a1 b1 (.selector sel) :: .mk sp2 a2 b2 (.line g) :: ns) line rest →
      ∃ t p q content, SelectorIs src sel t ∧ LineIs src ns content [] ∧ line = [element [t] (.standard (.line g)) p q content] := by
    intro line rest hl
    cases hl with
    | item hi => exact absurd hi (by simp [IsItem])
    | selector hs ha hr =>
      cases ha with
      | arrow ha =>
        cases ha with
        | selector =>
          have := hp _ (List.mem_cons_self ..)
          simp [nodeShape, shapeOf] at this
        | arrow =>
          have := hp _ (List.mem_cons_self ..)
          simp [nodeShape, shapeOf] at this
        | block =>
          have := hp _ (List.mem_cons_self ..)
          simp [nodeShape, shapeOf] at this
        | line hb hc =>
          have := line_phrasing hc hp
          subst this
          cases hr
          exact ⟨_, _, _, _, hs, hc, rfl⟩
  generalize hty : Ast.NodeType.inline o (.mk none a1 b1 (.selector sel) :: .mk sp2 a2 b2 (.line g) :: ns) r = ty at h
  cases h with
  | inlineElement hl hpre hd =>
    cases hty
    obtain ⟨t, p, q, content, h1, h2, h3⟩ := key hl
    rename_i pre post
    cases pre with
    | cons x pre => simp at h3
    | nil =>
      simp only [List.nil_append, List.cons.injEq, element, Node.elem.injEq] at h3
      obtain ⟨⟨rfl, rfl, rfl⟩, rfl⟩ := h3
      simp only [ElementType.standard.injEq] at hd
      subst hd
      exact ⟨t, _, _, _, h1, h2, rfl⟩
  | inlineText hl hno =>
    cases hty
    obtain ⟨t, p, q, content, h1, h2, h3⟩ := key hl
    exact absurd ⟨by simp, _, _, _, _, rfl, rfl⟩ (hno [] _ [] h3)
  | _ => cases hty

theorem form_name (f : Ast.SpecialForm) : configuredTag c (formKind f) = shortName c f := by cases f <;> rfl

theorem formKind_ne (f : Ast.SpecialForm) : formKind f ≠ .codeBlockContainer := by cases f <;> simp [formKind]

theorem phrasing_cons {sp sp' : Option Range} {n n' x y : Nat} {ty ty' : Ast.NodeType} {ns ns' : List Ast.Node}
    (h5 : Phrasing (.mk sp n x ty :: ns)) (h6 : SameType c s1 s2 ty ty') (h7 : SameNodes c s1 s2 .top ns ns') :
    Phrasing (.mk sp' n' y ty' :: ns') := by
  intro m hm
  rcases List.mem_cons.1 hm with rfl | hm
  · have := h5 _ (List.mem_cons_self ..)
    simp only [nodeShape] at this ⊢
    rw [← shape_same h6]; exact this
  · exact phrasing_same h7 (fun z hz => h5 z (List.mem_cons_of_mem _ hz)) m hm

mutual
  theorem item_sim : ∀ {rg : Range} {ty : Ast.NodeType} {ns : List Node}, ItemIs s1 rg ty ns →
      ∀ {rg' : Range} {ty' : Ast.NodeType} {ns' : List Node}, SameType c s1 s2 ty ty' → ItemIs s2 rg' ty' ns' → SimsA c s1 s2 ns ns'
    | _, _, _, .text ht, _, _, _, hs, h' => by
      cases hs with
      | text hs => cases h' with | text ht' => exact sims_one (text_sim hs ht ht')
    | _, _, _, .multiline hl, _, _, _, hs, h' => by
      cases hs with
      | multiline hs =>
        cases h' with
        | multiline hl' =>
          obtain rfl := hl
          obtain rfl := hl'
          exact sims_one (.elem .nil rfl rfl rfl (sims_one (.text (.text (.inr ⟨rfl, hs⟩) rfl rfl rfl rfl))))
    | _, _, _, .code hl, _, _, _, hs, h' => by
      obtain rfl := hl
      cases hs with
      | code hs =>
        cases h' with
        | code hl' =>
          obtain rfl := hl'
          exact sims_one (.elem .nil rfl rfl rfl (sims_one (.text (.text (.inl hs) rfl rfl rfl rfl))))
      | shortCode h1 h2 h3 h4 h5 h6 =>
        obtain ⟨t, p, q, content, k1, k2, rfl⟩ := inline_chain (by simp [Phrasing, nodeShape, shapeOf]) h'
        cases k2 with
        | item _ hi hr =>
          cases hr
          cases hi with
          | text hl' =>
            obtain rfl := hl'
            rw [List.append_nil]
            refine sims_one (.short (l := []) ⟨rfl, ⟨_, rfl⟩, ⟨.code, rfl, by simp, h1, t, rfl, ?_, ?_⟩, ⟨rfl, rfl⟩, ⟨rfl, rfl⟩⟩ (by simp [Spaces]) (spaces_before _)
              (by simp) (sims_one (.text (.text (.inl h5) rfl rfl rfl rfl))))
            · rw [Structure.selector_name k1]; exact h2
            · rw [k1.2.1]; exact h3
    | _, _, _, .special (.mk hl hlay), _, _, _, hs, h' => by
      have ih1 := @lines_sim _ _ hl
      have ih2 := @lines_loose _ _ hl
      cases hs with
      | special hs =>
        cases h' with
        | special h' =>
          cases h' with
          | mk hl' hlay' => exact sims_one (.elem .nil rfl rfl rfl (layout_sim hlay hlay' (ih1 hs hl')))
      | @short f o o' s a b e x y sp sp' n n' ty ty' nodes nodes' r r' sel a1 b1 a2 b2 g sp2 h1 h2 h3 h4 h5 h6 h7 h8 =>
        obtain ⟨t, p, q, content, k1, k2, rfl⟩ := inline_chain (phrasing_cons h5 h6 h7) h'
        obtain ⟨l, ch, l', ch', rfl, rfl, j1, j2, j3, j4⟩ := ih2 rfl h5 h6 h7 k2
        obtain rfl := layout_single hlay
        refine sims_one (.short ⟨rfl, ⟨_, rfl⟩, ⟨_, rfl, formKind_ne _, ?_, t, rfl, ?_, ?_⟩, ⟨rfl, rfl⟩, ⟨rfl, rfl⟩⟩
          j1 j2 j3 j4)
        · rw [form_name]; exact h1
        · rw [Structure.selector_name k1, form_name]; exact h2
        · rw [k1.2.1]; exact h3
    | _, _, _, .block (.mk hl hlay), _, _, _, hs, h' => by
      have ih1 := @lines_sim _ _ hl
      cases hs with
      | block hs =>
        cases h' with
        | block h' =>
          cases h' with
          | mk hl' hlay' => exact sims_one (.elem .nil rfl rfl rfl (layout_sim hlay hlay' (ih1 hs hl')))
    | _, _, _, .inlineElement hl hpre hd, _, _, _, hs, h' => by
      cases hs with
      | inline hs =>
        cases h' with
        | inlineElement hl' hpre' hd' =>
          have ih := (line_sim hl hs hl').1
          obtain ⟨h1, h2, h3⟩ := first_visible ih hpre rfl hpre' rfl
          refine sims_append h1 (.cons ?_ h3)
          cases h2 with
          | elem k1 k2 k3 k4 k5 =>
            rw [hd, hd'] at k2
            simp only [tyKind, ElementType.standard.injEq] at k2
            exact .elem k1 (by simp [tyKind, k2]) k3 k4 k5
          | short k =>
            obtain ⟨_, hk, _⟩ := k.special_
            rw [hd] at hk; cases hk
        | inlineText hl' hno =>
          have ih := (line_sim hl hs hl').1
          obtain ⟨pre', x', post', rfl, h1, h2, h3⟩ := sims_split ih
          refine absurd ⟨?_, ?_⟩ (hno pre' x' post' rfl)
          · rw [all_invisible, ← sims_any h1, ← all_invisible]; exact hpre
          · cases h2 with
            | elem k1 k2 k3 k4 k5 =>
              rw [hd] at k2
              obtain ⟨d', hd', _⟩ := tyKind_standard k2
              exact ⟨_, _, _, _, rfl, hd'⟩
            | short k =>
              obtain ⟨_, hk, _⟩ := k.special_
              rw [hd] at hk; cases hk
    | _, _, _, .inlineText hl hno, _, _, _, hs, h' => by
      cases hs with
      | inline hs =>
        cases h' with
        | inlineElement hl' hpre' hd' =>
          have ih := (line_sim hl hs hl').1
          obtain ⟨pre', x', post', rfl, h1, h2, h3⟩ := sims_split' ih
          refine absurd ⟨?_, ?_⟩ (hno pre' x' post' rfl)
          · rw [all_invisible, sims_any h1, ← all_invisible]; exact hpre'
          · cases h2 with
            | elem k1 k2 k3 k4 k5 =>
              rw [hd'] at k2
              obtain ⟨d', hd', _⟩ := tyKind_standard k2.symm
              exact ⟨_, _, _, _, rfl, hd'⟩
            | short k =>
              obtain ⟨_, hk⟩ := k.inline_
              rw [hd'] at hk; cases hk
        | inlineText hl' hno' => exact sims_one (.elem .nil rfl rfl rfl (line_sim hl hs hl').1)
  theorem lines_sim : ∀ {lines : List Ast.Line} {ls : List SrcLine}, LinesAre s1 lines ls →
      ∀ {lines' : List Ast.Line} {ls' : List SrcLine}, SameLines c s1 s2 lines lines' → LinesAre s2 lines' ls' →
      List.Forall₂ (LineSim c s1 s2) ls ls'
    | _, _, .nil, _, _, hs, h' => by cases hs; cases h'; exact .nil
    | _, _, .blank hl, _, _, hs, h' => by
      have ih1 := @lines_sim _ _ hl
      cases hs with
      | cons h1 h2 => cases h1; cases h' with | blank hl' => exact .cons .blank (ih1 h2 hl')
    | _, _, .line hn hl, _, _, hs, h' => by
      have ih := @line_sim _ _ _ hn
      have ih2 := @lines_sim _ _ hl
      cases hs with
      | cons h1 h2 =>
        cases h1 with
        | cons k1 k2 k3 =>
          cases h' with
          | line hn' hl' => exact .cons (.line (ih (.cons k1 k2 k3) hn').1) (ih2 h2 hl')
  theorem lines_loose : ∀ {lines : List Ast.Line} {ls : List SrcLine}, LinesAre s1 lines ls →
      ∀ {a b : Nat} {sp sp' : Option Range} {n n' x y : Nat} {ty ty' : Ast.NodeType} {ns ns' rest' : List Ast.Node} {out' : List Node},
      lines = [.mk a (.mk sp n x ty :: ns) b] → Phrasing (.mk sp n x ty :: ns) → SameType c s1 s2 ty ty' → SameNodes c s1 s2 .top ns ns' →
      LineIs s2 (.mk sp' n' y ty' :: ns') out' rest' →
      ∃ l ch l' ch', ls = [.line a b (l ++ ch)] ∧ out' = l' ++ ch' ∧ Spaces l ∧ Spaces l' ∧ ch ≠ [] ∧ SimsA c s1 s2 ch ch'
    | _, _, .nil, _, _, _, _, _, _, _, _, _, _, _, _, _, _, e, _, _, _, _ => by cases e
    | _, _, .blank _, _, _, _, _, _, _, _, _, _, _, _, _, _, _, e, _, _, _, _ => by cases e
    | _, _, .line hn hl, _, _, _, _, _, _, _, _, _, _, _, _, _, _, e, h5, h6, h7, h' => by
      have ih := @line_loose _ _ _ hn
      cases e
      cases hl
      obtain ⟨l, ch, l', ch', rfl, j⟩ := ih rfl h5 h6 h7 h'
      exact ⟨l, ch, l', ch', rfl, j⟩
  theorem line_loose : ∀ {nodes : List Ast.Node} {out : List Node} {rest : List Ast.Node}, LineIs s1 nodes out rest →
      ∀ {sp sp' : Option Range} {n n' x y : Nat} {ty ty' : Ast.NodeType} {ns ns' rest' : List Ast.Node} {out' : List Node},
      nodes = .mk sp n x ty :: ns → Phrasing (.mk sp n x ty :: ns) → SameType c s1 s2 ty ty' → SameNodes c s1 s2 .top ns ns' →
      LineIs s2 (.mk sp' n' y ty' :: ns') out' rest' →
      ∃ l ch l' ch', out = l ++ ch ∧ out' = l' ++ ch' ∧ Spaces l ∧ Spaces l' ∧ ch ≠ [] ∧ SimsA c s1 s2 ch ch'
    | _, _, _, .nil, _, _, _, _, _, _, _, _, _, _, _, _, e, _, _, _, _ => by cases e
    | _, _, _, .item hi hit hl, _, _, _, _, _, _, _, _, _, _, _, _, e, h5, h6, h7, h' => by
      have ih := @item_sim _ _ _ hit
      have ih2 := @line_sim _ _ _ hl
      cases e
      cases h' with
      | selector =>
        have := h5 _ (List.mem_cons_self ..)
        simp only [nodeShape, shape_same h6] at this
        simp [shapeOf] at this
      | arrow =>
        have := h5 _ (List.mem_cons_self ..)
        simp only [nodeShape, shape_same h6] at this
        simp [shapeOf] at this
      | item hi' hit' hl' =>
        rw [List.append_assoc, List.append_assoc]
        exact ⟨_, _, _, _, rfl, rfl, spaces_before _, spaces_before _, by simp [item_nonempty hit], sims_append (ih h6 hit') (ih2 h7 hl').1⟩
    | _, _, _, .selector _ _ _, _, _, _, _, _, _, _, _, _, _, _, _, e, h5, _, _, _ => by
      cases e
      have := h5 _ (List.mem_cons_self ..)
      simp [nodeShape, shapeOf] at this
    | _, _, _, .arrow _ _, _, _, _, _, _, _, _, _, _, _, _, _, e, h5, _, _, _ => by
      cases e
      have := h5 _ (List.mem_cons_self ..)
      simp [nodeShape, shapeOf] at this
  theorem line_sim : ∀ {ns : List Ast.Node} {out : List Node} {rest : List Ast.Node}, LineIs s1 ns out rest →
      ∀ {ns' : List Ast.Node} {out' : List Node} {rest' : List Ast.Node}, SameNodes c s1 s2 .top ns ns' → LineIs s2 ns' out' rest' →
      SimsA c s1 s2 out out' ∧ SameNodes c s1 s2 .top rest rest'
    | _, _, _, .nil, _, _, _, hs, h' => by cases hs; cases h'; exact ⟨.nil, .nil⟩
    | _, _, _, .item hi hit hl, _, _, _, hs, h' => by
      have ih1 := @line_sim _ _ _ hl
      have ih2 := @item_sim _ _ _ hit
      cases hs with
      | cons k1 k2 k3 =>
        rw [next_item hi] at k3
        cases h' with
        | item hi' hit' hl' =>
          have i1 := ih1 k3 hl'
          exact ⟨sims_append (sims_append (space_sim (k1 rfl)) (ih2 k2 hit')) i1.1, i1.2⟩
        | selector => exact absurd (same_item k2 hi) (by simp [IsItem])
        | arrow => exact absurd (same_item k2 hi) (by simp [IsItem])
    | _, _, _, .selector hsel ha hl, _, _, _, hs, h' => by
      have ih1 := @afterSelector_sim _ _ _ _ _ ha
      have ih2 := @line_sim _ _ _ hl
      cases hs with
      | cons k1 k2 k3 =>
        cases k2 with
        | selector k2 =>
        cases h' with
        | item hi' => exact absurd hi' (by simp [IsItem])
        | selector hsel' ha' hl' =>
          have i1 := ih1 (.cons (selector_sim k2 hsel hsel') .nil) k3 ha'
          have i2 := ih2 i1.2 hl'
          exact ⟨sims_append (sims_append (space_sim (k1 rfl)) i1.1) i2.1, i2.2⟩
    | _, _, _, .arrow hsel ha, _, _, _, hs, h' => by
      have ih1 := @afterArrow_sim _ _ _ _ _ _ ha
      cases hs with
      | cons k1 k2 k3 =>
        cases k2 with
        | line =>
        cases h' with
        | item hi' => exact absurd hi' (by simp [IsItem])
        | arrow hsel' ha' =>
          have i1 := ih1 (.cons (noSelector_sim hsel hsel') .nil) k3 ha'
          exact ⟨sims_append (space_sim (k1 rfl)) i1.1, i1.2⟩
  theorem afterSelector_sim : ∀ {chain : List Selector} {p : Range} {ns : List Ast.Node} {out : List Node} {rest : List Ast.Node},
      AfterSelector s1 chain p ns out rest →
      ∀ {chain' : List Selector} {p' : Range} {ns' : List Ast.Node} {out' : List Node} {rest' : List Ast.Node},
      List.Forall₂ (SelSim s1 s2) chain chain' → SameNodes c s1 s2 .selector ns ns' → AfterSelector s2 chain' p' ns' out' rest' →
      SimsA c s1 s2 out out' ∧ SameNodes c s1 s2 .top rest rest'
    | _, _, _, _, _, .dangling, _, _, _, _, _, hc, hs, h' => by cases hs; cases h'; exact ⟨.nil, .nil⟩
    | _, _, _, _, _, .comment ht ha, _, _, _, _, _, hc, hs, h' => by
      have ih1 := @afterSelector_sim _ _ _ _ _ ha
      cases hs with
      | cons k1 k2 k3 =>
        cases k2 with
        | text k2 =>
          cases k2 with
          | comment k2 k2' =>
            cases h' with
            | comment ht' ha' =>
              have i1 := ih1 hc k3 ha'
              exact ⟨.cons (text_sim (.comment k2 k2') ht ht') i1.1, i1.2⟩
    | _, _, _, _, _, .arrow ha, _, _, _, _, _, hc, hs, h' => by
      have ih1 := @afterArrow_sim _ _ _ _ _ _ ha
      cases hs with
      | cons k1 k2 k3 =>
        cases k2 with
        | line => cases h' with | arrow ha' => exact ih1 hc k3 ha'
    | _, _, _, _, _, .block (.mk hl hlay), _, _, _, _, _, hc, hs, h' => by
      have ih1 := @lines_sim _ _ hl
      cases hs with
      | cons k1 k2 k3 =>
        cases k2 with
        | block k2 =>
          cases h' with
          | block h' =>
            cases h' with
            | mk hl' hlay' => exact ⟨sims_one (.elem hc rfl rfl rfl (layout_sim hlay hlay' (ih1 k2 hl'))), k3⟩
  theorem afterArrow_sim : ∀ {chain : List Selector} {p gt : Range} {ns : List Ast.Node} {out : List Node} {rest : List Ast.Node},
      AfterArrow s1 chain p gt ns out rest →
      ∀ {chain' : List Selector} {p' gt' : Range} {ns' : List Ast.Node} {out' : List Node} {rest' : List Ast.Node},
      List.Forall₂ (SelSim s1 s2) chain chain' → SameNodes c s1 s2 .arrow ns ns' → AfterArrow s2 chain' p' gt' ns' out' rest' →
      SimsA c s1 s2 out out' ∧ SameNodes c s1 s2 .top rest rest'
    | _, _, _, _, _, _, .selector hsel ha, _, _, _, _, _, _, hc, hs, h' => by
      have ih1 := @afterSelector_sim _ _ _ _ _ ha
      cases hs with
      | cons k1 k2 k3 =>
        cases k2 with
        | selector k2 =>
          cases h' with
          | selector hsel' ha' =>
            exact ih1 (List.rel_append hc (.cons (selector_sim k2 hsel hsel') .nil)) k3 ha'
          | line hb => exact absurd hb (by simp [BeginsContent])
    | _, _, _, _, _, _, .arrow hsel ha, _, _, _, _, _, _, hc, hs, h' => by
      have ih1 := @afterArrow_sim _ _ _ _ _ _ ha
      cases hs with
      | cons k1 k2 k3 =>
        cases k2 with
        | line =>
          cases h' with
          | arrow hsel' ha' =>
            exact ih1 (List.rel_append hc (.cons (noSelector_sim hsel hsel') .nil)) k3 ha'
          | line hb => exact absurd hb (by simp [BeginsContent])
    | _, _, _, _, _, _, .block (.mk hl hlay), _, _, _, _, _, _, hc, hs, h' => by
      have ih1 := @lines_sim _ _ hl
      cases hs with
      | cons k1 k2 k3 =>
        cases k2 with
        | block k2 =>
          cases h' with
          | block h' =>
            cases h' with
            | mk hl' hlay' => exact ⟨sims_one (.elem hc rfl rfl rfl (layout_sim hlay hlay' (ih1 k2 hl'))), k3⟩
          | line hb => exact absurd hb (by simp [BeginsContent])
    | _, _, _, _, _, _, .line hb hl, _, _, _, _, _, _, hc, hs, h' => by
      have hb' := begins_same hs hb
      have hs' := arrow_top hs hb
      have ih := @line_sim _ _ _ hl
      cases h' with
      | selector => exact absurd hb' (by simp [BeginsContent])
      | arrow => exact absurd hb' (by simp [BeginsContent])
      | block => exact absurd hb' (by simp [BeginsContent])
      | line _ hl' =>
        have i1 := ih hs' hl'
        exact ⟨sims_one (.elem hc rfl rfl rfl i1.1), i1.2⟩
end

theorem content_sim {q : Bool} {a a' : Nat} {lines lines' : List Ast.Line} {ns ns' : List Node} (h : ContentIs s1 q a lines ns)
    (hs : SameLines c s1 s2 lines lines') (h' : ContentIs s2 q a' lines' ns') : SimsA c s1 s2 ns ns' := by
  cases h with
  | mk hl hlay => cases h' with | mk hl' hlay' => exact layout_sim hlay hlay' (lines_sim hl hs hl')

/-! ## Errors -/

theorem escapesOk_line {a b : Str} : EscapesOk (a ++ '\n' :: b) ↔ EscapesOk a ∧ EscapesOk b := by
  constructor
  · rintro ⟨u, h⟩
    generalize hx : a ++ '\n' :: b = x at h
    induction h generalizing a with
    | nil => simp at hx
    | plain hc h ih =>
      cases a with
      | nil => cases hx; exact ⟨⟨_, .nil⟩, _, h⟩
      | cons d a =>
        cases hx
        obtain ⟨⟨v, hv⟩, hb⟩ := ih rfl
        exact ⟨⟨_, .plain hc hv⟩, hb⟩
    | @esc e c s t he h ih =>
      have hn := accepted_no_space he (x := '\n') (by decide)
      cases a with
      | nil => cases hx
      | cons d a =>
        rw [List.cons_append, List.cons_append, List.cons.injEq] at hx
        obtain ⟨rfl, hx⟩ := hx
        rcases List.append_eq_append_iff.1 hx with ⟨z, rfl, hz⟩ | ⟨z, rfl, hz⟩
        · cases z with
          | nil =>
            rw [List.nil_append] at hz
            obtain ⟨_, hb⟩ := ih (a := []) hz
            refine ⟨⟨[c], ?_⟩, hb⟩
            have := Unescapes.esc he .nil
            simpa using this
          | cons y z => cases hz; exact absurd (by simp) hn
        · obtain ⟨⟨v, hv⟩, hb⟩ := ih hz.symm
          exact ⟨⟨_, Unescapes.esc he hv⟩, hb⟩
  · rintro ⟨⟨u, hu⟩, v, hv⟩
    induction hu with
    | nil => exact ⟨_, .plain (by decide) hv⟩
    | plain hc _ ih => obtain ⟨w, hw⟩ := ih; exact ⟨_, .plain hc hw⟩
    | esc he _ ih =>
      obtain ⟨w, hw⟩ := ih
      have := Unescapes.esc he hw
      rw [← List.append_assoc] at this
      exact ⟨_, this⟩

theorem escapesOk_pad {p a : Str} (hp : ∀ c ∈ p, c = ' ' ∨ c = '\t') : EscapesOk (p ++ a) ↔ EscapesOk a := by
  induction p with
  | nil => rfl
  | cons c p ih =>
    have hc : c ≠ '\\' := by rcases hp c (by simp) with rfl | rfl <;> decide
    rw [← ih fun d hd => hp d (by simp [hd])]
    constructor
    · rintro ⟨u, h⟩
      rw [List.cons_append] at h
      generalize hx : c :: (p ++ a) = x at h
      cases h with
      | nil => cases hx
      | plain _ h => cases hx; exact ⟨_, h⟩
      | esc => rw [List.cons_append, List.cons.injEq] at hx; exact absurd hx.1 hc
    · rintro ⟨u, h⟩
      exact ⟨_, .plain hc h⟩

theorem escapesOk_lines {p : Str} (hp : ∀ c ∈ p, c = ' ' ∨ c = '\t') : ∀ ls : List Str,
    EscapesOk (joinLines (ls.map (p ++ ·) ++ [p])) ↔ ∀ l ∈ ls, EscapesOk l
  | [] => by
    have := escapesOk_pad (a := []) hp
    rw [List.append_nil] at this
    simpa [joinLines, this] using ⟨_, .nil⟩
  | l :: ls => by
    rw [List.map_cons, List.cons_append, joinLines_cons (by simp), escapesOk_line, escapesOk_lines hp ls, escapesOk_pad hp]
    simp

theorem escapesOk_block {x y : Str} (h : SameBlock x y) : EscapesOk x ↔ EscapesOk y := by
  cases h with
  | same => rfl
  | indented h1 h2 =>
    rw [List.cons_append, List.cons_append, joinLines_cons (by simp), joinLines_cons (by simp), escapesOk_line, escapesOk_line,
      escapesOk_lines h1, escapesOk_lines h2]

theorem escapesOk_same {a b : Range} (h : SameSlice s1 s2 a b) : EscapesOk (a.slice s1) ↔ EscapesOk (b.slice s2) := by rw [h]

theorem items_rest {l r : List Item} {v : List Bool} (hp : ∀ i ∈ l, i.shape = .inl ∨ i.shape = .comment) (h : Items l v r) : r = [] := by
  induction l generalizing v with
  | nil => cases h; rfl
  | cons i l ih =>
    have := hp i (List.mem_cons_self ..)
    cases h with
    | comment _ _ h => exact ih (fun x hx => hp x (List.mem_cons_of_mem _ hx)) h
    | inl _ _ h => exact ih (fun x hx => hp x (List.mem_cons_of_mem _ hx)) h
    | multiline h => simp [h] at this
    | block h => simp [h] at this
    | selector h => simp [h] at this
    | selectorDangling h => simp [h] at this
    | arrow h => simp [h] at this
    | arrowDangling h => simp [h] at this

/-- A selector, `>` and inline content. -/
theorem lineOk_chain {s a : Item} {l : List Item} (hs : s.shape = .selector) (hok : s.ok) (ha : a.shape = .arrow)
    (hp : ∀ i ∈ l, i.shape = .inl ∨ i.shape = .comment) : LineOk (s :: a :: l) ↔ LineOk l := by
  have key : ∀ {o}, Chain .selector (a :: l) o → LineOk l ∧ ∃ r, o = .element r := by
    intro o h
    cases h with
    | selectorComment h => simp [h] at ha
    | selectorBlock h => simp [h] at ha
    | selectorArrow _ h =>
      cases h with
      | arrowSelector h => have := hp _ (List.mem_cons_self ..); simp [h] at this
      | arrowArrow h => have := hp _ (List.mem_cons_self ..); simp [h] at this
      | arrowBlock h => have := hp _ (List.mem_cons_self ..); simp [h] at this
      | arrowLine _ h1 h2 => exact ⟨⟨_, _, h1, h2⟩, _, rfl⟩
  constructor
  · rintro ⟨r, v, h, _⟩
    cases h with
    | selector _ _ h => exact (key h).1
    | selectorDangling _ _ h => exact (key h).1
    | comment h => simp [h] at hs
    | inl h => simp [h] at hs
    | multiline h => simp [h] at hs
    | block h => simp [h] at hs
    | arrow h => simp [h] at hs
    | arrowDangling h => simp [h] at hs
  · rintro ⟨r, v, h, hv⟩
    obtain rfl := items_rest hp h
    refine ⟨[], [true], .selector hs hok (.selectorArrow ha (.arrowLine ?_ h hv)) .nil, .inr rfl⟩
    cases l with
    | nil => trivial
    | cons i l => rcases hp i (List.mem_cons_self ..) with h | h <;> simp [StartsChildren, h]

theorem phrasing_items {src : Str} : ∀ {ns : List Ast.Node}, Phrasing ns → ∀ i ∈ itemsOf src ns, i.shape = .inl ∨ i.shape = .comment
  | [], _, i, hi => by simp [itemsOf] at hi
  | .mk sp a b ty :: ns, h, i, hi => by
    simp only [itemsOf, List.mem_cons] at hi
    rcases hi with rfl | hi
    · have := h _ (List.mem_cons_self ..)
      simpa only [itemOf, nodeShape] using this
    · exact phrasing_items (fun x hx => h x (List.mem_cons_of_mem _ hx)) i hi

mutual
  theorem type_ok : ∀ {ty ty' : Ast.NodeType}, SameType c s1 s2 ty ty' → (TypeOk s1 ty ↔ TypeOk s2 ty')
    | _, _, .text (.segment h) => by simp only [TypeOk]; exact escapesOk_same h
    | _, _, .text (.verbatim _ _) => by simp [TypeOk]
    | _, _, .text (.comment _ h) => by simp [TypeOk, h]
    | _, _, .text (.interpolation _) => by simp [TypeOk]
    | _, _, .multiline (k := k) h => by cases k <;> simp only [TypeOk]; exact escapesOk_block h
    | _, _, .code _ => by simp [TypeOk]
    | _, _, .selector h => by simp only [TypeOk]; exact h.2.2
    | _, _, .line => by simp [TypeOk]
    | _, _, .block h hr => by simp only [TypeOk]; rw [lines_ok h, hr]
    | _, _, .inline h hr => by simp only [TypeOk]; rw [items_same h, hr]
    | _, _, .special h hr => by simp only [TypeOk]; rw [lines_ok h, hr]
    | _, _, .short h1 h2 h3 h4 h5 h6 h7 h8 => by
      have i1 := type_ok h6
      have i2 := items_same h7
      have := phrasing_items (src := s1) h5
      simp only [TypeOk, LinesOk, and_true, itemsOf, itemOf] at this ⊢
      rw [i2, shape_same h6, propext i1] at this
      rw [lineOk_chain rfl h4 rfl this, i2, shape_same h6, propext i1, h8]
    | _, _, .shortCode h1 h2 h3 h4 h5 h6 => by
      simp only [TypeOk, itemsOf, itemOf, shapeOf]
      rw [lineOk_chain rfl h4 rfl (by simp)]
      simp only [h6, true_and, true_iff]
      exact ⟨[], [false], .inl rfl trivial .nil, by simp [OneOrInline]⟩
  theorem items_same : ∀ {st : LineSt} {ns ns' : List Ast.Node}, SameNodes c s1 s2 st ns ns' → itemsOf s1 ns = itemsOf s2 ns'
    | _, _, _, .nil => by simp [itemsOf]
    | _, _, _, .cons _ h2 h3 => by
      have i1 := type_ok h2
      simp only [itemsOf, itemOf]
      rw [shape_same h2, items_same h3, propext i1]
  theorem lines_ok : ∀ {ls ls' : List Ast.Line}, SameLines c s1 s2 ls ls' → (LinesOk s1 ls ↔ LinesOk s2 ls')
    | _, _, .nil => by simp [LinesOk]
    | _, _, .cons h1 h2 => by simp only [LinesOk]; rw [items_same h1, lines_ok h2]
end

end Same
end Mty
