import Verif.Proofs.MarginsParse

/-! # The rules of the parser and the margins of lines (for C86 and C87) -/

set_option autoImplicit false

namespace Mty.Grammar
open Pat Lex Spec

variable {Q : Str → Str → Prop} {src src' : Str}

theorem space_eq (b r : Str) : space b r = match r with
    | [] => none
    | c :: _ => if isSpace c then some (r.takeWhile isSpace, r.dropWhile isSpace) else none := by
  cases r with
  | nil => rfl
  | cons c r =>
    rw [space, many1, seq, chr]
    dsimp only
    by_cases h : isSpace c = true
    · simp [h, many_blank]
    · simp [h]

/-- White space, as a step. -/
theorem space_skip (s : Pos) : (token space s = none ∧ skip isSpace s = s) ∨
    token space s = some (⟨byteLen s.before, byteLen (s.before ++ s.after.takeWhile isSpace)⟩, skip isSpace s) := by
  obtain ⟨b, r⟩ := s
  cases r with
  | nil => exact .inl ⟨rfl, by simp [skip]⟩
  | cons c r =>
    by_cases h : isSpace c = true
    · exact .inr (by rw [token, space_eq]; dsimp only; rw [if_pos h]; rfl)
    · exact .inl ⟨by rw [token, space_eq]; dsimp only; rw [if_neg h], by simp [skip, List.takeWhile_cons, List.dropWhile_cons, h]⟩

/-- White space before a node, or at the end of a line. -/
theorem space_cr {s s' : Pos} (hs : At Q src src' s s') :
    (∃ b r b' r', (token space s = none ∧ s = ⟨b, '\n' :: r⟩ ∨ ∃ x, token space s = some (x, ⟨b, '\n' :: r⟩)) ∧
      (token space s' = none ∧ s' = ⟨b', '\n' :: r'⟩ ∨ ∃ x', token space s' = some (x', ⟨b', '\n' :: r'⟩))) ∨
    (token space s = none ∧ token space s' = none) ∨
    ∃ x s0 x' s0', token space s = some (x, s0) ∧ token space s' = some (x', s0') ∧ Ss src src' x x' ∧ At Q src src' s0 s0' := by
  rcases hs.space with ⟨r, b', u, v, r', t, t', g1, g2, _⟩ | ⟨g1, g2, g3⟩
  · left
    have key : ∀ {s : Pos} {b r : Str}, skip isSpace s = ⟨b, '\n' :: r⟩ →
        (token space s = none ∧ s = ⟨b, '\n' :: r⟩ ∨ ∃ x, token space s = some (x, ⟨b, '\n' :: r⟩)) := by
      intro s b r h
      rcases space_skip s with ⟨h1, h2⟩ | h1
      · exact .inl ⟨h1, h2 ▸ h⟩
      · exact .inr ⟨_, h ▸ h1⟩
    exact ⟨(skip isSpace s).before, r, _, _, key (by rw [← g1]), key g2⟩
  · right
    have hn : ∀ s : Pos, token space s = none ↔ s.after.takeWhile isSpace = [] := by
      intro s
      obtain ⟨b, r⟩ := s
      rw [token, space_eq]
      cases r with
      | nil => simp
      | cons c r =>
        by_cases h : isSpace c = true
        · simp [h]
        · simp [h, List.takeWhile_cons]
    by_cases he : s.after.takeWhile isSpace = []
    · exact .inl ⟨(hn s).2 he, (hn s').2 (g3.trans he)⟩
    · right
      rcases space_skip s with ⟨h1, _⟩ | h1
      · exact absurd ((hn s).1 h1) he
      rcases space_skip s' with ⟨h2, _⟩ | h2
      · exact absurd (g3.symm.trans ((hn s').1 h2)) he
      refine ⟨_, _, _, _, h1, h2, ?_, g2⟩
      obtain ⟨t, t', e1, e2, _⟩ := hs
      refine ⟨s.before, s.after.takeWhile isSpace, s.after.dropWhile isSpace ++ t, s'.before, s'.after.dropWhile isSpace ++ t', ?_, ?_, rfl,
        by rw [g3], fun hm => absurd (List.all_eq_true.1 List.all_takeWhile _ hm) (show isSpace '\n' ≠ true by decide)⟩
      · rw [e1, ← List.append_assoc (List.takeWhile _ _), List.takeWhile_append_dropWhile]
      · rw [e2, ← g3, ← List.append_assoc (List.takeWhile _ _), List.takeWhile_append_dropWhile]

inductive RLine (Q : Str → Str → Prop) (src src' : Str) : Ast.Line → Ast.Line → Prop
  | mk {a a' ns ns' b b'} : RNodes Q src src' ns ns' → RLine Q src src' (.mk a ns b) (.mk a' ns' b')

variable (al : Char → Bool)

structure CrAt (Q : Str → Str → Prop) (src src' : Str) (n : Nat) : Prop where
  nodeType : ∀ n' s s', At Q src src' s s' → 8 * s.after.length ≤ n → 8 * s'.after.length ≤ n' → Res Q src src' (RType Q src src') (nodeType al n s) (nodeType al n' s')
  block : ∀ n' s s', At Q src src' s s' → 8 * s.after.length ≤ n + 1 → 8 * s'.after.length ≤ n' + 1 →
    Res Q src src' (RType Q src src') (block al n s) (block al n' s')
  inline : ∀ n' s s', At Q src src' s s' → 8 * s.after.length ≤ n + 1 → 8 * s'.after.length ≤ n' + 1 →
    Res Q src src' (RType Q src src') (inline al n s) (inline al n' s')
  special : ∀ f n' s s', At Q src src' s s' → 8 * s.after.length ≤ n + 1 → 8 * s'.after.length ≤ n' + 1 →
    Res Q src src' (RType Q src src') (special al n f s) (special al n' f s')
  nodes : ∀ n' s s', At Q src src' s s' → 8 * s.after.length + 1 ≤ n → 8 * s'.after.length + 1 ≤ n' →
    Pair Q src src' (RNodes Q src src') (nodes al n s) (nodes al n' s')
  line : ∀ n' s s', Near Q src src' s s' → 8 * s.after.length + 2 ≤ n → 8 * s'.after.length + 2 ≤ n' →
    RLine Q src src' (line al n s).1 (line al n' s').1 ∧ Near Q src src' (line al n s).2 (line al n' s').2
  moreLines : ∀ n' s s', Near Q src src' s s' → 8 * s.after.length + 2 ≤ n → 8 * s'.after.length + 2 ≤ n' →
    Pair Q src src' (RLines Q src src') (moreLines al n s) (moreLines al n' s')
  content : ∀ n' s s', At Q src src' s s' → 8 * s.after.length + 3 ≤ n → 8 * s'.after.length + 3 ≤ n' →
    Pair Q src src' (RContent Q src src') (content al n s) (content al n' s')

theorem cr_end {s s' : Pos} (hs : At Q src src' s s') {f g : Pos → Option (Ast.NodeType × Pos)} (hf : Reads1 f) (hg : Reads1 g) (h : s.after = []) :
    Res Q src src' (RType Q src src') (f s) (g s') := by
  rw [none_at_end hf h, none_at_end hg (hs.nil_iff.2 h)]
  exact .no

theorem cr_end' {s s' : Pos} (hs : At Q src src' s s') {f g : Pos → Option (Ast.NodeType × Pos)} (hf : Reads1 f) (hg : Reads1 g) {n : Nat} (hn : n ≤ 7)
    (h : 8 * s'.after.length ≤ n) : Res Q src src' (RType Q src src') (f s) (g s') :=
  cr_end hs hf hg (hs.nil_iff.1 (List.length_eq_zero_iff.1 (by omega)))

theorem delims_line (f : Ast.SpecialForm) : Inked (specialDelims f).1 ∧ Inked (specialDelims f).2 := by
  cases f <;> decide

variable (hsrc : NoSlashBreak src) (hn : Off al)
include hsrc hn

theorem cr_at : ∀ n, CrAt al Q src src' n
  | 0 => by
    have e0 := adv_at al 0
    refine ⟨?_, ?_, ?_, ?_, ?_, ?_, ?_, ?_⟩
    · intro n' s s' hs h _
      exact cr_end hs e0.nodeType (adv_at al n').nodeType (List.length_eq_zero_iff.1 (by omega))
    · intro n' s s' hs h _
      exact cr_end hs e0.block (adv_at al n').block (List.length_eq_zero_iff.1 (by omega))
    · intro n' s s' hs h _
      exact cr_end hs e0.inline (adv_at al n').inline (List.length_eq_zero_iff.1 (by omega))
    · intro f n' s s' hs h _
      exact cr_end hs (e0.special f) ((adv_at al n').special f) (List.length_eq_zero_iff.1 (by omega))
    · intro n' s s' _ h; omega
    · intro n' s s' _ h; omega
    · intro n' s s' _ h; omega
    · intro n' s s' _ h; omega
  | n + 1 => by
    have ih := cr_at n
    have ea := adv_at al n
    refine ⟨?_, ?_, ?_, ?_, ?_, ?_, ?_, ?_⟩
    · intro n' s s' hs h h'
      cases n' with
      | zero => exact cr_end' hs (adv_at al (n + 1)).nodeType (adv_at al 0).nodeType (by omega) h'
      | succ n' =>
        rw [nodeType, nodeType]
        refine firstOf_cr ?_
        refine .cons (multiline_cr hsrc _ hs) <| .cons (multiline_cr hsrc _ hs) <| .cons (multiline_cr hsrc _ hs) <|
          .cons (leaf_cr hsrc (eqv_textSegment hn) (fun _ _ h => .text (.segment h)) hs) <| .cons (verbatim_cr hsrc hs) <|
          .cons (comment_cr hsrc hs) <|
          .cons (leaf_cr hsrc eqv_interpolation (fun _ _ h => .text (.interpolation h)) hs) <| .cons (selector_cr hsrc hn hs) <|
          .cons (leaf_cr hsrc (eqv_exact (by decide)) (fun _ _ _ => .line) hs) <| .cons (ih.block n' s s' hs h h') <|
          .cons (ih.inline n' s s' hs h h') <|
          .cons (ih.special _ n' s s' hs h h') <| .cons (ih.special _ n' s s' hs h h') <| .cons (ih.special _ n' s s' hs h h') <|
          .cons (ih.special _ n' s s' hs h h') <| .cons (ih.special _ n' s s' hs h h') <|
          .cons (leaf_cr hsrc eqv_inlineCode (fun _ _ h => .code h) hs) .nil
    · intro n' s s' hs h h'
      cases n' with
      | zero => exact cr_end' hs (adv_at al (n + 1)).block (adv_at al 0).block (by omega) h'
      | succ n' =>
        rw [block, block]
        rcases token_cr hsrc (eqv_exact (t := "{".toList) (by decide)) hs with ⟨e1, e2⟩ | ⟨l, s1, l', s1', e1, e2, hl, h1⟩
        · rw [e1, e2]; exact .no
        · rw [e1, e2]
          have a1 := (token_adv1 (sound_exact _) (ne_exact (by decide)) e1).lt
          have a2 := (skip_adv isWhitespace s1).le
          have a3 := (token_adv1 (sound_exact _) (ne_exact (by decide)) e2).lt
          have a4 := (skip_adv isWhitespace s1').le
          dsimp only
          obtain ⟨c1, c3⟩ := ih.content n' _ _ h1.white (by omega) (by omega)
          obtain ⟨d1, d3⟩ := closing_cr hsrc (t := "}".toList) (by decide) c3
          refine .yes ?_ d3
          revert c1
          generalize (content al n (skip isWhitespace s1)).1 = x
          generalize (content al n' (skip isWhitespace s1')).1 = y
          rintro ⟨c1⟩
          exact .block c1 d1
    · intro n' s s' hs h h'
      cases n' with
      | zero => exact cr_end' hs (adv_at al (n + 1)).inline (adv_at al 0).inline (by omega) h'
      | succ n' =>
        rw [inline, inline]
        rcases token_cr hsrc (eqv_exact (t := "<(".toList) (by decide)) hs with ⟨e1, e2⟩ | ⟨l, s1, l', s1', e1, e2, hl, h1⟩
        · rw [e1, e2]; exact .no
        · rw [e1, e2]
          have a1 := (token_adv1 (sound_exact _) (ne_exact (by decide)) e1).lt
          have a2 := (skip_adv isWhitespace s1).le
          have a3 := (token_adv1 (sound_exact _) (ne_exact (by decide)) e2).lt
          have a4 := (skip_adv isWhitespace s1').le
          dsimp only
          obtain ⟨c1, c3⟩ := ih.nodes n' _ _ h1.white (by omega) (by omega)
          revert c1 c3
          generalize nodes al n (skip isWhitespace s1) = x
          generalize nodes al n' (skip isWhitespace s1') = y
          obtain ⟨x1, x2⟩ := x
          obtain ⟨y1, y2⟩ := y
          intro c1 c3
          dsimp only at c1 c3
          cases c1 with
          | nil =>
            obtain ⟨d1, d3⟩ := closing_cr hsrc (t := ")>".toList) (by decide) h1
            dsimp only
            exact .yes (.inline .nil d1) d3
          | cons p1 p2 p3 =>
            obtain ⟨d1, d3⟩ := closing_cr hsrc (t := ")>".toList) (by decide) c3
            dsimp only
            exact .yes (.inline (.cons p1 p2 p3) d1) d3
    · intro f n' s s' hs h h'
      cases n' with
      | zero => exact cr_end' hs ((adv_at al (n + 1)).special f) ((adv_at al 0).special f) (by omega) h'
      | succ n' =>
        obtain ⟨t1, t3⟩ := delims_line f
        rw [special, special]
        rcases token_cr hsrc (eqv_exact t1) hs with ⟨e1, e2⟩ | ⟨l, s1, l', s1', e1, e2, hl, h1⟩
        · rw [e1, e2]; exact .no
        · rw [e1, e2]
          have a1 := (token_adv1 (sound_exact _) (ne_exact (by cases f <;> decide)) e1).lt
          have a2 := (skip_adv isWhitespace s1).le
          have a3 := (token_adv1 (sound_exact _) (ne_exact (by cases f <;> decide)) e2).lt
          have a4 := (skip_adv isWhitespace s1').le
          dsimp only
          obtain ⟨c1, c3⟩ := ih.content n' _ _ h1.white (by omega) (by omega)
          obtain ⟨d1, d3⟩ := closing_cr hsrc t3 c3
          refine .yes ?_ d3
          revert c1
          generalize (content al n (skip isWhitespace s1)).1 = x
          generalize (content al n' (skip isWhitespace s1')).1 = y
          rintro ⟨c1⟩
          exact .special c1 d1
    · intro n' s s' hs h h'
      cases n' with
      | zero => omega
      | succ n' =>
        rcases space_cr hs with ⟨b, r, b', r', e1, e2⟩ | ⟨e1, e2⟩ | ⟨x, s0, x', s0', e1, e2, hx, h0⟩
        · have key : ∀ {n : Nat} {s : Pos} {b r : Str},
              (token space s = none ∧ s = ⟨b, '\n' :: r⟩ ∨ ∃ x, token space s = some (x, ⟨b, '\n' :: r⟩)) →
              nodes al (n + 1) s = ([], s) := by
            intro n s b r h
            rw [nodes]
            rcases h with ⟨h1, h2⟩ | ⟨x, h1⟩
            · rw [h1]
              dsimp only
              rw [h2, nodeType_nl hn]
            · rw [h1]
              dsimp only
              rw [nodeType_nl hn]
          rw [key e1, key e2]
          exact ⟨.nil, hs⟩
        · rw [nodes, nodes, e1, e2]
          dsimp only
          rcases ih.nodeType n' s s' hs (by omega) (by omega) with ⟨e3, e4⟩ | ⟨ty, s1, ty', s1', e3, e4, ht, h1⟩
          · rw [e3, e4]; exact ⟨.nil, hs⟩
          · have a1 := (ea.nodeType _ _ e3).lt
            have a2 := ((adv_at al n').nodeType _ _ e4).lt
            dsimp only at a1 a2
            rw [e3, e4]
            obtain ⟨c1, c3⟩ := ih.nodes n' s1 s1' h1 (by omega) (by omega)
            exact ⟨.cons .none ht c1, c3⟩
        · have a0 := (token_adv sound_space e1).le
          have a0' := (token_adv sound_space e2).le
          rw [nodes, nodes, e1, e2]
          dsimp only
          rcases ih.nodeType n' s0 s0' h0 (by omega) (by omega) with ⟨e3, e4⟩ | ⟨ty, s1, ty', s1', e3, e4, ht, h1⟩
          · rw [e3, e4]; exact ⟨.nil, hs⟩
          · have a1 := (ea.nodeType _ _ e3).lt
            have a2 := ((adv_at al n').nodeType _ _ e4).lt
            dsimp only at a1 a2
            rw [e3, e4]
            obtain ⟨c1, c3⟩ := ih.nodes n' s1 s1' h1 (by omega) (by omega)
            exact ⟨.cons (.some hx) ht c1, c3⟩
    · intro n' s s' hss h h'
      cases n' with
      | zero => omega
      | succ n' =>
        have a1 := (skip_adv isSpace s).le
        have a2 := (skip_adv isSpace s').le
        have hsp := hss.space
        rw [line, line]
        rcases hsp with e | ⟨r, b', u, v, r', t, t', e1, e2, hrest⟩
        · obtain ⟨c1, c3⟩ := ih.nodes n' _ _ e (by omega) (by omega)
          revert c1 c3
          generalize nodes al n (skip isSpace s) = x
          generalize nodes al n' (skip isSpace s') = y
          obtain ⟨x1, x2⟩ := x
          obtain ⟨y1, y2⟩ := y
          intro c1 c3
          dsimp only at c1 c3
          cases c1 with
          | nil => exact ⟨.mk .nil, .inl e⟩
          | cons p1 p2 p3 => exact ⟨.mk (.cons p1 p2 p3), Near.space (.inl c3)⟩
        · have e1' : skip isSpace s = ⟨(skip isSpace s).before, '\n' :: r⟩ := by rw [← e1]
          have n1 := nodes_nl hn n (skip isSpace s).before r
          rw [← e1'] at n1
          rw [n1, e2, nodes_nl hn]
          exact ⟨.mk .nil, .inr ⟨r, b', u, v, r', t, t', e1, rfl, hrest⟩⟩
    · intro n' s s' hss h h'
      cases n' with
      | zero => omega
      | succ n' =>
        rw [moreLines, moreLines]
        rcases newLine_near hss with ⟨e1, e2, e3⟩ | ⟨r, s1, r', s1', e1, e2, h1⟩
        · rw [e1, e2]; exact ⟨.nil, e3⟩
        · have a1 := (token_adv1 sound_newLine ne_newLine e1).lt
          have a2 := (token_adv1 sound_newLine ne_newLine e2).lt
          have b1 := (ea.line s1).le
          have b2 := ((adv_at al n').line s1').le
          rw [e1, e2]
          dsimp only
          obtain ⟨c1, c2⟩ := ih.line n' s1 s1' h1 (by omega) (by omega)
          obtain ⟨d1, d3⟩ := ih.moreLines n' _ _ c2 (by omega) (by omega)
          refine ⟨?_, d3⟩
          revert c1
          generalize (line al n s1).1 = x
          generalize (line al n' s1').1 = y
          rintro ⟨c1⟩
          exact .cons c1 d1
    · intro n' s s' hs h h'
      cases n' with
      | zero => omega
      | succ n' =>
        have a1 := (skip_adv isWhitespace s).le
        have a2 := (skip_adv isWhitespace s').le
        have b1 := (ea.line (skip isWhitespace s)).le
        have b2 := ((adv_at al n').line (skip isWhitespace s')).le
        rw [content, content]
        obtain ⟨c1, c2⟩ := ih.line n' _ _ (.inl hs.white) (by omega) (by omega)
        obtain ⟨d1, d3⟩ := ih.moreLines n' _ _ c2 (by omega) (by omega)
        refine ⟨?_, d3⟩
        revert c1
        dsimp only
        generalize (line al n (skip isWhitespace s)).1 = x
        generalize (line al n' (skip isWhitespace s')).1 = y
        rintro ⟨c1⟩
        exact .mk (.cons c1 d1)

/-- The parser reads the source with wider margins as the one without. -/
theorem parse_margins (hmm : Margins Q src src') : (parse al src = none ∧ parse al src' = none) ∨
    ∃ a ls b a' ls' b', parse al src = some ⟨.mk a ls b⟩ ∧ parse al src' = some ⟨.mk a' ls' b'⟩ ∧ RLines Q src src' ls ls' := by
  have h0 : At Q src src' ⟨[], src⟩ ⟨[], src'⟩ := ⟨[], [], by simp, by simp, .nil, hmm⟩
  have a1 := (skip_adv isWhitespace ⟨[], src⟩).le
  have a2 := (skip_adv isWhitespace ⟨[], src'⟩).le
  have e1 : (⟨[], src'⟩ : Pos).after.length = src'.length := rfl
  have e2 : (⟨[], src⟩ : Pos).after.length = src.length := rfl
  obtain ⟨c1, c3⟩ := (cr_at al hsrc hn (8 * src.length + 8)).content (8 * src'.length + 8) _ _ h0.white
    (by omega) (by omega)
  rw [parse, parse]
  dsimp only
  revert c1 c3
  generalize content al (8 * src'.length + 8) (skip isWhitespace ⟨[], src'⟩) = y
  generalize content al (8 * src.length + 8) (skip isWhitespace ⟨[], src⟩) = x
  obtain ⟨x, s⟩ := x
  obtain ⟨y, s'⟩ := y
  rintro ⟨c1⟩ c3
  replace c3 := c3.white
  dsimp only at c3 ⊢
  by_cases h : (skip isWhitespace s).after = []
  · right
    rw [h, c3.nil_iff.2 h]
    exact ⟨_, _, _, _, _, _, rfl, rfl, c1⟩
  · have h' : (skip isWhitespace s').after ≠ [] := fun e => h (c3.nil_iff.1 e)
    left
    simp [h, h']

end Mty.Grammar
