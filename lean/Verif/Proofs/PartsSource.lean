import Verif.Proofs.PartsParse
import Verif.Proofs.PartsMove
import Verif.Proofs.PartsConvert
import Verif.Proofs.WriteNode

/-! # Two texts with an empty line between them (for C76) -/

set_option autoImplicit false

namespace Mty.Grammar.More
open Pat Lex Spec

variable {alnum : Char → Bool}

theorem mvP_nil (s : Pos) : mvP [] s = s := rfl

/-- More steps than necessary make no difference. -/
theorem content_fuel {n n' : Nat} {s : Pos} (h : 8 * s.after.length + 3 ≤ n) (h' : 8 * s.after.length + 3 ≤ n') :
    content alnum n' s = content alnum n s := by
  have := (moves_at alnum (pre := []) endsLine_nil n).content n' s h h'
  rw [show byteLen [] = 0 from rfl, mvP_nil, mvContent_zero] at this
  exact this

/-- Every line after the first has a line break before it. -/
theorem moreLines_length : ∀ (n : Nat) (s : Pos), (moreLines alnum n s).1.length + (moreLines alnum n s).2.after.length ≤ s.after.length
  | 0, s => by rw [moreLines]; simp
  | n + 1, s => by
    rw [moreLines]
    cases h : token newLine s with
    | none => simp
    | some x =>
      obtain ⟨r, s1⟩ := x
      dsimp only
      have h1 := (token_adv1 sound_newLine ne_newLine h).lt
      have h2 := ((adv_at alnum n).line s1).le
      have h3 := moreLines_length n (line alnum n s1).2
      rw [List.length_cons]
      omega

theorem line_end {n : Nat} {b : Str} : line alnum n ⟨b, []⟩ = (.mk (byteLen b) [] (byteLen b), ⟨b, []⟩) := by
  cases n with
  | zero => rw [line]; rfl
  | succ n =>
    have hk : skip isSpace ⟨b, []⟩ = ⟨b, []⟩ := by simp [skip]
    have hn : nodes alnum n ⟨b, []⟩ = ([], ⟨b, []⟩) := by
      cases n with
      | zero => rw [nodes]
      | succ n =>
        rw [nodes, show token Lex.space ⟨b, []⟩ = none from rfl]
        dsimp only
        rw [none_at_end (adv_at alnum n).nodeType rfl]
    rw [line, hk, hn]
    rfl

theorem line_empty (hal : PlainMarks alnum) {n : Nat} {b y : Str} :
    line alnum n ⟨b, '\n' :: y⟩ = (.mk (byteLen b) [] (byteLen b), ⟨b, '\n' :: y⟩) := by
  have := (more_at hal n (y := y) (src := b)).line ⟨b, []⟩ (by simp [Pos.In]) .nil (by rw [line_end]; rfl)
    (by rw [line_end]; exact noStart_nil)
  rw [line_end] at this
  exact this

/-- A line break with white space before it. -/
theorem newLine_blank {b w y : Str} (hw : ∀ c ∈ w, isSpace c = true) (hy : ∀ c, y.head? = some c → isSpace c = false) :
    ∃ r, token newLine ⟨b, w ++ '\n' :: y⟩ = some (r, ⟨b ++ (w ++ ['\n']), y⟩) := by
  have h1 : many (chr isSpace) b (w ++ '\n' :: y) = some (w, '\n' :: y) := many_chr hw (by simp; decide)
  have h2 : many (chr isSpace) (b ++ w ++ ['\n']) y = some ([], y) := by
    have := many_chr (p := isSpace) (s := []) (r := y) (b := b ++ w ++ ['\n']) (by simp) hy
    simpa using this
  have h3 : newLine b (w ++ '\n' :: y) = some (w ++ ['\n'], y) := by
    rw [newLine, seq, h1]
    simp only
    rw [seq]
    simp only [chr, decide_true, if_true]
    rw [h2]
    rfl
  exact ⟨_, token_of h3⟩

theorem parse_parts (hal : PlainMarks alnum) {s1 s2 : Str} {a1 b1 a2 b2 : Nat} {L1 L2 : List Ast.Line}
    (h1 : parse alnum s1 = some ⟨.mk a1 L1 b1⟩) (h2 : parse alnum s2 = some ⟨.mk a2 L2 b2⟩) (hb : NonBlank s1) (hns : NoSlash s1)
    (hc : closedLines s1 L1 = true) (hs2 : ∃ c, s2.head? = some c ∧ isWhitespace c = false) :
    ∃ a x y b, parse alnum (s1 ++ '\n' :: '\n' :: s2) =
      some ⟨.mk a (L1 ++ .mk x [] y :: mvLines (byteLen (s1 ++ ['\n', '\n'])) L2) b⟩ := by
  obtain ⟨c0, hc0, hw0⟩ := hs2
  have hsp : isSpace c0 = false := by
    by_contra hcon
    have := isSpace_white (x := c0) (by simpa using hcon)
    rw [hw0] at this
    cases this
  -- the first text, with as many steps as for the whole
  generalize hM : 8 * (s1 ++ '\n' :: '\n' :: s2).length + 7 = M
  have hlen : (s1 ++ '\n' :: '\n' :: s2).length = s1.length + (s2.length + 2) := by simp
  have a0 := skip_adv isWhitespace ⟨[], s1⟩
  have hin0 : (skip isWhitespace ⟨[], s1⟩).In s1 := a0.isIn rfl
  generalize hp : skip isWhitespace ⟨[], s1⟩ = p0 at *
  have hle := a0.le
  dsimp only at hle
  rw [parse, hp] at h1
  rw [content_fuel (n := M + 1) (by omega) (by omega)] at h1
  rw [content] at h1
  have a1' := skip_adv isWhitespace p0
  generalize hq : skip isWhitespace p0 = q at *
  dsimp only at h1
  have a2' := (adv_at alnum M).line q
  have a3' := (adv_at alnum M).moreLines (line alnum M q).2
  have hml := moreLines_length (alnum := alnum) M (line alnum M q).2
  split at h1
  · rename_i hend
    simp only [Option.some.injEq, Ast.Document.mk.injEq, Ast.Content.mk.injEq] at h1
    obtain ⟨rfl, rfl, rfl⟩ := h1
    obtain ⟨hc1, hc2⟩ := closedLines_cons hc
    have hnb : ¬ NonBlank (moreLines alnum M (line alnum M q).2).2.after := by
      rw [NonBlank, ne_eq, not_not]
      rw [List.isEmpty_iff] at hend
      exact hend
    have hinq : q.In s1 := a1'.isIn hin0
    have hnp : NoSlash p0.after := a0.noSlash hns
    have hnq : NoSlash q.after := a1'.noSlash hnp
    obtain ⟨k, k1, k2, k3⟩ := (more_at hal M (y := '\n' :: s2) (src := s1)).moreLines (line alnum M q).2 (a2'.isIn hinq) (a2'.noSlash hnq) hc2
      (done_blank hnb)
    have hd1 : Done (line alnum M q).2.after := by
      cases M with
      | zero => omega
      | succ M =>
        cases h3 : token newLine (line alnum (M + 1) q).2 with
        | none => rw [moreLines, h3] at hnb; exact done_blank hnb
        | some w => exact newLine_done h3
    have hline := (more_at hal M (y := '\n' :: s2) (src := s1)).line q hinq hnq hc1 hd1
    generalize he : moreLines alnum M (line alnum M q).2 = e at *
    obtain ⟨ls, e⟩ := e
    dsimp only at *
    have hk : 8 * s2.length + 10 ≤ k := by
      have := a1'.le
      have := a2'.le
      omega
    -- the white space at the end
    have hnl : token newLine e = none := by
      rcases k2 with k2 | k2
      · omega
      · exact k2
    have hw : ∀ c ∈ e.after, isSpace c = true := by
      have hdrop : e.after.dropWhile isSpace = [] := by
        rcases dropSpace_cases e.after with h3 | ⟨z, h3⟩
        · rw [h3]
          exact not_not.1 hnb
        · have h4 := List.takeWhile_append_dropWhile (p := isSpace) (l := e.after)
          rw [token_none, newLine, seq, many_blank, h3] at hnl
          simp [seq, chr, many_blank] at hnl
      rw [← List.takeWhile_append_dropWhile (p := isSpace) (l := e.after), hdrop, List.append_nil]
      exact fun c hc => List.all_eq_true.1 List.all_takeWhile c hc
    have hine : e.In s1 := (a2'.trans a3').isIn hinq
    obtain ⟨r1, t1⟩ := newLine_blank (b := e.before) (y := '\n' :: s2) hw (by simp; decide)
    obtain ⟨r2, t2⟩ := newLine_blank (b := s1 ++ ['\n']) (w := []) (y := s2) (by simp) (by rw [hc0]; simpa using hsp)
    rw [← List.append_assoc, ← hine] at t1
    -- the second text
    have hq2 : skip isWhitespace ⟨[], s2⟩ = ⟨[], s2⟩ := by
      cases s2 with
      | nil => cases hc0
      | cons c s2 => cases hc0; simp [skip, hw0]
    rw [parse, hq2] at h2
    obtain ⟨k, rfl⟩ : ∃ m, k = m + 2 := ⟨k - 2, by omega⟩
    rw [content_fuel (n := k + 1) (by dsimp only; omega) (by dsimp only; omega), content, hq2] at h2
    dsimp only at h2
    have m1 := (moves_at alnum (pre := s1 ++ ['\n', '\n']) (endsLine_break (by simp)) k).line k ⟨[], s2⟩ (by dsimp only; omega) (by dsimp only; omega)
    have lle := ((adv_at alnum k).line ⟨[], s2⟩).le
    dsimp only at lle
    have m2 := (moves_at alnum (pre := s1 ++ ['\n', '\n']) (endsLine_break (by simp)) k).moreLines k (line alnum k ⟨[], s2⟩).2 (by omega) (by omega)
    split at h2
    · rename_i hend2
      simp only [Option.some.injEq, Ast.Document.mk.injEq, Ast.Content.mk.injEq] at h2
      obtain ⟨rfl, rfl, rfl⟩ := h2
      have hall : moreLines alnum (k + 2) (more ('\n' :: s2) e) =
          (.mk (byteLen (s1 ++ ['\n'])) [] (byteLen (s1 ++ ['\n'])) ::
            mvLines (byteLen (s1 ++ ['\n', '\n'])) ((line alnum k ⟨[], s2⟩).1 :: (moreLines alnum k (line alnum k ⟨[], s2⟩).2).1),
            mvP (s1 ++ ['\n', '\n']) (moreLines alnum k (line alnum k ⟨[], s2⟩).2).2) := by
        rw [moreLines, more, t1]
        dsimp only
        rw [line_empty hal]
        dsimp only
        rw [moreLines, show (Pos.mk (s1 ++ ['\n']) ('\n' :: s2)) = ⟨s1 ++ ['\n'], [] ++ '\n' :: s2⟩ from rfl, t2]
        dsimp only
        rw [show (Pos.mk (s1 ++ ['\n'] ++ ([] ++ ['\n'])) s2) = mvP (s1 ++ ['\n', '\n']) ⟨[], s2⟩ by simp [mvP], m1]
        dsimp only
        rw [m2, mvLines]
      refine ⟨p0.at, byteLen (s1 ++ ['\n']), byteLen (s1 ++ ['\n']),
        (mvP (s1 ++ ['\n', '\n']) (moreLines alnum k (line alnum k ⟨[], s2⟩).2).2).at, ?_⟩
      rw [parse, show 8 * (s1 ++ '\n' :: '\n' :: s2).length + 8 = M + 1 by omega, show (Pos.mk [] (s1 ++ '\n' :: '\n' :: s2)) = more ('\n' :: s2) ⟨[], s1⟩ from rfl, skip_more (p := isWhitespace) (s := ⟨[], s1⟩) hb, hp, content]
      have hbp : NonBlank p0.after := by
        rw [← hp]
        rw [NonBlank, show (skip isWhitespace ⟨[], s1⟩).after = s1.dropWhile isWhitespace from rfl, dropWhile_idem]
        exact hb
      rw [skip_more (p := isWhitespace) (s := p0) hbp, hq, hline]
      dsimp only
      rw [k3, hall]
      dsimp only
      rw [if_pos]
      · rfl
      · rw [skip_mv]
        exact hend2
    · cases h2
  · cases h1

/-- The conversion of two texts with an empty line between them. -/
theorem parts_source (hal : PlainMarks alnum) {p : Parser} (hp : ∀ s d, parse alnum s = some d → p s = .ok d) {s1 s2 : Str}
    {a1 b1 a2 b2 u v : Nat} {L1 L2 : List Ast.Line} {ns : List Ast.Node} {cfg : OutputConfig}
    (h1 : parse alnum s1 = some ⟨.mk a1 L1 b1⟩) (h2 : parse alnum s2 = some ⟨.mk a2 (.mk u ns v :: L2) b2⟩)
    (hb : NonBlank s1) (hns : NoSlash s1)
    (hc : closedLines s1 L1 = true) (hs2 : ∃ c, s2.head? = some c ∧ isWhitespace c = false) (hv : ShowsContent ns)
    (hm : cfg.metadata = none) (hpg : cfg.completePage.getD false = false) :
    (∀ out1 out2, convert p s1 cfg = .ok out1 → convert p s2 cfg = .ok out2 →
      ∃ out, convert p (s1 ++ '\n' :: '\n' :: s2) cfg = .ok out ∧ JoinedBy cfg out1 out2 out) ∧
    (∀ out, convert p (s1 ++ '\n' :: '\n' :: s2) cfg = .ok out → ∃ out1 out2, convert p s1 cfg = .ok out1 ∧ convert p s2 cfg = .ok out2) := by
  obtain ⟨a, x, y, b, h⟩ := parse_parts hal h1 h2 hb hns hc hs2
  have g1 := parse_conforms h1
  have g2 := parse_conforms h2
  have g := parse_conforms h
  have q1 := conforms_positions g1
  have q2 := conforms_positions g2
  have e1 := sameLines_mv (pre := []) (post := '\n' :: '\n' :: s2) cfg.specialTags _ q1.2
  have e2 := sameLines_mv (pre := s1 ++ ['\n', '\n']) (post := []) cfg.specialTags _ q2.2
  rw [show byteLen [] = 0 from rfl, mvLines_zero] at e1
  rw [show s1 ++ ['\n', '\n'] ++ (s2 ++ []) = s1 ++ '\n' :: '\n' :: s2 by simp] at e2
  rw [mvLines, mvLine] at h g e2
  refine Parts.parts_convert (hp _ _ h1) (hp _ _ h2) (hp _ _ h) g1 g2 g e1 e2 ?_ hm hpg
  rw [mvNodes_map]
  rcases hv with ⟨n, hn, h3, h4, h5⟩ | ⟨n, hn, h3⟩
  · exact .inl ⟨_, List.mem_map_of_mem hn, by rwa [shape_mv], by rwa [shape_mv], by rwa [shape_mv]⟩
  · exact .inr ⟨_, by rw [List.getLast?_map, hn]; rfl, by rwa [shape_mv]⟩

end Mty.Grammar.More
