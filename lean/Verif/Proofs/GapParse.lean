import Verif.Proofs.PartsBlank

/-! # Blank lines between two texts (for C90) -/

set_option autoImplicit false

namespace Mty.Grammar.More
open Pat Lex Spec

section
variable {alnum : Char → Bool}

/-- A line break with white space before and after it. -/
theorem newLine_wide {b u v y : Str} (hu : ∀ c ∈ u, isSpace c = true) (hv : ∀ c ∈ v, isSpace c = true)
    (hy : ∀ c, y.head? = some c → isSpace c = false) :
    ∃ r, token newLine ⟨b, u ++ '\n' :: (v ++ y)⟩ = some (r, ⟨b ++ (u ++ '\n' :: v), y⟩) := by
  have h1 : many (chr isSpace) b (u ++ '\n' :: (v ++ y)) = some (u, '\n' :: (v ++ y)) := many_chr hu (by simp; decide)
  have h2 : many (chr isSpace) (b ++ u ++ ['\n']) (v ++ y) = some (v, y) := many_chr hv hy
  have h3 : newLine b (u ++ '\n' :: (v ++ y)) = some (u ++ '\n' :: v, y) := by
    rw [newLine, seq, h1]
    simp only
    rw [seq]
    simp only [chr, decide_true, if_true]
    rw [h2]
    rfl
  exact ⟨_, token_of h3⟩

theorem moreLines_gap (hal : PlainMarks alnum) {s2 : Str} (hs2 : ∃ c, s2.head? = some c ∧ isWhitespace c = false) :
    ∀ (j : Nat) (v : Str), v.length ≤ j → (∀ c ∈ v, isWhitespace c = true) → ∀ (u b : Str) (n : Nat), (∀ c ∈ u, isSpace c = true) →
    v.length + 1 ≤ n → ∃ B m, Blanks' B ∧ ('\n' ∈ v → B ≠ []) ∧ n ≤ m + v.length + 1 ∧
      moreLines alnum n ⟨b, u ++ '\n' :: (v ++ s2)⟩ =
        (B ++ (line alnum m ⟨b ++ (u ++ '\n' :: v), s2⟩).1 :: (moreLines alnum m (line alnum m ⟨b ++ (u ++ '\n' :: v), s2⟩).2).1,
          (moreLines alnum m (line alnum m ⟨b ++ (u ++ '\n' :: v), s2⟩).2).2) := by
  intro j
  obtain ⟨c0, hc0, hw0⟩ := hs2
  have hsp : isSpace c0 = false := by
    by_contra hcon
    have := isSpace_white (x := c0) (by simpa using hcon)
    rw [hw0] at this
    cases this
  induction j with
  | zero =>
    intro v hj hv u b n hu hn
    obtain rfl : v = [] := List.length_eq_zero_iff.1 (by omega)
    obtain ⟨n, rfl⟩ : ∃ m, n = m + 1 := ⟨n - 1, by simp at hn; omega⟩
    obtain ⟨r, t⟩ := newLine_wide (b := b) (v := []) (y := s2) hu (by simp) (by rw [hc0]; simpa using hsp)
    refine ⟨[], n, by simp [Blanks'], by simp, by simp, ?_⟩
    rw [moreLines, t]
    rfl
  | succ j ih =>
    intro v hj hv u b n hu hn
    obtain ⟨n, rfl⟩ : ∃ m, n = m + 1 := ⟨n - 1, by omega⟩
    have hsplit := List.takeWhile_append_dropWhile (p := isSpace) (l := v)
    have h1 : ∀ c ∈ v.takeWhile isSpace, isSpace c = true := fun c hc => List.all_eq_true.1 List.all_takeWhile c hc
    rcases white_drop hv with e | ⟨z, e⟩
    · rw [e, List.append_nil] at hsplit
      rw [hsplit] at h1
      obtain ⟨r, t⟩ := newLine_wide (b := b) (v := v) (y := s2) hu h1 (by rw [hc0]; simpa using hsp)
      refine ⟨[], n, by simp [Blanks'], fun hm => absurd (h1 _ hm) (by decide), by omega, ?_⟩
      rw [moreLines, t]
      rfl
    · generalize v.takeWhile isSpace = v1 at *
      rw [e] at hsplit
      subst hsplit
      obtain ⟨r, t⟩ := newLine_wide (b := b) (v := v1) (y := '\n' :: (z ++ s2)) hu h1 (by simp; decide)
      have hlz : (v1 ++ '\n' :: z).length = v1.length + (z.length + 1) := by simp
      obtain ⟨B, m, k1, -, k2, k3⟩ := ih z (by omega) (fun c hc => hv c (by simp [hc])) [] (b ++ (u ++ '\n' :: v1)) n (by simp) (by omega)
      refine ⟨.mk (byteLen (b ++ (u ++ '\n' :: v1))) [] (byteLen (b ++ (u ++ '\n' :: v1))) :: B, m, ?_, by simp, by omega, ?_⟩
      · intro l hl
        rcases List.mem_cons.1 hl with rfl | hl
        · exact ⟨_, _, rfl⟩
        · exact k1 l hl
      · rw [moreLines, show u ++ '\n' :: (v1 ++ '\n' :: z ++ s2) = u ++ '\n' :: (v1 ++ '\n' :: (z ++ s2)) by simp, t]
        dsimp only
        rw [line_empty hal]
        dsimp only
        rw [List.nil_append] at k3
        rw [k3]
        rw [show b ++ (u ++ '\n' :: v1) ++ ([] ++ '\n' :: z) = b ++ (u ++ '\n' :: (v1 ++ '\n' :: z)) by simp]
        rfl

/-- Two texts with any number of blank lines between them. -/
theorem parse_gap (hal : PlainMarks alnum) {s1 s2 w : Str} {a1 b1 a2 b2 : Nat} {L1 L2 : List Ast.Line}
    (h1 : parse alnum s1 = some ⟨.mk a1 L1 b1⟩) (h2 : parse alnum s2 = some ⟨.mk a2 L2 b2⟩) (hb : NonBlank s1) (hns : NoSlash s1)
    (hc : closedLines s1 L1 = true) (hs2 : ∃ c, s2.head? = some c ∧ isWhitespace c = false) (hw : ∀ c ∈ w, isWhitespace c = true)
    (hnl : '\n' ∈ w) (he : EndsLine (s1 ++ '\n' :: w)) :
    ∃ a B b, Blanks' B ∧ B ≠ [] ∧ parse alnum (s1 ++ '\n' :: (w ++ s2)) =
      some ⟨.mk a (L1 ++ (B ++ mvLines (byteLen (s1 ++ '\n' :: w)) L2)) b⟩ := by
  have hs2' := hs2
  obtain ⟨c0, hc0, hw0⟩ := hs2
  generalize hM : 8 * (s1 ++ '\n' :: (w ++ s2)).length + 7 = M
  have hlen : (s1 ++ '\n' :: (w ++ s2)).length = s1.length + (w.length + s2.length + 1) := by simp
  have a0 := skip_adv isWhitespace ⟨[], s1⟩
  have hin0 : (skip isWhitespace ⟨[], s1⟩).In s1 := a0.isIn rfl
  generalize hp : skip isWhitespace ⟨[], s1⟩ = p0 at *
  have hle := a0.le
  dsimp only at hle
  rw [parse, hp] at h1
  rw [content_fuel (n := M + 1) (by omega) (by omega)] at h1
  rw [content] at h1
  have a1' := skip_adv isWhitespace p0
  generalize hq : skip isWhitespace p0 = q at *
  dsimp only at h1
  have a2' := (adv_at alnum M).line q
  have a3' := (adv_at alnum M).moreLines (line alnum M q).2
  have hml := moreLines_length (alnum := alnum) M (line alnum M q).2
  split at h1
  · rename_i hend
    simp only [Option.some.injEq, Ast.Document.mk.injEq, Ast.Content.mk.injEq] at h1
    obtain ⟨rfl, rfl, rfl⟩ := h1
    obtain ⟨hc1, hc2⟩ := closedLines_cons hc
    have hnb : ¬ NonBlank (moreLines alnum M (line alnum M q).2).2.after := by
      rw [NonBlank, ne_eq, not_not]
      rw [List.isEmpty_iff] at hend
      exact hend
    have hinq : q.In s1 := a1'.isIn hin0
    have hnp : NoSlash p0.after := a0.noSlash hns
    have hnq : NoSlash q.after := a1'.noSlash hnp
    obtain ⟨k, k1, k2, k3⟩ := (more_at hal M (y := w ++ s2) (src := s1)).moreLines (line alnum M q).2 (a2'.isIn hinq) (a2'.noSlash hnq) hc2
      (done_blank hnb)
    have hd1 : Done (line alnum M q).2.after := by
      cases M with
      | zero => omega
      | succ M =>
        cases h3 : token newLine (line alnum (M + 1) q).2 with
        | none => rw [moreLines, h3] at hnb; exact done_blank hnb
        | some w => exact newLine_done h3
    have hline := (more_at hal M (y := w ++ s2) (src := s1)).line q hinq hnq hc1 hd1
    generalize hee : moreLines alnum M (line alnum M q).2 = e at *
    obtain ⟨ls, e⟩ := e
    dsimp only at *
    have hk : 8 * s2.length + w.length + 10 ≤ k := by
      have := a1'.le
      have := a2'.le
      omega
    have hnl' : token newLine e = none := by
      rcases k2 with k2 | k2
      · omega
      · exact k2
    have hwe : ∀ c ∈ e.after, isSpace c = true := by
      have hdrop : e.after.dropWhile isSpace = [] := by
        rcases dropSpace_cases e.after with h3 | ⟨z, h3⟩
        · rw [h3]
          exact not_not.1 hnb
        · have h4 := List.takeWhile_append_dropWhile (p := isSpace) (l := e.after)
          rw [token_none, newLine, seq, many_blank, h3] at hnl'
          simp [seq, chr, many_blank] at hnl'
      rw [← List.takeWhile_append_dropWhile (p := isSpace) (l := e.after), hdrop, List.append_nil]
      exact fun c hc => List.all_eq_true.1 List.all_takeWhile c hc
    have hine : e.In s1 := (a2'.trans a3').isIn hinq
    obtain ⟨B, m, g1, g2, g3, g4⟩ := moreLines_gap hal hs2' w.length w (Nat.le_refl _) hw e.after e.before k hwe (by omega)
    rw [← List.append_assoc e.before, ← hine] at g4
    have hq2 : skip isWhitespace ⟨[], s2⟩ = ⟨[], s2⟩ := by
      cases s2 with
      | nil => cases hc0
      | cons c s2 => cases hc0; simp [skip, hw0]
    rw [parse, hq2] at h2
    rw [content_fuel (n := m + 1) (by dsimp only; omega) (by dsimp only; omega), content, hq2] at h2
    dsimp only at h2
    have m1 := (moves_at alnum (pre := s1 ++ '\n' :: w) he m).line m ⟨[], s2⟩ (by dsimp only; omega) (by dsimp only; omega)
    have lle := ((adv_at alnum m).line ⟨[], s2⟩).le
    dsimp only at lle
    have m2 := (moves_at alnum (pre := s1 ++ '\n' :: w) he m).moreLines m (line alnum m ⟨[], s2⟩).2 (by omega) (by omega)
    split at h2
    · rename_i hend2
      simp only [Option.some.injEq, Ast.Document.mk.injEq, Ast.Content.mk.injEq] at h2
      obtain ⟨rfl, rfl, rfl⟩ := h2
      have hall : moreLines alnum k (more (w ++ s2) e) =
          (B ++ mvLines (byteLen (s1 ++ '\n' :: w)) ((line alnum m ⟨[], s2⟩).1 :: (moreLines alnum m (line alnum m ⟨[], s2⟩).2).1),
            mvP (s1 ++ '\n' :: w) (moreLines alnum m (line alnum m ⟨[], s2⟩).2).2) := by
        rw [more, g4]
        rw [show (Pos.mk (s1 ++ '\n' :: w) s2) = mvP (s1 ++ '\n' :: w) ⟨[], s2⟩ by simp [mvP], m1]
        dsimp only
        rw [m2, mvLines]
      refine ⟨p0.at, B, (mvP (s1 ++ '\n' :: w) (moreLines alnum m (line alnum m ⟨[], s2⟩).2).2).at, g1, g2 hnl, ?_⟩
      rw [parse, show 8 * (s1 ++ '\n' :: (w ++ s2)).length + 8 = M + 1 by omega, show (Pos.mk [] (s1 ++ '\n' :: (w ++ s2))) = more (w ++ s2) ⟨[], s1⟩ from rfl,
        skip_more (p := isWhitespace) (s := ⟨[], s1⟩) hb, hp, content]
      have hbp : NonBlank p0.after := by
        rw [← hp]
        rw [NonBlank, show (skip isWhitespace ⟨[], s1⟩).after = s1.dropWhile isWhitespace from rfl, dropWhile_idem]
        exact hb
      rw [skip_more (p := isWhitespace) (s := p0) hbp, hq, hline]
      dsimp only
      rw [k3, hall]
      dsimp only
      rw [if_pos]
      · rfl
      · rw [skip_mv]
        exact hend2
    · cases h2
  · cases h1

end

end Mty.Grammar.More
