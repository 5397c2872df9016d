import Verif.Proofs.PartsBlank
import Verif.Proofs.WriteParse

/-! # A text in a block (for C79) -/

set_option autoImplicit false

namespace Mty.Grammar.More
open Pat Lex Spec

variable {alnum : Char → Bool}

theorem rightMarks (hal : RightForAscii alnum) : PlainMarks alnum := by
  have key : ∀ c : Char, c.toNat < 128 → ¬ Ascii c → alnum c = false := by
    intro c h1 h2
    cases h : alnum c with
    | false => rfl
    | true => exact absurd ((hal.2 c h1).1 h) h2
  exact ⟨key _ (by decide) (by unfold Ascii; decide), key _ (by decide) (by unfold Ascii; decide), key _ (by decide) (by unfold Ascii; decide)⟩

/-- The content of a text that is followed by a line break and `}`. -/
theorem content_close (hal : RightForAscii alnum) {s r : Str} {a1 b1 : Nat} {L1 : List Ast.Line}
    (h1 : parse alnum s = some ⟨.mk a1 L1 b1⟩) (hb : NonBlank s) (hns : NoSlash s) (hc : closedLines s L1 = true) :
    ∃ x y b, content alnum (8 * (s ++ '\n' :: '}' :: r).length + 8) (skip isWhitespace ⟨[], s ++ '\n' :: '}' :: r⟩) =
      (.mk a1 (L1 ++ [.mk x [] y]) b, ⟨s ++ ['\n'], '}' :: r⟩) := by
  have hpm := rightMarks hal
  generalize hM : 8 * (s ++ '\n' :: '}' :: r).length + 7 = M
  have hlen : (s ++ '\n' :: '}' :: r).length = s.length + (r.length + 2) := by simp
  have a0 := skip_adv isWhitespace ⟨[], s⟩
  have hin0 : (skip isWhitespace ⟨[], s⟩).In s := a0.isIn rfl
  generalize hp : skip isWhitespace ⟨[], s⟩ = p0 at *
  have hle := a0.le
  dsimp only at hle
  rw [parse, hp] at h1
  rw [content_fuel (n := M + 1) (by omega) (by omega)] at h1
  rw [content] at h1
  have a1' := skip_adv isWhitespace p0
  generalize hq : skip isWhitespace p0 = q at *
  dsimp only at h1
  have a2' := (adv_at alnum M).line q
  have a3' := (adv_at alnum M).moreLines (line alnum M q).2
  have hml := moreLines_length (alnum := alnum) M (line alnum M q).2
  split at h1
  · rename_i hend
    simp only [Option.some.injEq, Ast.Document.mk.injEq, Ast.Content.mk.injEq] at h1
    obtain ⟨rfl, rfl, rfl⟩ := h1
    obtain ⟨hc1, hc2⟩ := closedLines_cons hc
    have hnb : ¬ NonBlank (moreLines alnum M (line alnum M q).2).2.after := by
      rw [NonBlank, ne_eq, not_not]
      rw [List.isEmpty_iff] at hend
      exact hend
    have hinq : q.In s := a1'.isIn hin0
    have hnp : NoSlash p0.after := a0.noSlash hns
    have hnq : NoSlash q.after := a1'.noSlash hnp
    obtain ⟨k, k1, k2, k3⟩ := (more_at hpm M (y := '}' :: r) (src := s)).moreLines (line alnum M q).2 (a2'.isIn hinq) (a2'.noSlash hnq) hc2
      (done_blank hnb)
    have hd1 : Done (line alnum M q).2.after := by
      cases M with
      | zero => omega
      | succ M =>
        cases h3 : token newLine (line alnum (M + 1) q).2 with
        | none => rw [moreLines, h3] at hnb; exact done_blank hnb
        | some w => exact newLine_done h3
    have hline := (more_at hpm M (y := '}' :: r) (src := s)).line q hinq hnq hc1 hd1
    generalize he : moreLines alnum M (line alnum M q).2 = e at *
    obtain ⟨ls, e⟩ := e
    dsimp only at *
    have hk : 2 ≤ k := by
      have := a1'.le
      have := a2'.le
      omega
    have hnl : token newLine e = none := by
      rcases k2 with k2 | k2
      · omega
      · exact k2
    have hw : ∀ c ∈ e.after, isSpace c = true := by
      have hdrop : e.after.dropWhile isSpace = [] := by
        rcases dropSpace_cases e.after with h3 | ⟨z, h3⟩
        · rw [h3]
          exact not_not.1 hnb
        · have h4 := List.takeWhile_append_dropWhile (p := isSpace) (l := e.after)
          rw [token_none, newLine, seq, many_blank, h3] at hnl
          simp [seq, chr, many_blank] at hnl
      rw [← List.takeWhile_append_dropWhile (p := isSpace) (l := e.after), hdrop, List.append_nil]
      exact fun c hc => List.all_eq_true.1 List.all_takeWhile c hc
    have hine : e.In s := (a2'.trans a3').isIn hinq
    obtain ⟨r1, t1⟩ := newLine_blank (b := e.before) (y := '}' :: r) hw (by simp; decide)
    rw [← List.append_assoc, ← hine] at t1
    obtain ⟨k, rfl⟩ : ∃ m, k = m + 1 := ⟨k - 1, by omega⟩
    obtain ⟨x, y, hl⟩ := line_blank hal (r := '}' :: r) .brace k (s ++ ['\n'])
    have hall : moreLines alnum (k + 1) (more ('}' :: r) e) = ([.mk x [] y], ⟨s ++ ['\n'], '}' :: r⟩) := by
      rw [moreLines, more, t1]
      dsimp only
      rw [hl]
      dsimp only
      rw [moreLines_none (by simp; decide)]
    refine ⟨x, y, (Pos.mk (s ++ ['\n']) ('}' :: r)).at, ?_⟩
    rw [show 8 * (s ++ '\n' :: '}' :: r).length + 8 = M + 1 by omega, show (Pos.mk [] (s ++ '\n' :: '}' :: r)) = more ('}' :: r) ⟨[], s⟩ from rfl,
      skip_more (p := isWhitespace) (s := ⟨[], s⟩) hb, hp, content]
    have hbp : NonBlank p0.after := by
      rw [← hp]
      rw [NonBlank, show (skip isWhitespace ⟨[], s⟩).after = s.dropWhile isWhitespace from rfl, dropWhile_idem]
      exact hb
    rw [skip_more (p := isWhitespace) (s := p0) hbp, hq, hline]
    dsimp only
    rw [k3, hall]
    rfl
  · cases h1

theorem mvLines_two (k : Nat) : ∀ (A B : List Ast.Line), mvLines k (A ++ B) = mvLines k A ++ mvLines k B
  | [], B => by rw [mvLines]; rfl
  | l :: A, B => by
    rw [List.cons_append, mvLines, mvLines, mvLines_two k A B]; rfl

/-- A text in a block. -/
theorem parse_in (hal : RightForAscii alnum) {h s : Str} {n : Option Str} {ps : List Spec.Part} (hs : SelectorSource h n ps) {a1 b1 : Nat} {L1 : List Ast.Line}
    (h1 : parse alnum s = some ⟨.mk a1 L1 b1⟩) (hb : NonBlank s) (hns : NoSlash s) (hc : closedLines s L1 = true) :
    ∃ a b x y i j sp i' j' l u v st en cl sel,
      parse alnum (h ++ " {\n".toList ++ s ++ "\n}".toList) =
        some ⟨.mk a [.mk x [.mk none i j (.selector sel),
          .mk sp i' j' (.block l (.mk st (mvLines (byteLen (h ++ " {\n".toList)) L1 ++ [.mk u [] v]) en) (some cl))] y] b⟩ ∧
      ∀ xml, Write.SelSem xml (h ++ " {\n".toList ++ s ++ "\n}".toList) sel n ps := by
  obtain ⟨x, y, b, hx⟩ := content_close hal (r := []) h1 hb hns hc
  generalize hX : s ++ ['\n', '}'] = X at hx
  have hS : h ++ " {\n".toList ++ s ++ "\n}".toList = h ++ ([' '] ++ ('{' :: (['\n'] ++ X))) := by
    rw [← hX, show " {\n".toList = [' ', '{', '\n'] by decide, show "\n}".toList = ['\n', '}'] by decide]
    simp
  have hpre : h ++ " {\n".toList = h ++ [' '] ++ ['{'] ++ ['\n'] := by
    rw [show " {\n".toList = [' ', '{', '\n'] by decide]; simp
  have hel : EndsLine (h ++ " {\n".toList) := endsLine_break (by rw [hpre]; simp)
  generalize hpr : h ++ " {\n".toList = pre at hel hpre
  rw [hpr] at hS
  have hlen : (pre ++ s ++ "\n}".toList).length = h.length + X.length + 3 := by rw [hS]; simp; omega
  have hsk := (skip_adv isWhitespace ⟨[], X⟩).le
  dsimp only at hsk
  -- the content
  have hcont : ∀ N, 8 * X.length + 3 ≤ N → content alnum N (skip isWhitespace ⟨h ++ [' '] ++ ['{'], ['\n'] ++ X⟩) =
      (.mk (byteLen pre + a1) (mvLines (byteLen pre) L1 ++ [.mk (byteLen pre + x) [] (byteLen pre + y)]) (byteLen pre + b), ⟨pre ++ (s ++ ['\n']), ['}']⟩) := by
    intro N hN
    have e : skip isWhitespace ⟨h ++ [' '] ++ ['{'], ['\n'] ++ X⟩ = mvP pre (skip isWhitespace ⟨[], X⟩) := by
      simp only [skip, mvP, hpre, List.nil_append]
      rw [List.takeWhile_append_of_pos (by decide), List.dropWhile_append_of_pos (by decide)]
      simp
    rw [e, (moves_at alnum hel (8 * X.length + 8)).content N _ (by omega) (by omega), hx, mvContent, mvLines_two]
    simp only [mvP, mvLines, mvLine, mvNodes]
  -- the nodes
  obtain ⟨c, h', hh⟩ := Write.selector_white hs
  have hwS : ∀ d, (pre ++ s ++ "\n}".toList).head? = some d → ¬ White d := by
    rw [hS]; exact Write.head_of hh
  generalize hN : 8 * (pre ++ s ++ "\n}".toList).length + 2 = N
  have hblock := node_block hal (w := ['\n']) (r := X) (by simp) (by unfold White; decide) N (h ++ [' ']) (hcont N (by omega))
    (Mty.Grammar.closing_some (t := "}".toList) (w := []) (r := []) (by simp) (Write.shuts_brace []).2)
  have hend : HeadEnd ([' '] ++ ('{' :: (['\n'] ++ X))) := Write.headEnd_brace (by unfold Tabs; decide) (by simp) (by unfold White; decide)
  obtain ⟨sel, g1, g2, g3, g4⟩ := node_selector hal hs hend (N + 2) []
  rw [List.nil_append, ← hS] at g3 g4
  have n2 := nodes_step (w := [' ']) (by decide) (by simp; decide) hblock
  rw [nodes_stop hal (r := []) ⟨[], [], rfl, by simp, .nil⟩] at n2
  have n1 := nodes_step (w := []) (b := []) (x := h ++ ([' '] ++ ('{' :: (['\n'] ++ X)))) (by simp) (Write.space_of (Write.head_of hh)) g1
  rw [List.nil_append, show ([] : Str) ++ h = h from rfl, n2, ← hS] at n1
  obtain ⟨x', y', hl⟩ := line_row (b := []) (w := []) (sp := []) (r1 := []) (by simp) (Write.space_of hwS) (by rw [List.append_nil]; exact n1) (by simp) (by simp) .nil
  rw [List.nil_append] at hl
  have hsk0 : skip isWhitespace ⟨[], pre ++ s ++ "\n}".toList⟩ = ⟨[], pre ++ s ++ "\n}".toList⟩ := skip_white (w := []) (by simp) hwS
  have hfin : parse alnum (pre ++ s ++ "\n}".toList) = parse alnum (pre ++ s ++ "\n}".toList) := rfl
  conv_rhs at hfin =>
    rw [parse, hsk0, show 8 * (pre ++ s ++ "\n}".toList).length + 8 = N + 5 + 1 by omega, content_lines, hsk0, linesFrom, hl]
    dsimp only
    rw [moreLines_none (by simp)]
    dsimp only
    rw [if_pos (show (skip isWhitespace ⟨_, []⟩).after.isEmpty = true from rfl)]
  exact ⟨_, _, _, _, _, _, _, _, _, _, _, _, _, _, _, _, hfin, fun xml => Write.selSem_of hs g2 g3 g4⟩

end Mty.Grammar.More
