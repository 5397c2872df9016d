import Verif.Proofs.GapMove
import Verif.Proofs.GapParse
import Verif.Props.Same
import Verif.Props.PartsErrors

/-!
# C90: the number of blank lines does not matter

Specification: `Spec/BlankLines.lean`.
-/

set_option autoImplicit false

namespace Mty
open Spec Build

namespace Squeeze
open Same

theorem written_thin {src : Str} {d1 d2 : Ast.Document} {doc1 doc2 : Document} {e1 e1' e2 e2' : Errors} {cfg : OutputConfig}
    (h1 : fromAst src d1 e1 = (some doc1, e1')) (h2 : fromAst src d2 e2 = (some doc2, e2')) (hm : cfg.metadata = none)
    (hs : Kids src false doc1.nodes doc2.nodes) :
    TKids src false (forestOf src (transformDocument doc1 src cfg).nodes) (forestOf src (transformDocument doc2 src cfg).nodes) := by
  have hb : Kids src false (toInfer cfg src doc1) (toInfer cfg src doc2) := by
    have h0 : Kids src false (applySpecialTags cfg doc1).nodes (applySpecialTags cfg doc2).nodes := specials_thin hs
    unfold toInfer
    cases cfg.completePage.getD false with
    | false => exact h0
    | true => exact completePage_thin h0
  have hi := infers_thin (forest_thin hb) .section none none true (by simp)
  rw [← C20_inference cfg h1, ← C20_inference cfg h2] at hi
  have hs1 := (infer_tree src _ (toInfer_plain cfg h1)).2
  have hs2 := (infer_tree src _ (toInfer_plain cfg h2)).2
  rw [transformDocument_eq, transformDocument_eq, hm]
  cases cfg.lang with
  | none => exact hi
  | some l => exact langs_thin hi rfl rfl hs1 hs2

/-- Both conversions write the same, or both reject the source. -/
theorem squeeze_cases {parse1 parse2 : Parser} {s : Str} {d : Ast.Document} {cfg : OutputConfig} (h1 : parse1 s = .ok d)
    (h2 : parse2 s = .ok (squeezed d)) (hm : cfg.metadata = none) :
    (∃ r : Option Str, (convert parse1 s cfg = match r with | some o => .ok o | none => .error .unknown) ∧
      (convert parse2 s cfg = match r with | some o => .ok o | none => .error .unknown)) ∨
    (∃ es es', convert parse1 s cfg = .error (.syntax es s) ∧ convert parse2 s cfg = .error (.syntax es' s)) := by
  obtain ⟨doc1, es1, l1, w1⟩ := build_cases s d
  obtain ⟨doc2, es2, l2, w2⟩ := build_cases s (squeezed d)
  obtain ⟨⟨a, L, b⟩⟩ := d
  have hw : WellFormed s ⟨.mk a L b⟩ ↔ WellFormed s (squeezed ⟨.mk a L b⟩) := (lines_ok L).symm
  by_cases hn : es1 = []
  · have hn2 : es2 = [] := w2.2 (hw.1 (w1.1 hn))
    subst hn hn2
    have f1 := l1.fastOk rfl (Errors.new cfg)
    have f2 := l2.fastOk rfl (Errors.new cfg)
    have hc : Kids s false doc1.nodes doc2.nodes := content_thin (C55_structure _ _ _ _ _ _ f1) (C55_structure _ _ _ _ _ _ f2)
    have ho := output_thin cfg (written_thin f1 f2 hm hc) (C17_single cfg f1) (C17_single cfg f2)
    left
    rw [convert_ok h1 l1, convert_ok h2 l2, ho]
    rcases outputHtmlTo s (transformDocument doc2 s cfg) cfg with ⟨out, _ | _⟩
    · exact ⟨none, rfl, rfl⟩
    · exact ⟨some out, rfl, rfl⟩
  · have hn2 : es2 ≠ [] := fun h => hn (w1.2 (hw.2 (w2.1 h)))
    obtain ⟨e1, -, -, -, c1⟩ := convert_bad h1 l1 hn cfg
    obtain ⟨e2, -, -, -, c2⟩ := convert_bad h2 l2 hn2 cfg
    exact .inr ⟨e1, e2, c1, c2⟩

theorem between {parse1 parse2 : Parser} {s1 s2 : Str} {d1 d2 : Ast.Document} {cfg : OutputConfig} (h1 : parse1 s1 = .ok d1)
    (h2 : parse2 s2 = .ok d2) (p1 : PositionsOk s1 d1) (p2 : PositionsOk s2 d2)
    (hs : Spec.Same cfg.specialTags s1 s2 (squeezed d1) (squeezed d2)) (hm : cfg.metadata = none) :
    (∃ r : Option Str, (convert parse1 s1 cfg = match r with | some o => .ok o | none => .error .unknown) ∧
      (convert parse2 s2 cfg = match r with | some o => .ok o | none => .error .unknown)) ∨
    (∃ es es', convert parse1 s1 cfg = .error (.syntax es s1) ∧ convert parse2 s2 cfg = .error (.syntax es' s2)) := by
  have k := same_cases (parse1 := fun _ => .ok (squeezed d1)) (parse2 := fun _ => .ok (squeezed d2)) rfl rfl
    (positions_squeeze p1) (positions_squeeze p2) hs hm
  have k1 := squeeze_cases (parse2 := fun _ => .ok (squeezed d1)) h1 rfl hm
  have k2 := squeeze_cases (parse2 := fun _ => .ok (squeezed d2)) h2 rfl hm
  rcases k with ⟨r, a1, a2⟩ | ⟨e, e', a1, a2⟩
  · rw [a1] at k1
    rw [a2] at k2
    left
    refine ⟨r, ?_, ?_⟩
    · rcases k1 with ⟨r', b1, b2⟩ | ⟨e, e', b1, b2⟩
      · exact b1.trans b2.symm
      · cases r <;> cases b2
    · rcases k2 with ⟨r', b1, b2⟩ | ⟨e, e', b1, b2⟩
      · exact b1.trans b2.symm
      · cases r <;> cases b2
  · rw [a1] at k1
    rw [a2] at k2
    right
    rcases k1 with ⟨r', b1, b2⟩ | ⟨f, f', b1, b2⟩
    · cases r' <;> cases b2
    · rcases k2 with ⟨r', c1, c2⟩ | ⟨g, g', c1, c2⟩
      · cases r' <;> cases c2
      · exact ⟨f, g, b1, c1⟩

end Squeeze

open Squeeze

section
variable {parse1 parse2 : Parser} {s1 s2 : Str} {d1 d2 : Ast.Document} {cfg : OutputConfig}

/-- **C90.** Two sources that say the same apart from the number of blank lines in a row, at the top and within elements, have the same
output, and the one is converted exactly if the other is. -/
theorem C90_same (h1 : parse1 s1 = .ok d1) (h2 : parse2 s2 = .ok d2) (p1 : PositionsOk s1 d1) (p2 : PositionsOk s2 d2)
    (hs : Same cfg.specialTags s1 s2 (squeezed d1) (squeezed d2)) (hm : cfg.metadata = none) (out : Str) :
    convert parse1 s1 cfg = .ok out ↔ convert parse2 s2 cfg = .ok out := by
  rcases between h1 h2 p1 p2 hs hm with ⟨r, k1, k2⟩ | ⟨e, e', k1, k2⟩
  · rw [k1, k2]
  · rw [k1, k2]; simp

/-- **C90, errors.** They are rejected for the same kind of reason: both for syntax errors, or both because of the escapes in attribute
values. -/
theorem C90_errors (h1 : parse1 s1 = .ok d1) (h2 : parse2 s2 = .ok d2) (p1 : PositionsOk s1 d1) (p2 : PositionsOk s2 d2)
    (hs : Same cfg.specialTags s1 s2 (squeezed d1) (squeezed d2)) (hm : cfg.metadata = none) :
    ((∃ es, convert parse1 s1 cfg = .error (.syntax es s1)) ↔ ∃ es, convert parse2 s2 cfg = .error (.syntax es s2)) ∧
    (convert parse1 s1 cfg = .error .unknown ↔ convert parse2 s2 cfg = .error .unknown) := by
  rcases between h1 h2 p1 p2 hs hm with ⟨r, k1, k2⟩ | ⟨e, e', k1, k2⟩
  · rw [k1, k2]; cases r <;> simp
  · rw [k1, k2]; simp

end

theorem gap_between {s1 gap : Str} (h : BlankBetween gap) :
    ∃ w, gap = '\n' :: w ∧ (∀ c ∈ w, isWhitespace c = true) ∧ '\n' ∈ w ∧ Grammar.EndsLine (s1 ++ '\n' :: w) := by
  obtain ⟨lines, indent, rfl, h1, h2⟩ := h
  refine ⟨_, rfl, fun c hc => ?_, by simp, ?_⟩
  · rcases List.mem_append.1 hc with hc | hc
    · exact (Grammar.white_iff c).2 (h1 c hc)
    · rcases List.mem_cons.1 hc with rfl | hc
      · decide
      · rcases h2 c hc with rfl | rfl <;> decide
  · intro c hc
    rw [show s1 ++ '\n' :: (lines ++ '\n' :: indent) = (s1 ++ '\n' :: lines ++ ['\n']) ++ indent by simp, List.reverse_append,
      List.dropWhile_append_of_pos] at hc
    · simpa using hc.symm
    · intro d hd
      have := h2 d (by simpa using hd)
      simp only [Bool.or_eq_true, decide_eq_true_eq]
      exact this.symm

/-- **C90, between two texts.** If everything that is opened in a text is closed in it, then the number of blank lines between it and
what follows, the white space on them and the indentation of what follows make no difference. -/
theorem C90_between (alnum : Char → Bool) (hn : alnum '\n' = false) (hl : alnum '<' = false) (hb : alnum '{' = false)
    (parse : Parser) (hp : ∀ src d, Grammar.parse alnum src = some d → parse src = .ok d)
    (s1 s2 : Str) (d1 d2 : Ast.Document) (h1 : Grammar.parse alnum s1 = some d1) (h2 : Grammar.parse alnum s2 = some d2)
    (hs1 : ∃ c ∈ s1, ¬ White c) (hslash : s1.getLast? ≠ some '\\') (hclosed : Closed s1 d1) (hs2 : ∃ c, s2.head? = some c ∧ ¬ White c)
    (gap gap' : Str) (hg : BlankBetween gap) (hg' : BlankBetween gap') (cfg : OutputConfig) (hm : cfg.metadata = none) :
    (∀ out, convert parse (s1 ++ gap ++ s2) cfg = .ok out ↔ convert parse (s1 ++ gap' ++ s2) cfg = .ok out) ∧
    ((∃ es, convert parse (s1 ++ gap ++ s2) cfg = .error (.syntax es (s1 ++ gap ++ s2))) ↔
      ∃ es, convert parse (s1 ++ gap' ++ s2) cfg = .error (.syntax es (s1 ++ gap' ++ s2))) ∧
    (convert parse (s1 ++ gap ++ s2) cfg = .error .unknown ↔ convert parse (s1 ++ gap' ++ s2) cfg = .error .unknown) := by
  obtain ⟨⟨a1, L1, b1⟩⟩ := d1
  obtain ⟨⟨a2, L2, b2⟩⟩ := d2
  have hw : ∀ c, ¬ White c → isWhitespace c = false := fun c h => by
    rw [← Grammar.white_iff] at h
    simpa using h
  obtain ⟨c1, m1, w1⟩ := hs1
  obtain ⟨c2, m2, w2⟩ := hs2
  obtain ⟨w, rfl, g1, g2, g3⟩ := gap_between (s1 := s1) hg
  obtain ⟨w', rfl, g1', g2', g3'⟩ := gap_between (s1 := s1) hg'
  obtain ⟨a, B, b, k1, k2, k⟩ := Grammar.More.parse_gap ⟨hn, hl, hb⟩ h1 h2 (Grammar.More.nonBlank_iff.2 ⟨c1, m1, hw c1 w1⟩) hslash hclosed
    ⟨c2, m2, hw c2 w2⟩ g1 g2 g3
  obtain ⟨a', B', b', k1', k2', k'⟩ := Grammar.More.parse_gap ⟨hn, hl, hb⟩ h1 h2 (Grammar.More.nonBlank_iff.2 ⟨c1, m1, hw c1 w1⟩) hslash hclosed
    ⟨c2, m2, hw c2 w2⟩ g1' g2' g3'
  have e : ∀ w : Str, s1 ++ '\n' :: w ++ s2 = s1 ++ '\n' :: (w ++ s2) := by simp
  have q1 := Grammar.conforms_positions (Grammar.parse_conforms h1)
  have q2 := Grammar.conforms_positions (Grammar.parse_conforms h2)
  have hs : Same cfg.specialTags (s1 ++ '\n' :: (w ++ s2)) (s1 ++ '\n' :: (w' ++ s2))
      (squeezed ⟨.mk a (L1 ++ (B ++ Grammar.mvLines (byteLen (s1 ++ '\n' :: w)) L2)) b⟩)
      (squeezed ⟨.mk a' (L1 ++ (B' ++ Grammar.mvLines (byteLen (s1 ++ '\n' :: w')) L2)) b'⟩) := by
    refine .mk ?_
    rw [Grammar.squeeze_append, Grammar.squeeze_append B, Grammar.squeeze_append L1, Grammar.squeeze_append B',
      Grammar.endsBlank_blanks k1 (fun h => absurd h k2), Grammar.endsBlank_blanks k1' (fun h => absurd h k2'),
      Grammar.squeeze_lines_mv, Grammar.squeeze_lines_mv]
    refine Grammar.gap_same k1 k1' k2 k2' ?_ ?_
    · have := Grammar.lines_two (p1 := []) (q1 := '\n' :: (w ++ s2)) (p2 := []) (q2 := '\n' :: (w' ++ s2)) cfg.specialTags _
        (linesIn_squeeze L1 (p := false) q1.2)
      rw [show byteLen [] = 0 from rfl, Grammar.mvLines_zero] at this
      exact this
    · have := Grammar.lines_two (p1 := s1 ++ '\n' :: w) (q1 := []) (p2 := s1 ++ '\n' :: w') (q2 := []) cfg.specialTags _
        (linesIn_squeeze L2 (p := true) q2.2)
      rw [List.append_nil, e, e] at this
      exact this
  have p := C12_grammar_positions _ _ _ (Grammar.parse_conforms k)
  have p' := C12_grammar_positions _ _ _ (Grammar.parse_conforms k')
  rw [e, e]
  exact ⟨fun out => C90_same (hp _ _ k) (hp _ _ k') p p' hs hm out, C90_errors (hp _ _ k) (hp _ _ k') p p' hs hm⟩

/-! ## Cases with several blank lines -/

namespace Ex

/-- Blank lines with white space on them, and an indentation. -/
def wideGap : Str := "\n\n \t\r\n\n\n  ".toList
def narrowGap : Str := "\n\n".toList

def manyBlank : Str := "x {\n\n\n\nb\n\n\n</c\n\n\n\nd/>}\n\n\n\nc".toList
def oneBlank : Str := "x {\n\nb\n\n</c\n\nd/>}\n\nc".toList

/-- Blank lines within an element. -/
def srcM : Str := "</a\n \n\nb/>".toList
def astM : Ast.Document := ⟨.mk 0 [.mk 0 [.mk none 0 10 (.special .emphasis ⟨0, 2⟩ (.mk 2 [.mk 2 [.mk none 2 3 (seg 2 3)] 3,
  .mk 5 [] 5, .mk 6 [] 6, .mk 7 [.mk none 7 8 (seg 7 8)] 8] 8) (some ⟨8, 10⟩))] 10] 10⟩

def srcO : Str := "</a\n\nb/>".toList
def astO : Ast.Document := ⟨.mk 0 [.mk 0 [.mk none 0 8 (.special .emphasis ⟨0, 2⟩ (.mk 2 [.mk 2 [.mk none 2 3 (seg 2 3)] 3,
  .mk 4 [] 4, .mk 5 [.mk none 5 6 (seg 5 6)] 6] 6) (some ⟨6, 8⟩))] 8] 8⟩

end Ex

set_option maxRecDepth 20000 in
/-- They are trees of the grammar, so their positions are right. -/
example : Grammar.Conforms Char.isAlphanum Ex.srcM Ex.astM = true ∧ Grammar.Conforms Char.isAlphanum Ex.srcO Ex.astO = true := by
  decide +kernel

/-- They say the same apart from the blank lines. -/
theorem ex_blankLines : Same {} Ex.srcM Ex.srcO (squeezed Ex.astM) (squeezed Ex.astO) := by
  simp only [Ex.astM, Ex.astO, squeezed, squeezeLines, squeezeNodes, squeezeType, Ex.seg]
  refine .mk (.cons (.cons (fun _ => trivial) (.special (.cons (.cons (fun _ => trivial) (.text (.segment ?_)) .nil) (.cons .nil
    (.cons (.cons (fun _ => trivial) (.text (.segment ?_)) .nil) .nil))) rfl) .nil) .nil)
  all_goals (simp only [SameSlice]; decide +kernel)

set_option maxRecDepth 20000 in
example : convert RepoTests.parser Ex.srcM {} = .ok "<p><em>a b</em></p>".toList ∧
    convert RepoTests.parser Ex.srcO {} = .ok "<p><em>a b</em></p>".toList := by
  decide +kernel

set_option maxRecDepth 20000 in
/-- A larger case. -/
example : convert RepoTests.parser Ex.manyBlank {} = .ok "<x><p>b</p> <p><em>c d</em></p></x> <p>c</p>".toList ∧
    convert RepoTests.parser Ex.oneBlank {} = .ok "<x><p>b</p> <p><em>c d</em></p></x> <p>c</p>".toList := by
  decide +kernel

/-- The gaps meet the conditions. -/
example : BlankBetween Ex.wideGap ∧ BlankBetween Ex.narrowGap :=
  ⟨⟨"\n \t\r\n\n".toList, "  ".toList, by decide +kernel, by unfold White; decide +kernel, by decide +kernel⟩,
    ⟨[], [], by decide +kernel, by simp, by simp⟩⟩

set_option maxRecDepth 20000 in
/-- The source of C76, with what follows it there: the gap makes no difference. -/
example : convert RepoTests.parser (Ex.part1 ++ Ex.wideGap ++ "z".toList) {} =
    .ok "<h1>A</h1> <p>b <strong>c</strong> {{ d }}</p> <x k=\"v\"><p>y</p></x> <p>z</p>".toList ∧
    convert RepoTests.parser (Ex.part1 ++ Ex.narrowGap ++ "z".toList) {} =
    .ok "<h1>A</h1> <p>b <strong>c</strong> {{ d }}</p> <x k=\"v\"><p>y</p></x> <p>z</p>".toList := by
  decide +kernel

set_option maxRecDepth 20000 in
/-- One blank line is needed: without it, the two lines are one paragraph. -/
theorem C90_one_needed : ∃ s1 s2 : Str, convert RepoTests.parser (s1 ++ "\n\n".toList ++ s2) {} ≠ convert RepoTests.parser (s1 ++ "\n".toList ++ s2) {} :=
  ⟨"a".toList, "b".toList, by decide +kernel⟩

end Mty
