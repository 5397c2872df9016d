import Verif.Proofs.PartsSource
import Verif.Proofs.PartsErrors

/-! # White space before and after a text (for C78) -/

set_option autoImplicit false

namespace Mty.Grammar.More
open Pat Lex Spec

variable {alnum : Char → Bool}

/-! ## White space before the text -/

/-- Blank lines before a text only move it. -/
theorem parse_before {pre s : Str} (hpre : EndsLine pre) (hw : ∀ c ∈ pre, isWhitespace c = true) :
    parse alnum (pre ++ s) = (parse alnum s).map fun d => ⟨mvContent (byteLen pre) d.content⟩ := by
  have hk : skip isWhitespace ⟨[], pre ++ s⟩ = mvP pre (skip isWhitespace ⟨[], s⟩) := by
    simp only [skip, mvP, List.nil_append]
    rw [List.takeWhile_append_of_pos hw, List.dropWhile_append_of_pos hw]
  have hle := (skip_adv isWhitespace ⟨[], s⟩).le
  rw [parse, parse, hk]
  dsimp only at hle
  rw [(moves_at alnum hpre (8 * s.length + 8)).content (8 * (pre ++ s).length + 8) _ (by omega) (by simp only [List.length_append]; omega)]
  dsimp only
  rw [skip_mv]
  rw [show (mvP pre (skip isWhitespace (content alnum (8 * s.length + 8) (skip isWhitespace ⟨[], s⟩)).2)).after =
    (skip isWhitespace (content alnum (8 * s.length + 8) (skip isWhitespace ⟨[], s⟩)).2).after from rfl]
  split <;> rfl

/-! ## White space after the text -/

theorem white_drop {a : Str} (h : ∀ c ∈ a, isWhitespace c = true) : a.dropWhile isSpace = [] ∨ ∃ z, a.dropWhile isSpace = '\n' :: z := by
  rcases dropSpace_cases a with h1 | h1
  · left
    rw [h1]
    exact by_contra fun hk => by obtain ⟨c, hc, e⟩ := nonBlank_iff.1 hk; rw [h c hc] at e; cases e
  · exact .inr h1

theorem line_white (hal : PlainMarks alnum) {n : Nat} {s : Pos} (h : ∀ c ∈ s.after, isWhitespace c = true) :
    ∃ x y s', line alnum n s = (.mk x [] y, s') ∧ ∀ c ∈ s'.after, isWhitespace c = true := by
  cases n with
  | zero => rw [line]; exact ⟨_, _, _, rfl, h⟩
  | succ n =>
    have hn : (nodes alnum n (skip isSpace s)).1 = [] := by
      have key : ∀ p : Pos, skip isSpace p = p → (∃ x y s', line alnum (n + 1) p = (.mk x [] y, s')) → (nodes alnum n p).1 = [] := by
        intro p hp ⟨x, y, s', hl⟩
        rw [line, hp] at hl
        split at hl
        · rename_i e; rw [e]
        · cases hl
      have hs : skip isSpace (skip isSpace s) = skip isSpace s := by
        simp only [skip]
        rw [dropWhile_idem]
        have : (s.after.dropWhile isSpace).takeWhile isSpace = [] := by
          rcases white_drop h with e | ⟨z, e⟩
          · rw [e]; rfl
          · rw [e, List.takeWhile_cons, show isSpace '\n' = false by decide]; rfl
        rw [this, List.append_nil]
      refine key _ hs ?_
      rcases white_drop h with e | ⟨z, e⟩
      · rw [show skip isSpace s = ⟨s.before ++ s.after.takeWhile isSpace, []⟩ by simp [skip, e], line_end]
        exact ⟨_, _, _, rfl⟩
      · rw [show skip isSpace s = ⟨s.before ++ s.after.takeWhile isSpace, '\n' :: z⟩ by simp [skip, e], line_empty hal]
        exact ⟨_, _, _, rfl⟩
    rw [line]
    generalize nodes alnum n (skip isSpace s) = g at hn ⊢
    obtain ⟨l, p⟩ := g
    dsimp only at hn
    subst hn
    exact ⟨_, _, _, rfl, fun c hc => h c ((List.dropWhile_suffix _).subset hc)⟩

/-- The lines of white space are blank. -/
def Blanks' (ls : List Ast.Line) : Prop := ∀ l ∈ ls, ∃ x y, l = .mk x [] y

theorem moreLines_white (hal : PlainMarks alnum) : ∀ (n : Nat) (s : Pos), (∀ c ∈ s.after, isWhitespace c = true) →
    Blanks' (moreLines alnum n s).1 ∧ ∀ c ∈ (moreLines alnum n s).2.after, isWhitespace c = true
  | 0, s, h => by rw [moreLines]; exact ⟨by simp [Blanks'], h⟩
  | n + 1, s, h => by
    rw [moreLines]
    cases ht : token newLine s with
    | none => exact ⟨by simp [Blanks'], h⟩
    | some x =>
      obtain ⟨r, s1⟩ := x
      dsimp only
      have a1 := token_adv1 sound_newLine ne_newLine ht
      have h1 : ∀ c ∈ s1.after, isWhitespace c = true := by
        obtain ⟨c, m, -, hm⟩ := a1
        intro d hd
        exact h d (by rw [hm]; exact List.mem_append_right _ hd)
      obtain ⟨x, y, s2, h2, h3⟩ := line_white hal (n := n) h1
      obtain ⟨h4, h5⟩ := moreLines_white hal n s2 h3
      rw [h2]
      refine ⟨fun l hl => ?_, h5⟩
      rcases List.mem_cons.1 hl with rfl | hl
      · exact ⟨x, y, rfl⟩
      · exact h4 l hl

/-- White space after a text gives blank lines. -/
theorem parse_after (hal : PlainMarks alnum) {s w : Str} {a1 b1 : Nat} {L1 : List Ast.Line}
    (h1 : parse alnum s = some ⟨.mk a1 L1 b1⟩) (hb : NonBlank s) (hns : NoSlash s) (hc : closedLines s L1 = true)
    (hw : ∀ c ∈ w, isWhitespace c = true) : ∃ B b, Blanks' B ∧ parse alnum (s ++ '\n' :: w) = some ⟨.mk a1 (L1 ++ B) b⟩ := by
  generalize hM : 8 * (s ++ '\n' :: w).length + 7 = M
  have hlen : (s ++ '\n' :: w).length = s.length + (w.length + 1) := by simp
  have a0 := skip_adv isWhitespace ⟨[], s⟩
  have hin0 : (skip isWhitespace ⟨[], s⟩).In s := a0.isIn rfl
  generalize hp : skip isWhitespace ⟨[], s⟩ = p0 at *
  have hle := a0.le
  dsimp only at hle
  rw [parse, hp] at h1
  rw [content_fuel (n := M + 1) (by omega) (by omega)] at h1
  rw [content] at h1
  have a1' := skip_adv isWhitespace p0
  generalize hq : skip isWhitespace p0 = q at *
  dsimp only at h1
  have a2' := (adv_at alnum M).line q
  have a3' := (adv_at alnum M).moreLines (line alnum M q).2
  split at h1
  · rename_i hend
    simp only [Option.some.injEq, Ast.Document.mk.injEq, Ast.Content.mk.injEq] at h1
    obtain ⟨rfl, rfl, rfl⟩ := h1
    obtain ⟨hc1, hc2⟩ := closedLines_cons hc
    have hnb : ¬ NonBlank (moreLines alnum M (line alnum M q).2).2.after := by
      rw [NonBlank, ne_eq, not_not]
      rw [List.isEmpty_iff] at hend
      exact hend
    have hinq : q.In s := a1'.isIn hin0
    have hnp : NoSlash p0.after := a0.noSlash hns
    have hnq : NoSlash q.after := a1'.noSlash hnp
    obtain ⟨k, k1, k2, k3⟩ := (more_at hal M (y := w) (src := s)).moreLines (line alnum M q).2 (a2'.isIn hinq) (a2'.noSlash hnq) hc2
      (done_blank hnb)
    have hd1 : Done (line alnum M q).2.after := by
      cases M with
      | zero => omega
      | succ M =>
        cases h3 : token newLine (line alnum (M + 1) q).2 with
        | none => rw [moreLines, h3] at hnb; exact done_blank hnb
        | some w => exact newLine_done h3
    have hline := (more_at hal M (y := w) (src := s)).line q hinq hnq hc1 hd1
    generalize he : moreLines alnum M (line alnum M q).2 = e at *
    obtain ⟨ls, e⟩ := e
    dsimp only at *
    have hwe : ∀ c ∈ (more w e).after, isWhitespace c = true := by
      intro c hc
      rw [show (more w e).after = e.after ++ '\n' :: w from rfl] at hc
      rcases List.mem_append.1 hc with hc | hc
      · by_contra hk
        exact hnb (nonBlank_iff.2 ⟨c, hc, by simpa using hk⟩)
      · rcases List.mem_cons.1 hc with rfl | hc
        · decide
        · exact hw c hc
    obtain ⟨w1, w2⟩ := moreLines_white hal k (more w e) hwe
    refine ⟨(moreLines alnum k (more w e)).1, (moreLines alnum k (more w e)).2.at, w1, ?_⟩
    rw [parse, show 8 * (s ++ '\n' :: w).length + 8 = M + 1 by omega, show (Pos.mk [] (s ++ '\n' :: w)) = more w ⟨[], s⟩ from rfl,
      skip_more (p := isWhitespace) (s := ⟨[], s⟩) hb, hp, content]
    have hbp : NonBlank p0.after := by
      rw [← hp]
      rw [NonBlank, show (skip isWhitespace ⟨[], s⟩).after = s.dropWhile isWhitespace from rfl, dropWhile_idem]
      exact hb
    rw [skip_more (p := isWhitespace) (s := p0) hbp, hq, hline]
    dsimp only
    rw [k3]
    dsimp only
    rw [if_pos]
    · rfl
    · rw [List.isEmpty_iff]
      by_contra hk
      obtain ⟨c, hc, e⟩ := (nonBlank_iff (a := (moreLines alnum k (more w e)).2.after)).1 hk
      rw [w2 c hc] at e
      cases e
  · cases h1

end Mty.Grammar.More

namespace Mty
open Spec Build

namespace Parts
open Same

theorem linesAre_blanks {src : Str} : ∀ {B : List Ast.Line} {ls : List SrcLine}, Grammar.More.Blanks' B → LinesAre src B ls →
    ∀ l ∈ ls, ∃ y, l = .blank y
  | [], _, _, h => by cases h; simp
  | l :: B, ls, hb, h => by
    obtain ⟨x, y, rfl⟩ := hb l (List.mem_cons_self ..)
    cases h with
    | blank h =>
      intro m hm
      rcases List.mem_cons.1 hm with rfl | hm
      · exact ⟨_, rfl⟩
      · exact linesAre_blanks (fun l hl => hb l (List.mem_cons_of_mem _ hl)) h m hm

theorem layout_blanks {par before : Bool} {e : Nat} {ls : List SrcLine} {out : List Node} (h : Layout par before e ls out) :
    (∀ l ∈ ls, ∃ y, l = .blank y) → Seps out := by
  induction h with
  | nil => intro _ n hn; simp at hn
  | blank h ih =>
    intro hb n hn
    rcases List.mem_cons.1 hn with rfl | hn
    · exact ⟨_, rfl⟩
    · exact ih (fun l hl => hb l (List.mem_cons_of_mem _ hl)) n hn
  | empty h ih =>
    intro hb
    obtain ⟨y, hy⟩ := hb _ (List.mem_cons_self ..)
    cases hy
  | paragraph hp hs hv ht hend hj h ih =>
    intro hb
    obtain ⟨y, hy⟩ := hb _ (by rw [List.cons_append]; exact List.mem_cons_self ..)
    cases hy
  | continued hn hc ht hend hj h ih =>
    intro hb
    obtain ⟨y, hy⟩ := hb _ (by rw [List.cons_append]; exact List.mem_cons_self ..)
    cases hy
  | other hn hc h ih =>
    intro hb
    obtain ⟨y, hy⟩ := hb _ (List.mem_cons_self ..)
    cases hy

/-- The content of a source with blank lines at the end. -/
theorem content_blanks {c : SpecialTagConfig} {s1 s : Str} {a a1 : Nat} {L1 A B : List Ast.Line}
    {nodes nodes1 : List Node} (h1 : ContentIs s1 true a1 L1 nodes1) (h : ContentIs s true a (A ++ B) nodes) (hB : Grammar.More.Blanks' B)
    (hA : SameLines c s1 s L1 A) : ∃ X Z, nodes = X ++ Z ∧ Seps Z ∧ SimsA c s1 s nodes1 X := by
  cases h with
  | mk hl hlay =>
    obtain ⟨l1, l2, rfl, k1, k2⟩ := linesAre_append hl
    have hb := linesAre_blanks hB k2
    cases l2 with
    | nil => 
      rw [List.append_nil] at hlay
      exact ⟨nodes, [], by simp, by simp [Seps], content_sim h1 hA (.mk k1 hlay)⟩
    | cons l l2 =>
      obtain ⟨y, rfl⟩ := hb l (List.mem_cons_self ..)
      obtain ⟨o1, e', b, o2, rfl, j1, j2⟩ := layout_parts hlay l1 rfl
      refine ⟨o1, paragraphSep e' y :: o2, rfl, fun n hn => ?_, content_sim h1 hA (.mk k1 j1)⟩
      rcases List.mem_cons.1 hn with rfl | hn
      · exact ⟨_, rfl⟩
      · exact layout_blanks j2 (fun l hl => hb l (List.mem_cons_of_mem _ hl)) n hn

/-- The nodes that are written. -/
theorem written_blanks {s1 s : Str} {d1 d : Ast.Document} {doc1 doc : Document} {e1 e1' e e' : Errors} {cfg : OutputConfig}
    {X Z : List Node} (h1 : fromAst s1 d1 e1 = (some doc1, e1')) (h : fromAst s d e = (some doc, e'))
    (hn : doc.nodes = X ++ Z) (hz : Seps Z) (hX : SimsA cfg.specialTags s1 s doc1.nodes X) (hm : cfg.metadata = none)
    (hc : cfg.completePage.getD false = false) :
    ∃ X' Z', (transformDocument doc s cfg).nodes = X' ++ Z' ∧ Seps Z' ∧
      TreesSim s1 s (forestOf s1 (transformDocument doc1 s1 cfg).nodes) (forestOf s X') := by
  have ht : ∀ s (doc : Document), toInfer cfg s doc = specialNodes cfg.specialTags doc.nodes := by
    intro s doc
    unfold toInfer
    rw [hc]
    rfl
  have hi := C20_inference cfg h
  have hi1 := C20_inference cfg h1
  have g := (infer_tree s _ (toInfer_plain cfg h)).2
  have g1 := (infer_tree s1 _ (toInfer_plain cfg h1)).2
  simp only [transformDocument_eq, hm]
  rw [ht] at hi hi1 g g1
  rw [ht, ht]
  rw [hn, specialNodes_append, special_seps _ hz, forestOf_append, inferForest_append, sepTrees hz] at hi
  rw [hn, specialNodes_append, special_seps _ hz] at g ⊢
  obtain ⟨X', Z', e4, e5, e6⟩ := forest_split hi
  rw [e4] at g ⊢
  have t1 := infers_sim (forest_sim (specials_sim hX)) .section none none true
  rw [← hi1, ← e5] at t1
  have z1 := seps_of hz e6
  cases cfg.lang with
  | none => exact ⟨X', Z', rfl, z1, t1⟩
  | some l =>
    refine ⟨X'.map (langNode l), Z'.map (langNode l), by simp, lang_seps l z1, ?_⟩
    exact langs_sim t1 g1 fun n hn => g n (by simp [hn])

/-- The conversion of a source with blank lines at the end. -/
theorem blanks_convert {p1 p : Parser} {s1 s : Str} {a a1 b b1 : Nat} {L1 A B : List Ast.Line}
    {cfg : OutputConfig} {alnum : Char → Bool}
    (h1 : p1 s1 = .ok ⟨.mk a1 L1 b1⟩) (h : p s = .ok ⟨.mk a (A ++ B) b⟩)
    (g1 : Grammar.Conforms alnum s1 ⟨.mk a1 L1 b1⟩ = true) (g : Grammar.Conforms alnum s ⟨.mk a (A ++ B) b⟩ = true)
    (hA : SameLines cfg.specialTags s1 s L1 A) (hB : Grammar.More.Blanks' B)
    (hm : cfg.metadata = none) (hc : cfg.completePage.getD false = false) :
    (∃ r : Option Str, (convert p1 s1 cfg = match r with | some o => .ok o | none => .error .unknown) ∧
      (convert p s cfg = match r with | some o => .ok o | none => .error .unknown)) ∨
    (∃ es es', convert p1 s1 cfg = .error (.syntax es s1) ∧ convert p s cfg = .error (.syntax es' s)) := by
  obtain ⟨doc1, es1, l1, w1⟩ := build_cases s1 ⟨.mk a1 L1 b1⟩
  obtain ⟨doc, es, l, w⟩ := build_cases s ⟨.mk a (A ++ B) b⟩
  have hblank : ∀ {B : List Ast.Line}, Grammar.More.Blanks' B → LinesOk s B := by
    intro B
    induction B with
    | nil => intro _; simp [LinesOk]
    | cons l B ih =>
      intro hB
      obtain ⟨x, y, rfl⟩ := hB l (List.mem_cons_self ..)
      rw [LinesOk]
      simp only [itemsOf, lineOk_nil, true_and]
      exact ih fun l hl => hB l (List.mem_cons_of_mem _ hl)
  have hw : WellFormed s ⟨.mk a (A ++ B) b⟩ ↔ WellFormed s1 ⟨.mk a1 L1 b1⟩ := by
    have e1 := lines_ok hA
    simp only [WellFormed]
    rw [linesOk_append, e1]
    simp [hblank hB]
  by_cases hn : es = []
  · have hn1 := w1.2 (hw.1 (w.1 hn))
    subst hn hn1
    have f1 := l1.fastOk rfl (Errors.new cfg)
    have f := l.fastOk rfl (Errors.new cfg)
    obtain ⟨X, Z, e1, z1, j1⟩ := content_blanks (C55_structure _ _ _ _ _ _ f1) (C55_structure _ _ _ _ _ _ f) hB hA
    obtain ⟨X', Z', e2, z3, j3⟩ := written_blanks f1 f e1 z1 j1 hm hc
    have hg1 := written_good (C12_grammar_positions _ _ _ g1) f1 hm
    have hg := written_good (C12_grammar_positions _ _ _ g) f hm
    have q1 := C17_single cfg f1
    have q := C17_single cfg f
    rw [e2] at hg q
    have o1 := acts_same j3 rfl rfl q1 (fun n hn => q n (by simp only [List.mem_append]; tauto)) hg1 (good_left hg) ⟨cfg, s1, 0, false, false⟩
    left
    rw [convert_ok h1 l1, convert_ok h l, output_of hc, output_of hc, e2, nodeActs_append, contentActs_trim (_ ++ _), trim_right (seps_acts z3), ← contentActs_trim]
    simp only [withSrc] at o1
    have r1 : line ⟨cfg, s1, 0, false, false⟩ = line ⟨cfg, s, 0, false, false⟩ := rfl
    rw [o1, r1]
    generalize Act.seq (contentActs (nodeActs X' ⟨cfg, s, 0, false, false⟩)) (line ⟨cfg, s, 0, false, false⟩) true = E1
    rcases E1 with ⟨o1, u1, _ | _⟩
    · exact ⟨none, rfl, rfl⟩
    · exact ⟨some o1, rfl, rfl⟩
  · have hn1 : es1 ≠ [] := fun hk => hn (w.2 (hw.2 (w1.1 hk)))
    obtain ⟨e, -, -, -, c⟩ := convert_bad h l hn cfg
    obtain ⟨e1, -, -, -, c1⟩ := convert_bad h1 l1 hn1 cfg
    exact .inr ⟨e1, e, c1, c⟩

end Parts
end Mty

namespace Mty.Build
open Spec Grammar Grammar.More

theorem blanks_loop (src : Str) : ∀ {B : List Ast.Line}, Blanks' B → ∀ (out : List Node) (e : Nat), ∃ n, Logs (contentLoop true out e (prepLines src B)) n []
  | [], _, out, e => by rw [prepLines, contentLoop]; exact ⟨_, Logs.pure _⟩
  | l :: B, hb, out, e => by
    obtain ⟨x, y, rfl⟩ := hb l (List.mem_cons_self ..)
    rw [prepLines, prepLine, prepNodes, contentLoop]
    exact blanks_loop src (fun l hl => hb l (List.mem_cons_of_mem _ hl)) _ _

/-- The errors of a text, and of the text with something before it and blank lines after it. -/
theorem around_logs {s pre post : Str} {a1 b1 a b : Nat} {L1 B : List Ast.Line} (h1 : linesIn s a1 b1 L1) (hB : Blanks' B) :
    ∃ d1 d es1, Logs (fromAst s ⟨.mk a1 L1 b1⟩) d1 es1 ∧
      Logs (fromAst (pre ++ (s ++ post)) ⟨.mk a (mvLines (byteLen pre) L1 ++ B) b⟩) d (es1.map (mvE (byteLen pre))) := by
  have e1 := lines_two_mv (pre := pre) (post := post) h1
  obtain ⟨e', hl⟩ := contentLoop_append true (prepLines (pre ++ (s ++ post)) B) (prepLines (pre ++ (s ++ post)) (mvLines (byteLen pre) L1)) a
  obtain ⟨n1, n1', es1, l1, l1', _⟩ := loop_two true [] [] a1 a e1
  obtain ⟨n2, l2⟩ := blanks_loop (pre ++ (s ++ post)) hB n1' e'
  refine ⟨⟨⟨0, byteLen s⟩, ⟨a1, b1⟩, n1⟩, { range := ⟨0, byteLen (pre ++ (s ++ post))⟩, contentRange := ⟨a, b⟩, nodes := n2 }, es1, ?_, ?_⟩
  · have := l1.bind (f := fun n => BM.pure (Document.mk ⟨0, byteLen s⟩ ⟨a1, b1⟩ n)) (Logs.pure _)
    rw [List.append_nil] at this
    exact this
  · have := (l1'.bind (f := fun n => contentLoop true n e' _) l2).bind
      (f := fun n => BM.pure (Document.mk ⟨0, byteLen (pre ++ (s ++ post))⟩ ⟨a, b⟩ n)) (Logs.pure _)
    rw [List.append_nil, List.append_nil] at this
    rw [fromAst]
    dsimp only
    rw [buildContent, prepLines_append, hl]
    exact this

end Mty.Build
