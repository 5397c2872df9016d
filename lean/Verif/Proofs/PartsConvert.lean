import Verif.Proofs.PartsOut
import Verif.Proofs.PartsSpace

/-! # The conversion of a document of two parts (for C76) -/

set_option autoImplicit false

namespace Mty
open Spec Build

namespace Parts
open Same

/-- White space between the parts: a space, a line break or white space of the source. -/
theorem sepText_white {cx : OutCx} {ns : List Node} {w : Str} (hi : cx.indentLevel = 0) (h : SepText cx (nodeActs ns cx) w)
    (hw : ∀ n ∈ ns, Sp cx.src n) : ∀ c ∈ w, White c := by
  rcases h with rfl | rfl | rfl | ⟨t, ht, rfl⟩
  · simp
  · intro c hc; rw [List.mem_singleton.1 hc]; unfold White; decide
  · intro c hc; rw [List.mem_singleton.1 hc]; unfold White; decide
  · have key : ∀ (ns : List Node), (∀ n ∈ ns, Sp cx.src n) → (true, writeTextLike cx (.space (.inline (some t)))) ∈ nodeActs ns cx →
        ∀ c ∈ t.asStr cx.src, White c := by
      intro ns
      induction ns with
      | nil => intro _ h; simp [nodeActs] at h
      | cons n ns ih =>
        intro hw h
        rw [nodeActs] at h
        rcases List.mem_cons.1 h with h | h
        · cases n with
          | elem => simp [Node.isSpace] at h
          | text r x =>
            cases x with
            | text => simp [Node.isSpace] at h
            | comment => simp [Node.isSpace] at h
            | space s =>
              simp only [Prod.mk.injEq, processNode] at h
              obtain ⟨w1, h1, -, h3⟩ := space_false cx (.inline (some t))
              obtain ⟨w2, k1, k2, k3⟩ := space_false cx s
              have e : w1 = w2 := by
                rw [h.2, k1] at h1
                simp only [Emit.mk.injEq] at h1
                exact h1.1.symm
              rw [← h3 t rfl, e]
              by_cases hs : ∃ t', s = .inline (some t')
              · obtain ⟨t', rfl⟩ := hs
                rw [k3 t' rfl]
                intro c hc
                have := hw _ (List.mem_cons_self ..) r t' rfl c hc
                exact (Grammar.white_iff c).1 (Grammar.isSpace_white this)
              · rcases k2 (fun t' ht => hs ⟨t', ht⟩) hi with rfl | rfl
                · intro c hc; rw [List.mem_singleton.1 hc]; unfold White; decide
                · intro c hc; rw [List.mem_singleton.1 hc]; unfold White; decide
        · exact ih (fun n hn => hw n (List.mem_cons_of_mem _ hn)) h
    exact key ns hw ht

/-- The end of the output. -/
theorem line_end (cx : OutCx) (fs : Bool) (hi : cx.indentLevel = 0) : ∃ e fs', line cx fs = ⟨e, fs', true⟩ ∧ (e = [] ∨ (e = ['\n'] ∧ cx.cfg.indent.isSome)) ∧
    (fs = true → e = []) := by
  unfold line
  cases fs with
  | true => exact ⟨[], true, rfl, .inl rfl, fun _ => rfl⟩
  | false =>
    cases hf : cx.fmtInline with
    | true => exact ⟨[], false, rfl, .inl rfl, fun _ => rfl⟩
    | false =>
      cases h : cx.cfg.indent with
      | none => exact ⟨[], false, by simp [lineRaw, h, Act.skip], .inl rfl, fun _ => rfl⟩
      | some i => exact ⟨['\n'], true, by simp [lineRaw, h, hi, Act.seq, Act.write, Act.setFs], .inr ⟨rfl, rfl⟩, fun h => by cases h⟩

theorem seq_end {cx : OutCx} {a : Act} {b : Bool} (hi : cx.indentLevel = 0) :
    ∃ e fs', (Act.seq a (line cx) b).out = (a b).out ++ (if (a b).ok then e else []) ∧ (Act.seq a (line cx) b).ok = (a b).ok ∧
      line cx (a b).fs = ⟨e, fs', true⟩ ∧ (e = [] ∨ (e = ['\n'] ∧ cx.cfg.indent.isSome)) ∧ ((a b).fs = true → e = []) := by
  obtain ⟨e, fs', h1, h2, h3⟩ := line_end cx (a b).fs hi
  refine ⟨e, fs', ?_, ?_, h1, h2, h3⟩
  · simp only [Act.seq]
    cases h : (a b).ok with
    | false => simp
    | true => simp [h1]
  · simp only [Act.seq]
    cases h : (a b).ok with
    | false => simp [h]
    | true => simp [h1]

theorem acts_space {cx : OutCx} : ∀ {ns : List Node}, ∀ p ∈ nodeActs ns cx, p.1 = true → SpaceAct cx p
  | [], p, hp, _ => by simp [nodeActs] at hp
  | n :: ns, p, hp, h => by
    rw [nodeActs] at hp
    rcases List.mem_cons.1 hp with rfl | hp
    · cases n with
      | elem => simp [Node.isSpace] at h
      | text r x =>
        cases x with
        | text => simp [Node.isSpace] at h
        | comment => simp [Node.isSpace] at h
        | space s => exact ⟨s, rfl⟩
    · exact acts_space p hp h

theorem seps_acts {cx : OutCx} : ∀ {ns : List Node}, Seps ns → ∀ p ∈ nodeActs ns cx, p.1 = true
  | [], _, p, hp => by simp [nodeActs] at hp
  | n :: ns, h, p, hp => by
    rw [nodeActs] at hp
    rcases List.mem_cons.1 hp with rfl | hp
    · obtain ⟨r, rfl⟩ := h n (List.mem_cons_self ..)
      rfl
    · exact seps_acts (fun m hm => h m (List.mem_cons_of_mem _ hm)) p hp

/-- The output of the parts one after the other. -/
theorem output_parts {cx : OutCx} {X Z Y : List Node} (hi : cx.indentLevel = 0) (hz : Seps Z) (hz' : Z ≠ []) (hw : ∀ n ∈ X ++ Z ++ Y, Sp cx.src n) :
    let out := Act.seq (contentActs (nodeActs (X ++ Z ++ Y) cx)) (line cx) true
    let out1 := Act.seq (contentActs (nodeActs X cx)) (line cx) true
    let out2 := Act.seq (contentActs (nodeActs Y cx)) (line cx) true
    out.ok = (out1.ok && out2.ok) ∧ (out.ok = true → JoinedBy cx.cfg out1.out out2.out out.out) := by
  dsimp only
  obtain ⟨ea, fa, a1, a2, a3, a4, a5⟩ := seq_end (cx := cx) (a := contentActs (nodeActs X cx)) (b := true) hi
  obtain ⟨eb, fb, b1, b2, b3, b4, b5⟩ := seq_end (cx := cx) (a := contentActs (nodeActs Y cx)) (b := true) hi
  obtain ⟨e, f, c1, c2, c3, c4, c5⟩ := seq_end (cx := cx) (a := contentActs (nodeActs (X ++ Z ++ Y) cx)) (b := true) hi
  have hn : nodeActs Z cx ≠ [] := by
    cases Z with
    | nil => exact absurd rfl hz'
    | cons => simp [nodeActs]
  have := content_acts (cx := cx) (A := nodeActs X cx) (Z := nodeActs Z cx) (B := nodeActs Y cx) hi
    (by rw [← nodeActs_append, ← nodeActs_append]; exact acts_space) (seps_acts hz) hn
  rw [← nodeActs_append, ← nodeActs_append] at this
  rw [a1, a2, b1, b2, c1, c2]
  have ww : ∀ w, SepText cx (nodeActs (X ++ Z ++ Y) cx) w → ∀ c ∈ w, White c := fun w h => sepText_white hi h hw
  clear a1 a2 b1 b2 c1 c2
  generalize contentActs (nodeActs X cx) = A at *
  generalize contentActs (nodeActs Y cx) = B at *
  generalize contentActs (nodeActs (X ++ Z ++ Y) cx) = C at *
  rcases this with ⟨w, h, hw'⟩ | ⟨rfl, h⟩ | ⟨rfl, h⟩
  · have := ww w hw'
    rw [h] at c3 c5 ⊢
    simp only [Act.seq, Act.write, Act.setFs, if_true] at c3 c5 ⊢
    cases ha : (A true).ok with
    | false => simp [ha]
    | true =>
      cases hb : (B true).ok with
      | false => simp
      | true =>
        simp only [ha, hb, if_true, Bool.and_self, true_and, forall_const] at c3 c5 ⊢
        rw [b3] at c3
        simp only [Emit.mk.injEq] at c3
        exact ⟨(A true).out, ea, w, rfl, a4, this, by simp [c3.1]⟩
  · rw [h] at b3 b5 ⊢
    rw [a3] at c3
    simp only [Emit.mk.injEq] at c3
    obtain ⟨rfl, -⟩ := c3
    have := b5 rfl
    subst this
    refine ⟨by simp, fun hk => ?_⟩
    simp only [hk, if_true]
    exact ⟨_, [], [], (List.append_nil _).symm, .inl rfl, by simp, by simp⟩
  · rw [h] at a3 a5 ⊢
    rw [b3] at c3
    simp only [Emit.mk.injEq] at c3
    obtain ⟨rfl, -⟩ := c3
    have := a5 rfl
    subst this
    refine ⟨by simp, fun hk => ?_⟩
    simp only [hk, if_true]
    exact ⟨[], [], [], rfl, .inl rfl, by simp, by simp⟩

theorem good_left {src : Str} {a b : List Node} (h : ∀ x ∈ nodesTexts (a ++ b), Good src x) : ∀ x ∈ nodesTexts a, Good src x :=
  fun x hx => h x (by rw [nodesTexts_append]; exact List.mem_append_left _ hx)

theorem good_right {src : Str} {a b : List Node} (h : ∀ x ∈ nodesTexts (a ++ b), Good src x) : ∀ x ∈ nodesTexts b, Good src x :=
  fun x hx => h x (by rw [nodesTexts_append]; exact List.mem_append_right _ hx)

theorem linesOk_append {s : Str} : ∀ {A B : List Ast.Line}, LinesOk s (A ++ B) ↔ LinesOk s A ∧ LinesOk s B
  | [], B => by simp [LinesOk]
  | .mk a ns b :: A, B => by simp only [List.cons_append, LinesOk, linesOk_append, and_assoc]

theorem lineOk_nil : LineOk [] := ⟨[], [], .nil, .inl (by simp)⟩

theorem output_of {cfg : OutputConfig} (hc : cfg.completePage.getD false = false) (src : Str) (doc : Document) :
    outputHtmlTo src doc cfg =
      ((Act.seq (contentActs (nodeActs doc.nodes ⟨cfg, src, 0, false, false⟩)) (line ⟨cfg, src, 0, false, false⟩) true).out,
        (Act.seq (contentActs (nodeActs doc.nodes ⟨cfg, src, 0, false, false⟩)) (line ⟨cfg, src, 0, false, false⟩) true).ok) := by
  unfold outputHtmlTo processContent
  rw [hc]
  simp only [Bool.false_eq_true, if_false]
  rw [skip_seq]

/-- What is needed of the trees of the parts and of the whole. -/
theorem parts_convert {p1 p2 p : Parser} {s1 s2 s : Str} {a a1 a2 b b1 b2 x y u v : Nat} {L1 L2 A B : List Ast.Line} {ns : List Ast.Node}
    {cfg : OutputConfig} {alnum : Char → Bool}
    (h1 : p1 s1 = .ok ⟨.mk a1 L1 b1⟩) (h2 : p2 s2 = .ok ⟨.mk a2 L2 b2⟩) (h : p s = .ok ⟨.mk a (A ++ .mk x [] y :: .mk u ns v :: B) b⟩)
    (g1 : Grammar.Conforms alnum s1 ⟨.mk a1 L1 b1⟩ = true) (g2 : Grammar.Conforms alnum s2 ⟨.mk a2 L2 b2⟩ = true)
    (g : Grammar.Conforms alnum s ⟨.mk a (A ++ .mk x [] y :: .mk u ns v :: B) b⟩ = true)
    (hA : SameLines cfg.specialTags s1 s L1 A) (hB : SameLines cfg.specialTags s2 s L2 (.mk u ns v :: B)) (hs : ShowsContent ns)
    (hm : cfg.metadata = none) (hc : cfg.completePage.getD false = false) :
    (∀ out1 out2, convert p1 s1 cfg = .ok out1 → convert p2 s2 cfg = .ok out2 →
      ∃ out, convert p s cfg = .ok out ∧ JoinedBy cfg out1 out2 out) ∧
    (∀ out, convert p s cfg = .ok out → ∃ out1 out2, convert p1 s1 cfg = .ok out1 ∧ convert p2 s2 cfg = .ok out2) := by
  obtain ⟨doc1, es1, l1, w1⟩ := build_cases s1 ⟨.mk a1 L1 b1⟩
  obtain ⟨doc2, es2, l2, w2⟩ := build_cases s2 ⟨.mk a2 L2 b2⟩
  obtain ⟨doc, es, l, w⟩ := build_cases s ⟨.mk a (A ++ .mk x [] y :: .mk u ns v :: B) b⟩
  have hw : WellFormed s ⟨.mk a (A ++ .mk x [] y :: .mk u ns v :: B) b⟩ ↔ WellFormed s1 ⟨.mk a1 L1 b1⟩ ∧ WellFormed s2 ⟨.mk a2 L2 b2⟩ := by
    have e1 := lines_ok hA
    have e2 := lines_ok hB
    simp only [WellFormed]
    rw [linesOk_append, LinesOk, e1, e2]
    simp only [itemsOf, lineOk_nil, true_and]
  by_cases hn : es = []
  · obtain ⟨k1, k2⟩ := hw.1 (w.1 hn)
    have hn1 := w1.2 k1
    have hn2 := w2.2 k2
    subst hn hn1 hn2
    have f1 := l1.fastOk rfl (Errors.new cfg)
    have f2 := l2.fastOk rfl (Errors.new cfg)
    have f := l.fastOk rfl (Errors.new cfg)
    have hd := C55_structure _ _ _ _ _ _ f
    obtain ⟨X, Z, Y, e1, z1, z2, j1, j2⟩ := content_parts (C55_structure _ _ _ _ _ _ f1) (C55_structure _ _ _ _ _ _ f2) hd hA hB hs
    obtain ⟨X', Z', Y', e2, z3, z4, t, j3, j4⟩ := written_parts f1 f2 f e1 z1 z2 j1 j2 hm hc
    have hsp := spaces_white g hd
    have hg1 := written_good (C12_grammar_positions _ _ _ g1) f1 hm
    have hg2 := written_good (C12_grammar_positions _ _ _ g2) f2 hm
    have hg := written_good (C12_grammar_positions _ _ _ g) f hm
    have q1 := C17_single cfg f1
    have q2 := C17_single cfg f2
    have q := C17_single cfg f
    rw [e2] at hg q
    have o1 := acts_same j3 rfl rfl q1 (fun n hn => q n (by simp only [List.mem_append]; tauto)) hg1 (good_left (good_left hg)) ⟨cfg, s1, 0, false, false⟩
    have o2 := acts_same j4 rfl rfl q2 (fun n hn => q n (by simp only [List.mem_append]; tauto)) hg2 (good_right hg) ⟨cfg, s2, 0, false, false⟩
    have hsp' : ∀ n ∈ X' ++ Z' ++ Y', Sp s n := by
      intro n hn r k hk
      subst hk
      simp only [List.mem_append] at hn
      rcases hn with (hn | hn) | hn
      · obtain ⟨r', hr⟩ := t r _ (List.mem_append.2 (by tauto))
        exact hsp _ hr _ _ rfl
      · obtain ⟨r', hr⟩ := z3 _ hn
        cases hr
      · obtain ⟨r', hr⟩ := t r _ (List.mem_append.2 (by tauto))
        exact hsp _ hr _ _ rfl
    obtain ⟨k1, k2⟩ := output_parts (cx := ⟨cfg, s, 0, false, false⟩) rfl z3 z4 hsp'
    rw [convert_ok h1 l1, convert_ok h2 l2, convert_ok h l, output_of hc, output_of hc, output_of hc, e2]
    simp only [withSrc] at o1 o2
    have r1 : line ⟨cfg, s1, 0, false, false⟩ = line ⟨cfg, s, 0, false, false⟩ := rfl
    have r2 : line ⟨cfg, s2, 0, false, false⟩ = line ⟨cfg, s, 0, false, false⟩ := rfl
    rw [o1, o2, r1, r2]
    generalize Act.seq (contentActs (nodeActs X' ⟨cfg, s, 0, false, false⟩)) (line ⟨cfg, s, 0, false, false⟩) true = E1 at k1 k2 ⊢
    generalize Act.seq (contentActs (nodeActs Y' ⟨cfg, s, 0, false, false⟩)) (line ⟨cfg, s, 0, false, false⟩) true = E2 at k1 k2 ⊢
    generalize Act.seq (contentActs (nodeActs (X' ++ Z' ++ Y') ⟨cfg, s, 0, false, false⟩)) (line ⟨cfg, s, 0, false, false⟩) true = E at k1 k2 ⊢
    rcases E1 with ⟨o1, u1, c1⟩
    rcases E2 with ⟨o2, u2, c2⟩
    rcases E with ⟨o, u, c⟩
    dsimp only at k1 k2 ⊢
    subst k1
    cases c1 <;> cases c2
    · exact ⟨fun _ _ h => (by cases h), fun _ h => (by cases h)⟩
    · exact ⟨fun _ _ h => (by cases h), fun _ h => (by cases h)⟩
    · exact ⟨fun _ _ _ h => (by cases h), fun _ h => (by cases h)⟩
    · refine ⟨fun x1 x2 h1 h2 => ?_, fun _ _ => ⟨_, _, rfl, rfl⟩⟩
      cases h1
      cases h2
      exact ⟨_, rfl, k2 rfl⟩
  · have hb : es1 ≠ [] ∨ es2 ≠ [] := by
      by_contra hk
      simp only [not_or, not_not] at hk
      exact hn (w.2 (hw.2 ⟨w1.1 hk.1, w2.1 hk.2⟩))
    obtain ⟨e, -, -, -, c⟩ := convert_bad h l hn cfg
    constructor
    · intro out1 out2 c1 c2
      exfalso
      rcases hb with hb | hb
      · obtain ⟨e, -, -, -, c⟩ := convert_bad h1 l1 hb cfg
        rw [c] at c1; cases c1
      · obtain ⟨e, -, -, -, c⟩ := convert_bad h2 l2 hb cfg
        rw [c] at c2; cases c2
    · intro out hk
      rw [c] at hk; cases hk

end Parts
end Mty
