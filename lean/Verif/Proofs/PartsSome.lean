import Verif.Proofs.PartsRules

/-! # What the rules of the parser read, with more text after the source (for C76) -/

set_option autoImplicit false

namespace Mty.Grammar.More
open Pat Lex Spec

variable {y : Str}

theorem ext_lineEnd : Ext lineEnd := by
  refine ⟨sound_lineEnd, fun b a y _ => ?_⟩
  cases a with
  | nil => simp [lineEnd, add]
  | cons c a =>
    simp only [lineEnd, List.cons_append]
    split <;> rfl

theorem ext_followsIndent : Ext followsIndent := by
  refine ⟨sound_followsIndent, fun b a y _ => ?_⟩
  rw [followsIndent, followsIndent]
  generalize b.reverse.dropWhile (fun c => decide (c = '\t') || decide (c = ' ')) = z
  cases z with
  | nil => rfl
  | cons c z => dsimp only; split <;> rfl

theorem fence_ne (k : MultilineKind) : '\n' ∉ [fence k, fence k, fence k] := by cases k <;> decide

/-- The end of a multi-line text other than the end of the source. -/
theorem lazy_fence {q : Pat} (hq : Ext q) : ∀ {a b m r : Str}, NoSlash a → lazyThen (alt srcEnd q) b a = some (m, r) → r ≠ [] →
    lazyThen (alt srcEnd q) b (a ++ '\n' :: y) = some (m, r ++ '\n' :: y)
  | [], b, m, r, ha, h, hr => by
    rw [lazyThen] at h
    have : (alt srcEnd q) b [] = some ([], []) := rfl
    rw [this] at h
    cases h
    exact absurd rfl hr
  | c :: a, b, m, r, ha, h, hr => by
    have e1 : ∀ z, alt srcEnd q b (c :: z) = q b (c :: z) := fun z => by rw [alt, srcEnd]; simp
    rw [lazyThen, e1] at h
    rw [List.cons_append, lazyThen, e1, ← List.cons_append, hq.ext b (c :: a) y ha]
    cases h1 : q b (c :: a) with
    | some x => rw [h1] at h; cases h; rfl
    | none =>
      rw [h1] at h
      dsimp only at h
      cases h2 : lazyThen (alt srcEnd q) (b ++ [c]) a with
      | none => rw [h2] at h; cases h
      | some z =>
        obtain ⟨m', r'⟩ := z
        rw [h2] at h
        cases h
        have := lazy_fence hq (NoSlash.suffix (m := [c]) ha) h2 hr
        rw [Option.map_none, this]

theorem multilineBody_more {k : MultilineKind} {b a m r : Str} (ha : NoSlash a)
    (h : multilineBody [fence k, fence k, fence k] b a = some (m, r)) (hr : r ≠ []) :
    multilineBody [fence k, fence k, fence k] b (a ++ '\n' :: y) = some (m, r ++ '\n' :: y) := by
  obtain ⟨m1, r1, m2, h1, h2, rfl⟩ := seq_some h
  have hne : a ≠ [] := by rintro rfl; simp [chr] at h1
  have e1 := (extNe_chr (fun _ => true)).ext b a y ha hne
  rw [h1] at e1
  rw [multilineBody, seq, e1]
  simp only [Option.map_some, add]
  rw [lazy_fence (ext_seq (ext_precedes (ext_exact (fence_ne k))) ext_followsIndent) ((sound_chr _).noSlash h1 ha) h2 hr]

theorem multiline_more {k : MultilineKind} {s s1 : Pos} {ty} (hs : NoSlash s.after) (h : multiline k s = some (ty, s1)) :
    multiline k (more y s) = some (ty, more y s1) := by
  rw [multiline] at h
  cases h1 : token (multilineOpen [fence k, fence k, fence k]) s with
  | none => rw [h1] at h; cases h
  | some x =>
    obtain ⟨o, p1⟩ := x
    rw [h1] at h
    dsimp only at h
    have ho : Ext (multilineOpen [fence k, fence k, fence k]) :=
      ext_seq (ext_exact (fence_ne k)) (ext_seq (ext_many (ext_chr (by decide))) ext_lineEnd)
    have hs1 := (token_adv ho.sound h1).noSlash hs
    cases h2 : token (multilineBody [fence k, fence k, fence k]) p1 with
    | none => rw [h2] at h; cases h
    | some x =>
      obtain ⟨body, p2⟩ := x
      rw [h2] at h
      dsimp only at h
      have hs2 := (token_adv (sound_multilineBody _) h2).noSlash hs1
      have hc : Ext (multilineClose (fence k)) := ext_seq (ext_exact (fence_ne k)) (ext_notPrecedes (ext_chr (by cases k <;> decide)))
      cases h3 : token (multilineClose (fence k)) p2 with
      | none => rw [h3] at h; cases h
      | some x =>
        rw [h3] at h
        cases h
        have hne : p2.after ≠ [] := by
          have := (token_adv1 hc.sound (ne_seq1 (ne_exact (by simp))) h3).lt
          intro e
          rw [e] at this
          simp at this
        have e2 : token (multilineBody [fence k, fence k, fence k]) (more y p1) = some (body, more y p2) := by
          refine token_more_some h2 fun m t ht => ?_
          obtain ⟨m', t', h', rfl, _⟩ := token_cases h2
          rw [ht] at h'
          cases h'
          exact multilineBody_more hs1 ht hne
        rw [multiline, token_more ho hs, h1]
        dsimp only [Option.map]
        rw [e2]
        dsimp only
        rw [token_more hc hs2, h3]
        rfl

theorem tail_none {k : Nat} {s : Pos} (h : ¬ (List.replicate k '#' ++ "[".toList) <+: s.after) : token (verbatimTail k) s = none := by
  rw [token_none, verbatimTail, seq, exact_none.2 h]

theorem tail_prefix {k : Nat} {s : Pos} {x} (h : token (verbatimTail k) s = some x) : (List.replicate k '#' ++ "[".toList) <+: s.after := by
  by_contra hc
  rw [tail_none hc] at h
  cases h

theorem tail_more {k : Nat} {s s1 : Pos} {r : Range} (hs : NoSlash s.after) (h : token (verbatimTail k) s = some (r, s1)) :
    token (verbatimTail k) (more y s) = some (r, more y s1) :=
  token_more_some h fun _ _ ht => verbatimTail_ext k hs ht

theorem tail_other {k j : Nat} (hk : k < 3) (hj : j < 3) (hne : j ≠ k) {s : Pos}
    (h : (List.replicate k '#' ++ "[".toList) <+: s.after) : token (verbatimTail j) (more y s) = none := by
  refine tail_none ?_
  have hn : ∀ i, '\n' ∉ List.replicate i '#' ++ "[".toList := fun i => by simp
  show ¬ _ <+: s.after ++ '\n' :: y
  rw [prefix_more (hn j)]
  obtain ⟨r, hr⟩ := h
  rw [← hr]
  have hk' : k = 0 ∨ k = 1 ∨ k = 2 := by omega
  have hj' : j = 0 ∨ j = 1 ∨ j = 2 := by omega
  clear hr
  rcases hk' with rfl | rfl | rfl <;> rcases hj' with rfl | rfl | rfl <;> first | exact absurd rfl hne | simp [List.replicate]

theorem verbatimEnd_more {s s1 : Pos} {t} (hs : NoSlash s.after) (h : verbatimEnd s = some (t, s1)) :
    verbatimEnd (more y s) = some (t, more y s1) := by
  rw [verbatimEnd] at h
  rw [verbatimEnd]
  cases h0 : token (verbatimTail 0) s with
  | some x =>
    rw [h0] at h
    cases h
    rw [tail_more hs h0]
  | none =>
    rw [h0] at h
    dsimp only at h
    cases h1 : token (verbatimTail 1) s with
    | some x =>
      rw [h1] at h
      cases h
      rw [tail_other (by omega) (by omega) (by omega) (tail_prefix h1), tail_more hs h1]
    | none =>
      rw [h1] at h
      dsimp only at h
      cases h2 : token (verbatimTail 2) s with
      | some x =>
        rw [h2] at h
        cases h
        rw [tail_other (by omega) (by omega) (by omega) (tail_prefix h2), tail_other (by omega) (by omega) (by omega) (tail_prefix h2),
          tail_more hs h2]
      | none => rw [h2] at h; cases h

theorem verbatim_more {s s1 : Pos} {ty} (hs : NoSlash s.after) (h : verbatim s = some (ty, s1)) :
    verbatim (more y s) = some (ty, more y s1) := by
  rw [verbatim] at h
  cases h0 : token (exact "<[".toList) s with
  | none => rw [h0] at h; cases h
  | some x =>
    obtain ⟨o, p1⟩ := x
    rw [h0] at h
    dsimp only at h
    have hs1 := (token_adv (sound_exact _) h0).noSlash hs
    rw [verbatim, token_more (ext_exact (by decide)) hs, h0]
    dsimp only [Option.map]
    rw [token_more (ext_exact (by decide)) hs1]
    cases h1 : token (exact "raw".toList) p1 with
    | none =>
      rw [h1] at h
      dsimp only [Option.map] at h ⊢
      cases h2 : verbatimEnd p1 with
      | none => rw [h2] at h; cases h
      | some z => rw [h2] at h; cases h; rw [verbatimEnd_more hs1 h2]
    | some x =>
      obtain ⟨k, p2⟩ := x
      rw [h1] at h
      dsimp only [Option.map] at h ⊢
      cases h2 : verbatimEnd p2 with
      | none => rw [h2] at h; cases h
      | some z => rw [h2] at h; cases h; rw [verbatimEnd_more ((token_adv (sound_exact _) h1).noSlash hs1) h2]

theorem comment_more {s s1 : Pos} {ty} {src : Str} (hs : NoSlash s.after) (h : comment s = some (ty, s1)) (hc : closedType src ty = true) :
    comment (more y s) = some (ty, more y s1) := by
  rw [comment] at h
  cases h0 : token (exact "<!".toList) s with
  | none => rw [h0] at h; cases h
  | some x =>
    obtain ⟨o, p1⟩ := x
    rw [h0] at h
    dsimp only at h
    have hs1 := (token_adv (sound_exact _) h0).noSlash hs
    rw [comment, token_more (ext_exact (by decide)) hs, h0]
    dsimp only [Option.map]
    cases h1 : token (fun _ r => some (commentParts 0 r)) p1 with
    | none => rw [h1] at h; cases h
    | some x =>
      obtain ⟨i, p2⟩ := x
      rw [h1] at h
      dsimp only at h
      cases h2 : token (exact "!>".toList) p2 with
      | none =>
        rw [h2] at h
        cases h
        simp [closedType] at hc
      | some x =>
        obtain ⟨c, p3⟩ := x
        rw [h2] at h
        cases h
        have hne : p2.after ≠ [] := by
          rw [token_exact_some h2]
          simp
        have e1 : token (fun _ r => some (commentParts 0 r)) (more y p1) = some (i, more y p2) := by
          refine token_more_some h1 fun m t ht => ?_
          obtain ⟨m', t', h', rfl, _⟩ := token_cases h1
          rw [ht] at h'
          cases h'
          simp only [Option.some.injEq] at ht ⊢
          exact comment_ext p1.after.length 0 _ y m t (Nat.le_refl _) ht hne
        rw [e1]
        dsimp only
        rw [token_more (ext_exact (by decide)) ((token_adv sound_comment h1).noSlash hs1), h2]
        rfl

theorem exact_lazy_more {o c : Str} (ho : '\n' ∉ o) (hc : '\n' ∉ c) {b a m r : Str} (ha : NoSlash a)
    (h : seq (exact o) (lazyThen (exact c)) b a = some (m, r)) :
    seq (exact o) (lazyThen (exact c)) b (a ++ '\n' :: y) = some (m, r ++ '\n' :: y) := by
  obtain ⟨m1, r1, m2, h1, h2, rfl⟩ := seq_some h
  rw [seq, (ext_exact ho).some ha h1]
  simp only
  rw [lazyThen_ext (ext_exact hc) ((sound_exact _).noSlash h1 ha) h2]

theorem interpolation_more {b a m r : Str} (ha : NoSlash a) (h : interpolation b a = some (m, r)) :
    interpolation b (a ++ '\n' :: y) = some (m, r ++ '\n' :: y) := by
  rw [interpolation] at h ⊢
  generalize hA : (seq (notFollows fun c => decide (c ∈ ['\\', '{']))
      (seq (exact "{{".toList)
        (seq (notPrecedes (chr (· = '{')))
          (lazyThen (seq (notFollows fun c => decide (c ∈ ['\\', '}'])) (seq (exact "}}".toList) (notPrecedes (chr (· = '}')))))))) : Pat) = A at h ⊢
  have a1 : ∀ {z : Str}, ¬ "{{".toList <+: z → A b z = none := by
    intro z hz
    subst hA
    rw [seq]
    cases hn : notFollows (fun c => decide (c ∈ ['\\', '{'])) b z with
    | none => rfl
    | some x =>
      have : x = ([], z) := by
        rw [notFollows] at hn
        split at hn
        · split at hn <;> cases hn; rfl
        · cases hn; rfl
      subst this
      simp only [List.append_nil]
      rw [seq, exact_none.2 hz]
  have a2 : ∀ {t t' : Str}, t <+: a → t'.length = t.length → t' ≠ t → '\n' ∉ t' → ¬ t' <+: a ++ '\n' :: y := by
    intro t t' h1 h2 h3 h4 h5
    rw [prefix_more h4] at h5
    exact h3 ((List.prefix_of_prefix_length_le h5 h1 (by omega)).eq_of_length h2)
  rcases alt_some h with h | ⟨_, h⟩
  · have : A b (a ++ '\n' :: y) = some (m, r ++ '\n' :: y) := by
      subst hA
      obtain ⟨m1, r1, m2, h1, h2, rfl⟩ := seq_some h
      obtain ⟨m3, r3, m4, h3, h4, rfl⟩ := seq_some h2
      obtain ⟨m5, r5, m6, h5, h6, rfl⟩ := seq_some h4
      have ha1 := (sound_notFollows _).noSlash h1 ha
      have ha3 := (sound_exact _).noSlash h3 ha1
      have hx : Ext (notPrecedes (chr (· = '{'))) := ext_notPrecedes (ext_chr (by decide))
      have ha5 := hx.sound.noSlash h5 ha3
      rw [seq, (ext_notFollows _).some ha h1]
      simp only
      rw [seq, (ext_exact (by decide)).some ha1 h3]
      simp only
      rw [seq, hx.some ha3 h5]
      simp only
      rw [lazyThen_ext (ext_seq (ext_notFollows _) (ext_seq (ext_exact (by decide)) (ext_notPrecedes (ext_chr (by decide))))) ha5 h6]
    rw [alt, this]
  · have pre : ∀ {o : Str} {q : Pat} {x}, seq (exact o) q b a = some x → o <+: a := by
      intro o q x hx
      by_contra hc
      rw [seq, exact_none.2 hc] at hx
      cases hx
    have non : ∀ {o z : Str} {q : Pat}, ¬ o <+: z → seq (exact o) q b z = none := by
      intro o z q hz
      rw [seq, exact_none.2 hz]
    rcases alt_some h with h | ⟨_, h⟩
    · rw [alt, a1 (a2 (pre h) rfl (by decide) (by decide)), alt, exact_lazy_more (by decide) (by decide) ha h]
    · rcases alt_some h with h | ⟨_, h⟩
      · rw [alt, a1 (a2 (pre h) rfl (by decide) (by decide)), alt, non (o := "{%".toList) (a2 (pre h) rfl (by decide) (by decide)), alt,
          exact_lazy_more (by decide) (by decide) ha h]
      · rw [alt, a1 (a2 (pre h) rfl (by decide) (by decide)), alt, non (o := "{%".toList) (a2 (pre h) rfl (by decide) (by decide)), alt,
          non (o := "<%".toList) (a2 (pre h) rfl (by decide) (by decide)), exact_lazy_more (by decide) (by decide) ha h]

/-! ## Selectors -/

theorem ne_attributeName : NE attributeName := by
  unfold attributeName many1
  exact ne_seq1 (ne_alt (ne_chr _) ne_escape)

theorem ne_unquotedValue : NE unquotedValue := by
  unfold unquotedValue many1
  exact ne_seq1 (ne_alt (ne_chr _) ne_escape)

theorem ne_quoted : NE quotedString := ne_alt (ne_seq1 (ne_chr _)) (ne_seq1 (ne_chr _))

theorem attributeValue_more {s s1 : Pos} {v} (hs : NoSlash s.after) (h : attributeValue s = some (v, s1)) :
    attributeValue (more y s) = some (v, more y s1) := by
  rw [attributeValue] at h ⊢
  rw [token_more ext_unquotedValue hs]
  cases h1 : token unquotedValue s with
  | some x => rw [h1] at h; cases h; rfl
  | none =>
    rw [h1] at h
    dsimp only [Option.map] at h ⊢
    cases h2 : token quotedString s with
    | none => rw [h2] at h; cases h
    | some x =>
      rw [h2] at h
      cases h
      rw [token_more_some h2 fun _ _ ht => quoted_ext hs ht]

/-- Text after white space. -/
theorem many_white_more {b a : Str} (h : NonBlank a) :
    many (chr isWhitespace) b (a ++ '\n' :: y) = some (a.takeWhile isWhitespace, a.dropWhile isWhitespace ++ '\n' :: y) := by
  rw [many_blank, (span_more isWhitespace h).1, (span_more isWhitespace h).2]

theorem assignment_eq {b a : Str} : assignment b a =
    match a.dropWhile isWhitespace with
    | '=' :: r => some (a.takeWhile isWhitespace ++ '=' :: r.takeWhile isWhitespace, r.dropWhile isWhitespace)
    | _ => none := by
  rw [assignment, seq, many_blank]
  dsimp only
  rw [seq]
  cases h : a.dropWhile isWhitespace with
  | nil => rfl
  | cons c r =>
    by_cases hc : c = '='
    · subst hc
      simp only [chr, decide_true, if_true]
      rw [many_blank]
      simp
    · simp only [chr, hc, decide_false, Bool.false_eq_true, if_false]
      split
      · rename_i e; cases e; exact absurd rfl hc
      · rfl

theorem assignment_more {b a m r : Str} (h : assignment b a = some (m, r)) (hr : NonBlank r) :
    assignment b (a ++ '\n' :: y) = some (m, r ++ '\n' :: y) := by
  have hb : NonBlank a := by
    have hs := sound_assignment _ _ _ _ h
    rw [nonBlank_iff] at hr ⊢
    obtain ⟨c, hc, h1⟩ := hr
    exact ⟨c, by rw [hs]; exact List.mem_append_right _ hc, h1⟩
  rw [assignment_eq] at h ⊢
  rw [(span_more isWhitespace hb).1, (span_more isWhitespace hb).2]
  split at h
  · rename_i r' hr'
    cases h
    rw [hr', List.cons_append]
    have : NonBlank r' := by rw [NonBlank] at hr ⊢; intro e; rw [e] at hr; exact hr rfl
    simp only [(span_more isWhitespace this).1, (span_more isWhitespace this).2]
  · cases h

theorem assignment_more_none {b a : Str} (hb : NonBlank a) (h : assignment b a = none) : assignment b (a ++ '\n' :: y) = none := by
  rw [assignment_eq] at h ⊢
  rw [(span_more isWhitespace hb).2]
  obtain ⟨c, r, hc⟩ := List.exists_cons_of_ne_nil hb
  rw [hc] at h ⊢
  rw [List.cons_append]
  split at h
  · cases h
  · rename_i h1
    split
    · rename_i r' h2
      cases h2
      exact absurd rfl (h1 r)
    · rfl

theorem closing_head {t : Str} {s : Pos} {c : Char} {r : Str} (hd : s.after.dropWhile isWhitespace = c :: r) (ht : t.head? ≠ some c)
    (htn : t ≠ []) : (closing t s).1 = none := by
  have : token (exact t) (skip isWhitespace s) = none := by
    rw [token_exact_none]
    show ¬ t <+: s.after.dropWhile isWhitespace
    rw [hd]
    cases t with
    | nil => exact absurd rfl htn
    | cons d t =>
      simp only [List.head?_cons, ne_eq, Option.some.injEq] at ht
      simp [ht]
  rw [closing, this]

/-- An attribute, if the bracket is closed later. -/
theorem oneAttribute_more {s : Pos} (hs : NoSlash s.after) (hb : NonBlank s.after)
    (hc : ∀ a s1, oneAttribute s = some (a, s1) → NonBlank s1.after ∧
      (∀ r, s1.after.dropWhile isWhitespace = '=' :: r → False)) :
    oneAttribute (more y s) = (oneAttribute s).map fun x => (x.1, more y x.2) := by
  have hs0 := (skip_adv isWhitespace s).noSlash hs
  rw [oneAttribute] at hc ⊢
  rw [oneAttribute, skip_more hb, token_more ext_attributeName hs0]
  cases h1 : token attributeName (skip isWhitespace s) with
  | none => rfl
  | some x =>
    obtain ⟨name, p1⟩ := x
    have hs1 := (token_adv sound_attributeName h1).noSlash hs0
    rw [h1] at hc
    dsimp only [Option.map] at hc ⊢
    rw [attributeAssignment] at hc ⊢
    rw [attributeAssignment]
    cases h2 : token assignment p1 with
    | none =>
      rw [h2] at hc
      dsimp only at hc ⊢
      have hb1 := (hc _ _ rfl).1
      have : token assignment (more y p1) = none := token_none.2 (assignment_more_none hb1 (token_none.1 h2))
      rw [this]
    | some x =>
      obtain ⟨r2, p2⟩ := x
      rw [h2] at hc
      dsimp only at hc ⊢
      cases h3 : attributeValue p2 with
      | none =>
        rw [h3] at hc
        dsimp only at hc
        exfalso
        obtain ⟨m, t, h4, _, _⟩ := token_cases h2
        rw [assignment_eq] at h4
        split at h4
        · rename_i r hr
          exact (hc _ _ rfl).2 r hr
        · cases h4
      | some z =>
        obtain ⟨v, p3⟩ := z
        rw [h3] at hc
        dsimp only at hc ⊢
        have hb3 := (hc _ _ rfl).1
        have hb2 := (attributeValue_adv h3).nonBlank hb3
        have : token assignment (more y p1) = some (r2, more y p2) := by
          refine token_more_some h2 fun m t ht => ?_
          obtain ⟨m', t', h', rfl, _⟩ := token_cases h2
          rw [ht] at h'
          cases h'
          exact assignment_more ht hb2
        rw [this]
        dsimp only
        rw [attributeValue_more ((token_adv sound_assignment h2).noSlash hs1) h3]
        rfl

theorem oneAttribute_equals {s : Pos} {r : Str} (h : s.after.dropWhile isWhitespace = '=' :: r) : oneAttribute s = none := by
  have : token attributeName (skip isWhitespace s) = none := by
    rw [token_none]
    show attributeName _ (s.after.dropWhile isWhitespace) = none
    rw [h]
    have h1 : alt (chr fun c => !decide (c ∈ "=>'\"/[]\\".toList) && !isWhitespace c) escape (skip isWhitespace s).before ('=' :: r) = none := by
      have : (!decide ('=' ∈ "=>'\"/[]\\".toList) && !isWhitespace '=') = false := by decide +kernel
      rw [alt, chr, this]
      simp only [Bool.false_eq_true, if_false]
      cases he : escape (skip isWhitespace s).before ('=' :: r) with
      | none => rfl
      | some x => exact absurd (escape_head he) (by simp)
    rw [attributeName, many1, seq, h1]
  rw [oneAttribute, this]

theorem oneAttribute_adv1 {s : Pos} {x} (h : oneAttribute s = some x) : Adv1 s x.2 := by
  rw [oneAttribute] at h
  split at h
  · cases h
  · rename_i h1
    have h1 := (skip_adv _ s).trans1 (token_adv1 sound_attributeName ne_attributeName h1)
    split at h
    · cases h; exact h1
    · rename_i h2; cases h; exact h1.trans (attributeAssignment_adv h2)

theorem attributeList_enough : ∀ (n k : Nat) (s : Pos), s.after.length ≤ n → s.after.length ≤ k → attributeList n s = attributeList k s
  | 0, 0, s, _, _ => rfl
  | 0, k + 1, s, h, _ => by
    have : oneAttribute s = none := by
      cases hx : oneAttribute s with
      | none => rfl
      | some x => have := (oneAttribute_adv1 hx).lt; omega
    rw [attributeList, attributeList, this]
  | n + 1, 0, s, _, h => by
    have : oneAttribute s = none := by
      cases hx : oneAttribute s with
      | none => rfl
      | some x => have := (oneAttribute_adv1 hx).lt; omega
    rw [attributeList, attributeList, this]
  | n + 1, k + 1, s, h, h' => by
    rw [attributeList, attributeList]
    cases hx : oneAttribute s with
    | none => rfl
    | some x =>
      have := (oneAttribute_adv1 hx).lt
      dsimp only
      rw [attributeList_enough n k x.2 (by omega) (by omega)]

theorem attributeList_more : ∀ (n : Nat) (s : Pos), NoSlash s.after → (closing "]".toList (attributeList n s).2).1.isSome = true →
    attributeList n (more y s) = ((attributeList n s).1, more y (attributeList n s).2)
  | 0, _, _, _ => rfl
  | n + 1, s, hs, h => by
    have hb : NonBlank s.after := (attributeList_adv (n + 1) s).nonBlank (closing_some closer_bracket h).1
    rw [attributeList] at h
    have key : oneAttribute (more y s) = (oneAttribute s).map fun x => (x.1, more y x.2) := by
      refine oneAttribute_more hs hb fun a s1 h1 => ?_
      rw [h1] at h
      dsimp only at h
      refine ⟨(attributeList_adv n s1).nonBlank (closing_some closer_bracket h).1, fun r hr => ?_⟩
      have : (attributeList n s1).2 = s1 := by
        cases n with
        | zero => rfl
        | succ n => rw [attributeList, oneAttribute_equals hr]
      rw [this, closing_head hr (by decide) (by decide)] at h
      cases h
    rw [attributeList, attributeList, key]
    cases h1 : oneAttribute s with
    | none => rfl
    | some x =>
      rw [h1] at h
      dsimp only [Option.map] at h ⊢
      rw [attributeList_more n x.2 ((oneAttribute_adv h1).noSlash hs) h]

theorem attributeSelector_more {s s1 : Pos} {a : Ast.AttributeSelector} (hs : NoSlash s.after) (h : attributeSelector s = some (a, s1))
    (hc : a.rBracket.isSome = true) : attributeSelector (more y s) = some (a, more y s1) := by
  rw [attributeSelector] at h ⊢
  rw [token_more (ext_exact (by decide)) hs]
  cases h1 : token (exact "[".toList) s with
  | none => rw [h1] at h; cases h
  | some x =>
    obtain ⟨l, p1⟩ := x
    rw [h1] at h
    dsimp only [Option.map] at h ⊢
    have hs1 := (token_adv (sound_exact _) h1).noSlash hs
    rw [attributeList_enough (more y p1).after.length ((more y p1).after.length + 0) (more y p1) (Nat.le_refl _) (Nat.le_refl _)]
    have e0 : attributeList p1.after.length p1 = attributeList (more y p1).after.length p1 :=
      attributeList_enough _ _ _ (Nat.le_refl _) (by simp [more])
    rw [e0] at h
    rw [Nat.add_zero]
    simp only [Option.some.injEq, Prod.mk.injEq] at h
    obtain ⟨rfl, rfl⟩ := h
    dsimp only at hc
    rw [attributeList_more _ p1 hs1 hc]
    dsimp only
    rw [closing_more closer_bracket ((attributeList_adv _ p1).noSlash hs1) hc]
    rfl

variable {alnum : Char → Bool}

theorem chain_more (hal : alnum '\n' = false) {tag : Bool} {s : Pos} (hs : NoSlash s.after) :
    chain alnum tag (more y s) = (chain alnum tag s).map fun x => (x.1, x.2.1, more y x.2.2) := by
  rw [chain, chain]
  rw [show (more y s).before = s.before from rfl, show (more y s).after = s.after ++ '\n' :: y from rfl,
    (ext_selectorChain hal).ext _ _ _ hs]
  cases selectorChain alnum s.before s.after with
  | none => rfl
  | some x =>
    obtain ⟨m, r⟩ := x
    simp only [Option.map_some, add]
    cases tag <;> (simp only [Bool.false_eq_true, if_true, if_false]; split <;> rfl)

def SegmentClosed : Ast.SelectorSegment → Bool
  | .attributes a => a.rBracket.isSome
  | .classLike _ => true

theorem selectorSegment_more (hal : alnum '\n' = false) {s : Pos} (hs : NoSlash s.after)
    (hc : ∀ g s1, selectorSegment alnum s = some (g, s1) → SegmentClosed g = true) :
    selectorSegment alnum (more y s) = (selectorSegment alnum s).map fun x => (x.1, more y x.2) := by
  rw [selectorSegment] at hc ⊢
  rw [selectorSegment, chain_more hal hs]
  cases h1 : attributeSelector s with
  | some x =>
    obtain ⟨a, s1⟩ := x
    rw [h1] at hc
    rw [attributeSelector_more hs h1 (hc _ _ rfl)]
    rfl
  | none =>
    have : attributeSelector (more y s) = none := by
      rw [attributeSelector_none_iff] at h1 ⊢
      exact fun h => h1 ((prefix_more (by decide)).1 h)
    rw [this]
    cases chain alnum false s <;> rfl

theorem selectorSegments_enough : ∀ (n k : Nat) (s : Pos), s.after.length ≤ n → s.after.length ≤ k →
    selectorSegments alnum n s = selectorSegments alnum k s
  | 0, 0, s, _, _ => rfl
  | 0, k + 1, s, h, _ => by
    have : selectorSegment alnum s = none := by
      cases hx : selectorSegment alnum s with
      | none => rfl
      | some x => have := (selectorSegment_adv alnum hx).lt; omega
    rw [selectorSegments, selectorSegments, this]
  | n + 1, 0, s, _, h => by
    have : selectorSegment alnum s = none := by
      cases hx : selectorSegment alnum s with
      | none => rfl
      | some x => have := (selectorSegment_adv alnum hx).lt; omega
    rw [selectorSegments, selectorSegments, this]
  | n + 1, k + 1, s, h, h' => by
    rw [selectorSegments, selectorSegments]
    cases hx : selectorSegment alnum s with
    | none => rfl
    | some x =>
      have := (selectorSegment_adv alnum hx).lt
      dsimp only
      rw [selectorSegments_enough n k x.2 (by omega) (by omega)]

theorem selectorSegments_more (hal : alnum '\n' = false) : ∀ (n : Nat) (s : Pos), NoSlash s.after →
    (selectorSegments alnum n s).1.all SegmentClosed = true →
    selectorSegments alnum n (more y s) = ((selectorSegments alnum n s).1, more y (selectorSegments alnum n s).2)
  | 0, _, _, _ => rfl
  | n + 1, s, hs, h => by
    rw [selectorSegments] at h ⊢
    rw [selectorSegments, selectorSegment_more hal hs]
    · cases h1 : selectorSegment alnum s with
      | none => rfl
      | some x =>
        rw [h1] at h
        simp only [List.all_cons, Bool.and_eq_true] at h
        dsimp only [Option.map]
        rw [selectorSegments_more hal n x.2 ((selectorSegment_adv alnum h1).adv.noSlash hs) h.2]
    · intro g s1 h1
      rw [h1] at h
      simp only [List.all_cons, Bool.and_eq_true] at h
      exact h.1

theorem selector_none_iff {s : Pos} : selector alnum s = none ↔ selectorStart alnum s = none := by
  rw [selector]
  cases selectorStart alnum s <;> simp

theorem selector_more_none (hal : alnum '\n' = false) {s : Pos} (hs : NoSlash s.after) (h : selector alnum s = none) :
    selector alnum (more y s) = none := by
  rw [selector_none_iff, selectorStart] at h ⊢
  cases h1 : attributeSelector s with
  | some x => rw [h1] at h; cases h
  | none =>
    rw [h1] at h
    have : attributeSelector (more y s) = none := by
      rw [attributeSelector_none_iff] at h1 ⊢
      exact fun h => h1 ((prefix_more (by decide)).1 h)
    rw [this, chain_more hal hs]
    dsimp only at h ⊢
    cases h2 : chain alnum true s with
    | none => rfl
    | some x => rw [h2] at h; cases h

theorem bracketsClosed_iff {s : Ast.Selector} (h : bracketsClosed s = true) :
    (∀ a, s.first = .attributes a → a.rBracket.isSome = true) ∧ s.segments.all SegmentClosed = true := by
  rw [bracketsClosed, Bool.and_eq_true] at h
  refine ⟨fun a ha => ?_, ?_⟩
  · rw [ha] at h; exact h.1
  · rw [List.all_eq_true] at h ⊢
    intro g hg
    have := h.2 g hg
    cases g <;> exact this

theorem selector_more (hal : alnum '\n' = false) {s s1 : Pos} {ty} {src : Str} (hs : NoSlash s.after)
    (h : selector alnum s = some (ty, s1)) (hc : closedType src ty = true) : selector alnum (more y s) = some (ty, more y s1) := by
  rw [selector] at h ⊢
  cases h1 : selectorStart alnum s with
  | none => rw [h1] at h; cases h
  | some x =>
    obtain ⟨first, p1⟩ := x
    rw [h1] at h
    simp only [Option.some.injEq, Prod.mk.injEq] at h
    obtain ⟨rfl, rfl⟩ := h
    have hs1 := (selectorStart_adv alnum h1).adv.noSlash hs
    rw [closedType, Bool.and_eq_true] at hc
    obtain ⟨hc1, hc2⟩ := bracketsClosed_iff hc.2
    dsimp only at hc1 hc2
    have e1 : selectorStart alnum (more y s) = some (first, more y p1) := by
      rw [selectorStart] at h1 ⊢
      cases h2 : attributeSelector s with
      | some x =>
        rw [h2] at h1
        cases h1
        rw [attributeSelector_more hs h2 (hc1 _ rfl)]
      | none =>
        rw [h2] at h1
        have : attributeSelector (more y s) = none := by
          rw [attributeSelector_none_iff] at h2 ⊢
          exact fun h => h2 ((prefix_more (by decide)).1 h)
        rw [this, chain_more hal hs]
        dsimp only at h1 ⊢
        cases h3 : chain alnum true s with
        | none => rw [h3] at h1; cases h1
        | some x => rw [h3] at h1; cases h1; rfl
    rw [e1]
    dsimp only
    have e0 : selectorSegments alnum p1.after.length p1 = selectorSegments alnum (more y p1).after.length p1 :=
      selectorSegments_enough _ _ _ (Nat.le_refl _) (by simp [more])
    rw [e0] at hc2 ⊢
    rw [selectorSegments_more hal _ p1 hs1 hc2]
    rfl

theorem code_more {f : Range → Ast.NodeType} {s s1 : Pos} {ty} (hs : NoSlash s.after) (h : leaf inlineCode f s = some (ty, s1)) :
    leaf inlineCode f (more y s) = some (ty, more y s1) := by
  rw [leaf] at h ⊢
  cases h1 : token inlineCode s with
  | none => rw [h1] at h; cases h
  | some x => rw [h1] at h; cases h; rw [token_more_some h1 fun _ _ ht => inlineCode_ext hs ht]

theorem interpolation_leaf_more {f : Range → Ast.NodeType} {s s1 : Pos} {ty} (hs : NoSlash s.after)
    (h : leaf interpolation f s = some (ty, s1)) : leaf interpolation f (more y s) = some (ty, more y s1) := by
  rw [leaf] at h ⊢
  cases h1 : token interpolation s with
  | none => rw [h1] at h; cases h
  | some x => rw [h1] at h; cases h; rw [token_more_some h1 fun _ _ ht => interpolation_more hs ht]

end Mty.Grammar.More
