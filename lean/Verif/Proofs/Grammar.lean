import Verif.Model.Grammar
import Verif.Spec.Ranges
import Verif.Proofs.EscapeRanges

/-! # Trees of the grammar have positions in the source -/

set_option autoImplicit false

namespace Mty.Grammar
open Pat Lex Spec

theorem byteLen_app (a b : Str) : byteLen (a ++ b) = byteLen a + byteLen b := by
  induction a with
  | nil => simp [byteLen]
  | cons c a ih => simp [byteLen, ih, Nat.add_assoc]

theorem splitBytes_some : ∀ (s : Str) (n : Nat) (a b : Str), splitBytes s n = some (a, b) → s = a ++ b ∧ byteLen a = n
  | s, 0, a, b, h => by
    cases s <;> (rw [splitBytes] at h; cases h; simp [byteLen])
  | [], n + 1, a, b, h => by simp [splitBytes] at h
  | c :: s, n + 1, a, b, h => by
    rw [splitBytes] at h
    split at h
    · split at h
      · cases h
      · rename_i hle a' b' heq
        cases h
        obtain ⟨h1, h2⟩ := splitBytes_some s _ _ _ heq
        subst h1
        simp only [byteLen, List.cons_append, h2, true_and]
        omega
    · cases h

theorem splitBytes_append : ∀ (a b : Str), splitBytes (a ++ b) (byteLen a) = some (a, b)
  | [], b => by cases b <;> simp [byteLen, splitBytes]
  | c :: a, b => by
    have hc : 0 < c.utf8Size := Char.utf8Size_pos c
    have ih := splitBytes_append a b
    obtain ⟨n, hn⟩ : ∃ n, byteLen (c :: a) = n + 1 := ⟨byteLen (c :: a) - 1, by simp only [byteLen]; omega⟩
    rw [hn, List.cons_append, splitBytes]
    simp only [byteLen] at hn
    rw [if_pos (by omega), show n + 1 - c.utf8Size = byteLen a by omega, ih]

theorem span_some {src : Str} {lo hi : Nat} {b m a : Str} (h : span src lo hi = some (b, m, a)) :
    src = b ++ (m ++ a) ∧ byteLen b = lo ∧ byteLen (b ++ m) = hi := by
  rw [span] at h
  cases h1 : splitBytes src lo with
  | none => rw [h1] at h; cases h
  | some x =>
    obtain ⟨b', r⟩ := x
    rw [h1] at h
    simp only at h
    split at h
    · cases h2 : splitBytes r (hi - lo) with
      | none => rw [h2] at h; cases h
      | some y =>
        obtain ⟨m', a'⟩ := y
        rw [h2] at h
        cases h
        obtain ⟨rfl, e1⟩ := splitBytes_some _ _ _ _ h1
        obtain ⟨rfl, e2⟩ := splitBytes_some _ _ _ _ h2
        refine ⟨rfl, e1, ?_⟩
        rw [byteLen_app]
        omega
    · cases h

theorem span_append (b m a : Str) : span (b ++ (m ++ a)) (byteLen b) (byteLen (b ++ m)) = some (b, m, a) := by
  rw [span, splitBytes_append]
  simp only
  rw [if_pos (by rw [byteLen_app]; omega), show byteLen (b ++ m) - byteLen b = byteLen m by rw [byteLen_app]; omega,
    splitBytes_append]

/-- A token that stands in the source. -/
theorem reads_iff {src : Str} {p : Pat} {r : Range} : reads src p r = true ↔
    ∃ b m a, src = b ++ (m ++ a) ∧ r = ⟨byteLen b, byteLen (b ++ m)⟩ ∧ p b (m ++ a) = some (m, a) := by
  constructor
  · intro h
    rw [reads] at h
    cases hs : span src r.start r.stop with
    | none => rw [hs] at h; cases h
    | some x =>
      obtain ⟨b, m, a⟩ := x
      rw [hs] at h
      obtain ⟨h1, h2, h3⟩ := span_some hs
      refine ⟨b, m, a, h1, ?_, by simpa using h⟩
      rw [h2, h3]
  · rintro ⟨b, m, a, rfl, rfl, h⟩
    rw [reads, span_append]
    simpa using h

/-- Ignored characters. -/
theorem gap_iff {src : Str} {p : Char → Bool} {lo hi : Nat} : gap src p lo hi = true ↔
    ∃ b m a, src = b ++ (m ++ a) ∧ lo = byteLen b ∧ hi = byteLen (b ++ m) ∧ ∀ c ∈ m, p c = true := by
  constructor
  · intro h
    rw [gap] at h
    cases hs : span src lo hi with
    | none => rw [hs] at h; cases h
    | some x =>
      obtain ⟨b, m, a⟩ := x
      rw [hs] at h
      obtain ⟨h1, h2, h3⟩ := span_some hs
      exact ⟨b, m, a, h1, h2.symm, h3.symm, by simpa using h⟩
  · rintro ⟨b, m, a, rfl, rfl, rfl, h⟩
    rw [gap, span_append]
    simpa using h

theorem reads_valid {src : Str} {p : Pat} {r : Range} (h : reads src p r = true) : ValidRange src r := by
  obtain ⟨b, m, a, rfl, rfl, -⟩ := reads_iff.mp h
  refine ⟨by simp only [byteLen_app]; omega, ⟨b, m ++ a, rfl, rfl⟩, ⟨b ++ m, a, by simp, rfl⟩⟩

theorem gap_valid {src : Str} {p : Char → Bool} {lo hi : Nat} (h : gap src p lo hi = true) : ValidRange src ⟨lo, hi⟩ := by
  obtain ⟨b, m, a, rfl, rfl, rfl, -⟩ := gap_iff.mp h
  refine ⟨by simp only [byteLen_app]; omega, ⟨b, m ++ a, rfl, rfl⟩, ⟨b ++ m, a, by simp, rfl⟩⟩

theorem takeBytes_prefix : ∀ (n : Nat) (s : Str), takeBytes n s <+: s
  | _, [] => by simp [takeBytes]
  | n, c :: s => by
    rw [takeBytes]
    split
    · simp
    · simpa using takeBytes_prefix _ s

theorem valid_take {src : Str} {q : Nat} {r : Range} (h : ValidRange (takeBytes q src) r) : ValidRange src r := by
  obtain ⟨t, ht⟩ := takeBytes_prefix q src
  obtain ⟨h1, ⟨a, b, h2, h3⟩, ⟨c, d, h4, h5⟩⟩ := h
  exact ⟨h1, ⟨a, b ++ t, by rw [← List.append_assoc, ← h2, ht], h3⟩, ⟨c, d ++ t, by rw [← List.append_assoc, ← h4, ht], h5⟩⟩

/-! ## Patterns -/

/-- Patterns match a prefix of the rest. -/
def Sound (p : Pat) : Prop := ∀ b r m r', p b r = some (m, r') → r = m ++ r'

theorem sound_chr (p : Char → Bool) : Sound (chr p) := by
  intro b r m r' h
  cases r with
  | nil => simp [chr] at h
  | cons c r =>
    rw [chr] at h
    split at h <;> cases h
    rfl

theorem chr_some {p : Char → Bool} {b r m r' : Str} (h : chr p b r = some (m, r')) : ∃ c, p c = true ∧ m = [c] ∧ r = c :: r' := by
  cases r with
  | nil => simp [chr] at h
  | cons c r =>
    rw [chr] at h
    split at h
    · cases h; exact ⟨c, by assumption, rfl, rfl⟩
    · cases h

theorem exact_some {s b r m r' : Str} (h : Pat.exact s b r = some (m, r')) : m = s ∧ r = s ++ r' := by
  rw [Pat.exact] at h
  split at h
  · rename_i hp
    cases h
    obtain ⟨t, ht⟩ := List.isPrefixOf_iff_prefix.mp hp
    subst ht
    simp
  · cases h

theorem seq_some {p q : Pat} {b r m r' : Str} (h : seq p q b r = some (m, r')) :
    ∃ m1 r1 m2, p b r = some (m1, r1) ∧ q (b ++ m1) r1 = some (m2, r') ∧ m = m1 ++ m2 := by
  rw [seq] at h
  cases h1 : p b r with
  | none => rw [h1] at h; cases h
  | some x =>
    obtain ⟨m1, r1⟩ := x
    rw [h1] at h
    cases h2 : q (b ++ m1) r1 with
    | none => simp only [h2] at h; cases h
    | some y =>
      obtain ⟨m2, r2⟩ := y
      simp only [h2] at h
      cases h
      exact ⟨m1, r1, m2, rfl, h2, rfl⟩

theorem alt_some {p q : Pat} {b r : Str} {x : Str × Str} (h : alt p q b r = some x) :
    p b r = some x ∨ (p b r = none ∧ q b r = some x) := by
  rw [alt] at h
  cases h1 : p b r with
  | none => rw [h1] at h; exact .inr ⟨rfl, h⟩
  | some y => rw [h1] at h; cases h; exact .inl rfl

theorem lazyThen_some {q : Pat} : ∀ {r b m r' : Str}, lazyThen q b r = some (m, r') →
    ∃ m1 m2 r1, m = m1 ++ m2 ∧ r = m1 ++ r1 ∧ q (b ++ m1) r1 = some (m2, r')
  | [], b, m, r', h => by
    rw [lazyThen] at h
    exact ⟨[], m, [], rfl, rfl, by simpa using h⟩
  | c :: r, b, m, r', h => by
    rw [lazyThen] at h
    cases h1 : q b (c :: r) with
    | some x => rw [h1] at h; cases h; exact ⟨[], m, c :: r, rfl, rfl, by simpa using h1⟩
    | none =>
      rw [h1] at h
      cases h2 : lazyThen q (b ++ [c]) r with
      | none => simp only [h2] at h; cases h
      | some y =>
        obtain ⟨m', r2⟩ := y
        simp only [h2] at h
        cases h
        obtain ⟨m1, m2, r1, rfl, rfl, hq⟩ := lazyThen_some h2
        exact ⟨c :: m1, m2, r1, rfl, rfl, by simpa using hq⟩

/-- A token with a fixed beginning and end. -/
theorem delimited_some {o c b r m r' : Str} (h : seq (Pat.exact o) (lazyThen (Pat.exact c)) b r = some (m, r')) :
    ∃ body, m = o ++ (body ++ c) := by
  obtain ⟨m1, r1, m2, h1, h2, rfl⟩ := seq_some h
  obtain ⟨rfl, -⟩ := exact_some h1
  obtain ⟨m1, m3, r2, rfl, -, h3⟩ := lazyThen_some h2
  obtain ⟨rfl, -⟩ := exact_some h3
  exact ⟨m1, rfl⟩

theorem reads_delimited {src o c : Str} {r : Range} (h : reads src (seq (Pat.exact o) (lazyThen (Pat.exact c))) r = true) :
    Delimited src o c r := by
  obtain ⟨b, m, a, rfl, rfl, hp⟩ := reads_iff.mp h
  obtain ⟨body, rfl⟩ := delimited_some hp
  exact ⟨b, body, a, by simp, by simp⟩

theorem reads_quoted {src : Str} {r : Range} (h : reads src quotedString r = true) :
    ∃ q : Char, q ∈ ['"', '\''] ∧ Delimited src [q] [q] r := by
  obtain ⟨b, m, a, rfl, rfl, hp⟩ := reads_iff.mp h
  have key : ∀ (q : Char) (p : Pat), seq (chr (· = q)) (seq p (chr (· = q))) b (m ++ a) = some (m, a) →
      ∃ body, m = [q] ++ (body ++ [q]) := by
    intro q p h
    obtain ⟨m1, r1, m2, h1, h2, h3⟩ := seq_some h
    obtain ⟨c, hc, rfl, -⟩ := chr_some h1
    obtain ⟨m3, r3, m4, -, h5, rfl⟩ := seq_some h2
    obtain ⟨c', hc', rfl, -⟩ := chr_some h5
    simp only [decide_eq_true_eq] at hc hc'
    exact ⟨m3, by rw [h3, hc, hc']⟩
  rcases alt_some hp with hp | ⟨-, hp⟩
  · obtain ⟨body, rfl⟩ := key _ _ hp
    exact ⟨'"', by simp, b, body, a, by simp, by simp⟩
  · obtain ⟨body, rfl⟩ := key _ _ hp
    exact ⟨'\'', by simp, b, body, a, by simp, by simp⟩

/-! ## Positions -/

variable {alnum : Char → Bool} {src : Str}

theorem attribute_in {a : Ast.Attribute} (h : attributeOk src a = true) : attributeIn src a := by
  rw [attributeOk] at h
  simp only [Bool.and_eq_true, beq_iff_eq] at h
  obtain ⟨⟨h1, h2⟩, h3⟩ := h
  have v := reads_valid h2
  obtain ⟨v1, v2, v3⟩ := v
  rw [h1] at v1 v2
  rw [attributeIn.eq_def]
  cases hv : a.value with
  | none =>
    simp only [hv, beq_iff_eq] at h3
    exact ⟨⟨by simpa [h3] using v1, v2, by simpa [h3] using v3⟩, reads_valid h2, trivial⟩
  | some x =>
    cases x with
    | unquoted r =>
      simp only [hv, Bool.and_eq_true, beq_iff_eq] at h3
      obtain ⟨⟨h4, h5⟩, h6⟩ := h3
      have w := reads_valid h4
      have w' := reads_valid h5
      refine ⟨⟨?_, v2, by rw [h6]; exact w'.2.2⟩, reads_valid h2, w'⟩
      have := w.1; have := w'.1; simp only at *; omega
    | quoted r =>
      simp only [hv, Bool.and_eq_true, beq_iff_eq] at h3
      obtain ⟨⟨h4, h5⟩, h6⟩ := h3
      have w := reads_valid h4
      have w' := reads_valid h5
      refine ⟨⟨?_, v2, by rw [h6]; exact w'.2.2⟩, reads_valid h2, reads_quoted h5⟩
      have := w.1; have := w'.1; simp only at *; omega

theorem parts_in : ∀ (as : List Ast.Attribute) (p : Nat), (partsOk src p as).1 = true → p ≤ (partsOk src p as).2 ∧
    ∀ a ∈ as, attributeIn src a
  | [], p, h => by simp [partsOk]
  | a :: as, p, h => by
    simp only [partsOk, Bool.and_eq_true] at h ⊢
    obtain ⟨⟨h1, h2⟩, h3⟩ := h
    obtain ⟨i1, i2⟩ := parts_in as _ h3
    have w := (gap_valid h1).1
    have ha := attribute_in h2
    have w' := ha.1.1
    refine ⟨by simp only at *; omega, ?_⟩
    simp only [List.mem_cons, forall_eq_or_imp]
    exact ⟨ha, i2⟩

theorem reads_token {t : Str} {r : Range} (h : reads src (Pat.exact t) r = true) : TokenAt src t r := by
  obtain ⟨b, m, a, h1, h2, h3⟩ := reads_iff.mp h
  obtain ⟨rfl, -⟩ := exact_some h3
  exact ⟨b, a, h1, h2⟩

theorem attributes_in {a : Ast.AttributeSelector} (h : attributesOk src a = true) : attributesIn src a := by
  rw [attributesOk] at h
  simp only [Bool.and_eq_true, beq_iff_eq] at h
  obtain ⟨⟨⟨h1, h2⟩, h3⟩, h4⟩ := h
  obtain ⟨p1, p2⟩ := parts_in _ _ h3
  have v := reads_valid h2
  refine ⟨?_, v, p2, reads_token h2⟩
  have v1 := v.1
  cases hr : a.rBracket with
  | none =>
    simp only [hr] at h4
    have w := gap_valid h4
    have w1 := w.1
    refine ⟨by simp only at *; omega, by rw [← h1]; exact v.2.1, w.2.2⟩
  | some r =>
    simp only [hr, Bool.and_eq_true, beq_iff_eq] at h4
    obtain ⟨⟨h5, h6⟩, h7⟩ := h4
    have w := gap_valid h5
    have w1 := w.1
    have w' := reads_valid h6
    have w1' := w'.1
    refine ⟨by simp only at *; omega, by rw [← h1]; exact v.2.1, by rw [h7]; exact w'.2.2⟩

theorem classLikes_in {q' : Nat} : ∀ (cs : List Ast.ClassLike) (p q : Nat), classLikesOk (takeBytes q' src) p q cs = true →
    p ≤ q ∧ ∀ c ∈ cs, classLikeIn src c
  | [], p, q, h => by
    simp only [classLikesOk, beq_iff_eq] at h
    simp [h]
  | .cls dot ident :: cs, p, q, h => by
    simp only [classLikesOk, Bool.and_eq_true, beq_iff_eq] at h
    obtain ⟨⟨⟨⟨h1, h2⟩, h3⟩, h4⟩, h5⟩ := h
    have v := valid_take (reads_valid h2)
    have v' := valid_take (reads_valid h4)
    obtain ⟨i1, i2⟩ := classLikes_in cs _ _ h5
    have := v.1; have := v'.1
    refine ⟨by omega, ?_⟩
    simp only [List.mem_cons, forall_eq_or_imp]
    exact ⟨⟨v, v'⟩, i2⟩
  | .id dot ident :: cs, p, q, h => by
    simp only [classLikesOk, Bool.and_eq_true, beq_iff_eq] at h
    obtain ⟨⟨⟨⟨h1, h2⟩, h3⟩, h4⟩, h5⟩ := h
    have v := valid_take (reads_valid h2)
    have v' := valid_take (reads_valid h4)
    obtain ⟨i1, i2⟩ := classLikes_in cs _ _ h5
    have := v.1; have := v'.1
    refine ⟨by omega, ?_⟩
    simp only [List.mem_cons, forall_eq_or_imp]
    exact ⟨⟨v, v'⟩, i2⟩
  | .invalid r :: cs, p, q, h => by
    simp only [classLikesOk, Bool.and_eq_true, beq_iff_eq] at h
    obtain ⟨⟨h1, h2⟩, h3⟩ := h
    have v := valid_take (reads_valid h2)
    obtain ⟨i1, i2⟩ := classLikes_in cs _ _ h3
    have := v.1
    refine ⟨by omega, ?_⟩
    simp only [List.mem_cons, forall_eq_or_imp]
    exact ⟨v, i2⟩

theorem chain_in {p q : Nat} {e : Option Ast.ElementSelector} {cs : List Ast.ClassLike} (h : chainOk alnum src p q e cs = true) :
    ValidRange src ⟨p, q⟩ ∧ (∀ c ∈ cs, classLikeIn src c) ∧
      match e with
      | none => True
      | some (.name r) => ValidRange src r
      | some (.star r) => ValidRange src r := by
  rw [chainOk.eq_def] at h
  simp only [Bool.and_eq_true] at h
  obtain ⟨h1, h2⟩ := h
  refine ⟨reads_valid h1, ?_⟩
  cases e with
  | none => exact ⟨(classLikes_in _ _ _ h2).2, trivial⟩
  | some x =>
    cases x with
    | name r =>
      simp only [Bool.and_eq_true, beq_iff_eq] at h2
      exact ⟨(classLikes_in _ _ _ h2.2).2, valid_take (reads_valid h2.1.2)⟩
    | star r =>
      simp only [Bool.and_eq_true, beq_iff_eq] at h2
      exact ⟨(classLikes_in _ _ _ h2.2).2, valid_take (reads_valid h2.1.2)⟩

theorem segments_in : ∀ (gs : List Ast.SelectorSegment) (p q : Nat), isBoundary src p → segmentsOk alnum src p q gs = true →
    p ≤ q ∧ isBoundary src q ∧ ∀ g ∈ gs, match g with
      | .attributes a => attributesIn src a
      | .classLike cs => ∀ c ∈ cs, classLikeIn src c
  | [], p, q, hb, h => by
    simp only [segmentsOk, beq_iff_eq] at h
    simpa [← h] using hb
  | .attributes a :: gs, p, q, hb, h => by
    simp only [segmentsOk, Bool.and_eq_true, beq_iff_eq] at h
    obtain ⟨⟨h1, h2⟩, h3⟩ := h
    have ha := attributes_in h2
    obtain ⟨i1, i2, i3⟩ := segments_in gs _ _ ha.1.2.2 h3
    have := ha.1.1
    refine ⟨by simp only at *; omega, i2, ?_⟩
    simp only [List.mem_cons, forall_eq_or_imp]
    exact ⟨ha, i3⟩
  | .classLike cs :: gs, p, q, hb, h => by
    simp only [segmentsOk, Bool.and_eq_true] at h
    obtain ⟨h1, h2⟩ := h
    obtain ⟨v, c1, -⟩ := chain_in h1
    obtain ⟨i1, i2, i3⟩ := segments_in gs _ _ v.2.2 h2
    have := v.1
    refine ⟨by simp only at *; omega, i2, ?_⟩
    simp only [List.mem_cons, forall_eq_or_imp]
    exact ⟨c1, i3⟩

theorem selector_in {s : Ast.Selector} (h : selectorOk alnum src s = true) : ValidRange src ⟨s.start, s.stop⟩ ∧ selectorIn src s := by
  obtain ⟨a, first, segs, b⟩ := s
  rw [selectorOk] at h
  simp only [Bool.and_eq_true] at h
  obtain ⟨h1, h2⟩ := h
  cases first with
  | attributes x =>
    simp only [Bool.and_eq_true, beq_iff_eq] at h1
    have hx := attributes_in h1.2
    obtain ⟨i1, i2, i3⟩ := segments_in _ _ _ (by exact hx.1.2.2) h2
    obtain ⟨h11, h12⟩ := h1
    subst h11
    have := hx.1.1
    refine ⟨⟨?_, hx.1.2.1, i2⟩, hx, i3⟩
    simp only [selectorStartEnd] at *; omega
  | tag e cs =>
    obtain ⟨v, c1, c2⟩ := chain_in h1
    obtain ⟨i1, i2, i3⟩ := segments_in _ _ _ v.2.2 h2
    have := v.1
    refine ⟨⟨by simp only at *; omega, v.2.1, i2⟩, ?_, i3⟩
    refine ⟨c1, ?_⟩
    cases e with
    | none => trivial
    | some x => cases x <;> exact c2

theorem within_self {r : Range} {lo hi : Nat} (h : ValidRange src r) (h1 : lo ≤ r.start) (h2 : r.stop ≤ hi) :
    Within src lo hi r := ⟨h, h1, h2⟩

theorem inlineText_in {a b : Nat} {t : Ast.InlineText} (h : inlineTextOk alnum src a b t = true) :
    ValidRange src ⟨a, b⟩ ∧ inlineTextIn src a b t := by
  cases t with
  | segment r =>
    simp only [inlineTextOk, Bool.and_eq_true, beq_iff_eq] at h
    obtain ⟨rfl, h⟩ := h
    exact ⟨reads_valid h, within_self (reads_valid h) (Nat.le_refl _) (Nat.le_refl _)⟩
  | interpolation r =>
    simp only [inlineTextOk, Bool.and_eq_true, beq_iff_eq] at h
    obtain ⟨rfl, h⟩ := h
    exact ⟨reads_valid h, within_self (reads_valid h) (Nat.le_refl _) (Nat.le_refl _)⟩
  | comment c =>
    simp only [inlineTextOk, Bool.and_eq_true, beq_iff_eq] at h
    obtain ⟨⟨⟨⟨⟨⟨h1, h2⟩, h3⟩, h4⟩, h5⟩, h6⟩, h7⟩ := h
    have v := reads_valid h4
    have w := reads_valid h6
    have v1 := v.1
    have w1 := w.1
    have key : isBoundary src b ∧ c.inner.stop ≤ b := by
      cases hc : c.close with
      | none =>
        simp only [hc, beq_iff_eq] at h7
        rw [← h7]
        exact ⟨w.2.2, Nat.le_refl _⟩
      | some r =>
        simp only [hc, Bool.and_eq_true, beq_iff_eq] at h7
        have x := reads_valid h7.1.2
        have x1 := x.1
        rw [← h7.2]
        exact ⟨x.2.2, by omega⟩
    have hab : ValidRange src ⟨a, b⟩ := ⟨by have := key.2; simp only at *; omega, by rw [← h3]; exact v.2.1, key.1⟩
    refine ⟨hab, ?_, ?_, ?_, reads_token h4⟩
    · rw [h1, h2]; exact within_self hab (Nat.le_refl _) (Nat.le_refl _)
    · exact within_self v (by omega) (by omega)
    · exact within_self w (by omega) key.2
  | verbatim o raw tail =>
    simp only [inlineTextOk, Bool.and_eq_true, beq_iff_eq] at h
    obtain ⟨⟨⟨⟨h1, h2⟩, h3⟩, h4⟩, h5⟩ := h
    have v := reads_valid h2
    have w := reads_valid h3
    have v1 := v.1
    have w1 := w.1
    have ht : (tailOk tail).2 = verbatimTailRange tail := by cases tail <;> rfl
    have hd : verbatimTailOk src tail := by
      cases tail <;> exact reads_delimited h3
    have hle : o.stop ≤ (tailOk tail).2.start := by
      cases raw with
      | none => simp only [beq_iff_eq] at h5; omega
      | some k =>
        simp only [Bool.and_eq_true, beq_iff_eq] at h5
        have := (reads_valid h5.1.2).1
        omega
    refine ⟨⟨by simp only; omega, by rw [← h1]; exact v.2.1, by rw [← h4]; exact w.2.2⟩, ?_, ?_, hd⟩
    · exact within_self v (by omega) (by omega)
    · rw [← ht]; exact within_self w (by omega) (by omega)

theorem close_in {t : Str} {p b : Nat} {c : Option Range} (h : closeOk src t p b c = true) :
    ValidRange src ⟨p, b⟩ ∧ ∀ r, c = some r → ValidRange src r ∧ p ≤ r.start ∧ r.stop = b := by
  cases c with
  | none => exact ⟨gap_valid h, by simp⟩
  | some r =>
    simp only [closeOk, Bool.and_eq_true, beq_iff_eq] at h
    obtain ⟨⟨h1, h2⟩, h3⟩ := h
    have v := gap_valid h1
    have w := reads_valid h2
    have := v.1; have := w.1
    refine ⟨⟨by simp only at *; omega, v.2.1, by rw [← h3]; exact w.2.2⟩, ?_⟩
    rintro r' h; cases h
    exact ⟨w, v.1, h3⟩

mutual
  theorem type_in (alnum : Char → Bool) (src : Str) : ∀ (ty : Ast.NodeType) (a b : Nat), typeOk alnum src a b ty = true →
      ValidRange src ⟨a, b⟩ ∧ typeIn src a b ty
    | .multiline k s e, a, b, h => by
      simp only [typeOk, Bool.and_eq_true] at h
      have v1 := reads_valid h.1.1
      have v2 := reads_valid h.1.2
      have v3 := reads_valid h.2
      have := v1.1; have := v2.1; have := v3.1
      simp only at *
      refine ⟨⟨by simp only; omega, v1.2.1, v3.2.2⟩, ?_⟩
      rw [typeIn]
      exact within_self v2 (by simpa) (by simpa)
    | .text t, a, b, h => by
      rw [typeOk] at h
      rw [typeIn]
      exact inlineText_in h
    | .selector s, a, b, h => by
      simp only [typeOk, Bool.and_eq_true, beq_iff_eq] at h
      obtain ⟨⟨rfl, rfl⟩, h⟩ := h
      obtain ⟨v, hs⟩ := selector_in h
      refine ⟨v, ?_⟩
      rw [typeIn]
      exact ⟨within_self v (Nat.le_refl _) (Nat.le_refl _), hs⟩
    | .line c, a, b, h => by
      simp only [typeOk, Bool.and_eq_true, beq_iff_eq] at h
      obtain ⟨rfl, h⟩ := h
      refine ⟨reads_valid h, ?_⟩
      rw [typeIn]
      exact within_self (reads_valid h) (Nat.le_refl _) (Nat.le_refl _)
    | .code r, a, b, h => by
      simp only [typeOk, Bool.and_eq_true, beq_iff_eq] at h
      obtain ⟨rfl, h⟩ := h
      refine ⟨reads_valid h, ?_⟩
      rw [typeIn]
      exact ⟨within_self (reads_valid h) (Nat.le_refl _) (Nat.le_refl _), reads_delimited h⟩
    | .block l (.mk s lines e) r, a, b, h => by
      simp only [typeOk, Bool.and_eq_true, beq_iff_eq] at h
      obtain ⟨⟨⟨⟨h1, h2⟩, h3⟩, h4⟩, h5⟩ := h
      have v := reads_valid h2
      have w := gap_valid h3
      obtain ⟨i1, i2, i3⟩ := lines_in alnum src lines true s e w.2.2 h4
      obtain ⟨c1, -⟩ := close_in h5
      have := v.1; have := w.1; have := c1.1
      simp only at *
      refine ⟨⟨by simp only; omega, by rw [← h1]; exact v.2.1, c1.2.2⟩, ?_⟩
      rw [typeIn]
      exact ⟨within_self v (by omega) (by omega), within_self ⟨i1, w.2.2, i2⟩ (by simpa) (by simpa),
        i3 s e (Nat.le_refl _) (Nat.le_refl _), reads_token h2⟩
    | .special f o (.mk s lines e) c, a, b, h => by
      simp only [typeOk, Bool.and_eq_true, beq_iff_eq] at h
      obtain ⟨⟨⟨⟨h1, h2⟩, h3⟩, h4⟩, h5⟩ := h
      have v := reads_valid h2
      have w := gap_valid h3
      obtain ⟨i1, i2, i3⟩ := lines_in alnum src lines true s e w.2.2 h4
      obtain ⟨c1, -⟩ := close_in h5
      have := v.1; have := w.1; have := c1.1
      simp only at *
      refine ⟨⟨by simp only; omega, by rw [← h1]; exact v.2.1, c1.2.2⟩, ?_⟩
      rw [typeIn]
      exact ⟨within_self v (by omega) (by omega), within_self ⟨i1, w.2.2, i2⟩ (by simpa) (by simpa),
        i3 s e (Nat.le_refl _) (Nat.le_refl _), by cases f <;> exact reads_token h2⟩
    | .inline o inner c, a, b, h => by
      simp only [typeOk, Bool.and_eq_true, beq_iff_eq] at h
      obtain ⟨⟨⟨⟨h1, h2⟩, h3⟩, h4⟩, h5⟩ := h
      have v := reads_valid h2
      have w := gap_valid h3
      obtain ⟨i1, i2, i3⟩ := nodes_in alnum src inner _ _ w.2.2 h4
      obtain ⟨c1, c2⟩ := close_in h5
      have := v.1; have := w.1; have := c1.1
      simp only at *
      refine ⟨⟨by simp only; omega, by rw [← h1]; exact v.2.1, c1.2.2⟩, ?_⟩
      rw [typeIn.eq_def]; dsimp only
      refine ⟨within_self v (by omega) (by omega), ?_, ?_, reads_token h2⟩
      · cases c with
        | none => trivial
        | some r =>
          obtain ⟨c3, c4, c5⟩ := c2 r rfl
          exact within_self c3 (by omega) (by omega)
      · refine i3 _ _ (by omega) ?_
        cases c with
        | none => simpa using c1.1
        | some r => simpa using (c2 r rfl).2.1
  theorem nodes_in (alnum : Char → Bool) (src : Str) : ∀ (ns : List Ast.Node) (p q : Nat), isBoundary src p →
      nodesOk alnum src p q ns = true →
      p ≤ q ∧ isBoundary src q ∧ ∀ lo hi, lo ≤ p → q ≤ hi → nodesIn src lo hi ns
    | [], p, q, hb, h => by
      simp only [nodesOk, beq_iff_eq] at h
      subst h
      refine ⟨Nat.le_refl _, hb, fun lo hi h1 h2 => ?_⟩
      rw [nodesIn]; omega
    | .mk sp a b ty :: ns, p, q, hb, h => by
      simp only [nodesOk, Bool.and_eq_true] at h
      obtain ⟨⟨h1, h2⟩, h3⟩ := h
      obtain ⟨v, ht⟩ := type_in alnum src ty a b h2
      obtain ⟨i1, i2, i3⟩ := nodes_in alnum src ns b q v.2.2 h3
      have v1 := v.1
      simp only at v1
      have hpa : p ≤ a ∧ ∀ s, sp = some s → ValidRange src s ∧ s.start = p ∧ s.stop = a := by
        cases sp with
        | none => simp only [spaceOk, beq_iff_eq] at h1; exact ⟨by omega, by simp⟩
        | some s =>
          simp only [spaceOk, Bool.and_eq_true, beq_iff_eq] at h1
          have := (reads_valid h1.1.2).1
          refine ⟨by omega, ?_⟩
          rintro s' h; cases h
          exact ⟨reads_valid h1.1.2, h1.1.1, h1.2⟩
      refine ⟨by omega, i2, fun lo hi hlo hhi => ?_⟩
      rw [nodesIn, nodeIn.eq_def]
      refine ⟨⟨?_, within_self v (by simp only; omega) (by simp only; omega), ht⟩, i3 b hi (Nat.le_refl _) hhi⟩
      cases sp with
      | none => trivial
      | some s =>
        obtain ⟨x1, x2, x3⟩ := hpa.2 s rfl
        exact within_self x1 (by omega) (by omega)
  theorem lines_in (alnum : Char → Bool) (src : Str) : ∀ (ls : List Ast.Line) (first : Bool) (p q : Nat), isBoundary src p →
      linesOk alnum src first p q ls = true →
      p ≤ q ∧ isBoundary src q ∧ ∀ lo hi, lo ≤ p → q ≤ hi → linesIn src lo hi ls
    | [], first, p, q, hb, h => by
      cases first with
      | true =>
        simp only [linesOk, if_true] at h
        have v := gap_valid h
        have := v.1
        refine ⟨v.1, v.2.2, fun lo hi h1 h2 => ?_⟩
        rw [linesIn]; simp only at *; omega
      | false =>
        simp only [linesOk, Bool.false_eq_true, if_false, beq_iff_eq] at h
        subst h
        refine ⟨Nat.le_refl _, hb, fun lo hi h1 h2 => ?_⟩
        rw [linesIn]; omega
    | .mk s ns e :: ls, first, p, q, hb, h => by
      simp only [linesOk, Bool.and_eq_true] at h
      obtain ⟨⟨⟨⟨h1, h2⟩, h3⟩, h4⟩, h5⟩ := h
      have v : ValidRange src ⟨p, s⟩ := by
        cases first with
        | true => exact gap_valid (by simpa using h1)
        | false => exact reads_valid (r := ⟨p, s⟩) (by simpa using h1)
      have w := gap_valid h2
      have w' := gap_valid h4
      obtain ⟨j1, j2, j3⟩ := nodes_in alnum src ns _ _ w.2.2 h3
      obtain ⟨i1, i2, i3⟩ := lines_in alnum src ls false e q w'.2.2 h5
      have v1 := v.1; have w1 := w.1; have w1' := w'.1
      simp only at *
      refine ⟨by omega, i2, fun lo hi hlo hhi => ?_⟩
      rw [linesIn]
      exact ⟨within_self ⟨by simp only; omega, w.2.1, w'.2.2⟩ (by simp only; omega) (by simp only; omega), j3 s e (by omega) (by omega),
        i3 e hi (Nat.le_refl _) hhi⟩
end

/-- A tree of the grammar has the positions of its tokens. -/
theorem conforms_positions {ast : Ast.Document} (h : Conforms alnum src ast = true) : PositionsOk src ast := by
  obtain ⟨⟨s, lines, e⟩⟩ := ast
  simp only [Conforms, Bool.and_eq_true] at h
  obtain ⟨⟨h1, h2⟩, h3⟩ := h
  have v := gap_valid h1
  obtain ⟨i1, i2, i3⟩ := lines_in alnum src lines true s e v.2.2 h2
  exact ⟨⟨i1, v.2.2, i2⟩, i3 s e (Nat.le_refl _) (Nat.le_refl _)⟩

end Mty.Grammar
