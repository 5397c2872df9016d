import Verif.Spec.Margins
import Verif.Proofs.PartsLex
import Verif.Proofs.ShiftParse
import Verif.Proofs.Lexer

/-! # Tokens and the margins of lines (for C86 and C87) -/

set_option autoImplicit false

namespace Mty.Grammar
open Pat Lex Spec

variable {Q : Str → Str → Prop}

/-- The characters of margins, and the line feed. -/
def blanks : Str := [' ', '\t', '\r', '\n']

theorem u_blank {u : Str} (h : ∀ c ∈ u, c = ' ' ∨ c = '\t' ∨ c = '\r') : ∀ c ∈ u, c ∈ blanks := by
  intro c hc
  rcases h c hc with rfl | rfl | rfl <;> decide

theorem v_blank {v : Str} (h : ∀ c ∈ v, c = ' ' ∨ c = '\t') : ∀ c ∈ v, c ∈ blanks := by
  intro c hc
  rcases h c hc with rfl | rfl <;> decide

end Mty.Grammar

namespace Mty.Spec
open Grammar

variable {Q : Str → Str → Prop}

theorem Margins.refl (hq : Q [] []) : ∀ s : Str, Margins Q s s
  | [] => .nil
  | c :: s => by
    by_cases h : c = '\n'
    · subst h; exact Margins.line (u := []) (v := []) (by simp) ⟨by simp, hq⟩ (Margins.refl hq s)
    · exact .char h (Margins.refl hq s)

theorem Margins.plain : ∀ {s : Str}, '\n' ∉ s → Margins Q s s
  | [], _ => .nil
  | c :: s, h => .char (fun e => h (by simp [e])) (Margins.plain fun e => h (List.mem_cons_of_mem _ e))

theorem Margins.append {a a' b b' : Str} (h : Margins Q a a') (hb : Margins Q b b') : Margins Q (a ++ b) (a' ++ b') := by
  induction h with
  | nil => exact hb
  | char hc _ ih => exact .char hc ih
  | line hu hv _ ih => simpa using Margins.line hu hv ih

theorem Margins.self {s s' : Str} (h : Margins Q s s') (hn : '\n' ∉ s) : s' = s := by
  induction h with
  | nil => rfl
  | char _ _ ih => rw [ih fun e => hn (List.mem_cons_of_mem _ e)]
  | line => simp at hn

theorem Margins.nil_iff {s s' : Str} (h : Margins Q s s') : s' = [] ↔ s = [] := by
  cases h <;> simp

theorem Margins.nil_left {s' : Str} (h : Margins Q [] s') : s' = [] := h.nil_iff.2 rfl

theorem Margins.cons {c : Char} {s s' : Str} (hc : c ≠ '\n') (h : Margins Q (c :: s) s') : ∃ t, s' = c :: t ∧ Margins Q s t := by
  cases h with
  | char _ h => exact ⟨_, rfl, h⟩
  | line => exact absurd rfl hc

theorem Margins.nl {s s' : Str} (h : Margins Q ('\n' :: s) s') : ∃ u v t, s' = u ++ '\n' :: (v ++ t) ∧ (∀ c ∈ u, c = ' ' ∨ c = '\t' ∨ c = '\r') ∧
    ((∀ c ∈ v, c = ' ' ∨ c = '\t') ∧ Q u v) ∧ Margins Q s t := by
  cases h with
  | char h => exact absurd rfl h
  | line hu hv h => exact ⟨_, _, _, rfl, hu, hv, h⟩

/-- What is opposite a line feed begins with a blank. -/
theorem Margins.head {s s' : Str} (h : Margins Q ('\n' :: s) s') : ∃ c t, s' = c :: t ∧ c ∈ blanks := by
  replace h := h.nl; obtain ⟨u, v, t, rfl, hu, hv, h⟩ := h
  cases u with
  | nil => exact ⟨'\n', _, rfl, by decide⟩
  | cons c u => exact ⟨c, _, rfl, u_blank hu c (by simp)⟩

/-- A margin of its own line. -/
theorem margins_nl {u v : Str} (hu : ∀ c ∈ u, c = ' ' ∨ c = '\t' ∨ c = '\r') (hv : (∀ c ∈ v, c = ' ' ∨ c = '\t') ∧ Q u v) :
    Margins Q ['\n'] (u ++ '\n' :: v) := by simpa using Margins.line hu hv .nil

/-- The last character. -/
theorem Margins.last {s s' : Str} (h : Margins Q s s') : s'.getLast? = s.getLast? ∨ s.getLast? = some '\n' ∧ ∃ c ∈ blanks, s'.getLast? = some c := by
  induction h with
  | nil => exact .inl rfl
  | char hc h ih =>
    rename_i c s s'
    cases s with
    | nil => rw [h.nil_left]; exact .inl rfl
    | cons d s =>
      cases s' with
      | nil => exact absurd (h.nil_iff.1 rfl) (by simp)
      | cons d' s' => simpa [List.getLast?_cons_cons] using ih
  | line hu hv h ih =>
    rename_i u v s s'
    cases s with
    | nil =>
      right
      refine ⟨rfl, ?_⟩
      rw [h.nil_left, List.append_nil]
      rcases List.eq_nil_or_concat v with rfl | ⟨v, c, rfl⟩
      · exact ⟨'\n', by decide, by simp⟩
      · exact ⟨c, v_blank hv.1 c (by simp), by simp [List.getLast?_cons]⟩
    | cons d s =>
      cases s' with
      | nil => exact absurd (h.nil_iff.1 rfl) (by simp)
      | cons d' s' =>
        rw [List.getLast?_cons_cons, show (u ++ '\n' :: (v ++ d' :: s')).getLast? = (d' :: s').getLast? by
          rw [show u ++ '\n' :: (v ++ d' :: s') = (u ++ '\n' :: v) ++ d' :: s' by simp, List.getLast?_append_cons]]
        exact ih

end Mty.Spec

namespace Mty.Grammar
open Pat Lex Spec

variable {Q : Str → Str → Prop}

theorem NoSlashBreak.suffix {m r : Str} (h : NoSlashBreak (m ++ r)) : NoSlashBreak r := by
  rintro a b rfl
  exact h (m ++ a) b (by simp)

theorem NoSlashBreak.prefix {m r : Str} (h : NoSlashBreak (m ++ r)) : NoSlashBreak m := by
  rintro a b rfl
  exact h a (b ++ r) (by simp)

/-- The same results. -/
def Ev (Q : Str → Str → Prop) (x y : Option (Str × Str)) : Prop :=
  (x = none ∧ y = none) ∨ ∃ m t m' t', x = some (m, t) ∧ y = some (m', t') ∧ Margins Q m m' ∧ Margins Q t t'

theorem Ev.no : Ev Q none none := .inl ⟨rfl, rfl⟩
theorem Ev.yes {m t m' t' : Str} (h1 : Margins Q m m') (h2 : Margins Q t t') : Ev Q (some (m, t)) (some (m', t')) :=
  .inr ⟨_, _, _, _, rfl, rfl, h1, h2⟩

/-- The pattern reads the same with wider margins. -/
structure Eqv (p : Pat) : Prop where
  sound : Sound p
  eqv : ∀ {Q : Str → Str → Prop} (b b' r r' : Str), Margins Q b b' → Margins Q r r' → NoSlashBreak r → Ev Q (p b r) (p b' r')

/-- False for the characters of margins. -/
def Off (q : Char → Bool) : Prop := ∀ c ∈ blanks, q c = false

instance (q : Char → Bool) : Decidable (Off q) := inferInstanceAs (Decidable (∀ c ∈ blanks, _))

theorem margins1 {c : Char} (h : c ≠ '\n') : Margins Q [c] [c] := .char h .nil

theorem ev_chr {q : Char → Bool} {b b' r r' : Str} {c : Char} (hc : c ≠ '\n') (h : Margins Q r r') : Ev Q (chr q b (c :: r)) (chr q b' (c :: r')) := by
  simp only [chr]
  split
  · exact .yes (margins1 hc) h
  · exact .no

theorem eqv_chr {q : Char → Bool} (hq : Off q) : Eqv (chr q) := by
  refine ⟨sound_chr q, fun b b' r r' _ h _ => ?_⟩
  cases r with
  | nil => rw [h.nil_left]; exact .no
  | cons c r =>
    by_cases hc : c = '\n'
    · subst hc
      obtain ⟨d, t, rfl, hd⟩ := h.head
      simp [chr, hq _ hd, hq '\n' (by decide)]
      exact .no
    · replace h := h.cons hc; obtain ⟨t, rfl, h⟩ := h
      exact ev_chr hc h

/-- No character of a margin. -/
def Inked (t : Str) : Prop := ∀ c ∈ blanks, c ∉ t

instance (t : Str) : Decidable (Inked t) := inferInstanceAs (Decidable (∀ c ∈ blanks, _))

theorem prefix_margins : ∀ (t : Str) {r r' : Str}, Inked t → Margins Q r r' → t.isPrefixOf r' = t.isPrefixOf r
  | [], r, r', _, _ => by simp
  | c :: t, [], r', _, h => by rw [h.nil_left]
  | c :: t, d :: r, r', h1, h => by
    by_cases hd : d = '\n'
    · subst hd
      obtain ⟨e, x, rfl, he⟩ := h.head
      have e1 : (c == e) = false := by
        rw [beq_eq_false_iff_ne]; rintro rfl; exact h1 _ he (by simp)
      have e2 : (c == '\n') = false := by
        rw [beq_eq_false_iff_ne]; rintro rfl; exact h1 '\n' (by decide) (by simp)
      rw [List.isPrefixOf, List.isPrefixOf, e1, e2]; rfl
    · replace h := h.cons hd; obtain ⟨x, rfl, h⟩ := h
      rw [List.isPrefixOf, List.isPrefixOf, prefix_margins t (fun e he hm => h1 e he (List.mem_cons_of_mem _ hm)) h]

theorem Inked.nl {t : Str} (h : Inked t) : '\n' ∉ t := h '\n' (by decide)

end Mty.Grammar

namespace Mty.Spec
open Grammar

variable {Q : Str → Str → Prop}

/-- After a part without line feeds. -/
theorem Margins.drop : ∀ {t r r' : Str}, '\n' ∉ t → Margins Q (t ++ r) r' → ∃ x, r' = t ++ x ∧ Margins Q r x
  | [], _, _, _, h => ⟨_, rfl, h⟩
  | c :: t, r, r', hn, h => by
    replace h := Margins.cons (fun e => hn (by simp [e])) h; obtain ⟨x, rfl, h⟩ := h
    replace h := Margins.drop (fun e => hn (List.mem_cons_of_mem _ e)) h; obtain ⟨y, rfl, h⟩ := h
    exact ⟨y, rfl, h⟩

end Mty.Spec

namespace Mty.Grammar
open Pat Lex Spec

variable {Q : Str → Str → Prop}

theorem eqv_exact {t : Str} (h1 : Inked t) : Eqv (Pat.exact t) := by
  refine ⟨sound_exact t, fun b b' r r' _ h _ => ?_⟩
  rw [Pat.exact, Pat.exact, prefix_margins t h1 h]
  by_cases hp : t.isPrefixOf r = true
  · rw [if_pos hp, if_pos hp]
    obtain ⟨x, rfl⟩ := List.isPrefixOf_iff_prefix.1 hp
    replace h := h.drop h1.nl; obtain ⟨y, rfl, h⟩ := h
    simp only [List.drop_left]
    exact .yes (.plain h1.nl) h
  · rw [if_neg hp, if_neg hp]; exact .no

theorem eqv_seq {p q : Pat} (hp : Eqv p) (hq : Eqv q) : Eqv (seq p q) := by
  refine ⟨sound_seq hp.sound hq.sound, fun b b' r r' hb h hr => ?_⟩
  rw [seq, seq]
  rcases hp.eqv b b' r r' hb h hr with ⟨e1, e2⟩ | ⟨m, t, m', t', e1, e2, hm, ht⟩
  · rw [e1, e2]; exact .no
  · rw [e1, e2]
    have e := hp.sound _ _ _ _ e1
    rw [e] at hr
    dsimp only
    rcases hq.eqv _ _ t t' (hb.append hm) ht (NoSlashBreak.suffix hr) with ⟨e1, e2⟩ | ⟨n, s, n', s', e1, e2, hn, hs⟩
    · rw [e1, e2]; exact .no
    · rw [e1, e2]; exact .yes (hm.append hn) hs

theorem eqv_alt {p q : Pat} (hp : Eqv p) (hq : Eqv q) : Eqv (alt p q) := by
  refine ⟨sound_alt hp.sound hq.sound, fun b b' r r' hb h hr => ?_⟩
  rw [alt, alt]
  rcases hp.eqv b b' r r' hb h hr with ⟨e1, e2⟩ | ⟨m, t, m', t', e1, e2, hm, ht⟩
  · rw [e1, e2]; exact hq.eqv b b' r r' hb h hr
  · rw [e1, e2]; exact .yes hm ht

theorem eqv_precedes {p : Pat} (hp : Eqv p) : Eqv (precedes p) := by
  refine ⟨sound_precedes p, fun b b' r r' hb h hr => ?_⟩
  rw [precedes, precedes]
  rcases hp.eqv b b' r r' hb h hr with ⟨e1, e2⟩ | ⟨m, t, m', t', e1, e2, hm, ht⟩
  · rw [e1, e2]; exact .no
  · rw [e1, e2]; exact .yes .nil h

theorem eqv_notPrecedes {p : Pat} (hp : Eqv p) : Eqv (notPrecedes p) := by
  refine ⟨sound_notPrecedes p, fun b b' r r' hb h hr => ?_⟩
  rw [notPrecedes, notPrecedes]
  rcases hp.eqv b b' r r' hb h hr with ⟨e1, e2⟩ | ⟨m, t, m', t', e1, e2, hm, ht⟩
  · rw [e1, e2]; exact .yes .nil h
  · rw [e1, e2]; exact .no

theorem eqv_notFollows {q : Char → Bool} (hq : Off q) : Eqv (notFollows q) := by
  refine ⟨sound_notFollows q, fun b b' r r' hb h _ => ?_⟩
  rw [notFollows, notFollows]
  rcases hb.last with e | ⟨e1, c, hc, e2⟩
  · rw [e]
    cases b.getLast? with
    | none => exact .yes .nil h
    | some c => dsimp only; split; exact .no; exact .yes .nil h
  · rw [e1, e2]
    dsimp only
    rw [hq _ hc, hq '\n' (by decide)]
    exact .yes .nil h

theorem eqv_srcEnd : Eqv srcEnd := by
  refine ⟨sound_srcEnd, fun b b' r r' _ h _ => ?_⟩
  rw [srcEnd, srcEnd]
  by_cases hr : r = []
  · subst hr; rw [h.nil_left]; exact .yes .nil .nil
  · rw [if_neg hr, if_neg fun e => hr (h.nil_iff.1 e)]; exact .no

/-- Only indentation since the beginning of the line, as a property of the text before. -/
def Indented (b : Str) : Prop := match b.reverse.dropWhile (fun c => decide (c = '\t') || decide (c = ' ')) with
  | [] => True
  | c :: _ => c = '\n'

theorem indented_char (b : Str) {c : Char} : Indented (b ++ [c]) ↔ c = '\n' ∨ (c = '\t' ∨ c = ' ') ∧ Indented b := by
  rw [Indented, Indented, List.reverse_append, List.reverse_singleton, List.singleton_append, List.dropWhile_cons]
  by_cases hc : (decide (c = '\t') || decide (c = ' ')) = true
  · rw [if_pos hc]
    have h1 : c = '\t' ∨ c = ' ' := by simpa using hc
    have h2 : c ≠ '\n' := by rintro rfl; revert hc; decide
    simp [h1, h2]
  · rw [if_neg hc]
    have h1 : ¬ (c = '\t' ∨ c = ' ') := by simpa using hc
    simp [h1]

theorem indented_pad (b : Str) : ∀ {v : Str}, (∀ c ∈ v, c = ' ' ∨ c = '\t') → Indented (b ++ '\n' :: v) := by
  intro v
  induction h : v.length generalizing v with
  | zero =>
    intro _
    have : v = [] := List.length_eq_zero_iff.1 h
    subst this
    rw [indented_char]; exact .inl rfl
  | succ n ih =>
    intro hv
    rcases List.eq_nil_or_concat v with rfl | ⟨v, c, rfl⟩
    · cases h
    · rw [List.concat_eq_append] at h hv ⊢
      rw [show b ++ '\n' :: (v ++ [c]) = (b ++ '\n' :: v) ++ [c] by simp, indented_char]
      exact .inr ⟨(hv c (by simp)).symm, ih (by simpa using h) fun d hd => hv d (by simp [hd])⟩

end Mty.Grammar

namespace Mty.Spec
open Grammar

variable {Q : Str → Str → Prop}

/-- The last character of the two. -/
theorem Margins.concat : ∀ {s : Str} {c : Char} {s' : Str}, Margins Q (s ++ [c]) s' →
    (c ≠ '\n' ∧ ∃ t, s' = t ++ [c] ∧ Margins Q s t) ∨ c = '\n' ∧ ∃ t v, s' = t ++ '\n' :: v ∧ ∀ c ∈ v, c = ' ' ∨ c = '\t'
  | [], c, s', h => by
    by_cases hc : c = '\n'
    · subst hc
      replace h := Margins.nl h; obtain ⟨u, v, t, rfl, hu, hv, h⟩ := h
      rw [h.nil_left]
      exact .inr ⟨rfl, u, v, by simp, hv.1⟩
    · replace h := Margins.cons hc h; obtain ⟨t, rfl, h⟩ := h
      rw [h.nil_left]
      exact .inl ⟨hc, [], rfl, .nil⟩
  | d :: s, c, s', h => by
    rw [List.cons_append] at h
    by_cases hd : d = '\n'
    · subst hd
      replace h := Margins.nl h; obtain ⟨u, v, t, rfl, hu, hv, h⟩ := h
      rcases Margins.concat h with ⟨hc, x, rfl, hx⟩ | ⟨hc, x, y, rfl, hy⟩
      · exact .inl ⟨hc, u ++ '\n' :: (v ++ x), by simp, .line hu hv hx⟩
      · exact .inr ⟨hc, u ++ '\n' :: (v ++ x), y, by simp, hy⟩
    · replace h := Margins.cons hd h; obtain ⟨t, rfl, h⟩ := h
      rcases Margins.concat h with ⟨hc, x, rfl, hx⟩ | ⟨hc, x, y, rfl, hy⟩
      · exact .inl ⟨hc, d :: x, rfl, .char hd hx⟩
      · exact .inr ⟨hc, d :: x, y, rfl, hy⟩

theorem Margins.indented : ∀ (n : Nat) {b b' : Str}, b.length = n → Margins Q b b' → (Indented b' ↔ Indented b)
  | 0, b, b', hl, h => by
    have : b = [] := List.length_eq_zero_iff.1 hl
    subst this
    rw [h.nil_left]
  | n + 1, b, b', hl, h => by
    rcases List.eq_nil_or_concat b with rfl | ⟨b, c, rfl⟩
    · cases hl
    · rw [List.concat_eq_append] at hl h ⊢
      rcases h.concat with ⟨hc, t, rfl, ht⟩ | ⟨rfl, t, v, rfl, hv⟩
      · rw [indented_char, indented_char, Margins.indented n (by simpa using hl) ht]
      · rw [indented_char]
        simp [indented_pad t hv]

end Mty.Spec

namespace Mty.Grammar
open Pat Lex Spec

variable {Q : Str → Str → Prop}

theorem followsIndent_eq (b r : Str) : (Indented b → followsIndent b r = some ([], r)) ∧ (¬ Indented b → followsIndent b r = none) := by
  rw [followsIndent, Indented]
  split
  · simp_all
  · rename_i c _ e
    rw [e]
    simp only
    constructor
    · intro h; rw [if_pos h]
    · intro h; rw [if_neg h]

theorem eqv_followsIndent : Eqv followsIndent := by
  refine ⟨sound_followsIndent, fun b b' r r' hb h _ => ?_⟩
  have := hb.indented _ rfl
  by_cases hi : Indented b
  · rw [(followsIndent_eq b r).1 hi, (followsIndent_eq b' r').1 (this.2 hi)]; exact .yes .nil h
  · rw [(followsIndent_eq b r).2 hi, (followsIndent_eq b' r').2 fun e => hi (this.1 e)]; exact .no

/-! ## Repetitions -/

/-- What is repeated reads the same with wider margins, except that it may read the characters of margins one by one. -/
def Item (p : Pat) : Prop := ∀ (Q : Str → Str → Prop) (b b' r r' : Str), Margins Q b b' → Margins Q r r' → NoSlashBreak r → Ev Q (p b r) (p b' r') ∨
  ∃ s, r = '\n' :: s ∧ ∀ c ∈ blanks, ∀ b x, p b (c :: x) = some ([c], x)

/-- Characters that are read one by one. -/
theorem manyLoop_blanks {p : Pat} (hp : ∀ c ∈ blanks, ∀ b x, p b (c :: x) = some ([c], x)) : ∀ (u : Str) (k : Nat) (b x : Str), (∀ c ∈ u, c ∈ blanks) →
    manyLoop p (k + u.length) b (u ++ x) = (u ++ (manyLoop p k (b ++ u) x).1, (manyLoop p k (b ++ u) x).2)
  | [], k, b, x, _ => by simp
  | c :: u, k, b, x, h => by
    have ih := manyLoop_blanks hp u k (b ++ [c]) x fun d hd => h d (by simp [hd])
    rw [List.length_cons, ← Nat.add_assoc, List.cons_append, manyLoop, hp c (h c (by simp))]
    simp only
    rw [ih]
    simp

theorem manyLoop_eqv {p : Pat} (hs : Sound p) (hp : Item p) : ∀ (n k : Nat) (b b' r r' : Str), Margins Q b b' → Margins Q r r' → NoSlashBreak r →
    r.length ≤ n → r'.length ≤ k →
    Margins Q (manyLoop p n b r).1 (manyLoop p k b' r').1 ∧ Margins Q (manyLoop p n b r).2 (manyLoop p k b' r').2
  | n, k, b, b', [], r', _, h, _, _, _ => by
    rw [h.nil_left]
    have e1 := List.append_eq_nil_iff.1 (manyLoop_sound hs k b' []).symm
    have e2 := List.append_eq_nil_iff.1 (manyLoop_sound hs n b []).symm
    rw [e1.1, e1.2, e2.1, e2.2]
    exact ⟨.nil, .nil⟩
  | 0, _, _, _, _ :: _, _, _, _, _, h, _ => by simp at h
  | n + 1, k, b, b', c :: r, r', hb, h, hr, hn, hk => by
    rcases hp Q b b' _ _ hb h hr with he | ⟨s, e, h2⟩
    · cases k with
      | zero =>
        have := h.nil_iff.1 (List.length_eq_zero_iff.1 (Nat.le_zero.1 hk))
        cases this
      | succ k =>
        rw [manyLoop, manyLoop]
        rcases he with ⟨e1, e2⟩ | ⟨m, t, m', t', e1, e2, hm, ht⟩
        · rw [e1, e2]; exact ⟨.nil, h⟩
        · rw [e1, e2]
          cases m with
          | nil => rw [hm.nil_left]; exact ⟨.nil, h⟩
          | cons d m =>
            cases m' with
            | nil => exact absurd (hm.nil_iff.1 rfl) (by simp)
            | cons d' m' =>
              have s1 := hs _ _ _ _ e1
              have s2 := hs _ _ _ _ e2
              have hr1 : NoSlashBreak t := by rw [s1] at hr; exact NoSlashBreak.suffix hr
              have l1 : t.length ≤ n := by have := congrArg List.length s1; simp at this hn; omega
              have l2 : t'.length ≤ k := by have := congrArg List.length s2; simp at this; omega
              obtain ⟨i1, i2⟩ := manyLoop_eqv hs hp n k _ _ t t' (hb.append hm) ht hr1 l1 l2
              dsimp only
              exact ⟨by simpa using hm.append i1, i2⟩
    · cases e
      replace h := h.nl; obtain ⟨u, v, t, rfl, hu, hv, h⟩ := h
      have hw : ∀ c ∈ u ++ '\n' :: v, c ∈ blanks := by
        intro c hc
        simp only [List.mem_append, List.mem_cons] at hc
        rcases hc with hc | rfl | hc
        · exact u_blank hu c hc
        · decide
        · exact v_blank hv.1 c hc
      obtain ⟨j, rfl⟩ : ∃ j, k = j + (u ++ '\n' :: v).length := ⟨k - (u ++ '\n' :: v).length, by simp at hk ⊢; omega⟩
      have e1 := manyLoop_blanks h2 ['\n'] n b r (by decide)
      have e2 := manyLoop_blanks h2 (u ++ '\n' :: v) j b' t hw
      rw [show u ++ '\n' :: (v ++ t) = (u ++ '\n' :: v) ++ t by simp, e2]
      rw [show manyLoop p (n + 1) b ('\n' :: r) = manyLoop p (n + ['\n'].length) b (['\n'] ++ r) from rfl, e1]
      obtain ⟨i1, i2⟩ := manyLoop_eqv hs hp n j _ _ r t (hb.append (margins_nl hu hv)) h (NoSlashBreak.suffix (m := ['\n']) hr)
        (by simp at hn; omega) (by simp at hk; omega)
      exact ⟨(margins_nl hu hv).append i1, i2⟩

theorem eqv_many {p : Pat} (hs : Sound p) (hp : Item p) : Eqv (many p) := by
  refine ⟨sound_many hs, fun b b' r r' hb h hr => ?_⟩
  obtain ⟨h1, h2⟩ := manyLoop_eqv hs hp r.length r'.length b b' r r' hb h hr (Nat.le_refl _) (Nat.le_refl _)
  rw [many, many]
  exact .yes h1 h2

theorem Eqv.item {p : Pat} (hp : Eqv p) : Item p := fun _ b b' r r' hb h hr => .inl (hp.eqv b b' r r' hb h hr)

theorem Eqv.many {p : Pat} (hp : Eqv p) : Eqv (many p) := eqv_many hp.sound hp.item

theorem eqv_many1 {p : Pat} (hp : Eqv p) : Eqv (many1 p) := eqv_seq hp hp.many

/-- True for the characters of margins. -/
def On (q : Char → Bool) : Prop := ∀ c ∈ blanks, q c = true

instance (q : Char → Bool) : Decidable (On q) := inferInstanceAs (Decidable (∀ c ∈ blanks, _))

theorem item_chr {q : Char → Bool} (hq : On q) : Item (chr q) := by
  intro Q b b' r r' _ h _
  cases r with
  | nil => rw [h.nil_left]; exact .inl .no
  | cons c r =>
    by_cases hc : c = '\n'
    · subst hc
      exact .inr ⟨r, rfl, fun c hc b x => by simp [chr, hq c hc]⟩
    · replace h := h.cons hc; obtain ⟨t, rfl, h⟩ := h
      exact .inl (ev_chr hc h)

/-- A character or something else. -/
theorem item_alt {q : Char → Bool} (hq : On q) {p : Pat} (hp : Eqv p) : Item (alt (chr q) p) := by
  intro Q b b' r r' hb h hr
  rcases item_chr hq Q b b' r r' hb h hr with h1 | ⟨s, rfl, h1⟩
  · left
    rw [alt, alt]
    rcases h1 with ⟨e1, e2⟩ | ⟨m, t, m', t', e1, e2, hm, ht⟩
    · rw [e1, e2]; exact hp.eqv b b' r r' hb h hr
    · rw [e1, e2]; exact .yes hm ht
  · exact .inr ⟨s, rfl, fun c hc b x => by rw [alt, h1 c hc]⟩

/-- Reads nothing that begins with a character of a margin. -/
def Solid (p : Pat) : Prop := ∀ c ∈ blanks, ∀ b x, p b (c :: x) = none

/-- Characters that are passed over. -/
theorem lazyThen_blanks {q : Pat} (hn : Solid q) : ∀ (u b x : Str), (∀ c ∈ u, c ∈ blanks) →
    lazyThen q b (u ++ x) = (lazyThen q (b ++ u) x).map fun y => (u ++ y.1, y.2)
  | [], b, x, _ => by simp
  | c :: u, b, x, h => by
    rw [List.cons_append, lazyThen, hn c (h c (by simp))]
    simp only
    rw [lazyThen_blanks hn u _ x fun d hd => h d (by simp [hd]), List.append_assoc, List.singleton_append]
    cases lazyThen q (b ++ c :: u) x <;> simp

theorem eqv_lazyThen {q : Pat} (hq : Eqv q) (hn : Solid q) : Eqv (lazyThen q) := by
  refine ⟨sound_lazyThen hq.sound, fun b b' r r' hb h hr => ?_⟩
  induction r generalizing b b' r' with
  | nil =>
    have e := h.nil_left
    subst e
    rw [lazyThen, lazyThen]; exact hq.eqv b b' [] [] hb .nil hr
  | cons c r ih =>
    have hr' : NoSlashBreak r := NoSlashBreak.suffix (m := [c]) hr
    by_cases hc : c = '\n'
    · subst hc
      replace h := h.nl; obtain ⟨u, v, t, rfl, hu, hv, h⟩ := h
      have hw : ∀ c ∈ u ++ '\n' :: v, c ∈ blanks := by
        intro c hc
        simp only [List.mem_append, List.mem_cons] at hc
        rcases hc with hc | rfl | hc
        · exact u_blank hu c hc
        · decide
        · exact v_blank hv.1 c hc
      have e1 := lazyThen_blanks hn ['\n'] b r (by decide)
      have e2 := lazyThen_blanks hn (u ++ '\n' :: v) b' t hw
      rw [show u ++ '\n' :: (v ++ t) = (u ++ '\n' :: v) ++ t by simp, e2]
      rw [show lazyThen q b ('\n' :: r) = lazyThen q b (['\n'] ++ r) from rfl, e1]
      rcases ih _ _ t (hb.append (margins_nl hu hv)) h hr' with ⟨e1, e2⟩ | ⟨m, t, m', t', e1, e2, hm, ht⟩
      · rw [e1, e2]; exact .no
      · rw [e1, e2]; exact .yes ((margins_nl hu hv).append hm) ht
    · have e1 := hq.eqv b b' (c :: r) r' hb h hr
      replace h := h.cons hc; obtain ⟨t, rfl, h⟩ := h
      rw [lazyThen, lazyThen]
      rcases e1 with ⟨e1, e2⟩ | ⟨m, t, m', t', e1, e2, hm, ht⟩
      · rw [e1, e2]
        dsimp only
        rcases ih _ _ t (hb.append (margins1 hc)) h hr' with ⟨e1, e2⟩ | ⟨m, t, m', t', e1, e2, hm, ht⟩
        · rw [e1, e2]; exact .no
        · rw [e1, e2]; exact .yes (.char hc hm) ht
      · rw [e1, e2]; exact .yes hm ht

theorem takeWhile_blanks {q : Char → Bool} (hq : ∀ c ∈ blanks, q c = true) : ∀ (u x : Str), (∀ c ∈ u, c ∈ blanks) →
    (u ++ x).takeWhile q = u ++ x.takeWhile q ∧ (u ++ x).dropWhile q = x.dropWhile q
  | [], x, _ => ⟨rfl, rfl⟩
  | c :: u, x, h => by
    have ih := takeWhile_blanks hq u x fun d hd => h d (by simp [hd])
    rw [List.cons_append, List.takeWhile_cons, List.dropWhile_cons, if_pos (hq c (h c (by simp))), if_pos (hq c (h c (by simp))), ih.1, ih.2]
    exact ⟨rfl, rfl⟩

theorem span_both {q : Char → Bool} (hq : On q) {r r' : Str} (h : Margins Q r r') :
    Margins Q (r.takeWhile q) (r'.takeWhile q) ∧ Margins Q (r.dropWhile q) (r'.dropWhile q) := by
  induction h with
  | nil => exact ⟨.nil, .nil⟩
  | char hc h ih =>
    rename_i c s s'
    rw [List.takeWhile_cons, List.dropWhile_cons, List.takeWhile_cons, List.dropWhile_cons]
    by_cases hx : q c = true
    · simp only [if_pos hx]; exact ⟨.char hc ih.1, ih.2⟩
    · simp only [if_neg hx]; exact ⟨.nil, .char hc h⟩
  | line hu hv h ih =>
    rename_i u v s s'
    have hw : ∀ c ∈ u ++ '\n' :: v, c ∈ blanks := by
      intro c hc
      simp only [List.mem_append, List.mem_cons] at hc
      rcases hc with hc | rfl | hc
      · exact u_blank hu c hc
      · decide
      · exact v_blank hv.1 c hc
    have e := takeWhile_blanks hq (u ++ '\n' :: v) s' hw
    have hn : q '\n' = true := hq _ (by decide)
    rw [show u ++ '\n' :: (v ++ s') = (u ++ '\n' :: v) ++ s' by simp, e.1, e.2, List.takeWhile_cons, List.dropWhile_cons, if_pos hn, if_pos hn]
    exact ⟨(margins_nl hu hv).append ih.1, ih.2⟩

/-- Up to the end of a line, or not so far. -/
theorem span_any {q : Char → Bool} (hn : q '\n' = false) {r r' : Str} (h : Margins Q r r') :
    ((∃ z, r.dropWhile q = '\n' :: z) ∧ ∃ c x, r'.dropWhile q = c :: x ∧ c ∈ blanks) ∨
    ((∀ z, r.dropWhile q ≠ '\n' :: z) ∧ Margins Q (r.takeWhile q) (r'.takeWhile q) ∧ Margins Q (r.dropWhile q) (r'.dropWhile q)) := by
  induction h with
  | nil => exact .inr ⟨fun z => by simp, .nil, .nil⟩
  | char hc h ih =>
    rename_i c s s'
    rw [List.takeWhile_cons, List.dropWhile_cons, List.takeWhile_cons, List.dropWhile_cons]
    by_cases hx : q c = true
    · simp only [if_pos hx]
      rcases ih with ih | ⟨h1, h2, h3⟩
      · exact .inl ih
      · exact .inr ⟨h1, .char hc h2, h3⟩
    · simp only [if_neg hx]
      exact .inr ⟨fun z e => hc (by cases e; rfl), .nil, .char hc h⟩
  | line hu hv h ih =>
    rename_i u v s s'
    left
    refine ⟨⟨s, by simp [List.dropWhile_cons, hn]⟩, ?_⟩
    clear ih hv
    induction u with
    | nil => exact ⟨'\n', v ++ s', by simp [List.dropWhile_cons, hn], by decide⟩
    | cons c u ihu =>
      rw [List.cons_append, List.dropWhile_cons]
      split
      · exact ihu fun d hd => hu d (by simp [hd])
      · exact ⟨c, _, rfl, u_blank hu c (by simp)⟩

/-- The same for what reads all characters of margins up to the line feed. -/
theorem span_line {q : Char → Bool} (hn : q '\n' = false) (hq : ∀ c ∈ [' ', '\t', '\r'], q c = true) {r r' : Str} (h : Margins Q r r') :
    (∃ z u v z', r.dropWhile q = '\n' :: z ∧ r'.takeWhile q = r.takeWhile q ++ u ∧ r'.dropWhile q = '\n' :: (v ++ z') ∧
      (∀ c ∈ u, c = ' ' ∨ c = '\t' ∨ c = '\r') ∧ ((∀ c ∈ v, c = ' ' ∨ c = '\t') ∧ Q u v) ∧ Margins Q z z') ∨
    ((∀ z, r.dropWhile q ≠ '\n' :: z) ∧ Margins Q (r.takeWhile q) (r'.takeWhile q) ∧ Margins Q (r.dropWhile q) (r'.dropWhile q)) := by
  induction h with
  | nil => exact .inr ⟨fun z => by simp, .nil, .nil⟩
  | char hc h ih =>
    rename_i c s s'
    rw [List.takeWhile_cons, List.dropWhile_cons, List.takeWhile_cons, List.dropWhile_cons]
    by_cases hx : q c = true
    · simp only [if_pos hx]
      rcases ih with ⟨z, u, v, z', h1, h2, h3, h4⟩ | ⟨h1, h2, h3⟩
      · exact .inl ⟨z, u, v, z', h1, by rw [h2]; rfl, h3, h4⟩
      · exact .inr ⟨h1, .char hc h2, h3⟩
    · simp only [if_neg hx]
      exact .inr ⟨fun z e => hc (by cases e; rfl), .nil, .char hc h⟩
  | line hu hv h ih =>
    rename_i u v s s'
    left
    have key : ∀ u : Str, (∀ c ∈ u, c = ' ' ∨ c = '\t' ∨ c = '\r') →
        (u ++ '\n' :: (v ++ s')).takeWhile q = u ∧ (u ++ '\n' :: (v ++ s')).dropWhile q = '\n' :: (v ++ s') := by
      intro u hu
      induction u with
      | nil => simp [List.takeWhile_cons, List.dropWhile_cons, hn]
      | cons c u ihu =>
        have := ihu fun d hd => hu d (by simp [hd])
        have hc : q c = true := hq c (by simpa using hu c (by simp))
        rw [List.cons_append, List.takeWhile_cons, List.dropWhile_cons, if_pos hc, if_pos hc, this.1, this.2]
        exact ⟨rfl, rfl⟩
    exact ⟨s, u, v, s', by simp [List.dropWhile_cons, hn], by rw [(key u hu).1]; simp [List.takeWhile_cons, hn], (key u hu).2, hu, hv, h⟩

theorem eqv_line {q : Char → Bool} (hn : q '\n' = false) {p : Pat} (hp : Eqv p) (hs : Solid p) : Eqv (seq (many (chr q)) p) := by
  refine ⟨sound_seq (sound_many (sound_chr _)) hp.sound, fun b b' r r' hb h hr => ?_⟩
  rw [seq, seq, many_blank, many_blank]
  dsimp only
  have hr' : NoSlashBreak (r.dropWhile q) := by
    rw [← List.takeWhile_append_dropWhile (p := q) (l := r)] at hr; exact NoSlashBreak.suffix hr
  rcases span_any hn h with ⟨⟨z, h1⟩, c, x, h2, hc⟩ | ⟨_, h2, h3⟩
  · rw [h1, h2, hs _ hc, hs '\n' (by decide)]; exact .no
  · rcases hp.eqv _ _ _ _ (hb.append h2) h3 hr' with ⟨e1, e2⟩ | ⟨m, t, m', t', e1, e2, hm, ht⟩
    · rw [e1, e2]; exact .no
    · rw [e1, e2]; exact .yes (h2.append hm) ht

theorem eqv_line1 {q : Char → Bool} (hn : q '\n' = false) {p : Pat} (hp : Eqv p) (hs : Solid p) : Eqv (seq (many1 (chr q)) p) := by
  have h0 := eqv_line hn hp hs
  refine ⟨sound_seq (sound_many1 (sound_chr _)) hp.sound, fun b b' r r' hb h hr => ?_⟩
  have key : ∀ b r, seq (many1 (chr q)) p b r = match r with
      | [] => none
      | c :: _ => if q c then seq (many (chr q)) p b r else none := by
    intro b r
    cases r with
    | nil => rfl
    | cons c r =>
      dsimp only
      by_cases hc : q c = true
      · rw [if_pos hc, seq, seq, many_blank, many1, seq, chr, if_pos hc]
        dsimp only
        rw [many_blank, List.takeWhile_cons, if_pos hc, List.dropWhile_cons, if_pos hc]
        rfl
      · rw [if_neg hc, seq, many1, seq, chr, if_neg hc]
  have e := h0.eqv b b' r r' hb h hr
  rw [key, key]
  cases r with
  | nil => rw [h.nil_left]; exact .no
  | cons c r =>
    by_cases hc : c = '\n'
    · subst hc
      obtain ⟨d, t, rfl, hd⟩ := h.head
      have e1 : seq (many (chr q)) p b ('\n' :: r) = none := by
        rw [seq, many_blank, List.takeWhile_cons, List.dropWhile_cons, hn]
        simp [hs '\n' (by decide)]
      rw [e1] at e
      dsimp only
      rw [hn]
      rcases e with ⟨_, e2⟩ | ⟨m, t, m', t', e2, _⟩
      · rw [e2]; simp only [ite_self]; exact .no
      · cases e2
    · replace h := h.cons hc; obtain ⟨t, rfl, h⟩ := h
      dsimp only
      split
      · exact e
      · exact .no

theorem solid_chr {q : Char → Bool} (hq : Off q) : Solid (chr q) := fun c hc b x => by simp [chr, hq c hc]

theorem solid_exact {c : Char} {t : Str} (h : c ∉ blanks) : Solid (Pat.exact (c :: t)) := fun d hd b x => by
  have e : (c == d) = false := by rw [beq_eq_false_iff_ne]; rintro rfl; exact h hd
  simp [Pat.exact, List.isPrefixOf, e]

theorem solid_seq {p q : Pat} (hp : Solid p) : Solid (seq p q) := fun c hc b x => by rw [seq, hp c hc]

theorem solid_alt {p q : Pat} (hp : Solid p) (hq : Solid q) : Solid (alt p q) := fun c hc b x => by
  rw [alt, hp c hc]; exact hq c hc b x

/-- The pattern reads nothing. -/
def Empty (p : Pat) : Prop := ∀ b r x, p b r = some x → x = ([], r)

theorem solid_empty {p q : Pat} (hp : Empty p) (hq : Solid q) : Solid (seq p q) := fun c hc b x => by
  rw [seq]
  cases h : p b (c :: x) with
  | none => rfl
  | some y => rw [hp _ _ _ h]; dsimp only; rw [hq c hc]

theorem empty_notFollows (q : Char → Bool) : Empty (notFollows q) := by
  intro b r x h
  rw [notFollows] at h
  split at h
  · split at h <;> cases h; rfl
  · cases h; rfl

/-! ## The tokens -/

theorem eqv_unicodeEscape : Eqv unicodeEscape :=
  eqv_seq (eqv_exact (by decide)) (eqv_line (by decide) (eqv_exact (by decide)) (solid_exact (by decide)))

theorem eqv_slash : Eqv (seq (chr (· = '\\')) (chr fun _ => true)) := by
  refine ⟨sound_seq (sound_chr _) (sound_chr _), fun b b' r r' hb h hr => ?_⟩
  cases r with
  | nil => rw [h.nil_left]; exact .no
  | cons c r =>
    by_cases hc : c = '\\'
    · subst hc
      replace h := h.cons (by decide); obtain ⟨t, rfl, h⟩ := h
      cases r with
      | nil => rw [h.nil_left]; exact .no
      | cons d r =>
        have hd : d ≠ '\n' := fun e => hr [] r (by rw [e]; rfl)
        replace h := h.cons hd; obtain ⟨t, rfl, h⟩ := h
        simp only [seq, chr, decide_true, if_true]
        exact .yes (.char (by decide) (margins1 hd)) h
    · by_cases hn : c = '\n'
      · subst hn
        obtain ⟨d, t, rfl, hd⟩ := h.head
        have : d ≠ '\\' := by rintro rfl; revert hd; decide
        simp only [seq, chr, this, decide_false, Bool.false_eq_true, if_false]
        exact .no
      · replace h := h.cons hn; obtain ⟨t, rfl, h⟩ := h
        simp only [seq, chr, hc, decide_false, Bool.false_eq_true, if_false]
        exact .no

theorem eqv_escape : Eqv Lex.escape := eqv_alt eqv_unicodeEscape eqv_slash

theorem solid_escape : Solid Lex.escape := solid_alt (solid_seq (solid_exact (by decide))) (solid_seq (solid_chr (by decide)))

theorem eqv_postSelectorChain : Eqv postSelectorChain :=
  eqv_alt (eqv_line (by decide) (eqv_alt (eqv_chr (by decide)) (eqv_seq (eqv_chr (by decide)) (eqv_notPrecedes (eqv_chr (by decide)))))
    (solid_alt (solid_chr (by decide)) (solid_seq (solid_chr (by decide))))) (eqv_chr (by decide))

section
variable {al : Char → Bool} (hn : Off al)
include hn

theorem eqv_textWord : Eqv (textWord al) :=
  eqv_seq (eqv_many1 (eqv_alt (eqv_seq (eqv_chr (by decide)) (eqv_notPrecedes (eqv_chr (by decide))))
    (eqv_alt (eqv_chr hn) eqv_escape))) (eqv_notPrecedes eqv_postSelectorChain)

theorem solid_textWord : Solid (textWord al) :=
  solid_seq (solid_seq (solid_alt (solid_seq (solid_chr (by decide))) (solid_alt (solid_chr hn) solid_escape)))

theorem eqv_textSegment : Eqv (textSegment al) :=
  eqv_seq (eqv_textWord hn) (eqv_line1 (by decide) (eqv_textWord hn) (solid_textWord hn)).many

theorem off_star : Off (fun c => al c || decide (c = '*')) := fun c hc => by
  have : c ≠ '*' := by rintro rfl; revert hc; decide
  simp [hn c hc, this]

theorem eqv_selectorChain : Eqv (selectorChain al) :=
  eqv_seq (eqv_many1 (eqv_alt (eqv_seq (eqv_chr (by decide)) (eqv_notPrecedes (eqv_chr (by decide))))
    (eqv_alt (eqv_chr (off_star hn)) eqv_escape))) (eqv_precedes eqv_postSelectorChain)

theorem solid_selectorChain : Solid (selectorChain al) :=
  solid_seq (solid_seq (solid_alt (solid_seq (solid_chr (by decide))) (solid_alt (solid_chr (off_star hn)) solid_escape)))

end

theorem eqv_quoted : Eqv quotedString :=
  eqv_alt
    (eqv_seq (eqv_chr (by decide)) (eqv_seq (eqv_many (sound_alt (sound_chr _) sound_escape) (item_alt (by decide) eqv_escape)) (eqv_chr (by decide))))
    (eqv_seq (eqv_chr (by decide)) (eqv_seq (eqv_many (sound_alt (sound_chr _) sound_escape) (item_alt (by decide) eqv_escape)) (eqv_chr (by decide))))

theorem eqv_interpolation : Eqv interpolation :=
  eqv_alt (eqv_seq (eqv_notFollows (by decide)) (eqv_seq (eqv_exact (by decide)) (eqv_seq (eqv_notPrecedes (eqv_chr (by decide)))
      (eqv_lazyThen (eqv_seq (eqv_notFollows (by decide)) (eqv_seq (eqv_exact (by decide)) (eqv_notPrecedes (eqv_chr (by decide)))))
        (solid_empty (empty_notFollows _) (solid_seq (solid_exact (by decide))))))))
    (eqv_alt (eqv_seq (eqv_exact (by decide)) (eqv_lazyThen (eqv_exact (by decide)) (solid_exact (by decide))))
      (eqv_alt (eqv_seq (eqv_exact (by decide)) (eqv_lazyThen (eqv_exact (by decide)) (solid_exact (by decide))))
        (eqv_seq (eqv_exact (by decide)) (eqv_lazyThen (eqv_exact (by decide)) (solid_exact (by decide))))))

theorem inked_hashes {a b : Str} (ha : Inked a) (hb : Inked b) (k : Nat) : Inked (a ++ List.replicate k '#' ++ b) := by
  intro c hc hm
  simp only [List.mem_append, List.mem_replicate] at hm
  rcases hm with (h | ⟨_, rfl⟩) | h
  · exact ha c hc h
  · revert hc; decide
  · exact hb c hc h

theorem eqv_verbatimTail (k : Nat) : Eqv (verbatimTail k) :=
  eqv_seq (eqv_exact (inked_hashes (a := []) (by decide) (by decide) k))
    (eqv_lazyThen (eqv_exact (inked_hashes (by decide) (by decide) k)) (solid_exact (c := ']') (by decide)))

theorem eqv_inlineCode : Eqv inlineCode :=
  eqv_seq (eqv_exact (by decide)) (eqv_lazyThen (eqv_exact (by decide)) (solid_exact (by decide)))

theorem eqv_identifierChar : Eqv identifierChar := eqv_alt (eqv_chr (by decide)) eqv_escape

theorem eqv_elementName : Eqv elementName := eqv_seq (eqv_notPrecedes (eqv_chr (by decide))) (eqv_many1 eqv_identifierChar)

theorem eqv_className : Eqv className := eqv_many1 (eqv_chr (by decide +kernel))

theorem eqv_attributeName : Eqv attributeName := eqv_many1 (eqv_alt (eqv_chr (by decide +kernel)) eqv_escape)

theorem eqv_unquotedValue : Eqv unquotedValue := eqv_many1 (eqv_alt (eqv_chr (by decide +kernel)) eqv_escape)

theorem eqv_assignment : Eqv assignment :=
  eqv_seq (eqv_many (sound_chr _) (item_chr (by decide))) (eqv_seq (eqv_chr (by decide)) (eqv_many (sound_chr _) (item_chr (by decide))))

theorem eqv_anyChars : Eqv anyChars := by
  refine ⟨sound_anyChars, fun b b' r r' _ h _ => ?_⟩
  have key : ∀ b r, anyChars b r = if r = [] then none else some (r, []) := by
    intro b r
    cases r with
    | nil => rfl
    | cons c r =>
      have e : ∀ r : Str, r.takeWhile (fun _ => true) = r ∧ r.dropWhile (fun _ => true) = [] := by
        intro r
        induction r with
        | nil => exact ⟨rfl, rfl⟩
        | cons d r ih => simp [ih]
      rw [anyChars, many1, seq, chr]
      simp [many_blank, e]
  rw [key, key]
  by_cases hr : r = []
  · subst hr; rw [h.nil_left]; exact .no
  · rw [if_neg hr, if_neg fun e => hr (h.nil_iff.1 e)]; exact .yes h .nil

theorem commentParts_cons (d : Nat) {c : Char} {r : Str} (h1 : ¬ (c = '<' ∧ r.head? = some '!')) (h2 : ¬ (c = '!' ∧ r.head? = some '>')) :
    commentParts d (c :: r) = (c :: (commentParts d r).1, (commentParts d r).2) := by
  rw [commentParts.eq_def]
  split
  · rename_i e; cases e
  · rename_i e; cases e; exact absurd ⟨rfl, rfl⟩ h1
  · rename_i e; cases e; exact absurd ⟨rfl, rfl⟩ h2
  · rename_i e; cases e; exact absurd ⟨rfl, rfl⟩ h2
  · rename_i e; cases e; rfl

theorem head_margins {c : Char} (hc : c ∉ blanks) {r r' : Str} (h : Margins Q r r') : r'.head? = some c ↔ r.head? = some c := by
  cases r with
  | nil => rw [h.nil_left]
  | cons d r =>
    by_cases hd : d = '\n'
    · subst hd
      obtain ⟨e, t, rfl, he⟩ := h.head
      have h1 : e ≠ c := by rintro rfl; exact hc he
      have h2 : '\n' ≠ c := by rintro rfl; exact hc (by decide)
      simp [h1, h2]
    · replace h := h.cons hd; obtain ⟨t, rfl, h⟩ := h
      simp

theorem commentParts_blanks (d : Nat) : ∀ (u x : Str), (∀ c ∈ u, c ∈ blanks) →
    commentParts d (u ++ x) = (u ++ (commentParts d x).1, (commentParts d x).2)
  | [], x, _ => rfl
  | c :: u, x, h => by
    have hc := h c (by simp)
    rw [List.cons_append, commentParts_cons d, commentParts_blanks d u x fun e he => h e (by simp [he])]
    · rfl
    · rintro ⟨rfl, _⟩; revert hc; decide
    · rintro ⟨rfl, _⟩; revert hc; decide

theorem commentParts_margins : ∀ (n d : Nat) (r r' : Str), r.length ≤ n → Margins Q r r' →
    Margins Q (commentParts d r).1 (commentParts d r').1 ∧ Margins Q (commentParts d r).2 (commentParts d r').2 := by
  intro n
  induction n with
  | zero =>
    intro d r r' hl h
    have : r = [] := List.length_eq_zero_iff.1 (by omega)
    subst this
    rw [h.nil_left, commentParts]; exact ⟨.nil, .nil⟩
  | succ n ih =>
    intro d r r' hl h
    cases r with
    | nil => rw [h.nil_left, commentParts]; exact ⟨.nil, .nil⟩
    | cons c r =>
      replace hl : r.length ≤ n := by simpa using hl
      by_cases h1 : c = '<' ∧ r.head? = some '!'
      · obtain ⟨rfl, h1⟩ := h1
        cases r with
        | nil => cases h1
        | cons e r =>
          cases h1
          replace h := h.cons (by decide); obtain ⟨t, rfl, h⟩ := h
          replace h := h.cons (by decide); obtain ⟨t, rfl, h⟩ := h
          rw [commentParts, commentParts]
          obtain ⟨i1, i2⟩ := ih (d + 1) r t (by simp at hl; omega) h
          exact ⟨.char (by decide) (.char (by decide) i1), i2⟩
      · by_cases h2 : c = '!' ∧ r.head? = some '>'
        · obtain ⟨rfl, h2⟩ := h2
          cases r with
          | nil => cases h2
          | cons e r =>
            cases h2
            have h0 := h
            replace h := h.cons (by decide); obtain ⟨t, rfl, h⟩ := h
            replace h := h.cons (by decide); obtain ⟨t, rfl, h⟩ := h
            cases d with
            | zero => rw [commentParts, commentParts]; exact ⟨.nil, h0⟩
            | succ d =>
              rw [commentParts, commentParts]
              obtain ⟨i1, i2⟩ := ih d r t (by simp at hl; omega) h
              exact ⟨.char (by decide) (.char (by decide) i1), i2⟩
        · rw [commentParts_cons d h1 h2]
          by_cases hc : c = '\n'
          · subst hc
            replace h := h.nl; obtain ⟨u, v, t, rfl, hu, hv, h⟩ := h
            have hw : ∀ c ∈ u ++ '\n' :: v, c ∈ blanks := by
              intro c hc
              simp only [List.mem_append, List.mem_cons] at hc
              rcases hc with hc | rfl | hc
              · exact u_blank hu c hc
              · decide
              · exact v_blank hv.1 c hc
            rw [show u ++ '\n' :: (v ++ t) = (u ++ '\n' :: v) ++ t by simp, commentParts_blanks d _ t hw]
            obtain ⟨i1, i2⟩ := ih d r t hl h
            exact ⟨(margins_nl hu hv).append i1, i2⟩
          · replace h := h.cons hc; obtain ⟨t, rfl, h⟩ := h
            rw [commentParts_cons d]
            · obtain ⟨i1, i2⟩ := ih d r t hl h
              exact ⟨.char hc i1, i2⟩
            · rintro ⟨e, h3⟩
              exact h1 ⟨e, (head_margins (by decide) h).1 h3⟩
            · rintro ⟨e, h3⟩
              exact h2 ⟨e, (head_margins (by decide) h).1 h3⟩

theorem eqv_comment : Eqv (fun _ r => some (commentParts 0 r)) :=
  ⟨sound_comment, fun _ _ r r' _ h _ => by
    obtain ⟨h1, h2⟩ := commentParts_margins _ 0 r r' (Nat.le_refl _) h
    exact .yes h1 h2⟩

/-! ## Multiline blocks -/

theorem inked_fence {c : Char} (h : c ∉ blanks) : Inked [c, c, c] := by
  intro d hd hm
  simp at hm
  subst hm
  exact h hd

theorem off_fence {c : Char} (h : c ∉ blanks) : Off (fun d => decide (d = c)) := fun d hd => by
  have : d ≠ c := by rintro rfl; exact h hd
  simp [this]

theorem eqv_multilineClose {c : Char} (h : c ∉ blanks) : Eqv (multilineClose c) :=
  eqv_seq (eqv_exact (inked_fence h)) (eqv_notPrecedes (eqv_chr (off_fence h)))

theorem solid_bodyRest {c : Char} (h : c ∉ blanks) : Solid (alt srcEnd (seq (precedes (Pat.exact [c, c, c])) followsIndent)) := by
  refine solid_alt (fun d _ b x => by simp [srcEnd]) (solid_seq fun d hd b x => ?_)
  have := solid_exact (t := [c, c]) h d hd b x
  simp [precedes, this]

theorem eqv_bodyRest {c : Char} (h : c ∉ blanks) :
    Eqv (lazyThen (alt srcEnd (seq (precedes (Pat.exact [c, c, c])) followsIndent))) :=
  eqv_lazyThen (eqv_alt eqv_srcEnd (eqv_seq (eqv_precedes (eqv_exact (inked_fence h))) eqv_followsIndent)) (solid_bodyRest h)

/-- The opening ends at the end of a line, before the line feed; or at the end of the source. -/
theorem open_margins {c : Char} (hc : c ∉ blanks) {b b' r r' : Str} (hb : Margins Q b b') (h : Margins Q r r') (hr : NoSlashBreak r) :
    (multilineOpen [c, c, c] b r = none ∧ multilineOpen [c, c, c] b' r' = none) ∨
    (∃ m m' z u v z', multilineOpen [c, c, c] b r = some (m, '\n' :: z) ∧ multilineOpen [c, c, c] b' r' = some (m' ++ u, '\n' :: (v ++ z')) ∧
      Margins Q m m' ∧ (∀ c ∈ u, c = ' ' ∨ c = '\t' ∨ c = '\r') ∧ ((∀ c ∈ v, c = ' ' ∨ c = '\t') ∧ Q u v) ∧ Margins Q z z') ∨
    (∃ m m', multilineOpen [c, c, c] b r = some (m, []) ∧ multilineOpen [c, c, c] b' r' = some (m', [])) := by
  have he := eqv_exact (inked_fence hc)
  simp only [multilineOpen]
  rw [seq, seq]
  rcases he.eqv b b' r r' hb h hr with ⟨e1, e2⟩ | ⟨m, t, m', t', e1, e2, hm, ht⟩
  · rw [e1, e2]; exact .inl ⟨rfl, rfl⟩
  · rw [e1, e2]
    simp only [seq, many_blank]
    rcases span_line (q := fun c => !(decide (c ∈ ['\n', '`']))) (by decide) (by decide) ht with
      ⟨z, u, v, z', e1, e2, e3, hu, hv, hz⟩ | ⟨e1, e2, e3⟩
    · right; left
      refine ⟨m ++ (t.takeWhile (fun c => !(decide (c ∈ ['\n', '`']))) ++ []), m' ++ t.takeWhile (fun c => !(decide (c ∈ ['\n', '`']))),
        z, u, v, z', ?_, ?_, by simpa using hm.append (.plain fun hm => absurd (List.all_eq_true.1 List.all_takeWhile _ hm) (by decide)), hu, hv, hz⟩
      · simp only [e1, lineEnd, if_true]
      · simp only [e2, e3, lineEnd, if_true]
        simp
    · cases hd : t.dropWhile (fun c => !(decide (c ∈ ['\n', '`']))) with
      | nil =>
        rw [hd] at e3
        right; right
        rw [e3.nil_left]
        exact ⟨_, _, rfl, rfl⟩
      | cons d z =>
        left
        have hd' : d ≠ '\n' := fun e => e1 z (by rw [hd, e])
        rw [hd] at e3
        obtain ⟨x, e4, _⟩ := e3.cons hd'
        rw [e4]
        simp [lineEnd, hd']

end Mty.Grammar
