import Verif.Proofs.Json

/-! # A text is JSON for at most one value -/

set_option autoImplicit false

namespace Mty.Json
open Cli

/-- White space. -/
def White (c : Char) : Prop := c = ' ' ∨ c = '\t' ∨ c = '\n' ∨ c = '\r'

theorem blank_split : ∀ {w w' r r' : Str} {c c' : Char}, Blank w → Blank w' → w ++ c :: r = w' ++ c' :: r' → ¬White c → ¬White c' →
    w = w' ∧ c = c' ∧ r = r'
  | [], [], _, _, _, _, _, _, h, _, _ => by simpa using h
  | [], d :: w', _, _, _, _, _, hw', h, hc, _ => by
    rw [List.nil_append, List.cons_append] at h
    obtain ⟨rfl, -⟩ := List.cons.inj h
    exact absurd (hw' _ (by simp)) hc
  | d :: w, [], _, _, _, _, hw, _, h, _, hc => by
    rw [List.nil_append, List.cons_append] at h
    obtain ⟨rfl, -⟩ := List.cons.inj h
    exact absurd (hw _ (by simp)) hc
  | d :: w, d' :: w', _, _, _, _, hw, hw', h, hc, hc' => by
    rw [List.cons_append, List.cons_append] at h
    obtain ⟨rfl, h₂⟩ := List.cons.inj h
    obtain ⟨rfl, h2⟩ := blank_split (w := w) (w' := w') (fun x hx => hw x (List.mem_cons_of_mem _ hx)) (fun x hx => hw' x (List.mem_cons_of_mem _ hx)) h₂ hc hc'
    exact ⟨rfl, h2⟩

theorem char_le {c d : Char} : c ≤ d ↔ c.toNat ≤ d.toNat := Iff.rfl

theorem hex_det {c : Char} {n m : Nat} (h : Hex c n) (h' : Hex c m) : n = m := by
  have e0 : '0'.toNat = 48 := by decide
  have e9 : '9'.toNat = 57 := by decide
  have ea : 'a'.toNat = 97 := by decide
  have ef : 'f'.toNat = 102 := by decide
  have eA : 'A'.toNat = 65 := by decide
  have eF : 'F'.toNat = 70 := by decide
  simp only [Hex, char_le, e0, e9, ea, ef, eA, eF] at h h'
  omega

theorem unit_det {u v t t' : Str} {n m : Nat} (h : Unit u n) (h' : Unit v m) (he : u ++ t = v ++ t') : u = v ∧ n = m ∧ t = t' := by
  cases h with
  | mk a b c d =>
    cases h' with
    | mk a' b' c' d' =>
      simp only [List.cons_append, List.nil_append, List.cons.injEq] at he
      obtain ⟨rfl, rfl, rfl, rfl, rfl⟩ := he
      have := hex_det a a'
      have := hex_det b b'
      have := hex_det c c'
      have := hex_det d d'
      subst_vars
      exact ⟨rfl, rfl, rfl⟩

theorem short_det {e c c' : Char} (h : Short e c) (h' : Short e c') : c = c' := by
  cases h <;> cases h' <;> rfl

theorem short_u {c : Char} : ¬Short 'u' c := by
  intro h
  cases h

theorem no_surrogate (c : Char) : c.toNat < 0xD800 ∨ 0xDFFF < c.toNat := by
  rcases c.valid with h | h
  · exact .inl h
  · exact .inr h.1

theorem chars_det {t s : Str} (h : Chars t s) : ∀ {t' s' r r' : Str}, Chars t' s' → t ++ '"' :: r = t' ++ '"' :: r' → t = t' ∧ s = s' := by
  induction h with
  | nil =>
    intro t' s' r r' h' he
    cases h' with
    | nil => exact ⟨rfl, rfl⟩
    | plain _ hq _ _ => exact absurd (List.cons.inj he).1.symm hq
    | short _ _ => exact absurd (List.cons.inj he).1 (by decide)
    | unit _ _ => exact absurd (List.cons.inj he).1 (by decide)
    | pair _ _ _ _ _ _ _ _ => exact absurd (List.cons.inj he).1 (by decide)
  | plain h1 hq hb _ ih =>
    intro t' s' r r' h' he
    cases h' with
    | nil => exact absurd (List.cons.inj he).1 hq
    | plain _ _ _ h' =>
      simp only [List.cons_append] at he
      obtain ⟨rfl, he₂⟩ := List.cons.inj he
      obtain ⟨rfl, rfl⟩ := ih h' he₂
      exact ⟨rfl, rfl⟩
    | short _ _ => exact absurd (List.cons.inj he).1 hb
    | unit _ _ => exact absurd (List.cons.inj he).1 hb
    | pair _ _ _ _ _ _ _ _ => exact absurd (List.cons.inj he).1 hb
  | short h1 _ ih =>
    intro t' s' r r' h' he
    cases h' with
    | nil => exact absurd (List.cons.inj he).1 (by decide)
    | plain _ _ hb _ => exact absurd (List.cons.inj he).1.symm hb
    | short h2 h' =>
      simp only [List.cons_append] at he
      obtain ⟨-, he⟩ := List.cons.inj he
      obtain ⟨rfl, he₂⟩ := List.cons.inj he
      obtain ⟨rfl, rfl⟩ := ih h' he₂
      exact ⟨rfl, by rw [short_det h1 h2]⟩
    | unit _ _ =>
      obtain ⟨-, he⟩ := List.cons.inj he
      obtain ⟨rfl, -⟩ := List.cons.inj he
      exact absurd h1 short_u
    | pair _ _ _ _ _ _ _ _ =>
      obtain ⟨-, he⟩ := List.cons.inj he
      obtain ⟨rfl, -⟩ := List.cons.inj he
      exact absurd h1 short_u
  | @unit u t s c h1 _ ih =>
    intro t' s' r r' h' he
    cases h' with
    | nil => exact absurd (List.cons.inj he).1 (by decide)
    | plain _ _ hb _ => exact absurd (List.cons.inj he).1.symm hb
    | short h2 _ =>
      obtain ⟨-, he⟩ := List.cons.inj he
      obtain ⟨rfl, -⟩ := List.cons.inj he
      exact absurd h2 short_u
    | unit h2 h' =>
      simp only [List.cons_append, List.append_assoc, List.cons.injEq, true_and] at he
      obtain ⟨rfl, hn, he⟩ := unit_det h1 h2 he
      obtain ⟨rfl, rfl⟩ := ih h' he
      exact ⟨rfl, by rw [toNat_inj hn]⟩
    | pair h2 _ h3 h4 _ _ _ _ =>
      simp only [List.cons_append, List.append_assoc, List.cons.injEq, true_and] at he
      obtain ⟨-, hn, -⟩ := unit_det h1 h2 he
      have := no_surrogate c
      omega
  | @pair u v t s c h l h1 h2 h3 h4 h5 h6 h7 _ ih =>
    intro t' s' r r' h' he
    cases h' with
    | nil => exact absurd (List.cons.inj he).1 (by decide)
    | plain _ _ hb _ => exact absurd (List.cons.inj he).1.symm hb
    | short h2 _ =>
      obtain ⟨-, he⟩ := List.cons.inj he
      obtain ⟨rfl, -⟩ := List.cons.inj he
      exact absurd h2 short_u
    | @unit _ _ _ c' h2 h' =>
      simp only [List.cons_append, List.append_assoc, List.cons.injEq, true_and] at he
      obtain ⟨rfl, hn, he⟩ := unit_det h1 h2 he
      have := no_surrogate c'
      omega
    | pair k1 k2 k3 k4 k5 k6 k7 h' =>
      simp only [List.cons_append, List.append_assoc, List.cons.injEq, true_and] at he
      obtain ⟨rfl, rfl, he⟩ := unit_det h1 k1 he
      simp only [List.cons.injEq, true_and] at he
      obtain ⟨rfl, rfl, he⟩ := unit_det h2 k2 he
      obtain ⟨rfl, rfl⟩ := ih h' he
      exact ⟨rfl, by rw [toNat_inj (h7.trans k7.symm)]⟩

/-! ## Numbers -/

def Digit (c : Char) : Prop := '0' ≤ c ∧ c ≤ '9'

/-- A number can end here. -/
def Ends (r : Str) : Prop := ∀ c, r.head? = some c → ¬Digit c

theorem digits_det : ∀ {t t' r r' : Str}, (∀ c ∈ t, Digit c) → (∀ c ∈ t', Digit c) → t ++ r = t' ++ r' → Ends r → Ends r' → t = t'
  | [], [], _, _, _, _, _, _, _ => rfl
  | [], d :: t', r, _, _, h', he, hr, _ => by
    rw [List.nil_append] at he
    subst he
    exact absurd (h' d (by simp)) (hr d rfl)
  | d :: t, [], _, r', h, _, he, _, hr => by
    rw [List.nil_append] at he
    subst he
    exact absurd (h d (by simp)) (hr d rfl)
  | d :: t, d' :: t', _, _, h, h', he, hr, hr' => by
    rw [List.cons_append, List.cons_append] at he
    obtain ⟨rfl, he₂⟩ := List.cons.inj he
    rw [digits_det (t := t) (t' := t') (fun x hx => h x (List.mem_cons_of_mem _ hx)) (fun x hx => h' x (List.mem_cons_of_mem _ hx)) he₂ hr hr']

/-- How a value begins. -/
def First (c : Char) : Prop := c = 'n' ∨ c = 't' ∨ c = 'f' ∨ c = '"' ∨ c = '[' ∨ c = '{' ∨ Digit c

theorem reads_first {t : Str} {v : Value} (h : Reads t v) : ∃ c u, t = c :: u ∧ First c := by
  cases h with
  | null => exact ⟨_, _, rfl, .inl rfl⟩
  | «true» => exact ⟨_, _, rfl, .inr (.inl rfl)⟩
  | «false» => exact ⟨_, _, rfl, .inr (.inr (.inl rfl))⟩
  | num hn =>
    cases t with
    | nil => exact absurd rfl hn.1
    | cons c u => exact ⟨c, u, rfl, .inr (.inr (.inr (.inr (.inr (.inr (hn.2.1 c (by simp)))))))⟩
  | str _ => exact ⟨_, _, rfl, .inr (.inr (.inr (.inl rfl)))⟩
  | emptyArr _ => exact ⟨_, _, rfl, .inr (.inr (.inr (.inr (.inl rfl))))⟩
  | arr _ => exact ⟨_, _, rfl, .inr (.inr (.inr (.inr (.inl rfl))))⟩
  | emptyObj _ => exact ⟨_, _, rfl, .inr (.inr (.inr (.inr (.inr (.inl rfl)))))⟩
  | obj _ => exact ⟨_, _, rfl, .inr (.inr (.inr (.inr (.inr (.inl rfl)))))⟩

theorem digit_range {c : Char} (h : Digit c) : 48 ≤ c.toNat ∧ c.toNat ≤ 57 := h

theorem not_digit {c : Char} (h : c.toNat < 48 ∨ 57 < c.toNat) : ¬Digit c := by
  intro hd
  have := digit_range hd
  omega

theorem white_not_digit {c : Char} (h : White c) : ¬Digit c := by
  rcases h with rfl | rfl | rfl | rfl <;> exact not_digit (by decide)

theorem first_not_white {c : Char} (h : First c) : ¬White c := by
  rcases h with rfl | rfl | rfl | rfl | rfl | rfl | h
  case inr.inr.inr.inr.inr.inr => exact fun hw => white_not_digit hw h
  all_goals (unfold White; decide)

theorem first_not_close {c : Char} (h : First c) : c ≠ ']' := by
  rcases h with rfl | rfl | rfl | rfl | rfl | rfl | h
  case inr.inr.inr.inr.inr.inr => rintro rfl; exact not_digit (by decide) h
  all_goals decide

/-- White space and then something that is not a digit. -/
theorem ends_blank {w r : Str} {c : Char} (h : Blank w) (hc : ¬Digit c) : Ends (w ++ c :: r) := by
  intro d hd
  cases w with
  | nil => simp only [List.nil_append, List.head?_cons, Option.some.injEq] at hd; subst hd; exact hc
  | cons e w =>
    simp only [List.cons_append, List.head?_cons, Option.some.injEq] at hd
    subst hd
    exact white_not_digit (h e (by simp))

theorem number_det {t t' r r' : Str} {n n' : Nat} (h : Number t n) (h' : Number t' n') (he : t ++ r = t' ++ r') (hr : Ends r) (hr' : Ends r') :
    t = t' ∧ n = n' := by
  have := digits_det h.2.1 h'.2.1 he hr hr'
  subst this
  exact ⟨rfl, h.2.2.2.symm.trans h'.2.2.2⟩

theorem number_not {t r u : Str} {n : Nat} {c : Char} (h : Number t n) (hc : c.toNat < 48 ∨ 57 < c.toNat) (he : t ++ r = c :: u) : False := by
  cases t with
  | nil => exact h.1 rfl
  | cons d t =>
    obtain ⟨rfl, -⟩ := List.cons.inj he
    exact not_digit hc (h.2.1 d (by simp))

theorem elements_first {t : Str} {l : List Value} (h : Elements t l) : ∃ w c u, Blank w ∧ t = w ++ c :: u ∧ First c := by
  cases h with
  | one hw ht _ =>
    obtain ⟨c, u, rfl, hc⟩ := reads_first ht
    exact ⟨_, c, _, hw, rfl, hc⟩
  | more hw ht _ _ =>
    obtain ⟨c, u, rfl, hc⟩ := reads_first ht
    exact ⟨_, c, _, hw, rfl, hc⟩

theorem members_first {t : Str} {l : List (Str × Value)} (h : Members t l) : ∃ w u, Blank w ∧ t = w ++ '"' :: u := by
  cases h with
  | one h =>
    cases h with
    | mk hw _ _ _ _ _ => exact ⟨_, _, hw, rfl⟩
  | more h _ =>
    cases h with
    | mk hw _ _ _ _ _ => exact ⟨_, _, hw, by rw [List.append_assoc, List.cons_append]⟩

theorem empty_elements {w t r r' : Str} {l : List Value} (hw : Blank w) (h : Elements t l) (he : w ++ ']' :: r = t ++ ']' :: r') : False := by
  obtain ⟨w', c, u, hw', rfl, hc⟩ := elements_first h
  rw [List.append_assoc, List.cons_append] at he
  obtain ⟨-, h1, -⟩ := blank_split hw hw' he (by unfold White; decide) (first_not_white hc)
  exact first_not_close hc h1.symm

theorem empty_members {w t r r' : Str} {l : List (Str × Value)} (hw : Blank w) (h : Members t l) (he : w ++ '}' :: r = t ++ '}' :: r') : False := by
  obtain ⟨w', u, hw', rfl⟩ := members_first h
  rw [List.append_assoc, List.cons_append] at he
  obtain ⟨-, h1, -⟩ := blank_split hw hw' he (by unfold White; decide) (by unfold White; decide)
  exact absurd h1 (by decide)

/-- White space before values. -/
theorem values_begin {w w' t t' r r' : Str} {v v' : Value} (hw : Blank w) (hw' : Blank w') (h : Reads t v) (h' : Reads t' v')
    (he : w ++ (t ++ r) = w' ++ (t' ++ r')) : w = w' ∧ t ++ r = t' ++ r' := by
  obtain ⟨c, u, rfl, hc⟩ := reads_first h
  obtain ⟨c', u', rfl, hc'⟩ := reads_first h'
  simp only [List.cons_append] at he ⊢
  obtain ⟨h1, rfl, h2⟩ := blank_split hw hw' he (first_not_white hc) (first_not_white hc')
  exact ⟨h1, by rw [h2]⟩

mutual

theorem reads_det : ∀ {t : Str} {v : Value}, Reads t v → ∀ {t' : Str} {v' : Value} {r r' : Str}, Reads t' v' → t ++ r = t' ++ r' → Ends r →
    Ends r' → t = t' ∧ v = v'
  | _, _, .null, t', v', r, r', h', he, _, _ => by
    cases h' with
    | null => exact ⟨rfl, rfl⟩
    | num hn => exact (number_not hn (by decide) he.symm).elim
    | _ => exact absurd (List.cons.inj he).1 (by decide)
  | _, _, .true, t', v', r, r', h', he, _, _ => by
    cases h' with
    | «true» => exact ⟨rfl, rfl⟩
    | num hn => exact (number_not hn (by decide) he.symm).elim
    | _ => exact absurd (List.cons.inj he).1 (by decide)
  | _, _, .false, t', v', r, r', h', he, _, _ => by
    cases h' with
    | «false» => exact ⟨rfl, rfl⟩
    | num hn => exact (number_not hn (by decide) he.symm).elim
    | _ => exact absurd (List.cons.inj he).1 (by decide)
  | _, _, .num hn, t', v', r, r', h', he, hr, hr' => by
    cases h' with
    | num hn' =>
      obtain ⟨rfl, rfl⟩ := number_det hn hn' he hr hr'
      exact ⟨rfl, rfl⟩
    | _ => exact (number_not hn (by decide) he).elim
  | _, _, .str hs, t', v', r, r', h', he, _, _ => by
    cases h' with
    | num hn => exact (number_not hn (by decide) he.symm).elim
    | str hs' =>
      simp only [List.cons_append, List.append_assoc, List.nil_append, List.cons.injEq, true_and] at he
      obtain ⟨rfl, rfl⟩ := chars_det hs hs' he
      exact ⟨rfl, rfl⟩
    | _ => exact absurd (List.cons.inj he).1 (by decide)
  | _, _, .emptyArr hw, t', v', r, r', h', he, _, _ => by
    cases h' with
    | num hn => exact (number_not hn (by decide) he.symm).elim
    | emptyArr hw' =>
      simp only [List.cons_append, List.append_assoc, List.nil_append, List.cons.injEq, true_and] at he
      obtain ⟨rfl, -⟩ := blank_split hw hw' he (by unfold White; decide) (by unfold White; decide)
      exact ⟨rfl, rfl⟩
    | arr hl =>
      simp only [List.cons_append, List.append_assoc, List.nil_append, List.cons.injEq, true_and] at he
      exact (empty_elements hw hl he).elim
    | _ => exact absurd (List.cons.inj he).1 (by decide)
  | _, _, .arr hl, t', v', r, r', h', he, _, _ => by
    cases h' with
    | num hn => exact (number_not hn (by decide) he.symm).elim
    | emptyArr hw =>
      simp only [List.cons_append, List.append_assoc, List.nil_append, List.cons.injEq, true_and] at he
      exact (empty_elements hw hl he.symm).elim
    | arr hl' =>
      simp only [List.cons_append, List.append_assoc, List.nil_append, List.cons.injEq, true_and] at he
      obtain ⟨rfl, rfl⟩ := elements_det hl hl' he
      exact ⟨rfl, rfl⟩
    | _ => exact absurd (List.cons.inj he).1 (by decide)
  | _, _, .emptyObj hw, t', v', r, r', h', he, _, _ => by
    cases h' with
    | num hn => exact (number_not hn (by decide) he.symm).elim
    | emptyObj hw' =>
      simp only [List.cons_append, List.append_assoc, List.nil_append, List.cons.injEq, true_and] at he
      obtain ⟨rfl, -⟩ := blank_split hw hw' he (by unfold White; decide) (by unfold White; decide)
      exact ⟨rfl, rfl⟩
    | obj hl =>
      simp only [List.cons_append, List.append_assoc, List.nil_append, List.cons.injEq, true_and] at he
      exact (empty_members hw hl he).elim
    | _ => exact absurd (List.cons.inj he).1 (by decide)
  | _, _, .obj hl, t', v', r, r', h', he, _, _ => by
    cases h' with
    | num hn => exact (number_not hn (by decide) he.symm).elim
    | emptyObj hw =>
      simp only [List.cons_append, List.append_assoc, List.nil_append, List.cons.injEq, true_and] at he
      exact (empty_members hw hl he.symm).elim
    | obj hl' =>
      simp only [List.cons_append, List.append_assoc, List.nil_append, List.cons.injEq, true_and] at he
      obtain ⟨rfl, rfl⟩ := members_det hl hl' he
      exact ⟨rfl, rfl⟩
    | _ => exact absurd (List.cons.inj he).1 (by decide)

theorem elements_det : ∀ {t : Str} {l : List Value}, Elements t l → ∀ {t' : Str} {l' : List Value} {r r' : Str}, Elements t' l' →
    t ++ ']' :: r = t' ++ ']' :: r' → t = t' ∧ l = l'
  | _, _, .one hw ht hw₂, t', l', r, r', h', he => by
    cases h' with
    | one kw kt kw₂ =>
      simp only [List.append_assoc] at he
      obtain ⟨rfl, he₂⟩ := values_begin hw kw ht kt he
      obtain ⟨rfl, rfl⟩ := reads_det ht kt he₂ (ends_blank hw₂ (not_digit (by decide))) (ends_blank kw₂ (not_digit (by decide)))
      obtain ⟨rfl, -⟩ := blank_split hw₂ kw₂ (List.append_cancel_left he₂) (by unfold White; decide) (by unfold White; decide)
      exact ⟨rfl, rfl⟩
    | more kw kt kw₂ _ =>
      simp only [List.append_assoc, List.cons_append] at he
      obtain ⟨rfl, he₂⟩ := values_begin hw kw ht kt he
      obtain ⟨rfl, rfl⟩ := reads_det ht kt he₂ (ends_blank hw₂ (not_digit (by decide))) (ends_blank kw₂ (not_digit (by decide)))
      obtain ⟨-, h, -⟩ := blank_split hw₂ kw₂ (List.append_cancel_left he₂) (by unfold White; decide) (by unfold White; decide)
      exact absurd h (by decide)
  | _, _, .more hw ht hw₂ hl, t', l', r, r', h', he => by
    cases h' with
    | one kw kt kw₂ =>
      simp only [List.append_assoc, List.cons_append] at he
      obtain ⟨rfl, he₂⟩ := values_begin hw kw ht kt he
      obtain ⟨rfl, rfl⟩ := reads_det ht kt he₂ (ends_blank hw₂ (not_digit (by decide))) (ends_blank kw₂ (not_digit (by decide)))
      obtain ⟨-, h, -⟩ := blank_split hw₂ kw₂ (List.append_cancel_left he₂) (by unfold White; decide) (by unfold White; decide)
      exact absurd h (by decide)
    | more kw kt kw₂ kl =>
      simp only [List.append_assoc, List.cons_append] at he
      obtain ⟨rfl, he₂⟩ := values_begin hw kw ht kt he
      obtain ⟨rfl, rfl⟩ := reads_det ht kt he₂ (ends_blank hw₂ (not_digit (by decide))) (ends_blank kw₂ (not_digit (by decide)))
      obtain ⟨rfl, -, he₃⟩ := blank_split hw₂ kw₂ (List.append_cancel_left he₂) (by unfold White; decide) (by unfold White; decide)
      obtain ⟨rfl, rfl⟩ := elements_det hl kl he₃
      exact ⟨rfl, rfl⟩

theorem member_det : ∀ {t : Str} {p : Str × Value}, Member t p → ∀ {t' : Str} {p' : Str × Value} {r r' : Str} {c c' : Char}, Member t' p' →
    t ++ c :: r = t' ++ c' :: r' → c = ',' ∨ c = '}' → c' = ',' ∨ c' = '}' → t = t' ∧ p = p' ∧ c = c' ∧ r = r'
  | _, _, .mk hw hk hw₁ hw₂ ht hw₃, t', p', r, r', c, c', h', he, hc, hc' => by
    have hd : ∀ {c : Char}, c = ',' ∨ c = '}' → ¬Digit c ∧ ¬White c := by
      rintro c (rfl | rfl) <;> exact ⟨not_digit (by decide), by unfold White; decide⟩
    cases h' with
    | mk kw kk kw₁ kw₂ kt kw₃ =>
      simp only [List.append_assoc, List.cons_append] at he
      obtain ⟨rfl, -, e1⟩ := blank_split hw kw he (by unfold White; decide) (by unfold White; decide)
      obtain ⟨rfl, rfl⟩ := chars_det hk kk e1
      have e2 := (List.cons.inj (List.append_cancel_left e1)).2
      obtain ⟨rfl, -, e3⟩ := blank_split hw₁ kw₁ e2 (by unfold White; decide) (by unfold White; decide)
      obtain ⟨rfl, he₂⟩ := values_begin hw₂ kw₂ ht kt e3
      obtain ⟨rfl, rfl⟩ := reads_det ht kt he₂ (ends_blank hw₃ (hd hc).1) (ends_blank kw₃ (hd hc').1)
      obtain ⟨rfl, h1, h2⟩ := blank_split hw₃ kw₃ (List.append_cancel_left he₂) (hd hc).2 (hd hc').2
      exact ⟨rfl, rfl, h1, h2⟩

theorem members_det : ∀ {t : Str} {l : List (Str × Value)}, Members t l → ∀ {t' : Str} {l' : List (Str × Value)} {r r' : Str}, Members t' l' →
    t ++ '}' :: r = t' ++ '}' :: r' → t = t' ∧ l = l'
  | _, _, .one hm, t', l', r, r', h', he => by
    cases h' with
    | one km =>
      obtain ⟨rfl, rfl, -⟩ := member_det hm km he (.inr rfl) (.inr rfl)
      exact ⟨rfl, rfl⟩
    | more km _ =>
      rw [List.append_assoc] at he
      obtain ⟨-, -, h, -⟩ := member_det hm km he (.inr rfl) (.inl rfl)
      exact absurd h (by decide)
  | _, _, .more hm hl, t', l', r, r', h', he => by
    cases h' with
    | one km =>
      rw [List.append_assoc] at he
      obtain ⟨-, -, h, -⟩ := member_det hm km he (.inl rfl) (.inr rfl)
      exact absurd h (by decide)
    | more km kl =>
      rw [List.append_assoc, List.append_assoc] at he
      obtain ⟨rfl, rfl, -, he₂⟩ := member_det hm km he (.inl rfl) (.inl rfl)
      obtain ⟨rfl, rfl⟩ := members_det hl kl he₂
      exact ⟨rfl, rfl⟩

end

theorem reads_unique {t : Str} {v v' : Value} (h : Reads t v) (h' : Reads t v') : v = v' :=
  (reads_det h h' (r := []) (r' := []) rfl (by intro c hc; cases hc) (by intro c hc; cases hc)).2

end Mty.Json
