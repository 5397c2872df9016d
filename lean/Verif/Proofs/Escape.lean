import Verif.Model.Escape
import Verif.Spec.Escape

namespace Mty
open Spec

theorem byteLen_append (a b : Str) : byteLen (a ++ b) = byteLen a + byteLen b := by
  induction a with
  | nil => simp [byteLen]
  | cons c a ih => simp [byteLen, ih, Nat.add_assoc]

theorem splitAtChar_some {p s pre rest} (h : Cursor.splitAtChar p s = (pre, some rest)) :
    s = pre ++ rest ∧ p ∉ pre ∧ ∃ r, rest = p :: r := by
  induction s generalizing pre rest with
  | nil => simp [Cursor.splitAtChar] at h
  | cons c s ih =>
    simp only [Cursor.splitAtChar] at h
    split at h
    · rename_i hc
      simp at h; obtain ⟨h1, h2⟩ := h; subst h1; subst h2; simp [hc]
    · rename_i hc
      simp at h; obtain ⟨h1, h2⟩ := h
      have hs : Cursor.splitAtChar p s = ((Cursor.splitAtChar p s).1, some rest) := by
        rw [← h2]
      obtain ⟨e1, e2, e3⟩ := ih hs
      subst h1
      refine ⟨by simp [← e1], ?_, e3⟩
      simp [e2]; exact fun h => hc h.symm

theorem splitAtChar_none {p s pre} (h : Cursor.splitAtChar p s = (pre, none)) :
    s = pre ∧ p ∉ pre := by
  induction s generalizing pre with
  | nil => simp [Cursor.splitAtChar] at h; subst h; simp
  | cons c s ih =>
    simp only [Cursor.splitAtChar] at h
    split at h
    · simp at h
    · rename_i hc
      simp at h; obtain ⟨h1, h2⟩ := h
      have hs : Cursor.splitAtChar p s = ((Cursor.splitAtChar p s).1, none) := by rw [← h2]
      obtain ⟨e1, e2⟩ := ih hs
      subst h1
      refine ⟨by rw [← e1], ?_⟩
      simp [e2]; exact fun h => hc h.symm

theorem splitAtChar_append {p} {pre rest : Str} (h : p ∉ pre) :
    Cursor.splitAtChar p (pre ++ p :: rest) = (pre, some (p :: rest)) := by
  induction pre with
  | nil => simp [Cursor.splitAtChar]
  | cons c s ih =>
    simp at h
    have : ¬ c = p := fun e => h.1 e.symm
    simp [Cursor.splitAtChar, this, ih h.2]

/-! ## hexadecimal numbers -/

theorem hexVal_eq (c : Char) : hexVal c = hexDigit c := by
  by_cases h : c.toNat < 128
  · have key : ∀ n < 128, hexVal (Char.ofNat n) = hexDigit (Char.ofNat n) := by
      set_option maxRecDepth 20000 in decide
    have := key _ h
    rwa [Char.ofNat_toNat] at this
  · have h1 : hexDigit c = none := by
      have e : ∀ d : Char, d.toNat < 128 → ¬ c ≤ d := by
        intro d hd hle
        have : c.toNat ≤ d.toNat := hle
        omega
      simp [hexDigit, e '9' (by decide), e 'f' (by decide), e 'F' (by decide)]
    have h2 : ∀ d : Char, d.toNat < 128 → (c == d) = false ∧ (d == c) = false := by
      intro d hd
      constructor <;> simp <;> rintro rfl <;> exact h hd
    rw [h1]
    have e0 : ∀ l : List Char, (∀ d ∈ l, d.toNat < 128) → l.idxOf? c = none := by
      intro l hl
      rw [List.idxOf?_eq_none_iff]
      intro hc; exact h (hl _ hc)
    unfold hexVal
    rw [e0 "0123456789abcdef".toList (by decide), e0 "0123456789ABCDEF".toList (by decide)]
    rfl

theorem hexDigit_lt {c d} (h : hexDigit c = some d) : d < 16 := by
  unfold hexDigit at h
  split at h
  · rename_i hc; simp at h
    have h1 : c.toNat ≤ '9'.toNat := hc.2
    simp at h1; omega
  · split at h
    · rename_i hc; simp at h
      have h1 : c.toNat ≤ 'f'.toNat := hc.2
      simp at h1; omega
    · split at h
      · rename_i hc; simp at h
        have h1 : c.toNat ≤ 'F'.toNat := hc.2
        simp at h1; omega
      · simp at h

theorem hexDigit_ascii {c d} (h : hexDigit c = some d) : c.utf8Size = 1 := by
  have : c.toNat < 128 := by
    unfold hexDigit at h
    split at h
    · rename_i hc
      have h1 : c.toNat ≤ '9'.toNat := hc.2
      simp at h1; omega
    · split at h
      · rename_i hc
        have h1 : c.toNat ≤ 'f'.toNat := hc.2
        simp at h1; omega
      · split at h
        · rename_i hc
          have h1 : c.toNat ≤ 'F'.toNat := hc.2
          simp at h1; omega
        · simp at h
  have h' : c.val ≤ 0x7f := by
    rw [UInt32.le_iff_toNat_le]
    have e : c.val.toNat = c.toNat := rfl
    rw [e]
    have : (127 : UInt32).toNat = 127 := rfl
    omega
  simp [Char.utf8Size, h']

/-- Value of a digit string with accumulator. -/
def hexAcc : Nat → Str → Option Nat
  | acc, [] => some acc
  | acc, c :: s => (hexDigit c).bind fun d => hexAcc (acc * 16 + d) s

theorem hexAcc_ge {acc s n} (h : hexAcc acc s = some n) : acc ≤ n := by
  induction s generalizing acc with
  | nil => simp [hexAcc] at h; omega
  | cons c s ih =>
    simp [hexAcc, Option.bind_eq_some_iff] at h
    obtain ⟨d, _, h⟩ := h
    have := ih h; omega

theorem hexLoop_eq (max acc s) (hacc : acc ≤ max) :
    hexLoop max acc s = (hexAcc acc s).filter (· ≤ max) := by
  induction s generalizing acc with
  | nil => simp [hexLoop, hexAcc, Option.filter, hacc]
  | cons c s ih =>
    simp only [hexLoop, hexAcc]
    cases hd : hexDigit c with
    | none => simp
    | some d =>
      simp only [Option.bind_some]
      split
      · rename_i h; exact ih _ h
      · rename_i h
        cases hn : hexAcc (acc * 16 + d) s with
        | none => simp
        | some n =>
          have := hexAcc_ge hn
          simp [Option.filter]; omega

theorem hexAcc_append (acc s t) : hexAcc acc (s ++ t) = (hexAcc acc s).bind fun a => hexAcc a t := by
  induction s generalizing acc with
  | nil => simp [hexAcc]
  | cons c s ih =>
    simp only [List.cons_append, hexAcc]
    cases hexDigit c with
    | none => simp
    | some d => simp [ih]

theorem hexNum_iff (s : Str) (n : Nat) : HexNum s n ↔ s ≠ [] ∧ hexAcc 0 s = some n := by
  constructor
  · intro h
    induction h with
    | one h => simp [hexAcc, ← hexVal_eq, h]
    | snoc h hc ih =>
      rw [hexVal_eq] at hc
      refine ⟨by simp, ?_⟩
      simp [hexAcc_append, ih.2, hexAcc, hc]
  · rintro ⟨h1, h2⟩
    obtain ⟨m, hm⟩ : ∃ m, s.length = m := ⟨_, rfl⟩
    induction m generalizing s n with
    | zero => simp at hm; contradiction
    | succ m ih =>
      obtain ⟨l, c, rfl⟩ : ∃ l c, s = l ++ [c] := by
        exact ⟨s.dropLast, s.getLast h1, (List.dropLast_concat_getLast h1).symm⟩
      rw [hexAcc_append] at h2
      simp [Option.bind_eq_some_iff, hexAcc] at h2
      obtain ⟨a, ha, d, hd, rfl⟩ := h2
      by_cases hl : l = []
      · subst hl; simp [hexAcc] at ha; subst ha
        simp; exact .one (by rw [hexVal_eq]; exact hd)
      · exact .snoc (ih l a hl ha (by simpa using hm)) (by rw [hexVal_eq]; exact hd)

theorem hexAcc_lt {s : Str} {acc n : Nat} (h : hexAcc acc s = some n) :
    n < (acc + 1) * 16 ^ s.length := by
  induction s generalizing acc with
  | nil => simp [hexAcc] at h; simp; omega
  | cons c s ih =>
    simp [hexAcc, Option.bind_eq_some_iff] at h
    obtain ⟨d, hd, h⟩ := h
    have h1 := ih h
    have h2 := hexDigit_lt hd
    have : (acc * 16 + d + 1) * 16 ^ s.length ≤ ((acc + 1) * 16) * 16 ^ s.length :=
      Nat.mul_le_mul_right _ (by omega)
    simp [Nat.pow_succ]
    rw [show (acc + 1) * (16 ^ s.length * 16) = ((acc + 1) * 16) * 16 ^ s.length by
      rw [Nat.mul_comm (16 ^ s.length) 16, Nat.mul_assoc]]
    omega

theorem hexAcc_byteLen {s : Str} {acc n : Nat} (h : hexAcc acc s = some n) :
    byteLen s = s.length := by
  induction s generalizing acc with
  | nil => simp [byteLen]
  | cons c s ih =>
    simp [hexAcc, Option.bind_eq_some_iff] at h
    obtain ⟨d, hd, h⟩ := h
    simp [byteLen, hexDigit_ascii hd, ih h]; omega

theorem hexDigit_plus : hexDigit '+' = none := by decide

/-- What `from_str_radix` accepts. -/
theorem fromStrRadix16_iff {max s n} (hs : 16 ^ s.length ≤ max + 1) :
    fromStrRadix16 max s = some n ↔ HexNum s n ∨ ∃ ds, s = '+' :: ds ∧ HexNum ds n := by
  have key : ∀ t : Str, 16 ^ t.length ≤ max + 1 → hexLoop max 0 t = hexAcc 0 t := by
    intro t ht
    rw [hexLoop_eq _ _ _ (Nat.zero_le _)]
    cases h : hexAcc 0 t with
    | none => simp
    | some m =>
      have := hexAcc_lt h
      simp [Option.filter]; omega
  unfold fromStrRadix16
  split
  · simp [hexNum_iff]
  · simp [hexNum_iff, hexAcc, hexDigit_plus]
  · rename_i rest hne
    have hl : 16 ^ rest.length ≤ max + 1 := by
      simp [Nat.pow_succ] at hs; omega
    rw [key _ hl]
    have hne : rest ≠ [] := by rintro rfl; exact hne rfl
    simp [hexNum_iff, hexAcc, hexDigit_plus, hne]
  · rename_i h1 h2 h3
    rw [key _ hs]
    simp only [hexNum_iff]
    constructor
    · intro h; exact Or.inl ⟨fun e => h1 e, h⟩
    · rintro (h | ⟨ds, rfl, h⟩)
      · exact h.2
      · exact absurd rfl (h3 ds)

theorem ofNat_valid {n : Nat} (h : n.isValidChar) : Char.ofNat n = Char.ofNatAux n h := by
  simp [Char.ofNat, h]

theorem charFromU32_iff {n c} : charFromU32 n = some c ↔ ∃ h : n.isValidChar, c = Char.ofNatAux n h := by
  unfold charFromU32
  split
  · rename_i h; simp [ofNat_valid h, h, eq_comm]
  · rename_i h; simp [h]

/-! ## one escape sequence -/

theorem utf8Size_pos (c : Char) : 0 < c.utf8Size := Char.utf8Size_pos c

/-- Cursor after reading `e`. -/
theorem escapeBody_sound {first : Char} {p : Nat} {rest : Str} {c : Char} {cur' : Cursor}
    (h : escapeBody first ⟨p, rest⟩ = (some c, cur')) :
    ∃ e, rest = e ++ cur'.post ∧ cur'.pos = p + byteLen e ∧ Accepted (first :: e) c := by
  unfold escapeBody at h
  split at h
  · rename_i hf; simp at h; obtain ⟨rfl, rfl⟩ := h
    exact ⟨[], rfl, rfl, Or.inl (hf ▸ EscSeq.tab)⟩
  split at h
  · rename_i hf; simp at h; obtain ⟨rfl, rfl⟩ := h
    exact ⟨[], rfl, rfl, Or.inl (hf ▸ EscSeq.newline)⟩
  split at h
  · rename_i hf; simp at h; obtain ⟨rfl, rfl⟩ := h
    exact ⟨[], rfl, rfl, Or.inl (hf ▸ EscSeq.cr)⟩
  split at h
  · -- x
    rename_i hf
    subst hf
    simp only [Cursor.advanceBy] at h
    match rest, h with
    | [], h => simp [fromStrRadix16] at h
    | [a], h => simp at h
    | a :: b :: rest, h =>
      simp [Option.bind_eq_some_iff, Option.filter_eq_some_iff] at h
      obtain ⟨⟨n, ⟨hn, hle⟩, hc⟩, rfl⟩ := h
      refine ⟨[a, b], rfl, rfl, ?_⟩
      rw [charFromU32_iff] at hc
      obtain ⟨hv, rfl⟩ := hc
      rw [fromStrRadix16_iff (show 16 ^ 2 ≤ 255 + 1 by decide)] at hn
      rcases hn with hn | ⟨ds, he, hn⟩
      · exact Or.inl (.byte hv hn hle)
      · simp at he; obtain ⟨rfl, rfl⟩ := he
        exact Or.inr (.byte hv hn)
  split at h
  · -- u
    rename_i hf; subst hf
    split at h
    · simp at h
    rename_i hp
    simp [Cursor.peek] at hp
    obtain ⟨rest, rfl⟩ : ∃ r, rest = '{' :: r := by
      cases rest <;> simp_all
    · skip
      simp only [Cursor.next, Cursor.advanceToChar] at h
      cases hs : Cursor.splitAtChar '}' rest with
      | mk pre o =>
        cases o with
        | none => simp [hs] at h
        | some r =>
          obtain ⟨e1, e2, r', rfl⟩ := splitAtChar_some hs
          simp only [hs] at h
          split at h
          · rename_i hlen
            simp [Option.bind_eq_some_iff] at h
            obtain ⟨⟨n, hn, hc⟩, rfl⟩ := h
            have hl : pre.length ≤ byteLen pre := by
              clear hn hc hlen hs e1 e2
              induction pre with
              | nil => simp
              | cons c s ih => simp [byteLen]; have := utf8Size_pos c; omega
            have hp6 : (16:Nat) ^ pre.length ≤ 16 ^ 6 := Nat.pow_le_pow_right (by decide) (by omega)
            rw [fromStrRadix16_iff (by have : (16:Nat)^6 ≤ 4294967295 + 1 := by decide
                                       omega)] at hn
            rw [charFromU32_iff] at hc
            obtain ⟨hv, rfl⟩ := hc
            refine ⟨'{' :: pre ++ ['}'], by simp [e1], by
              simp [byteLen, byteLen_append]; omega, ?_⟩
            rcases hn with hn | ⟨ds, rfl, hn⟩
            · exact Or.inl (.unicode hv hn (by omega))
            · refine Or.inr (.unicode hv hn ?_)
              simp at hl; omega
          · simp at h
  split at h
  · rename_i hf
    simp at h; obtain ⟨rfl, rfl⟩ := h
    exact ⟨[], rfl, rfl, Or.inl (.self hf)⟩
  · simp at h

theorem escapeBody_complete {first : Char} {e : Str} {p : Nat} {rest : Str} {c : Char}
    (h : Accepted (first :: e) c) :
    escapeBody first ⟨p, e ++ rest⟩ = (some c, ⟨p + byteLen e, rest⟩) := by
  have hu : ∀ (pre : Str) (n : Nat) (hv : n.isValidChar),
      fromStrRadix16 4294967295 pre = some n → byteLen pre = pre.length → 1 ≤ pre.length →
      pre.length ≤ 6 → '}' ∉ pre →
      escapeBody 'u' ⟨p, '{' :: pre ++ ['}'] ++ rest⟩
        = (some (Char.ofNatAux n hv), ⟨p + byteLen ('{' :: pre ++ ['}']), rest⟩) := by
    intro pre n hv h1 h2 h3 h4 h5
    simp [escapeBody, Cursor.peek, Cursor.next, Cursor.advanceToChar, splitAtChar_append h5, h2, h3,
      h4, h1, charFromU32, hv, ofNat_valid hv, byteLen, byteLen_append]
    omega
  have hx : ∀ (a b : Char) (n : Nat) (hv : n.isValidChar),
      fromStrRadix16 255 [a, b] = some n → n ≤ 127 →
      escapeBody 'x' ⟨p, [a, b] ++ rest⟩
        = (some (Char.ofNatAux n hv), ⟨p + byteLen [a, b], rest⟩) := by
    intro a b n hv h1 h2
    simp [escapeBody, Cursor.advanceBy, h1, h2, charFromU32, hv, ofNat_valid hv, Option.filter]
  have hn6 : ∀ ds : Str, ds.length ≤ 6 → (16:Nat) ^ ds.length ≤ 4294967295 + 1 := by
    intro ds hd
    have : (16:Nat) ^ ds.length ≤ 16 ^ 6 := Nat.pow_le_pow_right (by decide) hd
    have : (16:Nat)^6 ≤ 4294967295 + 1 := by decide
    omega
  have hbr : ∀ (ds : Str) n, HexNum ds n → '}' ∉ ds ∧ byteLen ds = ds.length ∧ 1 ≤ ds.length := by
    intro ds n hd
    rw [hexNum_iff] at hd
    refine ⟨?_, hexAcc_byteLen hd.2, ?_⟩
    · generalize (0:Nat) = acc at hd
      induction ds generalizing acc with
      | nil => simp
      | cons c ds ih =>
        obtain ⟨_, h2⟩ := hd
        simp [hexAcc, Option.bind_eq_some_iff] at h2
        obtain ⟨d, hd, h2⟩ := h2
        simp
        refine ⟨?_, ?_⟩
        · rintro rfl; simp [show hexDigit '}' = none by decide] at hd
        · by_cases hds : ds = []
          · simp [hds]
          · exact ih _ ⟨hds, h2⟩
    · rcases ds with _ | ⟨c, ds⟩
      · simp at hd
      · simp
  rcases h with h | h
  · generalize hfe : first :: e = fe at h
    cases h with
    | tab => simp at hfe; obtain ⟨rfl, rfl⟩ := hfe; simp [escapeBody, byteLen]
    | newline => simp at hfe; obtain ⟨rfl, rfl⟩ := hfe; simp [escapeBody, byteLen]
    | cr => simp at hfe; obtain ⟨rfl, rfl⟩ := hfe; simp [escapeBody, byteLen]
    | self hm =>
      simp at hfe; obtain ⟨rfl, rfl⟩ := hfe
      simp at hm
      rcases hm with rfl | rfl | rfl | rfl | rfl | rfl | rfl | rfl | rfl <;>
        simp [escapeBody, byteLen, selfEscapes]
    | byte hv hn hle =>
      simp at hfe; obtain ⟨rfl, rfl⟩ := hfe
      exact hx _ _ _ hv ((fromStrRadix16_iff (show 16 ^ 2 ≤ 255 + 1 by decide)).2 (Or.inl hn)) hle
    | unicode hv hn hle =>
      simp at hfe; obtain ⟨rfl, rfl⟩ := hfe
      obtain ⟨h1, h2, h3⟩ := hbr _ _ hn
      have := hu _ _ hv ((fromStrRadix16_iff (hn6 _ hle)).2 (Or.inl hn)) h2 h3 hle h1
      simpa using this
  · generalize hfe : first :: e = fe at h
    cases h with
    | byte hv hn =>
      simp at hfe; obtain ⟨rfl, rfl⟩ := hfe
      refine hx _ _ _ hv ((fromStrRadix16_iff (show 16 ^ 2 ≤ 255 + 1 by decide)).2 (Or.inr ⟨_, rfl, hn⟩)) ?_
      have := hexAcc_lt ((hexNum_iff _ _).1 hn).2
      simp at this; omega
    | @unicode ds _ hv hn hle =>
      simp at hfe; obtain ⟨rfl, rfl⟩ := hfe
      obtain ⟨h1, h2, h3⟩ := hbr _ _ hn
      have := hu ('+' :: ds) _ hv
        ((fromStrRadix16_iff (hn6 ('+' :: ds) (by simp; omega))).2 (Or.inr ⟨_, rfl, hn⟩))
        (by simp [byteLen, h2]; rw [show Char.utf8Size '+' = 1 from rfl]; omega) (by simp) (by simp; omega) (by simp [h1])
      simpa using this

/-- On failure the cursor still only moved forward. -/
theorem escapeBody_fail {first : Char} {p : Nat} {rest : Str} {cur' : Cursor}
    (h : escapeBody first ⟨p, rest⟩ = (none, cur')) :
    ∃ e, rest = e ++ cur'.post ∧ cur'.pos = p + byteLen e := by
  unfold escapeBody at h
  split at h
  · simp at h
  split at h
  · simp at h
  split at h
  · simp at h
  split at h
  · simp at h
    obtain ⟨-, rfl⟩ := h
    refine ⟨(Cursor.advanceBy ⟨p, rest⟩ 2).2 |> fun _ => rest.take 2, ?_⟩
    simp only [Cursor.advanceBy]
    split
    · rename_i he; simp at he; subst he; simp [byteLen]
    · split <;> simp
  split at h
  · split at h
    · simp at h; exact ⟨[], by simp [← h], by simp [← h, byteLen]⟩
    rename_i hp
    simp [Cursor.peek] at hp
    obtain ⟨rest, rfl⟩ : ∃ r, rest = '{' :: r := by
      cases rest <;> simp_all
    · skip
      simp only [Cursor.next, Cursor.advanceToChar] at h
      cases hs : Cursor.splitAtChar '}' rest with
      | mk pre o =>
        cases o with
        | none =>
          obtain ⟨e1, e2⟩ := splitAtChar_none hs
          simp [hs] at h
          refine ⟨'{' :: pre, by simp [← h, e1], by simp [← h, byteLen]; omega⟩
        | some r =>
          obtain ⟨e1, e2, r', rfl⟩ := splitAtChar_some hs
          simp only [hs] at h
          split at h
          · simp at h
            obtain ⟨-, rfl⟩ := h
            exact ⟨'{' :: pre ++ ['}'], by simp [e1], by simp [byteLen, byteLen_append]; omega⟩
          · simp at h
            exact ⟨'{' :: pre, by simp [← h, e1], by simp [← h, byteLen]; omega⟩
  split at h
  · simp at h
  · simp at h; exact ⟨[], by simp [← h], by simp [← h, byteLen]⟩

/-! ## one iterator step -/

theorem step_nil (off p) : unescapeStep off ⟨p, []⟩ = none := by
  simp [unescapeStep, Cursor.advanceToChar, Cursor.splitAtChar]

/-- A maximal run of plain characters. -/
theorem step_plain (off p : Nat) (c : Char) (s : Str) (hc : c ≠ '\\') :
    ∃ pre rest, s = pre ++ rest ∧ (∀ d ∈ c :: pre, d ≠ '\\') ∧
      unescapeStep off ⟨p, c :: s⟩ = some (.ok (.slice (c :: pre)), ⟨p + byteLen (c :: pre), rest⟩) := by
  cases hs : Cursor.splitAtChar '\\' (c :: s) with
  | mk pre o =>
    cases o with
    | none =>
      obtain ⟨e1, e2⟩ := splitAtChar_none hs
      subst e1
      refine ⟨s, [], by simp, ?_, ?_⟩
      · intro d hd e; subst e; exact e2 hd
      · simp [unescapeStep, Cursor.advanceToChar, hs]
    | some r =>
      obtain ⟨e1, e2, r', rfl⟩ := splitAtChar_some hs
      cases pre with
      | nil => simp at e1; exact absurd e1.1 hc
      | cons c' pre =>
        simp at e1; obtain ⟨rfl, e1⟩ := e1
        refine ⟨pre, _, e1, ?_, ?_⟩
        · intro d hd e; subst e; exact e2 hd
        · simp [unescapeStep, Cursor.advanceToChar, hs]

theorem step_backslash_end (off p : Nat) :
    unescapeStep off ⟨p, ['\\']⟩ = some (.error ⟨off + p, off + (p + 1)⟩, ⟨p + 1, []⟩) := by
  simp [unescapeStep, Cursor.advanceToChar, Cursor.splitAtChar, Cursor.next, byteLen]; rfl

theorem step_backslash (off p : Nat) (f : Char) (s : Str) :
    unescapeStep off ⟨p, '\\' :: f :: s⟩ =
      match escapeBody f ⟨p + 1 + f.utf8Size, s⟩ with
      | (some c, cur4) => some (.ok (.char c), cur4)
      | (none, cur4) => some (.error ⟨off + p, off + cur4.pos⟩, cur4) := by
  simp [unescapeStep, Cursor.advanceToChar, Cursor.splitAtChar, Cursor.next, byteLen]; rfl

/-! ## the whole iteration -/

/-- Text denoted by a list of items if none is an error. -/
def itemsText : List (Except Range Part) → Option Str
  | [] => some []
  | .error _ :: _ => none
  | .ok (.slice s) :: r => (itemsText r).map (s ++ ·)
  | .ok (.char c) :: r => (itemsText r).map (c :: ·)

def itemErrors (l : List (Except Range Part)) : List Range :=
  l.filterMap fun
    | .error r => some r
    | .ok _ => none

theorem Unescapes.plains {E : Str → Char → Prop} {pre s t : Str} (hp : ∀ d ∈ pre, d ≠ '\\') :
    Unescapes E (pre ++ s) t ↔ ∃ t', t = pre ++ t' ∧ Unescapes E s t' := by
  induction pre generalizing t with
  | nil => simp
  | cons c pre ih =>
    have hc := hp c (by simp)
    have ih := @ih
    constructor
    · intro h
      generalize hx : c :: pre ++ s = x at h
      cases h with
      | nil => simp at hx
      | plain h1 h2 =>
        simp at hx; obtain ⟨rfl, rfl⟩ := hx
        obtain ⟨t', rfl, h'⟩ := (ih (fun d hd => hp d (by simp [hd]))).1 h2
        exact ⟨t', rfl, h'⟩
      | esc h1 h2 => simp at hx; exact absurd hx.1 hc
    · rintro ⟨t', rfl, h⟩
      exact .plain hc ((ih (fun d hd => hp d (by simp [hd]))).2 ⟨t', rfl, h⟩)

theorem Scan.plains {E : Str → Char → Prop} {pre s : Str} {rs p} (hp : ∀ d ∈ pre, d ≠ '\\')
    (h : Scan E (p + byteLen pre) s rs) : Scan E p (pre ++ s) rs := by
  induction pre generalizing p with
  | nil => simpa [byteLen] using h
  | cons c pre ih =>
    refine .plain (hp c (by simp)) (ih (fun d hd => hp d (by simp [hd])) ?_)
    simpa [byteLen, Nat.add_assoc] using h

theorem accepted_ne_nil {e c} (h : Accepted e c) : e ≠ [] := by
  rcases h with h | h <;> cases h <;> simp

theorem unescapeLoop_text (off : Nat) : ∀ (fuel p : Nat) (s t : Str), s.length < fuel →
    (itemsText (unescapeLoop off fuel ⟨p, s⟩) = some t ↔ Unescapes Accepted s t) := by
  intro fuel
  induction fuel with
  | zero => intro p s t h; omega
  | succ fuel ih =>
    intro p s t hl
    match s with
    | [] =>
      simp [unescapeLoop, step_nil, itemsText]
      constructor
      · rintro rfl; exact .nil
      · intro h; cases h; rfl
    | c :: s =>
      by_cases hc : c = '\\'
      · subst hc
        match s with
        | [] =>
          simp [unescapeLoop, step_backslash_end, itemsText]
          intro h
          generalize hx : ['\\'] = x at h
          cases h with
          | nil => simp at hx
          | plain h1 _ => simp at hx; exact h1 hx.1.symm
          | esc h1 h2 => simp at hx; exact accepted_ne_nil h1 hx.1
        | f :: s =>
          simp only [unescapeLoop, step_backslash]
          cases hb : escapeBody f ⟨p + 1 + f.utf8Size, s⟩ with
          | mk o cur' =>
            cases o with
            | none =>
              simp [itemsText]
              intro h
              generalize hx : '\\' :: f :: s = x at h
              cases h with
              | nil => simp at hx
              | plain h1 _ => simp at hx; exact h1 hx.1.symm
              | @esc e c s' t' h1 h2 =>
                cases e with
                | nil => exact accepted_ne_nil h1 rfl
                | cons f' e =>
                  simp at hx; obtain ⟨rfl, rfl⟩ := hx
                  rw [escapeBody_complete h1] at hb; simp at hb
            | some ch =>
              obtain ⟨e, e1, e2, e3⟩ := escapeBody_sound hb
              obtain ⟨p', post⟩ := cur'
              simp at e1 e2; subst e1
              simp [itemsText]
              constructor
              · rintro ⟨t', ht, rfl⟩
                have := (ih p' post t' (by simp at hl; omega)).1 ht
                exact Unescapes.esc e3 this
              · intro h
                generalize hx : '\\' :: f :: (e ++ post) = x at h
                cases h with
                | nil => simp at hx
                | plain h1 _ => simp at hx; exact absurd hx.1.symm h1
                | @esc e' c' s' t' h1 h2 =>
                  cases e' with
                  | nil => exact absurd rfl (accepted_ne_nil h1)
                  | cons f' e' =>
                    simp at hx; obtain ⟨rfl, hx⟩ := hx
                    rw [hx, escapeBody_complete h1] at hb
                    simp at hb
                    obtain ⟨rfl, -, rfl⟩ := hb
                    exact ⟨t', (ih _ _ _ (by simp at hl; omega)).2 h2, rfl⟩
      · obtain ⟨pre, rest, rfl, h2, h3⟩ := step_plain off p c s hc
        simp only [unescapeLoop, h3, itemsText]
        rw [show c :: (pre ++ rest) = (c :: pre) ++ rest from rfl, Unescapes.plains h2]
        simp only [Option.map_eq_some_iff]
        constructor
        · rintro ⟨t', ht, rfl⟩
          exact ⟨t', rfl, (ih _ _ _ (by simp at hl; omega)).1 ht⟩
        · rintro ⟨t', rfl, h⟩
          exact ⟨t', (ih _ _ _ (by simp at hl; omega)).2 h, rfl⟩

theorem unescapeParts_text (off : Nat) (s t : Str) :
    itemsText (unescapeParts s off) = some t ↔ Unescapes Accepted s t :=
  unescapeLoop_text off _ 0 s t (Nat.lt_succ_self _)

theorem unescapeLoop_scan (off : Nat) : ∀ (fuel p : Nat) (s : Str), s.length < fuel →
    Scan Accepted (off + p) s (itemErrors (unescapeLoop off fuel ⟨p, s⟩)) := by
  intro fuel
  induction fuel with
  | zero => intro p s h; omega
  | succ fuel ih =>
    intro p s hl
    match s with
    | [] => simp [unescapeLoop, step_nil, itemErrors]; exact .nil
    | c :: s =>
      by_cases hc : c = '\\'
      · subst hc
        match s with
        | [] =>
          simp only [unescapeLoop, step_backslash_end, itemErrors, List.filterMap_cons]
          have := ih (p + 1) [] (by simp at hl ⊢; omega)
          have hb := @Scan.bad Accepted (off + p) [] []
            (itemErrors (unescapeLoop off fuel ⟨p + 1, []⟩)) ?_ (by simp) (by simpa [byteLen, Nat.add_assoc] using this)
          · simpa [byteLen, Nat.add_assoc, itemErrors] using hb
          · intro e₁ e₂ c he
            simp at he; obtain ⟨rfl, rfl⟩ := he
            exact fun h => accepted_ne_nil h rfl
        | f :: s =>
          simp only [unescapeLoop, step_backslash]
          cases hb : escapeBody f ⟨p + 1 + f.utf8Size, s⟩ with
          | mk o cur' =>
            obtain ⟨p', post⟩ := cur'
            cases o with
            | none =>
              obtain ⟨e, e1, e2⟩ := escapeBody_fail hb
              simp at e1 e2; subst e1; subst e2
              have := ih (p + 1 + f.utf8Size + byteLen e) post (by simp at hl; omega)
              have hB := @Scan.bad Accepted (off + p) (f :: e) post _ ?_ (by simp)
                (by simpa [byteLen, Nat.add_assoc] using this)
              · simp [itemErrors, byteLen, Nat.add_assoc] at hB ⊢; simpa only [Nat.add_assoc] using hB
              · intro e₁ e₂ c he hacc
                cases e₁ with
                | nil => exact accepted_ne_nil hacc rfl
                | cons f' e₁ =>
                  simp at he; obtain ⟨rfl, he⟩ := he
                  rw [he, escapeBody_complete hacc] at hb
                  simp at hb
            | some ch =>
              obtain ⟨e, e1, e2, e3⟩ := escapeBody_sound hb
              simp at e1 e2; subst e1; subst e2
              have := ih (p + 1 + f.utf8Size + byteLen e) post (by simp at hl; omega)
              have hB := @Scan.esc Accepted (off + p) (f :: e) ch post _ e3
                (by simpa [byteLen, Nat.add_assoc] using this)
              simp [itemErrors] at hB ⊢; simpa only [Nat.add_assoc] using hB
      · obtain ⟨pre, rest, rfl, h2, h3⟩ := step_plain off p c s hc
        have := ih (p + byteLen (c :: pre)) rest (by simp at hl; omega)
        have hB := @Scan.plains Accepted (c :: pre) rest _ (off + p) h2 (by simpa [Nat.add_assoc] using this)
        simp only [unescapeLoop, h3]
        simp [itemErrors] at hB ⊢; exact hB

theorem escapeErrors_scan (off : Nat) (s : Str) : Scan Accepted off s (escapeErrors s off) := by
  have := unescapeLoop_scan off (s.length + 1) 0 s (Nat.lt_succ_self _)
  exact this

theorem itemErrors_nil_iff (l : List (Except Range Part)) :
    itemErrors l = [] ↔ ∃ t, itemsText l = some t := by
  induction l with
  | nil => simp [itemErrors, itemsText]
  | cons x l ih =>
    rcases x with r | (s | c)
    · simp [itemErrors, itemsText]
    · have : itemErrors (.ok (.slice s) :: l) = itemErrors l := by simp [itemErrors]
      rw [this, ih]
      cases h : itemsText l <;> simp [itemsText, h]
    · have : itemErrors (.ok (.char c) :: l) = itemErrors l := by simp [itemErrors]
      rw [this, ih]
      cases h : itemsText l <;> simp [itemsText, h]

theorem escapeErrors_nil_iff (s : Str) (off : Nat) :
    escapeErrors s off = [] ↔ ∃ t, Unescapes Accepted s t := by
  have : escapeErrors s off = itemErrors (unescapeParts s off) := rfl
  rw [this, itemErrors_nil_iff]
  simp [unescapeParts_text]

end Mty
