import Verif.Spec.Json
import Mathlib.Data.List.Forall2

/-! # JSON: what is written reads back, in one way only -/

set_option autoImplicit false

namespace Mty.Json
open Cli Serde

/-! ## What is written -/

theorem hex_digit : ∀ k < 16, Hex (hexDigit k) k := by
  have : ∀ k < 16, ('0' ≤ hexDigit k ∧ hexDigit k ≤ '9' ∧ k = (hexDigit k).toNat - 48) ∨
      ('a' ≤ hexDigit k ∧ hexDigit k ≤ 'f' ∧ k = (hexDigit k).toNat - 87) := by decide +kernel
  intro k hk
  rcases this k hk with h | h
  · exact .inl h
  · exact .inr (.inl h)

theorem toNat_inj {c d : Char} (h : c.toNat = d.toNat) : c = d := Char.ext (UInt32.toNat_inj.mp h)

theorem writeChar_reads (c : Char) {t s : Str} (h : Chars t s) : Chars (writeChar c ++ t) (c :: s) := by
  rw [writeChar]
  split
  · next e => subst e; exact .short .quote h
  split
  · next e => subst e; exact .short .backslash h
  split
  · next e =>
      have : c = Char.ofNat 8 := toNat_inj (e.trans (by decide))
      subst this; exact .short .backspace h
  split
  · next e =>
      have : c = Char.ofNat 12 := toNat_inj (e.trans (by decide))
      subst this; exact .short .formFeed h
  split
  · next e => subst e; exact .short .lineFeed h
  split
  · next e => subst e; exact .short .return h
  split
  · next e => subst e; exact .short .tab h
  split
  · next e =>
      have hu : Unit ['0', '0', hexDigit (c.toNat / 16), hexDigit (c.toNat % 16)] (((0 * 16 + 0) * 16 + c.toNat / 16) * 16 + c.toNat % 16) :=
        .mk (hex_digit 0 (by decide)) (hex_digit 0 (by decide)) (hex_digit _ (by omega)) (hex_digit _ (by omega))
      have e' : ((0 * 16 + 0) * 16 + c.toNat / 16) * 16 + c.toNat % 16 = c.toNat := by omega
      rw [e'] at hu
      exact .unit hu h
  · next h1 h2 _ _ _ _ _ h3 => exact .plain (by omega) h1 h2 h

theorem chars_reads (s : Str) : Chars (s.flatMap writeChar) s := by
  induction s with
  | nil => exact .nil
  | cons c s ih => exact writeChar_reads c ih

theorem writeStr_reads (s : Str) : Reads (writeStr s) (.str s) := .str (chars_reads s)

theorem digit_of (c : Char) (h : c.isDigit = true) : '0' ≤ c ∧ c ≤ '9' := by
  simp only [Char.isDigit, Bool.and_eq_true, decide_eq_true_eq] at h
  exact h

theorem writeNat_reads (n : Nat) : Reads (writeNat n) (.num n) := by
  refine .num ⟨Nat.toDigits_ne_nil, fun c hc => digit_of c (Nat.isDigit_of_mem_toDigits (by decide) (by decide) hc), ?_, ?_⟩
  · rw [writeNat]
    induction n using Nat.strongRecOn with
    | ind n ih =>
      by_cases hn : n < 10
      · rw [Nat.toDigits_of_lt_base hn]
        clear ih
        revert n
        decide
      · rw [Nat.toDigits_of_base_le (by decide) (by omega)]
        intro h
        exfalso
        have hne : Nat.toDigits 10 (n / 10) ≠ [] := Nat.toDigits_ne_nil
        have h1 : (Nat.toDigits 10 (n / 10)).head? = some '0' := by
          cases hd : Nat.toDigits 10 (n / 10) with
          | nil => exact absurd hd hne
          | cons a l => rw [hd] at h; simpa using h
        have h2 := ih (n / 10) (by omega) h1
        have h3 := Nat.ofDigitChars_ten_toDigits (n := n / 10)
        rw [h2] at h3
        have : Nat.ofDigitChars 10 ['0'] 0 = 0 := by decide
        omega
  · have := Nat.ofDigitChars_ten_toDigits (n := n)
    exact this

theorem blank_nil : Blank [] := by intro c hc; cases hc

theorem writeItems_elements {l : List Str} {vs : List Value} (h : List.Forall₂ Reads l vs) (hne : l ≠ []) : Elements (writeItems l) vs := by
  induction h with
  | nil => exact absurd rfl hne
  | @cons a v l vs h1 h2 ih =>
    cases h2 with
    | nil =>
      have := Elements.one blank_nil h1 blank_nil
      rwa [List.nil_append, List.append_nil] at this
    | cons h3 h4 => exact Elements.more (w := []) (w' := []) blank_nil h1 blank_nil (ih (by simp))

theorem writeSeq_reads {l : List Str} {vs : List Value} (h : List.Forall₂ Reads l vs) : Reads (writeSeq l) (.arr vs) := by
  cases h with
  | nil => exact .emptyArr (w := []) blank_nil
  | cons h1 h2 => exact .arr (writeItems_elements (.cons h1 h2) (by simp))

/-- A member as written. -/
def MemberOf (p : Str × Str) (q : Str × Value) : Prop := p.1 = q.1 ∧ Reads p.2 q.2

theorem member_written {p : Str × Str} {q : Str × Value} (h : MemberOf p q) : Member (writeStr p.1 ++ ':' :: p.2) q := by
  obtain ⟨a, b⟩ := p
  obtain ⟨_, v⟩ := q
  obtain ⟨rfl, h⟩ := h
  have := Member.mk (w := []) (w' := []) (w₂ := []) (w₃ := []) blank_nil (chars_reads a) blank_nil blank_nil h blank_nil
  simpa [writeStr] using this

theorem writeItems_members {l : List (Str × Str)} {vs : List (Str × Value)} (h : List.Forall₂ MemberOf l vs) (hne : l ≠ []) :
    Members (writeItems (l.map fun p => writeStr p.1 ++ ':' :: p.2)) vs := by
  induction h with
  | nil => exact absurd rfl hne
  | @cons a v l vs h1 h2 ih =>
    cases h2 with
    | nil => exact .one (member_written h1)
    | cons h3 h4 => exact .more (member_written h1) (ih (by simp))

theorem writeStruct_reads {l : List (Str × Str)} {vs : List (Str × Value)} (h : List.Forall₂ MemberOf l vs) : Reads (writeStruct l) (.obj vs) := by
  cases h with
  | nil => exact .emptyObj (w := []) blank_nil
  | cons h1 h2 => exact .obj (writeItems_members (.cons h1 h2) (by simp))

theorem strings_read (l : List Str) : List.Forall₂ Reads (l.map writeStr) (l.map .str) := by
  induction l with
  | nil => exact .nil
  | cons a l ih => exact .cons (writeStr_reads a) ih

theorem source_reads (n : StreamName) : Reads n.toJson (sourceValue n) := by
  cases n with
  | file p => exact writeStruct_reads (.cons ⟨rfl, writeStr_reads p⟩ .nil)
  | stdio => exact writeStr_reads _

theorem entry_reads (e : ErrorEntry) : Reads e.toJson (entryValue e) := by
  obtain ⟨cat, src, loc, ex, msg⟩ := e
  have hc : cat.jsonName = categoryName cat := by cases cat <;> rfl
  rw [ErrorEntry.toJson, entryValue]
  refine writeStruct_reads ?_
  have one : ∀ {p : Str × Str} {q : Str × Value}, MemberOf p q → List.Forall₂ MemberOf [p] [q] := fun h => .cons h .nil
  refine List.rel_append (List.rel_append (List.rel_append (List.rel_append (one ⟨rfl, hc ▸ writeStr_reads _⟩) ?_) ?_) ?_) (one ⟨rfl, ?_⟩)
  · cases src with
    | none => exact .nil
    | some n => exact one ⟨rfl, source_reads n⟩
  · rcases loc with _ | ⟨a, b⟩
    · exact .nil
    · exact one ⟨rfl, writeStruct_reads (.cons ⟨rfl, writeNat_reads a⟩ (one ⟨rfl, writeNat_reads b⟩))⟩
  · cases ex with
    | none => exact .nil
    | some l => exact one ⟨rfl, writeSeq_reads (strings_read l)⟩
  · cases msg with
    | none => exact .null
    | some m => exact writeStr_reads m

/-! ## No control characters -/

/-- No control characters, in particular no line breaks. -/
def Clean (t : Str) : Prop := ∀ c ∈ t, 32 ≤ c.toNat

theorem clean_append {a b : Str} (ha : Clean a) (hb : Clean b) : Clean (a ++ b) := by
  intro c hc
  rcases List.mem_append.mp hc with h | h
  · exact ha c h
  · exact hb c h

theorem clean_cons {c : Char} {b : Str} (hc : 32 ≤ c.toNat) (hb : Clean b) : Clean (c :: b) := by
  intro d hd
  rcases List.mem_cons.mp hd with h | h
  · exact h ▸ hc
  · exact hb d h

theorem clean_nil : Clean [] := by intro c hc; cases hc

theorem clean_char (c : Char) : Clean (writeChar c) := by
  have hx : ∀ k < 16, 32 ≤ (hexDigit k).toNat := by decide +kernel
  rw [writeChar]
  split
  · unfold Clean; decide
  split
  · unfold Clean; decide
  split
  · unfold Clean; decide
  split
  · unfold Clean; decide
  split
  · unfold Clean; decide
  split
  · unfold Clean; decide
  split
  · unfold Clean; decide
  split
  · exact clean_cons (by decide) (clean_cons (by decide) (clean_cons (by decide) (clean_cons (by decide)
      (clean_cons (hx _ (by omega)) (clean_cons (hx _ (by omega)) clean_nil)))))
  · exact clean_cons (by omega) clean_nil

theorem clean_str (s : Str) : Clean (writeStr s) := by
  refine clean_cons (by decide) (clean_append ?_ (clean_cons (by decide) clean_nil))
  intro c hc
  obtain ⟨d, _, hd⟩ := List.mem_flatMap.mp hc
  exact clean_char d c hd

theorem clean_nat (n : Nat) : Clean (writeNat n) := by
  intro c hc
  have h : 48 ≤ c.toNat := (digit_of c (Nat.isDigit_of_mem_toDigits (by decide) (by decide) hc)).1
  omega

theorem clean_items : ∀ {l : List Str}, (∀ t ∈ l, Clean t) → Clean (writeItems l)
  | [], _ => clean_nil
  | [a], h => h a (by simp)
  | a :: b :: l, h => clean_append (h a (by simp)) (clean_cons (by decide) (clean_items (l := b :: l) fun t ht => h t (by simp [ht])))

theorem clean_seq {l : List Str} (h : ∀ t ∈ l, Clean t) : Clean (writeSeq l) :=
  clean_cons (by decide) (clean_append (clean_items h) (clean_cons (by decide) clean_nil))

theorem clean_struct {l : List (Str × Str)} (h : ∀ p ∈ l, Clean p.2) : Clean (writeStruct l) := by
  refine clean_cons (by decide) (clean_append (clean_items ?_) (clean_cons (by decide) clean_nil))
  intro t ht
  obtain ⟨p, hp, rfl⟩ := List.mem_map.mp ht
  exact clean_append (clean_str _) (clean_cons (by decide) (h p hp))

theorem clean_entry (e : ErrorEntry) : Clean e.toJson := by
  obtain ⟨cat, src, loc, ex, msg⟩ := e
  rw [ErrorEntry.toJson]
  refine clean_struct ?_
  intro p hp
  simp only [List.mem_append] at hp
  rcases hp with (((hp | hp) | hp) | hp) | hp
  · rw [List.mem_singleton] at hp; subst hp; exact clean_str _
  · cases src with
    | none => cases hp
    | some n =>
      rw [List.mem_singleton] at hp
      subst hp
      cases n with
      | file f => exact clean_struct (by intro q hq; rw [List.mem_singleton] at hq; subst hq; exact clean_str _)
      | stdio => exact clean_str _
  · rcases loc with _ | ⟨a, b⟩
    · cases hp
    · rw [List.mem_singleton] at hp
      subst hp
      refine clean_struct ?_
      intro q hq
      simp only [List.mem_cons, List.not_mem_nil, or_false] at hq
      rcases hq with rfl | rfl <;> exact clean_nat _
  · cases ex with
    | none => cases hp
    | some l =>
      rw [List.mem_singleton] at hp
      subst hp
      refine clean_seq ?_
      intro t ht
      obtain ⟨s, _, rfl⟩ := List.mem_map.mp ht
      exact clean_str s
  · rw [List.mem_singleton] at hp
    subst hp
    cases msg with
    | none => show Clean "null".toList; unfold Clean; decide
    | some m => exact clean_str m

end Mty.Json
