import Verif.Proofs.Escape

/-! # Consequences of `Scan`, and an encoder for arbitrary text -/

namespace Mty
open Spec

theorem Spec.Scan.mem {E : Str → Char → Prop} {p : Nat} {s : Str} {rs : List Range}
    (h : Scan E p s rs) : ∀ r ∈ rs, ∃ pre e post, s = pre ++ '\\' :: e ++ post ∧
      r = ⟨p + byteLen pre, p + byteLen pre + 1 + byteLen e⟩ ∧
      (e = [] → post = []) ∧ (∀ e₁ e₂ c, e ++ post = e₁ ++ e₂ → ¬ E e₁ c) := by
  induction h with
  | nil => simp
  | @plain p c s rs hc _ ih =>
    intro r hr
    obtain ⟨pre, e, post, rfl, rfl, h3, h4⟩ := ih r hr
    exact ⟨c :: pre, e, post, rfl, by simp [byteLen]; omega, h3, h4⟩
  | @esc p e c s rs he _ ih =>
    intro r hr
    obtain ⟨pre, e', post, rfl, rfl, h3, h4⟩ := ih r hr
    refine ⟨'\\' :: e ++ pre, e', post, by simp, ?_, h3, h4⟩
    rw [byteLen_append]
    simp [byteLen, show ('\\' : Char).utf8Size = 1 from rfl]; omega
  | @bad p e s rs h1 h2 _ ih =>
    intro r hr
    simp at hr
    rcases hr with rfl | hr
    · exact ⟨[], e, s, rfl, by simp [byteLen], h2, h1⟩
    · obtain ⟨pre, e', post, rfl, rfl, h3, h4⟩ := ih r hr
      refine ⟨'\\' :: e ++ pre, e', post, by simp, ?_, h3, h4⟩
      rw [byteLen_append]
      simp [byteLen, show ('\\' : Char).utf8Size = 1 from rfl]; omega

theorem Spec.Scan.ordered {E : Str → Char → Prop} {p : Nat} {s : Str} {rs : List Range}
    (h : Scan E p s rs) : (∀ r ∈ rs, p ≤ r.start) ∧ rs.Pairwise (fun a b => a.stop ≤ b.start) := by
  induction h with
  | nil => simp
  | plain _ _ ih => exact ⟨fun r hr => by have := ih.1 r hr; omega, ih.2⟩
  | esc _ _ ih => exact ⟨fun r hr => by have := ih.1 r hr; omega, ih.2⟩
  | bad _ _ _ ih =>
    refine ⟨?_, ?_⟩
    · intro r hr
      simp at hr
      rcases hr with rfl | hr
      · exact Nat.le_refl _
      · have := ih.1 r hr; omega
    · rw [List.pairwise_cons]
      exact ⟨fun r hr => ih.1 r hr, ih.2⟩

/-! ## encoder -/

/-- The hexadecimal digit for `n % 16`. -/
def hexChar (n : Nat) : Char :=
  ['0', '1', '2', '3', '4', '5', '6', '7', '8', '9', 'a', 'b', 'c', 'd', 'e', 'f'].getD (n % 16) '0'

set_option maxRecDepth 20000 in
theorem hexChar_val (n : Nat) : hexVal (hexChar n) = some (n % 16) ∧
    hexChar n ∈ "\\u{}0123456789abcdef".toList := by
  have key : ∀ i < 16, hexVal (['0', '1', '2', '3', '4', '5', '6', '7', '8', '9', 'a', 'b', 'c',
      'd', 'e', 'f'].getD i '0') = some i ∧
    ['0', '1', '2', '3', '4', '5', '6', '7', '8', '9', 'a', 'b', 'c', 'd', 'e', 'f'].getD i '0'
      ∈ "\\u{}0123456789abcdef".toList := by decide
  exact key (n % 16) (Nat.mod_lt _ (by decide))

/-- `\u{dddddd}`. -/
def encodeChar (c : Char) : Str :=
  let n := c.toNat
  '\\' :: ('u' :: '{' :: [hexChar (n / 1048576), hexChar (n / 65536), hexChar (n / 4096),
    hexChar (n / 256), hexChar (n / 16), hexChar n] ++ ['}'])

theorem encodeChar_escSeq (c : Char) : ∃ e, encodeChar c = '\\' :: e ∧ EscSeq e c := by
  refine ⟨_, rfl, ?_⟩
  have hv : c.toNat.isValidChar := c.valid
  have hlt : c.toNat < 16 * 1048576 := by
    rcases hv with h | h <;> omega
  have := fun n => (hexChar_val n).1
  have h6 := ((((((HexNum.one (this (c.toNat / 1048576))).snoc (this (c.toNat / 65536))).snoc
    (this (c.toNat / 4096))).snoc (this (c.toNat / 256))).snoc (this (c.toNat / 16))).snoc
      (this c.toNat))
  have e : ((((c.toNat / 1048576 % 16 * 16 + c.toNat / 65536 % 16) * 16 + c.toNat / 4096 % 16) * 16
      + c.toNat / 256 % 16) * 16 + c.toNat / 16 % 16) * 16 + c.toNat % 16 = c.toNat := by omega
  rw [e] at h6
  have := EscSeq.unicode hv h6 (by simp)
  have hc : Char.ofNatAux c.toNat hv = c := by
    apply Char.ext
    apply UInt32.toNat_inj.1
    rfl
  rw [hc] at this
  exact this

/-- Spelling of a whole text. -/
def encode (t : Str) : Str := t.flatMap encodeChar

theorem encode_unescapes (t : Str) : Unescapes EscSeq (encode t) t := by
  induction t with
  | nil => exact .nil
  | cons c t ih =>
    obtain ⟨e, h1, h2⟩ := encodeChar_escSeq c
    have : encode (c :: t) = '\\' :: e ++ encode t := by simp [encode, h1]
    rw [this]
    exact .esc h2 ih

theorem encode_chars (t : Str) : ∀ c ∈ encode t, c ∈ "\\u{}0123456789abcdef".toList := by
  intro c hc
  simp only [encode, List.mem_flatMap] at hc
  obtain ⟨a, -, h⟩ := hc
  simp only [encodeChar, List.mem_cons, List.mem_append, List.not_mem_nil, or_false] at h
  have := fun n => (hexChar_val n).2
  rcases h with rfl | (rfl | rfl | rfl | rfl | rfl | rfl | rfl | rfl) | rfl
  all_goals first | exact this _ | decide

theorem Spec.Unescapes.mono {E F : Str → Char → Prop} (hEF : ∀ e c, E e c → F e c) {s t : Str}
    (h : Unescapes E s t) : Unescapes F s t := by
  induction h with
  | nil => exact .nil
  | plain hc _ ih => exact .plain hc ih
  | esc he _ ih => exact .esc (hEF _ _ he) ih

theorem Spec.Unescapes.noPlus {s t : Str} (h : Unescapes Accepted s t) (hp : '+' ∉ s) :
    Unescapes EscSeq s t := by
  induction h with
  | nil => exact .nil
  | plain hc _ ih => exact .plain hc (ih (by simp at hp; exact hp.2))
  | @esc e c s t he _ ih =>
    simp at hp
    refine .esc ?_ (ih hp.2)
    rcases he with he | he
    · exact he
    · exfalso
      cases he <;> simp at hp

end Mty
