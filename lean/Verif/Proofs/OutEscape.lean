import Verif.Model.OutEscape
import Verif.Spec.CharRef
import Verif.Proofs.Escape

namespace Mty
open Spec

theorem escWriteStrLoop_eq (xml quote : Bool) (p s : Str) :
    escWriteStrLoop xml quote p s = p ++ s.flatMap (escWriteChar xml quote) := by
  induction s generalizing p with
  | nil => simp [escWriteStrLoop]
  | cons c s ih =>
    simp only [escWriteStrLoop]
    cases h : getEscape xml quote c with
    | some e => simp [ih, escWriteChar, h]
    | none => simp [ih, escWriteChar, h]

/-- `write_str` is `write_char` on every character. -/
theorem escWriteStr_eq (xml quote : Bool) (s : Str) :
    escWriteStr xml quote s = s.flatMap (escWriteChar xml quote) := by
  simp [escWriteStr, escWriteStrLoop_eq]

theorem decimal_toDigits : ∀ n < 160, decimal (Nat.toDigits 10 n) = some n ∧
    ';' ∉ Nat.toDigits 10 n := by
  set_option maxRecDepth 100000 in decide

theorem readChars_ref (f : Str → Option Char) (l : Char → Bool) (acc ds s : Str) (h : ';' ∉ ds) :
    readChars f l (some acc) (ds ++ ';' :: s) =
      (f (acc ++ ds)).bind fun ch => (readChars f l none s).map (ch :: ·) := by
  induction ds generalizing acc with
  | nil => simp [readChars]
  | cons c ds ih =>
    simp at h
    have hc : ¬ c = ';' := fun e => h.1 e.symm
    simp [readChars, hc, ih _ h.2]

/-- Cases of `getEscape`. -/
theorem getEscape_cases (xml quote : Bool) (c : Char) :
    (∃ name, getEscape xml quote c = some (.special ('&' :: name ++ [';'])) ∧
        (∀ number, charRef number xml name = some c)
        ∧ ';' ∉ name ∧ (∀ d ∈ name, d ≠ '<' ∧ d ≠ '>' ∧ d ≠ '"') ∧
        (c.toNat = 9 ∨ c.toNat = 10 ∨ (32 < c.toNat ∧ c.toNat < 127))) ∨
    (getEscape xml quote c = some (.number c.toNat) ∧ c.toNat < 160) ∨
    (getEscape xml quote c = none ∧ c ≠ '&' ∧ c ≠ '<' ∧ c ≠ '>' ∧ (quote = true → c ≠ '"')
        ∧ 0x1f < c.toNat ∧ (c.toNat < 0x7f ∨ 0x9f < c.toNat)) := by
  unfold getEscape
  split
  · rename_i h; subst h
    exact Or.inl ⟨"amp".toList, rfl, fun _ => rfl, by decide, by decide, by decide⟩
  split
  · rename_i h; subst h
    exact Or.inl ⟨"lt".toList, rfl, fun _ => rfl, by decide, by decide, by decide⟩
  split
  · rename_i h; subst h
    exact Or.inl ⟨"gt".toList, rfl, fun _ => rfl, by decide, by decide, by decide⟩
  split
  · rename_i h; obtain ⟨rfl, rfl⟩ := h
    exact Or.inl ⟨"Tab".toList, rfl, fun _ => rfl, by decide, by decide, by decide⟩
  split
  · rename_i h; obtain ⟨rfl, rfl⟩ := h
    exact Or.inl ⟨"NewLine".toList, rfl, fun _ => rfl, by decide, by decide, by decide⟩
  split
  · rename_i h; obtain ⟨rfl, -⟩ := h
    exact Or.inl ⟨"quot".toList, rfl, fun _ => rfl, by decide, by decide, by decide⟩
  split
  · rename_i h
    exact Or.inr (Or.inl ⟨rfl, by omega⟩)
  · rename_i h1 h2 h3 h4 h5 h6 h7
    refine Or.inr (Or.inr ⟨rfl, h1, h2, h3, ?_, by omega, by omega⟩)
    intro hq hc
    exact h6 ⟨hc, hq⟩

/-- Reading a written character: with a suitable meaning of numbers and set of literal characters
it is recovered. -/
theorem readChars_escChar (number : Nat → Option Char) (l : Char → Bool) (xml quote : Bool) (c : Char)
    (s : Str) (hn : c.toNat < 160 → number c.toNat = some c)
    (hl : c ≠ '<' → c ≠ '>' → (quote = true → c ≠ '"') → 0x1f < c.toNat → l c = true) :
    readChars (charRef number xml) l none (escWriteChar xml quote c ++ s) =
      (readChars (charRef number xml) l none s).map (c :: ·) := by
  rcases getEscape_cases xml quote c with ⟨name, h1, h2, h3, -⟩ | ⟨h1, h2⟩ | ⟨h1, h2, h3, h4, h5, h6, -⟩
  · simp only [escWriteChar, h1, writeEscapeKind]
    simp [readChars, readChars_ref (charRef number xml) l [] name s h3, h2]
  · obtain ⟨h4, h5⟩ := decimal_toDigits c.toNat h2
    simp only [escWriteChar, h1, writeEscapeKind]
    have := readChars_ref (charRef number xml) l ['#'] (Nat.toDigits 10 c.toNat) s h5
    simp [readChars, this, charRef, h4, hn h2]
  · simp only [escWriteChar, h1]
    simp [readChars, h2, hl h3 h4 h5 h6]

theorem readChars_esc' (number : Nat → Option Char) (l : Char → Bool) (xml quote : Bool) (s : Str)
    (hn : ∀ c ∈ s, c.toNat < 160 → number c.toNat = some c)
    (hl : ∀ c ∈ s, c ≠ '<' → c ≠ '>' → (quote = true → c ≠ '"') → 0x1f < c.toNat → l c = true) :
    readChars (charRef number xml) l none (escWriteStr xml quote s) = some s := by
  rw [escWriteStr_eq]
  induction s with
  | nil => simp [readChars]
  | cons c s ih =>
    simp only [List.flatMap_cons]
    rw [readChars_escChar number l xml quote c _ (hn c (by simp)) (hl c (by simp)),
      ih (fun d hd => hn d (by simp [hd])) (fun d hd => hl d (by simp [hd]))]; rfl

theorem codePoint_toNat (c : Char) : codePoint c.toNat = some c := by
  have : c.toNat.isValidChar := c.valid
  simp [codePoint, this]

theorem literal_of {quote : Bool} {c : Char} (h1 : c ≠ '<') (h2 : c ≠ '>') (h3 : quote = true → c ≠ '"')
    (h4 : 0x1f < c.toNat) : (if quote then literalQuoted else literalText) c = true := by
  have hr : c ≠ '\r' := by rintro rfl; revert h4; decide
  have ht : c ≠ '\t' := by rintro rfl; revert h4; decide
  have hn : c ≠ '\n' := by rintro rfl; revert h4; decide
  cases quote <;> simp_all [literalQuoted, literalText]

theorem readText_esc (xml : Bool) (s : Str) : readText xml (escWriteStr xml false s) = some s :=
  readChars_esc' _ _ xml false s (fun c _ _ => codePoint_toNat c)
    (fun _ _ h1 h2 h3 h4 => literal_of h1 h2 h3 h4)

theorem readQuoted_esc (xml : Bool) (s : Str) : readQuoted xml (escWriteStr xml true s) = some s :=
  readChars_esc' _ _ xml true s (fun c _ _ => codePoint_toNat c)
    (fun _ _ h1 h2 h3 h4 => literal_of h1 h2 h3 h4)

/-! ## Standard parsers -/

theorem htmlNumber_spec : ∀ n < 160, (htmlNumber n = some (Char.ofNat n) ↔
    n ≠ 0 ∧ ∀ p ∈ htmlReplacements, n ≠ p.1) ∧ (htmlNumber n).isSome := by
  set_option maxRecDepth 100000 in decide

theorem ofNat_eq {n : Nat} {c : Char} (h : n = c.toNat) : Char.ofNat n = c := by subst h; simp

/-- Which texts are recovered by a parser with given meaning of numbers and literal characters. -/
theorem readChars_esc_iff (number : Nat → Option Char) (l : Char → Bool) (xml quote : Bool)
    (R : Char → Prop)
    (h1 : ∀ c : Char, (c.toNat = 9 ∨ c.toNat = 10 ∨ (32 < c.toNat ∧ c.toNat < 127)) → R c)
    (h2 : ∀ c : Char, c.toNat < 160 → (number c.toNat = some c ↔ R c))
    (h3 : ∀ c : Char, c ≠ '<' → c ≠ '>' → (quote = true → c ≠ '"') → 0x1f < c.toNat →
      (c.toNat < 0x7f ∨ 0x9f < c.toNat) → (l c = true ↔ R c)) (s : Str) :
    readChars (charRef number xml) l none (escWriteStr xml quote s) = some s ↔ ∀ c ∈ s, R c := by
  rw [escWriteStr_eq]
  induction s with
  | nil => simp [readChars]
  | cons c s ih =>
    simp only [List.flatMap_cons, List.forall_mem_cons, ← ih]
    rcases getEscape_cases xml quote c with
      ⟨name, e1, e2, e3, -, e4⟩ | ⟨e1, e2⟩ | ⟨e1, e2, e3, e4, e5, e6, e7⟩
    · simp only [escWriteChar, e1, writeEscapeKind]
      simp [readChars, readChars_ref (charRef number xml) l [] name _ e3, e2, h1 c e4]
    · obtain ⟨e4, e5⟩ := decimal_toDigits c.toNat e2
      simp only [escWriteChar, e1, writeEscapeKind]
      have hr := readChars_ref (charRef number xml) l ['#'] (Nat.toDigits 10 c.toNat)
        (s.flatMap (escWriteChar xml quote)) e5
      cases hn : number c.toNat with
      | none => 
        have : ¬ R c := fun h => by rw [← h2 c e2, hn] at h; cases h
        simp [readChars, hr, charRef, e4, hn, this]
      | some d =>
        have hd : d = c ↔ R c := by rw [← h2 c e2, hn, Option.some.injEq]
        have e6 : readChars (charRef number xml) l none
            ("&#".toList ++ Nat.toDigits 10 c.toNat ++ [';'] ++ s.flatMap (escWriteChar xml quote)) =
            (readChars (charRef number xml) l none (s.flatMap (escWriteChar xml quote))).map (d :: ·) := by
          simp [readChars, hr, charRef, e4, hn]
        rw [e6, ← hd]
        cases readChars (charRef number xml) l none (s.flatMap (escWriteChar xml quote)) with
        | none => simp
        | some x => simp
    · simp only [escWriteChar, e1]
      have := h3 c e3 e4 e5 e6 e7
      cases hl : l c with
      | false =>
        have hc : ¬ R c := fun h => by rw [← this, hl] at h; cases h
        simp [readChars, e2, hl, hc]
      | true =>
        have hc : R c := this.1 hl
        simp [readChars, e2, hl, hc]

theorem html_literal_iff {quote : Bool} {c : Char} (h1 : c ≠ '<') (h2 : c ≠ '>') (h3 : quote = true → c ≠ '"')
    (h4 : 0x1f < c.toNat) (h5 : c.toNat < 0x7f ∨ 0x9f < c.toNat) :
    ((if quote then literalQuoted else literalText) c && c.toNat != 0) = true ↔ HtmlRepresentable c := by
  have hr : ∀ p ∈ htmlReplacements, 0x80 ≤ p.1 ∧ p.1 ≤ 0x9f := by decide
  rw [literal_of h1 h2 h3 h4]
  have : HtmlRepresentable c := ⟨by omega, fun p hp => by have := hr p hp; omega⟩
  simp only [Bool.true_and, bne_iff_ne, ne_eq, this, iff_true]; omega

theorem xml_literal_iff {quote : Bool} {c : Char} (h1 : c ≠ '<') (h2 : c ≠ '>') (h3 : quote = true → c ≠ '"')
    (h4 : 0x1f < c.toNat) :
    ((if quote then literalQuoted else literalText) c && XmlChar c.toNat) = true ↔ XmlRepresentable c := by
  rw [literal_of h1 h2 h3 h4]; simp [XmlRepresentable]

theorem html_representable_of {c : Char} (h : c.toNat = 9 ∨ c.toNat = 10 ∨ (32 < c.toNat ∧ c.toNat < 127)) :
    HtmlRepresentable c := by
  have hr : ∀ p ∈ htmlReplacements, 0x80 ≤ p.1 := by decide
  exact ⟨by omega, fun p hp => by have := hr p hp; omega⟩

theorem xml_representable_of {c : Char} (h : c.toNat = 9 ∨ c.toNat = 10 ∨ (32 < c.toNat ∧ c.toNat < 127)) :
    XmlRepresentable c := by
  simp [XmlRepresentable, XmlChar]; omega

theorem html_number_iff {c : Char} (h : c.toNat < 160) : htmlNumber c.toNat = some c ↔ HtmlRepresentable c := by
  have := (htmlNumber_spec _ h).1
  rwa [ofNat_eq rfl] at this

theorem xml_number_iff {c : Char} : xmlNumber c.toNat = some c ↔ XmlRepresentable c := by
  cases h : XmlChar c.toNat <;> simp [xmlNumber, XmlRepresentable, h, codePoint_toNat]

/-- What a single written character looks like. -/
theorem escWriteChar_safe (xml quote : Bool) (c d : Char) (h : d ∈ escWriteChar xml quote c) :
    d ≠ '<' ∧ d ≠ '>' ∧ (quote = true → d ≠ '"') := by
  have digits : ∀ n < 160, ∀ d ∈ Nat.toDigits 10 n, d ≠ '<' ∧ d ≠ '>' ∧ d ≠ '"' := by
    set_option maxRecDepth 100000 in decide
  rcases getEscape_cases xml quote c with ⟨name, h1, h2, h3, h4, -⟩ | ⟨h1, h2⟩ | ⟨h1, h2, h3, h4, h5, h6⟩
  · simp only [escWriteChar, h1, writeEscapeKind] at h
    simp at h
    rcases h with rfl | h | rfl
    · simp
    · have := h4 d h; exact ⟨this.1, this.2.1, fun _ => this.2.2⟩
    · simp
  · simp only [escWriteChar, h1, writeEscapeKind] at h
    simp at h
    rcases h with rfl | rfl | h | rfl
    · simp
    · simp
    · have := digits _ h2 d h; exact ⟨this.1, this.2.1, fun _ => this.2.2⟩
    · simp
  · simp only [escWriteChar, h1] at h
    simp at h; subst h
    exact ⟨h3, h4, h5⟩

theorem escWriteStr_safe (xml quote : Bool) (s : Str) (d : Char) (h : d ∈ escWriteStr xml quote s) :
    d ≠ '<' ∧ d ≠ '>' ∧ (quote = true → d ≠ '"') := by
  rw [escWriteStr_eq] at h
  simp at h
  obtain ⟨c, -, h⟩ := h
  exact escWriteChar_safe _ _ _ _ h

/-! ## unescape, then write -/

theorem writeParts_text (ws : Str → Str) (wc : Char → Str) (hws : ∀ s, ws s = s.flatMap wc)
    (l : List (Except Range Part)) :
    ((writeParts ws wc l).2 = true ↔ ∃ t, itemsText l = some t) ∧
    (∀ t, itemsText l = some t → writeParts ws wc l = (t.flatMap wc, true)) := by
  induction l with
  | nil => simp [writeParts, itemsText]
  | cons x l ih =>
    rcases x with r | (s | c)
    · simp [writeParts, itemsText]
    · obtain ⟨i1, i2⟩ := ih
      simp only [writeParts, itemsText]
      refine ⟨?_, ?_⟩
      · rw [i1]; cases h : itemsText l <;> simp
      · intro t ht
        simp at ht
        obtain ⟨t', h1, rfl⟩ := ht
        simp [i2 _ h1, hws]
    · obtain ⟨i1, i2⟩ := ih
      simp only [writeParts, itemsText]
      refine ⟨?_, ?_⟩
      · rw [i1]; cases h : itemsText l <;> simp
      · intro t ht
        simp at ht
        obtain ⟨t', h1, rfl⟩ := ht
        simp [i2 _ h1]

theorem writeEscapeUnescape_ok {xml quote : Bool} {s t : Str} (h : Unescapes Accepted s t) :
    writeEscapeUnescape xml quote s = (escWriteStr xml quote t, true) := by
  have := (writeParts_text _ _ (escWriteStr_eq xml quote) (unescapeParts s 0)).2 t
    ((unescapeParts_text 0 s t).2 h)
  rw [escWriteStr_eq]
  exact this

theorem writeEscapeUnescape_iff (xml quote : Bool) (s : Str) :
    (writeEscapeUnescape xml quote s).2 = true ↔ ∃ t, Unescapes Accepted s t := by
  have := (writeParts_text _ _ (escWriteStr_eq xml quote) (unescapeParts s 0)).1
  rw [writeEscapeUnescape, this]
  simp [unescapeParts_text]

theorem writeUnescape_ok {s t : Str} (h : Unescapes Accepted s t) :
    writeUnescape s = (t, true) := by
  have := (writeParts_text (fun s => s) (fun c => [c]) (by simp) (unescapeParts s 0)).2 t
    ((unescapeParts_text 0 s t).2 h)
  simpa [writeUnescape] using this

theorem writeUnescape_iff (s : Str) :
    (writeUnescape s).2 = true ↔ ∃ t, Unescapes Accepted s t := by
  have := (writeParts_text (fun s => s) (fun c => [c]) (by simp) (unescapeParts s 0)).1
  rw [writeUnescape, this]
  simp [unescapeParts_text]

theorem writeParts_safe (xml quote : Bool) (l : List (Except Range Part)) (d : Char)
    (h : d ∈ (writeParts (escWriteStr xml quote) (escWriteChar xml quote) l).1) :
    d ≠ '<' ∧ d ≠ '>' ∧ (quote = true → d ≠ '"') := by
  induction l with
  | nil => simp [writeParts] at h
  | cons x l ih =>
    rcases x with r | (s | c)
    · simp [writeParts] at h
    · simp [writeParts] at h
      rcases h with h | h
      · exact escWriteStr_safe _ _ _ _ h
      · exact ih h
    · simp [writeParts] at h
      rcases h with h | h
      · exact escWriteChar_safe _ _ _ _ h
      · exact ih h

/-! ## comments -/

/-- No two adjacent dashes. -/
def noDD : Str → Prop
  | [] => True
  | [_] => True
  | a :: b :: s => ¬ (a = '-' ∧ b = '-') ∧ noDD (b :: s)

theorem noDD_iff (s : Str) : noDD s ↔ ∀ a b, s ≠ a ++ '-' :: '-' :: b := by
  induction s with
  | nil => simp [noDD]
  | cons x s ih =>
    cases s with
    | nil =>
      simp only [noDD, true_iff]
      intro a b h
      have := congrArg List.length h
      simp at this
      omega
    | cons y s =>
      simp only [noDD, ih]
      constructor
      · rintro ⟨h1, h2⟩ a b h
        cases a with
        | nil => simp at h; exact h1 ⟨h.1, h.2.1⟩
        | cons a as => simp at h; exact h2 as b h.2
      · intro h
        refine ⟨?_, ?_⟩
        · rintro ⟨rfl, rfl⟩; exact h [] s rfl
        · intro a b e; exact h (x :: a) b (by simp [e])

theorem splitDashes_none {s : Str} (h : splitDashes s = none) : noDD s := by
  induction s with
  | nil => simp [noDD]
  | cons x s ih =>
    cases s with
    | nil => simp [noDD]
    | cons y s =>
      simp only [splitDashes] at h
      split at h
      · simp at h
      · rename_i hx
        simp at h
        exact ⟨hx, ih h⟩

theorem splitDashes_some {s chunk rest : Str} (h : splitDashes s = some (chunk, rest)) :
    s = chunk ++ rest ∧ noDD chunk ∧ (∃ c, chunk = c ++ ['-']) ∧ (∃ r, rest = '-' :: r) := by
  induction s generalizing chunk rest with
  | nil => simp [splitDashes] at h
  | cons x s ih =>
    cases s with
    | nil => simp [splitDashes] at h
    | cons y s =>
      simp only [splitDashes] at h
      split at h
      · rename_i hx
        simp at h
        obtain ⟨rfl, rfl⟩ := h
        obtain ⟨rfl, rfl⟩ := hx
        exact ⟨rfl, by simp [noDD], ⟨[], rfl⟩, ⟨s, rfl⟩⟩
      · rename_i hx
        simp at h
        obtain ⟨c, hc, rfl⟩ := h
        obtain ⟨e1, e2, ⟨c', e3⟩, e4⟩ := ih hc
        subst e3
        refine ⟨by simp [e1], ?_, ⟨x :: c', by simp⟩, e4⟩
        cases c' with
        | nil =>
          simp at e1
          obtain ⟨rfl, -⟩ := e1
          simp [noDD]
          intro h; exact hx ⟨h, rfl⟩
        | cons z c' =>
          simp at e1
          obtain ⟨rfl, -⟩ := e1
          exact ⟨hx, e2⟩

theorem noDD_append_space {a b : Str} (ha : noDD a) (hb : noDD b) : noDD (a ++ ' ' :: b) := by
  have hsp : noDD (' ' :: b) := by
    cases b with
    | nil => simp [noDD]
    | cons y b => exact ⟨by simp, hb⟩
  induction a with
  | nil => exact hsp
  | cons x a ih =>
    cases a with
    | nil => exact ⟨by simp, hsp⟩
    | cons y a => exact ⟨ha.1, ih ha.2⟩

theorem commentLoop_spec : ∀ (fuel : Nat) (s : Str), s.length < fuel →
    noDD (commentLoop fuel s) ∧ (∀ a, commentLoop fuel s ≠ a ++ ['-']) ∧
    (commentLoop fuel s).head? = s.head? ∧
    (∀ b, commentLoop fuel s = '-' :: '>' :: b → ∃ b', s = '-' :: '>' :: b') := by
  intro fuel
  induction fuel with
  | zero => intro s h; omega
  | succ fuel ih =>
    intro s hl
    simp only [commentLoop]
    cases hs : splitDashes s with
    | none =>
      have hd := splitDashes_none hs
      simp only
      split
      · rename_i hlast
        refine ⟨by simpa using noDD_append_space hd (b := []) (by simp [noDD]), ?_, ?_, ?_⟩
        · intro a h
          have := congrArg List.getLast? h
          simp at this
        · cases s with
          | nil => simp at hlast
          | cons x s => simp
        · intro b h
          cases s with
          | nil => simp at hlast
          | cons x s =>
            cases s with
            | nil => simp at h
            | cons y s => simp at h; exact ⟨s, by simp [h.1, h.2.1]⟩
      · rename_i hlast
        refine ⟨hd, ?_, rfl, fun b h => ⟨b, h⟩⟩
        rintro a rfl
        simp at hlast
    | some p =>
      obtain ⟨chunk, rest⟩ := p
      obtain ⟨e1, e2, ⟨c, e3⟩, ⟨r, e4⟩⟩ := splitDashes_some hs
      have hlen : rest.length < fuel := by
        have := congrArg List.length e1
        rw [e3] at this
        simp at this; omega
      obtain ⟨i1, i2, i3, i4⟩ := ih rest hlen
      simp only
      refine ⟨noDD_append_space e2 i1, ?_, ?_, ?_⟩
      · intro a h
        have h' : commentLoop fuel rest ≠ [] := by
          intro h0; rw [h0, e4] at i3; simp at i3
        obtain ⟨o, x, hx⟩ : ∃ o x, commentLoop fuel rest = o ++ [x] :=
          ⟨_, _, (List.dropLast_concat_getLast h').symm⟩
        have hx' : x ≠ '-' := by rintro rfl; exact i2 o hx
        rw [hx] at h
        have := congrArg List.getLast? h
        rw [← List.cons_append, ← List.append_assoc, List.getLast?_concat] at this
        simp at this
        exact hx' this
      · rw [e1, e3]
        cases c <;> simp
      · intro b h
        rw [e3] at h
        cases c with
        | nil => simp at h
        | cons x c =>
          cases c with
          | nil => simp at h
          | cons y c => simp at h; exact ⟨_, by rw [e1, e3]; simp [h.1, h.2.1]; rfl⟩

namespace Spec

theorem InsertSpaces.refl (s : Str) : InsertSpaces s s := by
  induction s with
  | nil => exact .nil
  | cons c s ih => exact .keep ih

theorem InsertSpaces.append {a b c d} (h1 : InsertSpaces a b) (h2 : InsertSpaces c d) :
    InsertSpaces (a ++ c) (b ++ d) := by
  induction h1 with
  | nil => exact h2
  | keep _ ih => exact .keep ih
  | ins _ ih => exact .ins ih

end Spec

theorem commentLoop_insert : ∀ (fuel : Nat) (s : Str), InsertSpaces s (commentLoop fuel s) := by
  intro fuel
  induction fuel with
  | zero => intro s; exact .refl s
  | succ fuel ih =>
    intro s
    simp only [commentLoop]
    cases hs : splitDashes s with
    | none =>
      simp only
      split
      · simpa using (InsertSpaces.refl s).append (c := []) (.ins .nil)
      · exact .refl s
    | some p =>
      obtain ⟨chunk, rest⟩ := p
      obtain ⟨e1, -⟩ := splitDashes_some hs
      simp only
      conv => lhs; rw [e1]
      exact (InsertSpaces.refl chunk).append (.ins (ih rest))

theorem splitDashes_of_noDD {s : Str} (h : noDD s) : splitDashes s = none := by
  induction s with
  | nil => rfl
  | cons x s ih =>
    cases s with
    | nil => rfl
    | cons y s => simp only [splitDashes, if_neg h.1, ih h.2, Option.map_none]

theorem writeCommentBody_spec (s : Str) : CommentBody (writeCommentBody s) := by
  obtain ⟨h1, h2, h3, h4⟩ := commentLoop_spec (s.length + 1) s (Nat.lt_succ_self _)
  simp only [writeCommentBody]
  split
  · refine ⟨(noDD_iff _).1 (by simpa using noDD_append_space (a := []) (by simp [noDD]) h1),
      by simp, by simp, ?_⟩
    intro a h
    cases a with
    | nil => simp at h
    | cons x a => simp at h; exact h2 a h.2
  · rename_i hp
    simp only [List.nil_append]
    refine ⟨(noDD_iff _).1 h1, ?_, ?_, h2⟩
    · intro b h
      rw [h] at h3
      apply hp
      cases s with
      | nil => simp at h3
      | cons x s => simp at h3; simp only [List.isPrefixOf, ← h3]; simp
    · intro b h
      obtain ⟨b', rfl⟩ := h4 b h
      apply hp; simp [List.isPrefixOf]

theorem writeCommentBody_insert (s : Str) : InsertSpaces s (writeCommentBody s) := by
  simp only [writeCommentBody]
  split
  · exact .ins (commentLoop_insert _ _)
  · exact commentLoop_insert _ _

theorem writeCommentBody_id {s : Str} (h : CommentBody s) : writeCommentBody s = s := by
  have h1 : (['>'].isPrefixOf s || ['-', '>'].isPrefixOf s) = false := by
    rw [Bool.or_eq_false_iff]
    constructor
    · rw [Bool.eq_false_iff, ne_eq, List.isPrefixOf_iff_prefix]
      rintro ⟨t, rfl⟩; exact h.startGt t rfl
    · rw [Bool.eq_false_iff, ne_eq, List.isPrefixOf_iff_prefix]
      rintro ⟨t, rfl⟩; exact h.startDashGt t rfl
  have h2 := splitDashes_of_noDD ((noDD_iff s).2 h.noDashes)
  have h3 : s.getLast? ≠ some '-' := by
    intro e
    rw [List.getLast?_eq_some_iff] at e
    obtain ⟨a, rfl⟩ := e
    exact h.endDash a rfl
  simp [writeCommentBody, h1, commentLoop, h2, h3]

end Mty
