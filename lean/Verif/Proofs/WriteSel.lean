import Verif.Proofs.WriteLex
import Verif.Proofs.PlainAst
import Verif.Spec.Syntax
import Mathlib.Data.List.Forall2

/-!
# Reading what is written: selectors
-/

set_option autoImplicit false

namespace Mty.Grammar
open Spec Pat Lex

/-! ## Letters and digits -/

/-- The ASCII letters and digits. -/
def asciiList : Str := "abcdefghijklmnopqrstuvwxyzABCDEFGHIJKLMNOPQRSTUVWXYZ0123456789".toList

theorem ascii_mem {c : Char} (h : Ascii c) : c ∈ asciiList := by
  have h1 : ∀ n < 128, ((97 ≤ n ∧ n ≤ 122) ∨ (65 ≤ n ∧ n ≤ 90) ∨ (48 ≤ n ∧ n ≤ 57)) → Char.ofNat n ∈ asciiList := by decide +kernel
  have h2 : ∀ a b : Char, a ≤ b ↔ a.toNat ≤ b.toNat := fun a b => Iff.rfl
  have h3 : (97 ≤ c.toNat ∧ c.toNat ≤ 122) ∨ (65 ≤ c.toNat ∧ c.toNat ≤ 90) ∨ (48 ≤ c.toNat ∧ c.toNat ≤ 57) := by
    simp only [Ascii, h2] at h
    exact h
  have := h1 c.toNat (by omega) h3
  rwa [Char.ofNat_toNat] at this

theorem word_chars {n : Str} (h : Word n) : ∀ c ∈ n, c ∈ '-' :: asciiList := by
  intro c hc
  rcases h.1 c hc with h | rfl
  · exact List.mem_cons_of_mem _ (ascii_mem h)
  · simp

theorem word_ne {n : Str} (h : Word n) : n ≠ [] := by
  rintro rfl
  obtain ⟨_, ⟨c, hc, _⟩, _⟩ := h
  simp at hc

theorem word_head {n : Str} (h : Word n) : ∃ c s, n = c :: s ∧ c ∈ asciiList ∧ ¬ ('0' ≤ c ∧ c ≤ '9') := by
  obtain ⟨_, ⟨c, hc, h1, h2⟩, _⟩ := h
  cases n with
  | nil => simp at hc
  | cons d s => simp at hc; subst hc; exact ⟨d, s, rfl, ascii_mem h1, h2⟩

theorem wordName_last {n : Str} (h : Word n) : ∃ c, n.getLast? = some c ∧ c ∈ asciiList := by
  obtain ⟨_, _, c, hc, h1⟩ := h
  exact ⟨c, hc, ascii_mem h1⟩

theorem ascii_al {al : Char → Bool} (hal : RightForAscii al) : ∀ c ∈ asciiList, al c = true := by
  intro c hc
  have h1 : ∀ c ∈ asciiList, c.toNat < 128 ∧ Ascii c := by unfold Ascii; decide
  exact (hal.2 c (h1 c hc).1).2 (h1 c hc).2

theorem plain_list : ∀ c ∈ '-' :: '.' :: '#' :: '*' :: asciiList, plainChar c = true := by decide

theorem many1_chr {p : Char → Bool} {s r b : Str} (hs : ∀ c ∈ s, p c = true) (hne : s ≠ [])
    (hr : ∀ c, r.head? = some c → p c = false) : many1 (chr p) b (s ++ r) = some (s, r) := by
  cases s with
  | nil => exact absurd rfl hne
  | cons c s =>
    rw [many1, seq, List.cons_append, show chr p b (c :: (s ++ r)) = some ([c], s ++ r) by simp [chr, hs c (by simp)]]
    simp only
    rw [many_chr (fun d hd => hs d (by simp [hd])) hr]
    rfl

/-! ## What follows a selector -/

/-- `>` or `{`, possibly after blanks. -/
def HeadEnd (r : Str) : Prop :=
  ∃ a r', r = a ++ r' ∧ Tabs a ∧ (r'.head? = some '>' ∨ ∃ c r'', r' = '{' :: c :: r'' ∧ White c)

theorem tabs_take {a r : Str} (ha : Tabs a) (hr : ∀ c, r.head? = some c → c ≠ ' ' ∧ c ≠ '\t') :
    (a ++ r).dropWhile (fun c => c = ' ' || c = '\t') = r := by
  induction a with
  | nil =>
    cases r with
    | nil => rfl
    | cons c r => simp [List.dropWhile_cons, hr c rfl]
  | cons d a ih =>
    have h1 := ha d (by simp)
    rw [List.cons_append, List.dropWhile_cons, if_pos (by simpa using h1)]
    exact ih fun c hc => ha c (by simp [hc])

theorem headEnd_post {r : Str} (h : HeadEnd r) (b : Str) : (postSelectorChain b r).isSome = true := by
  obtain ⟨a, r', rfl, ha, h⟩ := h
  have h1 : ∀ c, r'.head? = some c → c ≠ ' ' ∧ c ≠ '\t' := by
    intro c hc
    rcases h with h | ⟨d, r'', rfl, _⟩
    · rw [h] at hc; cases hc; decide
    · simp at hc; subst hc; decide
  rw [postSelectorChain, alt, seq, many_blank, tabs_take ha h1]
  simp only
  rcases h with h | ⟨d, r'', rfl, hd⟩
  · cases r' with
    | nil => simp at h
    | cons c r' => simp at h; subst h; simp [alt, chr]
  · have := (white_iff d).2 hd
    simp [alt, chr, seq, notPrecedes, this]

/-- Neither a word nor an attribute goes on. -/
def Shut (al : Char → Bool) (r : Str) : Prop := ∀ b, wordPat al b r = none

theorem tab_space {c : Char} (h : c = ' ' ∨ c = '\t') : isSpace c = true ∧ White c := by
  rcases h with rfl | rfl <;> exact ⟨by decide, (white_iff _).1 (by decide)⟩

theorem headEnd_shut {al : Char → Bool} (hal : Marks al) {r : Str} (h : HeadEnd r) : Shut al r := by
  obtain ⟨a, r', rfl, ha, h⟩ := h
  intro b
  cases a with
  | cons d a =>
    exact wordPat_end hal.letters fun c hc => by simp at hc; subst hc; exact (tab_space (ha d (by simp))).2
  | nil =>
    rcases h with h | ⟨d, r'', rfl, _⟩
    · cases r' with
      | nil => simp at h
      | cons c r' => simp at h; subst h; exact ends_special hal (by decide) (by decide)
    · exact ends_special hal (by decide) (by decide)

theorem headEnd_bracket {r : Str} (h : HeadEnd r) : r.head? ≠ some '[' := by
  obtain ⟨a, r', rfl, ha, h⟩ := h
  cases a with
  | cons d a => rcases ha d (by simp) with rfl | rfl <;> simp
  | nil =>
    rcases h with h | ⟨d, r'', rfl, _⟩
    · rw [List.nil_append, h]; simp
    · simp

/-! ## Names, classes and ids -/

/-- The characters of a selector without brackets. -/
structure ChainStr (al : Char → Bool) (k : Str) : Prop where
  plain : ∀ c ∈ k, plainChar c = true
  ne : k ≠ []

theorem wordPat_last {al : Char → Bool} {c : Char} {r b : Str} (hc : plainChar c = true) (h : r.head? = some '>' → al c = true) :
    wordPat al b (c :: r) = some ([c], r) := by
  by_cases hr : r.head? = some '>'
  · cases r with
    | nil => simp at hr
    | cons d r =>
      simp at hr; subst hr
      simp [wordPat, alt, seq, chr, hc, notPrecedes, h rfl]
  · exact wordPat_plain ((plainChar_iff c).1 hc) hr

theorem manyLoop_chain {al : Char → Bool} : ∀ (k : Str) {r : Str} (n : Nat) (b : Str), (∀ c ∈ k, plainChar c = true) → Shut al r →
    (r.head? = some '>' → ∀ c, k.getLast? = some c → al c = true) → k.length ≤ n →
    manyLoop (wordPat al) n b (k ++ r) = (k, r)
  | [], r, n, b, _, hr, _, _ => manyLoop_nil (hr b)
  | c :: k, r, 0, b, _, _, _, hn => by simp at hn
  | c :: k, r, n + 1, b, hk, hr, hl, hn => by
    have h1 : (k ++ r).head? = some '>' → al c = true := by
      intro h
      cases k with
      | nil => exact hl h c rfl
      | cons d k =>
        simp at h; subst h
        exact absurd (hk '>' (by simp)) (by decide)
    rw [List.cons_append, manyLoop, wordPat_last (hk c (by simp)) h1]
    simp only
    rw [manyLoop_chain k n _ (fun d hd => hk d (by simp [hd])) hr (fun h d hd => hl h d (by
      cases k with
      | nil => simp at hd
      | cons e k => simpa using hd)) (by simp at hn; omega)]
    rfl

theorem many1_chain {al : Char → Bool} {k r b : Str} (hk : ∀ c ∈ k, plainChar c = true) (hne : k ≠ []) (hr : Shut al r)
    (hl : r.head? = some '>' → ∀ c, k.getLast? = some c → al c = true) :
    many1 (wordPat al) b (k ++ r) = some (k, r) := by
  cases k with
  | nil => exact absurd rfl hne
  | cons c k =>
    have h1 : (k ++ r).head? = some '>' → al c = true := by
      intro h
      cases k with
      | nil => exact hl h c rfl
      | cons d k =>
        simp at h; subst h
        exact absurd (hk '>' (by simp)) (by decide)
    rw [many1, seq, List.cons_append, wordPat_last (hk c (by simp)) h1]
    simp only [many]
    rw [manyLoop_chain k _ _ (fun d hd => hk d (by simp [hd])) hr (fun h d hd => hl h d (by
      cases k with
      | nil => simp at hd
      | cons e k => simpa using hd)) (by simp)]
    rfl

theorem classes_chars {s : Str} {ps : List Spec.Part} (h : ClassesSource s ps) : ∀ c ∈ s, plainChar c = true := by
  have hw : ∀ {n : Str}, Word n → ∀ c ∈ n, plainChar c = true := by
    intro n hn c hc
    have := word_chars hn c hc
    exact plain_list c (by simp only [List.mem_cons] at this ⊢; tauto)
  induction h with
  | nil => simp
  | cls hn _ ih =>
    intro c hc
    simp only [List.mem_cons, List.mem_append] at hc
    rcases hc with (rfl | hc) | hc
    · decide
    · exact hw hn c hc
    · exact ih c hc
  | id hn _ ih =>
    intro c hc
    simp only [List.mem_cons, List.mem_append] at hc
    rcases hc with (rfl | hc) | hc
    · decide
    · exact hw hn c hc
    · exact ih c hc

theorem getLast?_app {a b : Str} (h : b ≠ []) : (a ++ b).getLast? = b.getLast? := by
  rw [List.getLast?_append]
  cases hb : b.getLast? with
  | none => exact absurd (List.getLast?_eq_none_iff.1 hb) h
  | some c => rfl

theorem classes_last {s : Str} {ps : List Spec.Part} (h : ClassesSource s ps) (hs : s ≠ []) : ∃ c, s.getLast? = some c ∧ c ∈ asciiList := by
  induction h with
  | nil => exact absurd rfl hs
  | @cls n s ps hn h ih =>
    by_cases hs' : s = []
    · subst hs'
      obtain ⟨c, h1, h2⟩ := wordName_last hn
      refine ⟨c, ?_, h2⟩
      rw [List.append_nil, show '.' :: n = ['.'] ++ n from rfl, getLast?_app (word_ne hn), h1]
    · obtain ⟨c, h1, h2⟩ := ih hs'
      exact ⟨c, by rw [getLast?_app hs', h1], h2⟩
  | @id n s ps hn h ih =>
    by_cases hs' : s = []
    · subst hs'
      obtain ⟨c, h1, h2⟩ := wordName_last hn
      refine ⟨c, ?_, h2⟩
      rw [List.append_nil, show '#' :: n = ['#'] ++ n from rfl, getLast?_app (word_ne hn), h1]
    · obtain ⟨c, h1, h2⟩ := ih hs'
      exact ⟨c, by rw [getLast?_app hs', h1], h2⟩

/-- What may follow a name: nothing, `.` or `#`. -/
theorem classes_head {s : Str} {ps : List Spec.Part} (h : ClassesSource s ps) : ∀ c, s.head? = some c → c = '.' ∨ c = '#' := by
  intro c hc
  cases h with
  | nil => simp at hc
  | cls => simp at hc; exact .inl hc.symm
  | id => simp at hc; exact .inr hc.symm

theorem className_reads {n r b : Str} (h : Word n) (hr : ∀ c, r.head? = some c → c = '.' ∨ c = '#') :
    className b (n ++ r) = some (n, r) := by
  refine many1_chr (fun c hc => ?_) (word_ne h) (fun c hc => ?_)
  · exact (by decide : ∀ c ∈ '-' :: asciiList,
      (!(decide (c ∈ "\\{}[]()<>`~!@#$%^&*+=,./?\"'|; \t\r\n".toList)) && !isWhitespace c) = true) c (word_chars h c hc)
  · rcases hr c hc with rfl | rfl <;> decide

theorem exact_one (c : Char) (b r : Str) : Pat.exact [c] b (c :: r) = some ([c], r) := by
  simp [Pat.exact, List.isPrefixOf]

theorem exact_one_none {c d : Char} (b r : Str) (h : c ≠ d) : Pat.exact [c] b (d :: r) = none := by
  simp [Pat.exact, List.isPrefixOf, h]

theorem classLikes_reads {s : Str} {ps : List Spec.Part} (h : ClassesSource s ps) : ∀ (n : Nat) (b r : Str), s.length ≤ n →
    ∃ cs, classLikes n ⟨b, s⟩ = (cs, ⟨b ++ s, []⟩) ∧ classParts (b ++ s ++ r) cs = ps ∧ ∀ i ∈ cs, ClassLikeOk i := by
  have hnil : ∀ n b, classLikes n ⟨b, []⟩ = ([], ⟨b, []⟩) := by
    intro n b
    cases n with
    | zero => rfl
    | succ n =>
      simp [classLikes, classLike, marked, token, Pat.exact, List.isPrefixOf, anyChars, many1, seq, chr]
  induction h with
  | nil => intro n b r _; exact ⟨[], by rw [hnil]; simp, rfl, by simp⟩
  | @cls w s ps hw h ih =>
    intro n b r hn
    cases n with
    | zero => simp at hn
    | succ n =>
      obtain ⟨cs, h1, h2, h3⟩ := ih n (b ++ '.' :: w) r (by simp at hn; omega)
      have h4 : classLike ⟨b, '.' :: w ++ s⟩ = some (.cls ⟨byteLen b, byteLen (b ++ ['.'])⟩
          ⟨byteLen (b ++ ['.']), byteLen (b ++ ['.'] ++ w)⟩, ⟨b ++ '.' :: w, s⟩) := by
        have : token (exact ".".toList) ⟨b, '.' :: w ++ s⟩ = some (⟨byteLen b, byteLen (b ++ ['.'])⟩, ⟨b ++ ['.'], w ++ s⟩) := by
          simp [token, Pat.exact, List.isPrefixOf, Pos.at]
        rw [classLike, marked, this]
        simp only
        rw [token, className_reads hw (classes_head h)]
        simp [Pos.at]
      refine ⟨.cls ⟨byteLen b, byteLen (b ++ ['.'])⟩ ⟨byteLen (b ++ ['.']), byteLen (b ++ ['.'] ++ w)⟩ :: cs, ?_, ?_, ?_⟩
      · rw [classLikes, h4]
        simp only [h1]
        simp
      · rw [classParts, ← h2]
        have : b ++ ('.' :: w ++ s) ++ r = (b ++ ['.']) ++ (w ++ (s ++ r)) := by simp
        rw [this, slice_mid]
        simp
      · intro i hi
        simp only [List.mem_cons] at hi
        rcases hi with rfl | hi
        · trivial
        · exact h3 i hi
  | @id w s ps hw h ih =>
    intro n b r hn
    cases n with
    | zero => simp at hn
    | succ n =>
      obtain ⟨cs, h1, h2, h3⟩ := ih n (b ++ '#' :: w) r (by simp at hn; omega)
      have h4 : classLike ⟨b, '#' :: w ++ s⟩ = some (.id ⟨byteLen b, byteLen (b ++ ['#'])⟩
          ⟨byteLen (b ++ ['#']), byteLen (b ++ ['#'] ++ w)⟩, ⟨b ++ '#' :: w, s⟩) := by
        have h5 : token (exact ".".toList) ⟨b, '#' :: w ++ s⟩ = none := by
          simp [token, Pat.exact, List.isPrefixOf]
        have : token (exact "#".toList) ⟨b, '#' :: w ++ s⟩ = some (⟨byteLen b, byteLen (b ++ ['#'])⟩, ⟨b ++ ['#'], w ++ s⟩) := by
          simp [token, Pat.exact, List.isPrefixOf, Pos.at]
        rw [classLike, marked, h5]
        simp only
        rw [marked, this]
        simp only
        rw [token, className_reads hw (classes_head h)]
        simp [Pos.at]
      refine ⟨.id ⟨byteLen b, byteLen (b ++ ['#'])⟩ ⟨byteLen (b ++ ['#']), byteLen (b ++ ['#'] ++ w)⟩ :: cs, ?_, ?_, ?_⟩
      · rw [classLikes, h4]
        simp only [h1]
        simp
      · rw [classParts, ← h2]
        have : b ++ ('#' :: w ++ s) ++ r = (b ++ ['#']) ++ (w ++ (s ++ r)) := by simp
        rw [this, slice_mid]
        simp
      · intro i hi
        simp only [List.mem_cons] at hi
        rcases hi with rfl | hi
        · trivial
        · exact h3 i hi

theorem elementName_reads {n r b : Str} (h : Word n) (hr : ∀ c, r.head? = some c → c = '.' ∨ c = '#') :
    elementName b (n ++ r) = some (n, r) := by
  obtain ⟨c, s, rfl, hc, hd⟩ := word_head h
  have h1 : many1 identifierChar b (c :: s ++ r) = some (c :: s, r) := by
    refine many1_chars (p := fun c => isAsciiAlnum c || c = '-' || c = ':') (by decide) (fun c hc => ?_) (by simp) (fun c hc => ?_)
    · exact (by decide : ∀ c ∈ '-' :: asciiList, (isAsciiAlnum c || decide (c = '-') || decide (c = ':')) = true) c (word_chars h c hc)
    · rcases hr c hc with rfl | rfl <;> decide
  have h2 : notPrecedes (chr fun c => '0' ≤ c && c ≤ '9') b (c :: s ++ r) = some ([], c :: s ++ r) := by
    have : ¬ (decide ('0' ≤ c) && decide (c ≤ '9')) = true := by simpa using hd
    have h3 : chr (fun c => decide ('0' ≤ c) && decide (c ≤ '9')) b (c :: s ++ r) = none := by
      rw [List.cons_append, chr, if_neg this]
    simp only [notPrecedes, h3]
    rfl
  rw [elementName, seq, h2]
  simp only [List.append_nil]
  rw [h1]
  rfl

theorem elementName_none {r b : Str} (hr : ∀ c, r.head? = some c → c = '.' ∨ c = '#' ∨ c = '*') : elementName b r = none := by
  have h1 : many1 identifierChar b r = none := by
    rw [many1, seq, show identifierChar b r = none from escPat_end (p := fun c => isAsciiAlnum c || c = '-' || c = ':') fun c hc => ?_]
    rcases hr c hc with rfl | rfl | rfl <;> decide
  rw [elementName, seq]
  cases h : notPrecedes (chr fun c => '0' ≤ c && c ≤ '9') b r with
  | none => rfl
  | some x =>
    obtain ⟨m, r'⟩ := x
    have : m = [] ∧ r' = r := by
      rw [notPrecedes] at h
      split at h
      · cases h
      · cases h; exact ⟨rfl, rfl⟩
    obtain ⟨rfl, rfl⟩ := this
    simp [h1]

/-! ## Brackets -/

/-- The parts in the source stand for these parts. -/
def PartIs : Spec.Part → Spec.Part → Prop
  | .id a, .id b => Unescapes Accepted a b
  | .cls a, .cls b => Unescapes Accepted a b
  | .attribute a none, .attribute b none => Unescapes Accepted a b
  | .attribute a (some v), .attribute b (some w) => Unescapes Accepted a b ∧ Unescapes Accepted v w
  | _, _ => False

theorem unescapes_noslash {s : Str} (h : ∀ c ∈ s, c ≠ '\\') : Unescapes Accepted s s := by
  induction s with
  | nil => exact .nil
  | cons c s ih => exact .plain (h c (by simp)) (ih fun d hd => h d (by simp [hd]))

theorem wordName_unescapes {n : Str} (h : Word n) : Unescapes Accepted n n :=
  unescapes_noslash fun c hc => (by decide : ∀ c ∈ '-' :: asciiList, c ≠ '\\') c (word_chars h c hc)

theorem attributeName_reads {n r b : Str} (h : Word n) (hr : ∀ c, r.head? = some c → White c ∨ c = '=' ∨ c = ']') :
    attributeName b (n ++ r) = some (n, r) := by
  refine many1_chars (p := fun c => !(c ∈ "=>'\"/[]\\".toList) && !isWhitespace c) (by decide) (fun c hc => ?_) (word_ne h) (fun c hc => ?_)
  · exact (by decide : ∀ c ∈ '-' :: asciiList,
      (!(decide (c ∈ "=>'\"/[]\\".toList)) && !isWhitespace c) = true) c (word_chars h c hc)
  · rcases hr c hc with hw | rfl | rfl
    · have := (white_iff c).2 hw
      refine ⟨by simp [this], ?_⟩
      rintro rfl
      exact absurd this (by decide)
    · decide
    · decide

theorem attributeName_none {r b : Str} (hr : ∀ c, r.head? = some c → c = ']') : attributeName b r = none := by
  rw [attributeName, many1, seq]
  rw [show alt (chr fun c => !(decide (c ∈ "=>'\"/[]\\".toList)) && !isWhitespace c) escape b r = none from
    escPat_end (p := fun c => !(decide (c ∈ "=>'\"/[]\\".toList)) && !isWhitespace c) fun c hc => by
      rw [hr c hc]; decide]

theorem unquotedValue_reads {v r b : Str} (h : v ≠ []) (hv : ∀ c ∈ v, ¬ White c ∧ c ∉ ['[', ']', '\\', '"', '\''])
    (hr : ∀ c, r.head? = some c → White c ∨ c = ']') : unquotedValue b (v ++ r) = some (v, r) := by
  refine many1_chars (p := fun c => !(c ∈ "[]\\\"'".toList) && !isWhitespace c) (by decide) (fun c hc => ?_) h (fun c hc => ?_)
  · obtain ⟨h1, h2⟩ := hv c hc
    have h3 : isWhitespace c = false := by rw [Bool.eq_false_iff, ne_eq, white_iff]; exact h1
    have h4 : c ∉ "[]\\\"'".toList := h2
    simp only [h4, h3]
    rfl
  · rcases hr c hc with hw | rfl
    · have := (white_iff c).2 hw
      refine ⟨by simp [this], ?_⟩
      rintro rfl
      exact absurd this (by decide)
    · decide

theorem unquotedValue_none {r b : Str} : unquotedValue b ('"' :: r) = none := by
  rw [unquotedValue, many1, seq]
  rw [show alt (chr fun c => !(decide (c ∈ "[]\\\"'".toList)) && !isWhitespace c) escape b ('"' :: r) = none from
    escPat_end (p := fun c => !(decide (c ∈ "[]\\\"'".toList)) && !isWhitespace c) fun c hc => by
      simp at hc; subst hc; decide]

theorem assignment_reads {r b : Str} (hr : ∀ c, r.head? = some c → ¬ White c) : assignment b ('=' :: r) = some (['='], r) := by
  have h1 : ∀ b, many (chr isWhitespace) b r = some ([], r) := fun b =>
    many_chr (s := []) (by simp) fun c hc => by rw [Bool.eq_false_iff, ne_eq, white_iff]; exact hr c hc
  have h2 : many (chr isWhitespace) b ('=' :: r) = some ([], '=' :: r) :=
    many_chr (s := []) (by simp) fun c hc => by simp at hc; subst hc; decide
  rw [assignment, seq, h2]
  simp only
  rw [seq]
  simp only [chr, decide_true, if_true]
  rw [h1]
  rfl

/-- No value follows. -/
theorem assignment_none {w r b : Str} (hw : ∀ c ∈ w, White c) (hr : ∀ c, r.head? = some c → ¬ White c ∧ c ≠ '=') :
    assignment b (w ++ r) = none := by
  rw [assignment, seq, many_chr (fun c hc => (white_iff c).2 (hw c hc)) fun c hc => by
    rw [Bool.eq_false_iff, ne_eq, white_iff]; exact (hr c hc).1]
  simp only
  cases r with
  | nil => rfl
  | cons c r => simp [seq, chr, (hr c rfl).2]

theorem skip_white {b w r : Str} (hw : ∀ c ∈ w, White c) (hr : ∀ c, r.head? = some c → ¬ White c) :
    skip isWhitespace ⟨b, w ++ r⟩ = ⟨b ++ w, r⟩ := by
  have h1 : (w ++ r).takeWhile isWhitespace = w ∧ (w ++ r).dropWhile isWhitespace = r := by
    induction w with
    | nil =>
      cases r with
      | nil => exact ⟨rfl, rfl⟩
      | cons c r =>
        have : isWhitespace c = false := by rw [Bool.eq_false_iff, ne_eq, white_iff]; exact hr c rfl
        simp [List.takeWhile_cons, List.dropWhile_cons, this]
    | cons d w ih =>
      have := ih fun c hc => hw c (by simp [hc])
      have hd : isWhitespace d = true := (white_iff d).2 (hw d (by simp))
      simp only [List.cons_append, List.takeWhile_cons, List.dropWhile_cons, hd, if_true]
      exact ⟨by rw [this.1], this.2⟩
  rw [skip]
  simp only [h1.1, h1.2]

/-- What follows an attribute. -/
def AfterAttr (r : Str) : Prop := ∃ w r', r = w ++ r' ∧ (∀ c ∈ w, White c) ∧ ∃ c r'', r' = c :: r'' ∧ ¬ White c ∧ c ≠ '=' ∧ (w = [] → c = ']')

theorem AfterAttr.head {r : Str} (h : AfterAttr r) : ∀ c, r.head? = some c → White c ∨ c = ']' := by
  obtain ⟨w, r', rfl, hw, d, r'', rfl, h1, h2, h3⟩ := h
  intro c hc
  cases w with
  | nil => simp at hc; subst hc; exact .inr (h3 rfl)
  | cons e w => simp at hc; subst hc; exact .inl (hw e (by simp))

theorem oneAttribute_reads {s : Str} {p : Spec.Part} (h : AttributeSource s p) (b w r : Str) (hw : ∀ c ∈ w, White c) (hr : AfterAttr r) :
    ∃ a, oneAttribute ⟨b, w ++ (s ++ r)⟩ = some (a, ⟨b ++ w ++ s, r⟩) ∧
      PartIs (.attribute (a.name.slice (b ++ w ++ s ++ r)) (a.value.map (valueText (b ++ w ++ s ++ r)))) p := by
  have hend := hr.head
  have hwd : ∀ {n r : Str}, Word n → skip isWhitespace ⟨b, w ++ (n ++ r)⟩ = ⟨b ++ w, n ++ r⟩ := by
    intro n r hn
    refine skip_white hw fun c hc => ?_
    obtain ⟨d, s, rfl, hd, _⟩ := word_head hn
    simp at hc; subst hc
    exact not_white ((by decide : ∀ c ∈ asciiList, isWhitespace c = false) _ hd)
  cases h with
  | @bare n hn =>
    refine ⟨⟨byteLen (b ++ w), ⟨byteLen (b ++ w), byteLen (b ++ w ++ s)⟩, none, byteLen (b ++ w ++ s)⟩, ?_, ?_⟩
    · rw [oneAttribute, hwd hn, token, attributeName_reads hn fun c hc => by rcases hend c hc with h | h <;> simp [h]]
      simp only
      have : attributeAssignment ⟨b ++ w ++ s, r⟩ = none := by
        obtain ⟨w', r', rfl, hw', d, r'', rfl, h1, h2, h3⟩ := hr
        rw [attributeAssignment, token, assignment_none hw' fun c hc => by simp at hc; subst hc; exact ⟨h1, h2⟩]
      rw [this]
      rfl
    · have := slice_mid (b ++ w) s r
      simp only [← List.append_assoc] at this
      simp only [Option.map_none, PartIs, this]
      exact wordName_unescapes hn
  | @unquoted n v hn hne hv =>
    refine ⟨⟨byteLen (b ++ w), ⟨byteLen (b ++ w), byteLen (b ++ w ++ n)⟩,
      some (.unquoted ⟨byteLen (b ++ w ++ n ++ ['=']), byteLen (b ++ w ++ n ++ ['='] ++ v)⟩), byteLen (b ++ w ++ n ++ ['='] ++ v)⟩, ?_, ?_⟩
    · have hh : n ++ '=' :: v ++ r = n ++ ('=' :: (v ++ r)) := by simp
      rw [hh, oneAttribute, hwd hn, token, attributeName_reads hn fun c hc => by simp at hc; simp [← hc]]
      simp only
      have hv0 : ∀ c, (v ++ r).head? = some c → ¬ White c := by
        intro c hc
        cases v with
        | nil => exact absurd rfl hne
        | cons d v => simp at hc; subst hc; exact (hv d (by simp)).1
      rw [attributeAssignment, token, assignment_reads hv0]
      simp only
      rw [attributeValue, token, unquotedValue_reads hne hv hend]
      simp [Pos.at]
    · have h1 := slice_mid (b ++ w) n ('=' :: v ++ r)
      have h2 := slice_mid (b ++ w ++ n ++ ['=']) v r
      have e1 : b ++ w ++ (n ++ '=' :: v) ++ r = b ++ w ++ (n ++ ('=' :: v ++ r)) := by simp
      have e2 : b ++ w ++ (n ++ '=' :: v) ++ r = b ++ w ++ n ++ ['='] ++ (v ++ r) := by simp
      simp only [Option.map_some, PartIs, valueText]
      refine ⟨?_, ?_⟩
      · rw [e1, h1]; exact wordName_unescapes hn
      · rw [e2, h2]
        exact unescapes_noslash fun c hc => by
          rintro rfl
          exact (hv _ hc).2 (by decide)
  | @quoted n q v hn hq =>
    refine ⟨⟨byteLen (b ++ w), ⟨byteLen (b ++ w), byteLen (b ++ w ++ n)⟩,
      some (.quoted ⟨byteLen (b ++ w ++ n ++ ['=']), byteLen (b ++ w ++ n ++ ['='] ++ ('"' :: q ++ ['"']))⟩),
      byteLen (b ++ w ++ n ++ ['='] ++ ('"' :: q ++ ['"']))⟩, ?_, ?_⟩
    · have hh : n ++ '=' :: '"' :: q ++ ['"'] ++ r = n ++ ('=' :: ('"' :: q ++ '"' :: r)) := by simp
      rw [hh, oneAttribute, hwd hn, token, attributeName_reads hn fun c hc => by simp at hc; simp [← hc]]
      simp only
      have hv0 : ∀ c, ('"' :: q ++ '"' :: r).head? = some c → ¬ White c := by
        intro c hc
        simp at hc; subst hc; exact not_white (by decide)
      rw [attributeAssignment, token, assignment_reads hv0]
      simp only
      rw [attributeValue, token]
      rw [show unquotedValue (b ++ w ++ n ++ ['=']) ('"' :: q ++ '"' :: r) = none from unquotedValue_none]
      simp only
      rw [token, quotedString_reads hq]
      simp [Pos.at]
    · have h1 := slice_mid (b ++ w) n ('=' :: '"' :: q ++ ['"'] ++ r)
      have h2 := slice_mid (b ++ w ++ n ++ ['='] ++ ['"']) q ('"' :: r)
      have e1 : b ++ w ++ (n ++ '=' :: '"' :: q ++ ['"']) ++ r = b ++ w ++ (n ++ ('=' :: '"' :: q ++ ['"'] ++ r)) := by simp
      have e2 : b ++ w ++ (n ++ '=' :: '"' :: q ++ ['"']) ++ r = b ++ w ++ n ++ ['='] ++ ['"'] ++ (q ++ '"' :: r) := by simp
      simp only [Option.map_some, PartIs, valueText]
      refine ⟨?_, ?_⟩
      · rw [e1, h1]; exact wordName_unescapes hn
      · have h3 : byteLen ['"'] = 1 := rfl
        have h4 : byteLen (b ++ w ++ n ++ ['=']) + 1 = byteLen (b ++ w ++ n ++ ['='] ++ ['"']) := by
          rw [byteLen_app _ ['"'], h3]
        have h5 : byteLen (b ++ w ++ n ++ ['='] ++ ('"' :: q ++ ['"'])) - 1 = byteLen (b ++ w ++ n ++ ['='] ++ ['"'] ++ q) := by
          have : b ++ w ++ n ++ ['='] ++ ('"' :: q ++ ['"']) = b ++ w ++ n ++ ['='] ++ ['"'] ++ q ++ ['"'] := by simp
          rw [this, byteLen_app _ ['"'], h3]
          omega
        rw [h4, h5, e2, h2]
        exact quoted_unescapes hq

theorem attribute_head {s : Str} {p : Spec.Part} (h : AttributeSource s p) : ∃ c s', s = c :: s' ∧ c ∈ asciiList := by
  cases h with
  | bare hn => obtain ⟨c, s, rfl, hc, _⟩ := word_head hn; exact ⟨c, s, rfl, hc⟩
  | unquoted hn _ _ => obtain ⟨c, s, rfl, hc, _⟩ := word_head hn; exact ⟨c, _, rfl, hc⟩
  | quoted hn _ => obtain ⟨c, s, rfl, hc, _⟩ := word_head hn; exact ⟨c, _, rfl, hc⟩

theorem attributes_head {s : Str} {ps : List Spec.Part} (h : AttributesSource s ps) : ∃ c s', s = c :: s' ∧ c ∈ asciiList := by
  cases h with
  | one h => exact attribute_head h
  | more h _ _ _ => obtain ⟨c, s, rfl, hc⟩ := attribute_head h; exact ⟨c, _, rfl, hc⟩

theorem attributeList_reads {s : Str} {ps : List Spec.Part} (h : AttributesSource s ps) : ∀ (n : Nat) (b w w' r : Str), s.length < n →
    (∀ c ∈ w, White c) → (∀ c ∈ w', White c) →
    ∃ as, attributeList n ⟨b, w ++ (s ++ (w' ++ ']' :: r))⟩ = (as, ⟨b ++ w ++ s, w' ++ ']' :: r⟩) ∧
      List.Forall₂ PartIs (as.map fun a : Ast.Attribute => .attribute (a.name.slice (b ++ w ++ s ++ (w' ++ ']' :: r)))
        (a.value.map (valueText (b ++ w ++ s ++ (w' ++ ']' :: r))))) ps := by
  have hnil : ∀ n b w' r, (∀ c ∈ w', White c) → attributeList n ⟨b, w' ++ ']' :: r⟩ = ([], ⟨b, w' ++ ']' :: r⟩) := by
    intro n b w' r hw
    cases n with
    | zero => rfl
    | succ n =>
      rw [attributeList, oneAttribute, skip_white hw fun c hc => by simp at hc; subst hc; exact not_white (by decide)]
      rw [token, attributeName_none fun c hc => by simp at hc; exact hc.symm]
  induction h with
  | @one s p h =>
    intro n b w w' r hn hw hw'
    cases n with
    | zero => omega
    | succ n =>
      obtain ⟨a, h1, h2⟩ := oneAttribute_reads h b w (w' ++ ']' :: r) hw
        ⟨w', ']' :: r, rfl, hw', ']', r, rfl, not_white (by decide), by decide, fun _ => rfl⟩
      refine ⟨[a], ?_, .cons h2 .nil⟩
      rw [attributeList, h1]
      simp only [hnil n _ w' r hw']
  | @more s p v s' ps h hv hv' hs' ih =>
    intro n b w w' r hn hw hw'
    cases n with
    | zero => omega
    | succ n =>
      obtain ⟨c, s'', hc, hc'⟩ := attributes_head hs'
      obtain ⟨a, h1, h2⟩ := oneAttribute_reads h b w (v ++ (s' ++ (w' ++ ']' :: r))) hw
        ⟨v, s' ++ (w' ++ ']' :: r), rfl, hv', c, s'' ++ (w' ++ ']' :: r), by rw [hc]; rfl,
          not_white ((by decide : ∀ c ∈ asciiList, isWhitespace c = false) _ hc'),
          (by decide : ∀ c ∈ asciiList, c ≠ '=') _ hc', fun h => absurd h hv⟩
      obtain ⟨as, h3, h4⟩ := ih n (b ++ w ++ s) v w' r (by have := List.length_pos_iff.2 hv; simp at hn; omega) hv' hw'
      refine ⟨a :: as, ?_, ?_⟩
      · rw [attributeList, show w ++ (s ++ v ++ s' ++ (w' ++ ']' :: r)) = w ++ (s ++ (v ++ (s' ++ (w' ++ ']' :: r)))) by simp, h1]
        simp only [h3]
        simp
      · have e : b ++ w ++ (s ++ v ++ s') ++ (w' ++ ']' :: r) = b ++ w ++ s ++ (v ++ (s' ++ (w' ++ ']' :: r))) := by simp
        have e' : b ++ w ++ (s ++ v ++ s') ++ (w' ++ ']' :: r) = b ++ w ++ s ++ v ++ s' ++ (w' ++ ']' :: r) := by simp
        refine .cons ?_ ?_
        · rw [e]; exact h2
        · rw [e']; exact h4

theorem attributeSelector_reads {s : Str} {ps : List Spec.Part} (h : AttributesSource s ps) (b w w' r : Str)
    (hw : ∀ c ∈ w, White c) (hw' : ∀ c ∈ w', White c) :
    ∃ a, attributeSelector ⟨b, '[' :: w ++ s ++ w' ++ [']'] ++ r⟩ = some (a, ⟨b ++ ('[' :: w ++ s ++ w' ++ [']']), r⟩) ∧
      a.rBracket.isSome = true ∧ List.Forall₂ PartIs (attributeParts (b ++ ('[' :: w ++ s ++ w' ++ [']']) ++ r) a) ps := by
  have h0 : token (exact "[".toList) ⟨b, '[' :: w ++ s ++ w' ++ [']'] ++ r⟩ =
      some (⟨byteLen b, byteLen (b ++ ['['])⟩, ⟨b ++ ['['], w ++ (s ++ (w' ++ ']' :: r))⟩) := by
    simp [token, Pat.exact, List.isPrefixOf, Pos.at]
  obtain ⟨as, h1, h2⟩ := attributeList_reads h (w ++ (s ++ (w' ++ ']' :: r))).length (b ++ ['[']) w w' r
    (by simp; omega) hw hw'
  have h3 : closing "]".toList ⟨b ++ ['['] ++ w ++ s, w' ++ ']' :: r⟩ =
      (some ⟨byteLen (b ++ ['['] ++ w ++ s ++ w'), byteLen (b ++ ['['] ++ w ++ s ++ w' ++ [']'])⟩, ⟨b ++ ['['] ++ w ++ s ++ w' ++ [']'], r⟩) := by
    rw [closing, skip_white hw' fun c hc => by simp at hc; subst hc; exact not_white (by decide)]
    simp [token, Pat.exact, List.isPrefixOf, Pos.at]
  refine ⟨⟨byteLen b, ⟨byteLen b, byteLen (b ++ ['['])⟩, as,
    some ⟨byteLen (b ++ ['['] ++ w ++ s ++ w'), byteLen (b ++ ['['] ++ w ++ s ++ w' ++ [']'])⟩,
    byteLen (b ++ ['['] ++ w ++ s ++ w' ++ [']'])⟩, ?_, rfl, ?_⟩
  · rw [attributeSelector, h0]
    simp only [h1, h3]
    simp [Pos.at]
  · rw [attributeParts]
    have e : b ++ ('[' :: w ++ s ++ w' ++ [']']) ++ r = b ++ ['['] ++ w ++ s ++ (w' ++ ']' :: r) := by simp
    rw [e]
    exact h2

theorem attributeSelector_none {b r : Str} (h : r.head? ≠ some '[') : attributeSelector ⟨b, r⟩ = none := by
  have : token (exact "[".toList) ⟨b, r⟩ = none := by
    cases r with
    | nil => simp [token, Pat.exact, List.isPrefixOf]
    | cons c r =>
      have : ¬ ('[' = c) := by rintro rfl; exact h rfl
      simp [token, Pat.exact, List.isPrefixOf, this]
  rw [attributeSelector, this]

/-! ## Selectors -/

section
variable {al : Char → Bool} (hal : RightForAscii al)

/-- `selector_chain` up to its end. -/
theorem selectorChain_eq : selectorChain al = seq (many1 (wordPat fun c => al c || c = '*')) (precedes postSelectorChain) := rfl

include hal in
/-- Name, classes and ids before `r`. -/
theorem selectorChain_reads {k r b : Str} (hk : ∀ c ∈ k, plainChar c = true) (hl : ∀ c, k.getLast? = some c → c ∈ '*' :: asciiList)
    (hne : k ≠ []) (hs : Shut (fun c => al c || c = '*') r) (hp : ∀ b, (postSelectorChain b r).isSome = true) :
    selectorChain al b (k ++ r) = some (k, r) := by
  rw [selectorChain_eq, seq, many1_chain hk hne hs fun _ c hc => by
    rcases List.mem_cons.1 (hl c hc) with rfl | h
    · simp
    · simp [ascii_al hal c h]]
  simp [precedes, hp (b ++ k)]

/-- What follows name, classes and ids: brackets or the end. -/
theorem bracket_post {r b : Str} (h : r.head? = some '[') : (postSelectorChain b r).isSome = true := by
  cases r with
  | nil => simp at h
  | cons c r =>
    simp at h; subst h
    rw [postSelectorChain, alt]
    split
    · rfl
    · simp [chr]

theorem brackets_next {s r : Str} {ps : List Spec.Part} (h : BracketsSource s ps) (hr : HeadEnd r) (hm : Marks al) :
    Shut al (s ++ r) ∧ ∀ b, (postSelectorChain b (s ++ r)).isSome = true := by
  cases h with
  | none => exact ⟨headEnd_shut hm hr, headEnd_post hr⟩
  | some => exact ⟨fun b => ends_special hm (by decide) (by decide), fun b => bracket_post rfl⟩

include hal in
theorem selectorSegment_none {r b : Str} (hr : HeadEnd r) : selectorSegment al ⟨b, r⟩ = none := by
  have h1 : selectorChain al b r = none := by
    rw [selectorChain_eq, seq, many1, seq, headEnd_shut (marks_star (marks hal)) hr b]
  rw [selectorSegment, attributeSelector_none (headEnd_bracket hr), chain]
  simp only [h1]

include hal in
theorem selectorSegments_reads {s r b : Str} {ps : List Spec.Part} (h : BracketsSource s ps) (hr : HeadEnd r) {n : Nat} (hn : s ≠ [] → 0 < n) :
    ∃ gs, selectorSegments al n ⟨b, s ++ r⟩ = (gs, ⟨b ++ s, r⟩) ∧ (∀ g ∈ gs, SegmentOk g) ∧
      List.Forall₂ PartIs (gs.flatMap (segmentParts (b ++ s ++ r))) ps := by
  have hnil : ∀ n b, selectorSegments al n ⟨b, r⟩ = ([], ⟨b, r⟩) := by
    intro n b
    cases n with
    | zero => rfl
    | succ n => rw [selectorSegments, selectorSegment_none hal hr]
  cases h with
  | none => exact ⟨[], by simpa using hnil n b, by simp, .nil⟩
  | @some a s b' ps ha h hb =>
    cases n with
    | zero => exact absurd (hn (by simp)) (by simp)
    | succ n =>
      obtain ⟨x, h1, h2, h3⟩ := attributeSelector_reads h b a b' r ha hb
      refine ⟨[.attributes x], ?_, ?_, ?_⟩
      · rw [selectorSegments, selectorSegment, h1]
        simp only [hnil]
      · intro g hg
        simp at hg; subst hg
        exact h2
      · simpa [segmentParts] using h3

theorem chain_parts {k : Str} {e : Option Ast.ElementSelector} {cs : List Ast.ClassLike} {b r : Str} {s1 : Pos}
    (hc : selectorChain al b (k ++ r) = some (k, r)) (he : elementSelector ⟨b, k⟩ = (e, s1))
    (hcs : classLikes k.length s1 = (cs, ⟨b ++ k, []⟩)) :
    chain al true ⟨b, k ++ r⟩ = some (e, cs, ⟨b ++ k, r⟩) := by
  rw [chain]
  simp only [hc, he, hcs, if_true]
  rfl

include hal in
/-- A selector is read as one. -/
theorem selector_reads {h : Str} {name : Option Str} {ps : List Spec.Part} (hs : SelectorSource h name ps) (b r : Str) (hr : HeadEnd r) :
    ∃ sel, selector al ⟨b, h ++ r⟩ = some (.selector sel, ⟨b ++ h, r⟩) ∧ SelectorOk sel ∧
      writtenName (b ++ h ++ r) sel = name ∧ List.Forall₂ PartIs (writtenParts (b ++ h ++ r) sel) ps := by
  have hm := marks_star (marks hal)
  have parts_self : ∀ {s ps}, ClassesSource s ps → List.Forall₂ PartIs ps ps := by
    intro s ps h
    induction h with
    | nil => exact .nil
    | cls hw _ ih => exact .cons (wordName_unescapes hw) ih
    | id hw _ ih => exact .cons (wordName_unescapes hw) ih
  cases hs with
  | @named n s ps t qs hn hc hb =>
    obtain ⟨hsh, hpo⟩ := brackets_next hb hr hm
    have hk : ∀ c ∈ n ++ s, plainChar c = true := by
      intro c hc'
      rcases List.mem_append.1 hc' with h | h
      · have := word_chars hn c h
        exact plain_list c (by simp only [List.mem_cons] at this ⊢; tauto)
      · exact classes_chars hc c h
    have hl : ∀ c, (n ++ s).getLast? = some c → c ∈ '*' :: asciiList := by
      intro c hc'
      by_cases hs' : s = []
      · subst hs'
        obtain ⟨d, h1, h2⟩ := wordName_last hn
        rw [List.append_nil, h1] at hc'
        cases hc'
        exact List.mem_cons_of_mem _ h2
      · obtain ⟨d, h1, h2⟩ := classes_last hc hs'
        rw [getLast?_app hs', h1] at hc'
        cases hc'
        exact List.mem_cons_of_mem _ h2
    have hne : n ++ s ≠ [] := by simp [word_ne hn]
    have hch := selectorChain_reads hal (b := b) hk hl hne hsh hpo
    obtain ⟨cs, h1, h2, h3⟩ := classLikes_reads hc (n ++ s).length (b ++ n) (t ++ r) (by simp)
    have he : elementSelector ⟨b, n ++ s⟩ = (some (.name ⟨byteLen b, byteLen (b ++ n)⟩), ⟨b ++ n, s⟩) := by
      rw [elementSelector, token, elementName_reads hn (classes_head hc)]
      rfl
    have hcp := chain_parts hch he (by rw [h1, List.append_assoc])
    obtain ⟨gs, h4, h5, h6⟩ := selectorSegments_reads hal hb hr (b := b ++ (n ++ s)) (n := (t ++ r).length)
      (fun h => by have := List.length_pos_iff.2 h; simp; omega)
    have hh : n ++ s ++ t ++ r = n ++ s ++ (t ++ r) := by simp
    have hat : attributeSelector ⟨b, n ++ s ++ (t ++ r)⟩ = none := by
      refine attributeSelector_none ?_
      obtain ⟨c, n', rfl, hc', _⟩ := word_head hn
      simpa using (by decide : ∀ c ∈ asciiList, c ≠ '[') c hc'
    refine ⟨⟨byteLen b, .tag (some (.name ⟨byteLen b, byteLen (b ++ n)⟩)) cs, gs, byteLen (b ++ (n ++ s) ++ t)⟩, ?_, ⟨h3, h5⟩, ?_, ?_⟩
    · rw [hh, selector, selectorStart, hat]
      simp only [hcp, h4]
      simp [Pos.at]
    · have : b ++ (n ++ s ++ t) ++ r = b ++ (n ++ (s ++ t ++ r)) := by simp
      rw [writtenName, this]
      simp [slice_mid]
    · rw [writtenParts]
      have e1 : b ++ (n ++ s ++ t) ++ r = b ++ n ++ s ++ (t ++ r) := by simp
      have e2 : b ++ (n ++ s ++ t) ++ r = b ++ (n ++ s) ++ t ++ r := by simp
      refine List.rel_append ?_ ?_
      · simp only [e1, h2]; exact parts_self hc
      · rw [e2]; exact h6
  | @star s ps t qs hc hb =>
    obtain ⟨hsh, hpo⟩ := brackets_next hb hr hm
    have hk : ∀ c ∈ '*' :: s, plainChar c = true := by
      intro c hc'
      rcases List.mem_cons.1 hc' with rfl | h
      · decide
      · exact classes_chars hc c h
    have hl : ∀ c, ('*' :: s).getLast? = some c → c ∈ '*' :: asciiList := by
      intro c hc'
      by_cases hs' : s = []
      · subst hs'
        simp at hc'
        simp [← hc']
      · obtain ⟨d, h1, h2⟩ := classes_last hc hs'
        rw [show '*' :: s = ['*'] ++ s from rfl, getLast?_app hs', h1] at hc'
        cases hc'
        exact List.mem_cons_of_mem _ h2
    have hne : '*' :: s ≠ [] := by simp
    have hch := selectorChain_reads hal (b := b) hk hl hne hsh hpo
    obtain ⟨cs, h1, h2, h3⟩ := classLikes_reads hc ('*' :: s).length (b ++ ['*']) (t ++ r) (by simp)
    have he : elementSelector ⟨b, '*' :: s⟩ = (some (.star ⟨byteLen b, byteLen (b ++ ['*'])⟩), ⟨b ++ ['*'], s⟩) := by
      rw [elementSelector, token, elementName_none fun c hc => by simp at hc; simp [← hc]]
      simp [token, Pat.exact, List.isPrefixOf, Pos.at]
    have hcp := chain_parts hch he (by rw [h1, List.append_assoc]; rfl)
    obtain ⟨gs, h4, h5, h6⟩ := selectorSegments_reads hal hb hr (b := b ++ ('*' :: s)) (n := (t ++ r).length)
      (fun h => by have := List.length_pos_iff.2 h; simp; omega)
    have hh : '*' :: s ++ t ++ r = '*' :: s ++ (t ++ r) := by simp
    have hat : attributeSelector ⟨b, '*' :: s ++ (t ++ r)⟩ = none := attributeSelector_none (by simp)
    refine ⟨⟨byteLen b, .tag (some (.star ⟨byteLen b, byteLen (b ++ ['*'])⟩)) cs, gs, byteLen (b ++ ('*' :: s) ++ t)⟩, ?_, ⟨h3, h5⟩, rfl, ?_⟩
    · rw [hh, selector, selectorStart, hat]
      simp only [hcp, h4]
      simp [Pos.at]
    · rw [writtenParts]
      have e1 : b ++ ('*' :: s ++ t) ++ r = b ++ ['*'] ++ s ++ (t ++ r) := by simp
      have e2 : b ++ ('*' :: s ++ t) ++ r = b ++ ('*' :: s) ++ t ++ r := by simp
      refine List.rel_append ?_ ?_
      · simp only [e1, h2]; exact parts_self hc
      · rw [e2]; exact h6
  | @unnamed s ps t qs hne hc hb =>
    by_cases hs' : s = []
    · subst hs'
      cases hc
      cases hb with
      | none => exact absurd rfl hne
      | @some x y z qs hx hy hz =>
        obtain ⟨a, h1, h2, h3⟩ := attributeSelector_reads hy b x z r hx hz
        obtain ⟨gs, h4, h5, h6⟩ := selectorSegments_reads hal .none hr (b := b ++ ('[' :: x ++ y ++ z ++ [']'])) (n := r.length) (by simp)
        refine ⟨⟨byteLen b, .attributes a, gs, byteLen (b ++ ('[' :: x ++ y ++ z ++ [']']))⟩, ?_, ⟨h2, h5⟩, rfl, ?_⟩
        · rw [List.nil_append, selector, selectorStart, h1]
          simp only [List.nil_append, List.append_nil] at h4
          simp only [h4]
          rfl
        · rw [writtenParts]
          have h7 := List.rel_append h3 h6
          simpa using h7
    · obtain ⟨hsh, hpo⟩ := brackets_next hb hr hm
      have hk := classes_chars hc
      have hl : ∀ c, s.getLast? = some c → c ∈ '*' :: asciiList := by
        intro c hc'
        obtain ⟨d, h1, h2⟩ := classes_last hc hs'
        rw [h1] at hc'
        cases hc'
        exact List.mem_cons_of_mem _ h2
      have hch := selectorChain_reads hal (b := b) hk hl hs' hsh hpo
      obtain ⟨cs, h1, h2, h3⟩ := classLikes_reads hc s.length b (t ++ r) (Nat.le_refl _)
      have hd := classes_head hc
      have he : elementSelector ⟨b, s⟩ = (none, ⟨b, s⟩) := by
        rw [elementSelector, token, elementName_none fun c hc => by rcases hd c hc with h | h <;> simp [h]]
        simp only
        have : token (exact "*".toList) ⟨b, s⟩ = none := by
          cases s with
          | nil => exact absurd rfl hs'
          | cons c s =>
            have : ¬ ('*' = c) := by
              rintro rfl
              have := hd _ rfl
              revert this
              decide
            simp [token, Pat.exact, List.isPrefixOf, this]
        rw [this]
      have hcp := chain_parts hch he h1
      obtain ⟨gs, h4, h5, h6⟩ := selectorSegments_reads hal hb hr (b := b ++ s) (n := (t ++ r).length)
        (fun h => by have := List.length_pos_iff.2 h; simp; omega)
      have hh : s ++ t ++ r = s ++ (t ++ r) := by simp
      have hat : attributeSelector ⟨b, s ++ (t ++ r)⟩ = none := by
        refine attributeSelector_none ?_
        cases s with
        | nil => exact absurd rfl hs'
        | cons c s =>
          have : c ≠ '[' := by
            rintro rfl
            have := hd _ rfl
            revert this
            decide
          simpa using this
      refine ⟨⟨byteLen b, .tag none cs, gs, byteLen (b ++ s ++ t)⟩, ?_, ⟨h3, h5⟩, rfl, ?_⟩
      · rw [hh, selector, selectorStart, hat]
        simp only [hcp, h4]
        simp [Pos.at]
      · rw [writtenParts]
        have e1 : b ++ (s ++ t) ++ r = b ++ s ++ (t ++ r) := by simp
        have e2 : b ++ (s ++ t) ++ r = b ++ s ++ t ++ r := by simp
        refine List.rel_append ?_ ?_
        · simp only [e1, h2]; exact parts_self hc
        · rw [e2]; exact h6

/-- The first character of a selector. -/
theorem selector_head {h : Str} {name : Option Str} {ps : List Spec.Part} (hs : SelectorSource h name ps) :
    ∃ c s, h = c :: s ∧ c ∈ '.' :: '#' :: '*' :: '[' :: asciiList := by
  have hcl : ∀ {s ps b qs}, s ++ b ≠ [] → ClassesSource s ps → BracketsSource b qs → ∃ c s', s ++ b = c :: s' ∧ c ∈ '.' :: '#' :: '*' :: '[' :: asciiList := by
    intro s ps b qs hne hc hb
    cases hc with
    | nil =>
      cases hb with
      | none => exact absurd rfl hne
      | some => exact ⟨_, _, rfl, by simp⟩
    | cls => exact ⟨_, _, rfl, by simp⟩
    | id => exact ⟨_, _, rfl, by simp⟩
  cases hs with
  | named hn _ _ =>
    obtain ⟨c, s, rfl, hc, _⟩ := word_head hn
    exact ⟨c, _, rfl, by simp [hc]⟩
  | star => exact ⟨_, _, rfl, by simp⟩
  | unnamed hne hc hb => exact hcl hne hc hb

include hal in
/-- A selector is not read as a text. -/
theorem segment_selector {h : Str} {name : Option Str} {ps : List Spec.Part} (hs : SelectorSource h name ps) (b r : Str) (hr : HeadEnd r) :
    textSegment al b (h ++ r) = none := by
  have hm := marks hal
  -- a chain with a letter or digit at its end
  have main : ∀ {k t qs}, (∀ c ∈ k, plainChar c = true) → (∀ c, k.getLast? = some c → c ∈ asciiList) → BracketsSource t qs →
      textWord al b (k ++ (t ++ r)) = none := by
    intro k t qs hk hl hb
    obtain ⟨hsh, hpo⟩ := brackets_next hb hr hm
    by_cases hne : k = []
    · subst hne
      rw [textWord_eq, seq, List.nil_append, many1, seq, hsh]
    · exact textWord_selector (many1_chain hk hne hsh fun _ c hc => ascii_al hal c (hl c hc)) hpo
  have last : ∀ {s ps}, ClassesSource s ps → ∀ c, s.getLast? = some c → c ∈ asciiList := by
    intro s ps hc c h
    by_cases hs' : s = []
    · subst hs'; simp at h
    · obtain ⟨d, h1, h2⟩ := classes_last hc hs'
      rw [h1] at h; cases h; exact h2
  rw [textSegment, seq]
  rw [show textWord al b (h ++ r) = none from ?_]
  cases hs with
  | @named n s ps t qs hn hc hb =>
    rw [List.append_assoc (n ++ s)]
    refine main (fun c hc' => ?_) (fun c hc' => ?_) hb
    · rcases List.mem_append.1 hc' with h | h
      · have := word_chars hn c h
        exact plain_list c (by simp only [List.mem_cons] at this ⊢; tauto)
      · exact classes_chars hc c h
    · by_cases hs' : s = []
      · subst hs'
        obtain ⟨d, h1, h2⟩ := wordName_last hn
        rw [List.append_nil, h1] at hc'
        cases hc'
        exact h2
      · rw [getLast?_app hs'] at hc'
        exact last hc c hc'
  | @star s ps t qs hc hb =>
    have hk : ∀ c ∈ '*' :: s, plainChar c = true := by
      intro c hc'
      rcases List.mem_cons.1 hc' with rfl | h
      · decide
      · exact classes_chars hc c h
    by_cases hs' : s = []
    · subst hs'
      obtain ⟨hsh, hpo⟩ := brackets_next hb hr hm
      by_cases hg : (t ++ r).head? = some '>'
      · have hst : al '*' = false := by
          rw [Bool.eq_false_iff, ne_eq, hal.2 _ (by decide)]
          unfold Ascii
          decide
        rw [List.append_assoc, textWord_eq, seq, many1, seq]
        have : wordPat al b (['*'] ++ (t ++ r)) = none := by
          cases htr : t ++ r with
          | nil => rw [htr] at hg; simp at hg
          | cons c x =>
            rw [htr] at hg
            simp at hg; subst hg
            have hp : plainChar '*' = true := by decide
            simp [wordPat, alt, seq, chr, hp, notPrecedes, hst, escape, unicodeEscape, Pat.exact, List.isPrefixOf]
        rw [this]
      · rw [List.append_assoc]
        exact textWord_selector (many1_chain hk (by simp) hsh fun h => absurd h hg) hpo
    · rw [List.append_assoc]
      refine main hk (fun c hc' => ?_) hb
      rw [show '*' :: s = ['*'] ++ s from rfl, getLast?_app hs'] at hc'
      exact last hc c hc'
  | @unnamed s ps t qs hne hc hb =>
    rw [List.append_assoc]
    exact main (classes_chars hc) (last hc) hb

end

end Mty.Grammar
