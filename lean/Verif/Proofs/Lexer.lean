import Verif.Proofs.Grammar
import Verif.Proofs.Escape
import Verif.Proofs.Multiline
import Verif.Spec.PlainText

/-!
# Lexing plain text
-/

set_option autoImplicit false

namespace Mty.Grammar
open Spec Pat Lex

theorem isSpace_iff (c : Char) : isSpace c = true ↔ White c ∧ c ≠ '\n' := by
  simp [isSpace, White, isWhitespace_iff]

theorem white_iff (c : Char) : isWhitespace c = true ↔ White c := isWhitespace_iff c

/-- The characters of words that are not written as escapes. -/
def Plain (c : Char) : Prop := ¬ White c ∧ c ∉ ['\\', '[', ']', '{', '}', '<', '>']

theorem plainChar_iff (c : Char) : plainChar c = true ↔ Plain c := by
  rw [plainChar, Plain, ← white_iff]
  simp only [Bool.and_eq_true, Bool.not_eq_true', decide_eq_false_iff_not, Bool.not_eq_true]
  constructor
  · rintro ⟨h1, h2⟩
    refine ⟨h2, fun h => h1 ?_⟩
    simp only [List.mem_cons, List.not_mem_nil, or_false] at h ⊢
    tauto
  · rintro ⟨h1, h2⟩
    refine ⟨fun h => ?_, h1⟩
    simp only [List.mem_cons, List.not_mem_nil, or_false] at h h2
    rcases h with h | h | h | h | h | h | h | h | h | h | h <;> (first | (exact h2 (by tauto)) | (subst h; revert h1; decide))

/-- The shape of a word, as far as it matters for lexing. -/
inductive Lexes : Str → Prop
  | nil : Lexes []
  | plain {c s} : Plain c → Lexes s → Lexes (c :: s)
  | esc {f s} : f ≠ 'u' → Lexes s → Lexes ('\\' :: f :: s)
  | uni {ds s} : (∀ c ∈ ds, c ∉ ['\n', '{', '}']) → Lexes s → Lexes ('\\' :: 'u' :: '{' :: ds ++ '}' :: s)

theorem hex_chars {c : Char} {d : Nat} (h : hexVal c = some d) : c ∈ "0123456789abcdefABCDEF".toList := by
  have h1 : ∀ (l : List Char) n, l.idxOf? c = some n → c ∈ l := fun l n h => by
    by_contra hc
    rw [List.idxOf?_eq_none_iff.2 hc] at h
    cases h
  rw [hexVal, Option.or_eq_some_iff] at h
  rcases h with h | ⟨-, h⟩
  · have := h1 _ _ h
    simp only [String.reduceToList, List.mem_cons, List.not_mem_nil, or_false] at this ⊢
    tauto
  · have := h1 _ _ h
    simp only [String.reduceToList, List.mem_cons, List.not_mem_nil, or_false] at this ⊢
    tauto

theorem hex_plain : ∀ c ∈ "0123456789abcdefABCDEF".toList, plainChar c = true ∧ c ∉ ['\n', '{', '}'] := by decide

theorem hexNum_chars {s : Str} {n : Nat} (h : HexNum s n) : ∀ c ∈ s, c ∈ "0123456789abcdefABCDEF".toList := by
  induction h with
  | one h => intro c hc; rw [List.mem_singleton] at hc; subst hc; exact hex_chars h
  | snoc _ h ih =>
    intro c hc
    rw [List.mem_append, List.mem_singleton] at hc
    rcases hc with hc | rfl
    · exact ih c hc
    · exact hex_chars h

theorem lexes_word {s t : Str} (h : WordText s t) : Lexes s := by
  induction h with
  | nil => exact .nil
  | plain h1 h2 _ ih => exact .plain ⟨h1, h2⟩ ih
  | esc he _ ih =>
    cases he with
    | tab => exact .esc (by decide) ih
    | newline => exact .esc (by decide) ih
    | cr => exact .esc (by decide) ih
    | self h => exact .esc (by rintro rfl; revert h; decide) ih
    | byte _ hn _ =>
      have hc := hexNum_chars hn
      exact .esc (by decide) (.plain ((plainChar_iff _).1 (hex_plain _ (hc _ List.mem_cons_self)).1)
        (.plain ((plainChar_iff _).1 (hex_plain _ (hc _ (by simp))).1) ih))
    | unicode _ hn _ =>
      have hc := hexNum_chars hn
      have := Lexes.uni (fun c h => (hex_plain _ (hc _ h)).2) ih
      simpa using this

theorem lexes_append {s s' : Str} (h : Lexes s) (h' : Lexes s') : Lexes (s ++ s') := by
  induction h with
  | nil => exact h'
  | plain hc _ ih => exact .plain hc ih
  | esc hc _ ih => exact .esc hc ih
  | uni hc _ ih => simpa using Lexes.uni hc ih

/-- The end of a word. -/
def WordEnd (r : Str) : Prop := ∀ c, r.head? = some c → White c

theorem white_not_plain {c : Char} (h : White c) : ¬ Plain c := fun hp => hp.1 h

/-- A possible first character of a word. -/
def Starts (c : Char) : Prop := c = '\\' ∨ Plain c

theorem starts_spec {c : Char} (h : Starts c) : ¬ White c ∧ c ∉ ['[', ']', '{', '}', '<', '>'] := by
  rcases h with rfl | h
  · refine ⟨fun h => ?_, by decide⟩
    rw [← white_iff] at h
    exact absurd h (by decide)
  · refine ⟨h.1, fun hc => h.2 ?_⟩
    simp only [List.mem_cons, List.not_mem_nil, or_false] at hc ⊢
    tauto

theorem lexes_head {s : Str} (h : Lexes s) (hs : s ≠ []) : ∃ c s', s = c :: s' ∧ Starts c := by
  cases h with
  | nil => exact absurd rfl hs
  | plain hc _ => exact ⟨_, _, rfl, .inr hc⟩
  | esc _ _ => exact ⟨_, _, rfl, .inl rfl⟩
  | uni _ _ => exact ⟨_, _, rfl, .inl rfl⟩

section
variable {al : Char → Bool} (hal : LettersAndDigits al)

/-- The characters of words and selector chains. -/
def wordPat (al : Char → Bool) : Pat := alt (seq (chr plainChar) (notPrecedes (chr (· = '>')))) (alt (chr al) escape)

include hal in
theorem wordPat_end {b r : Str} (hr : WordEnd r) : wordPat al b r = none := by
  cases r with
  | nil => rfl
  | cons c r =>
    have hw := hr c rfl
    have h1 : plainChar c = false := by
      rw [Bool.eq_false_iff, ne_eq, plainChar_iff]; exact white_not_plain hw
    have h2 : al c = false := by rw [Bool.eq_false_iff]; exact fun h => (hal c h).1 hw
    have h3 : c ≠ '\\' := by rintro rfl; rw [← white_iff] at hw; exact absurd hw (by decide)
    have h4 : ¬ ('\\' = c) := fun h => h3 h.symm
    simp [wordPat, alt, seq, chr, h1, h2, escape, unicodeEscape, Pat.exact, List.isPrefixOf, h3, h4]

theorem wordPat_plain {b r : Str} {c : Char} (hc : Plain c) (hr : r.head? ≠ some '>') :
    wordPat al b (c :: r) = some ([c], r) := by
  have h1 : plainChar c = true := (plainChar_iff c).2 hc
  cases r with
  | nil => simp [wordPat, alt, seq, chr, h1, notPrecedes]
  | cons d r =>
    have : d ≠ '>' := by rintro rfl; exact hr rfl
    simp [wordPat, alt, seq, chr, h1, notPrecedes, this]

theorem plainChar_backslash : plainChar '\\' = false := by decide

include hal in
theorem al_backslash : al '\\' = false := by
  rw [Bool.eq_false_iff]; exact fun h => (hal _ h).2 (by decide)

theorem manyLoop_nil {p : Pat} {n : Nat} {b r : Str} (h : p b r = none) : manyLoop p n b r = ([], r) := by
  cases n <;> simp [manyLoop, h]

theorem manyLoop_chr (p : Char → Bool) : ∀ (s r : Str) (n : Nat) (b : Str), (∀ c ∈ s, p c = true) →
    (∀ c, r.head? = some c → p c = false) → s.length ≤ n → manyLoop (chr p) n b (s ++ r) = (s, r)
  | [], r, n, b, _, hr, _ => by
    refine manyLoop_nil ?_
    cases r with
    | nil => rfl
    | cons c r => simp [chr, hr c rfl]
  | c :: s, r, 0, b, _, _, hn => by simp at hn
  | c :: s, r, n + 1, b, hs, hr, hn => by
    have h1 : chr p b (c :: (s ++ r)) = some ([c], s ++ r) := by simp [chr, hs c (by simp)]
    rw [List.cons_append, manyLoop, h1]
    simp only
    rw [manyLoop_chr p s r n _ (fun c hc => hs c (by simp [hc])) hr (by simp at hn; omega)]
    simp

theorem many_chr {p : Char → Bool} {s r b : Str} (hs : ∀ c ∈ s, p c = true) (hr : ∀ c, r.head? = some c → p c = false) :
    many (chr p) b (s ++ r) = some (s, r) := by
  rw [many, manyLoop_chr p s r _ b hs hr (by simp)]

include hal in
theorem wordPat_esc {b r : Str} {f : Char} (hf : f ≠ 'u') : wordPat al b ('\\' :: f :: r) = some (['\\', f], r) := by
  have h1 : ¬ ('u' = f) := fun h => hf h.symm
  simp [wordPat, alt, seq, chr, plainChar_backslash, al_backslash hal, escape, unicodeEscape, Pat.exact, List.isPrefixOf, h1]

include hal in
theorem wordPat_uni {b r ds : Str} (hd : ∀ c ∈ ds, c ∉ ['\n', '{', '}']) :
    wordPat al b ('\\' :: 'u' :: '{' :: ds ++ '}' :: r) = some ('\\' :: 'u' :: '{' :: ds ++ ['}'], r) := by
  have h1 : ∀ b, many (chr fun c => !(c ∈ ['\n', '{', '}'])) b (ds ++ '}' :: r) = some (ds, '}' :: r) := fun b =>
    many_chr (fun c hc => by simpa using hd c hc) (fun c hc => by simp at hc; subst hc; decide)
  have h2 : unicodeEscape b ('\\' :: 'u' :: '{' :: ds ++ '}' :: r) = some ('\\' :: 'u' :: '{' :: ds ++ ['}'], r) := by
    rw [unicodeEscape, seq]
    have h3 : Pat.exact "\\u{".toList b ('\\' :: 'u' :: '{' :: ds ++ '}' :: r) =
        some ("\\u{".toList, ds ++ '}' :: r) := by
      simp [Pat.exact, List.isPrefixOf]
    rw [h3]
    simp only
    rw [seq, h1]
    simp [Pat.exact, List.isPrefixOf]
  rw [wordPat, alt, show seq (chr plainChar) (notPrecedes (chr (· = '>'))) b ('\\' :: 'u' :: '{' :: ds ++ '}' :: r) = none by
    simp [seq, chr, plainChar_backslash]]
  simp only
  rw [alt, show chr al b ('\\' :: 'u' :: '{' :: ds ++ '}' :: r) = none by simp [chr, al_backslash hal]]
  simp only
  rw [escape, alt, h2]

theorem wordEnd_gt {r : Str} (hr : WordEnd r) : r.head? ≠ some '>' := by
  intro h
  have := hr _ h
  rw [← white_iff] at this
  exact absurd this (by decide)

theorem lexes_gt {s r : Str} (hs : Lexes s) (hr : WordEnd r) : (s ++ r).head? ≠ some '>' := by
  by_cases h : s = []
  · subst h; exact wordEnd_gt hr
  · obtain ⟨c, s', rfl, hc⟩ := lexes_head hs h
    rintro h'
    simp at h'
    subst h'
    exact (starts_spec hc).2 (by decide)

include hal in
/-- The pattern takes a whole word. -/
theorem manyLoop_word {s r : Str} (hs : Lexes s) (hr : WordEnd r) : ∀ (n : Nat) (b : Str), s.length ≤ n →
    manyLoop (wordPat al) n b (s ++ r) = (s, r) := by
  induction hs with
  | nil => intro n b _; exact manyLoop_nil (wordPat_end hal hr)
  | @plain c s hc hs ih =>
    intro n b hn
    cases n with
    | zero => simp at hn
    | succ n =>
      rw [List.cons_append, manyLoop, wordPat_plain hc (lexes_gt hs hr)]
      simp only
      rw [ih n _ (by simp at hn; omega)]
      simp
  | @esc f s hf hs ih =>
    intro n b hn
    cases n with
    | zero => simp at hn
    | succ n =>
      rw [List.cons_append, List.cons_append, manyLoop, wordPat_esc hal hf]
      simp only
      rw [ih n _ (by simp at hn; omega)]
      simp
  | @uni ds s hd hs ih =>
    intro n b hn
    cases n with
    | zero => simp at hn
    | succ n =>
      have := wordPat_uni hal (b := b) (r := s ++ r) hd
      simp only [List.cons_append, List.append_assoc] at this ⊢
      rw [manyLoop, this]
      simp only
      rw [ih n _ (by simp at hn; omega)]
      simp

include hal in
theorem wordPat_some {s r b : Str} (hs : Lexes s) (hne : s ≠ []) (hr : WordEnd r) :
    ∃ m s', s = m ++ s' ∧ m ≠ [] ∧ Lexes s' ∧ wordPat al b (s ++ r) = some (m, s' ++ r) := by
  cases hs with
  | nil => exact absurd rfl hne
  | @plain c s hc hs => exact ⟨[c], s, rfl, by simp, hs, wordPat_plain hc (lexes_gt hs hr)⟩
  | @esc f s hf hs => exact ⟨['\\', f], s, rfl, by simp, hs, wordPat_esc hal hf⟩
  | @uni ds s hd hs =>
    exact ⟨'\\' :: 'u' :: '{' :: ds ++ ['}'], s, by simp, by simp, hs, by simpa using wordPat_uni hal hd⟩

include hal in
theorem many1_word {s r b : Str} (hs : Lexes s) (hne : s ≠ []) (hr : WordEnd r) :
    many1 (wordPat al) b (s ++ r) = some (s, r) := by
  obtain ⟨m, s', rfl, hm, hs', h⟩ := wordPat_some hal (b := b) hs hne hr
  rw [many1, seq, h]
  simp only [many]
  rw [manyLoop_word hal hs' hr _ _ (by simp)]

include hal in
theorem many1_end {b r : Str} (hr : WordEnd r) : many1 (wordPat al) b r = none := by
  rw [many1, seq, wordPat_end hal hr]

end

/-! ## What follows a word -/

/-- Nothing that makes the word before it a selector. -/
def Quiet (r : Str) : Prop := ∃ sp r', r = sp ++ r' ∧ (∀ c ∈ sp, White c) ∧ ∀ c, r'.head? = some c → Starts c

theorem many_blank (p : Char → Bool) (r b : Str) : many (chr p) b r = some (r.takeWhile p, r.dropWhile p) := by
  conv_lhs => rw [← List.takeWhile_append_dropWhile (p := p) (l := r)]
  refine many_chr (fun c hc => List.all_eq_true.mp (List.all_takeWhile (p := p) (l := r)) c hc) fun c hc => ?_
  have := List.head?_dropWhile_not p r
  rw [hc] at this
  simpa using this

theorem white_not_opening {c : Char} (hc : White c) : c ∉ ['>', '{', '['] := by
  intro h
  rw [← white_iff] at hc
  simp only [List.mem_cons, List.not_mem_nil, or_false] at h
  rcases h with rfl | rfl | rfl <;> exact absurd hc (by decide)

theorem starts_not_opening {c : Char} (hc : Starts c) : c ∉ ['>', '{', '['] := by
  intro h
  refine (starts_spec hc).2 ?_
  simp only [List.mem_cons, List.not_mem_nil, or_false] at h ⊢
  tauto

theorem quiet_head {r : Str} (h : Quiet r) :
    (∀ c, (r.dropWhile fun c => c = ' ' || c = '\t').head? = some c → c ∉ ['>', '{', '[']) ∧
    ∀ c, r.head? = some c → c ∉ ['>', '{', '['] := by
  obtain ⟨sp, r', rfl, h1, h2⟩ := h
  constructor
  · induction sp with
    | nil =>
      intro c hc
      cases r' with
      | nil => simp at hc
      | cons d r' =>
        have hd := h2 d rfl
        rw [List.nil_append, List.dropWhile_cons] at hc
        split at hc
        · rename_i h
          exfalso
          refine (starts_spec hd).1 ?_
          rw [← white_iff]
          simp only [Bool.or_eq_true, decide_eq_true_eq] at h
          rcases h with rfl | rfl <;> decide
        · simp at hc; subst hc; exact starts_not_opening hd
    | cons d sp ih =>
      intro c hc
      rw [List.cons_append, List.dropWhile_cons] at hc
      split at hc
      · exact ih (fun c hc => h1 c (by simp [hc])) c hc
      · simp at hc; subst hc; exact white_not_opening (h1 d (by simp))
  · intro c hc
    cases sp with
    | nil => exact starts_not_opening (h2 c hc)
    | cons d sp => simp at hc; subst hc; exact white_not_opening (h1 d (by simp))

theorem postSelectorChain_quiet {r b : Str} (h : Quiet r) : postSelectorChain b r = none := by
  obtain ⟨h1, h2⟩ := quiet_head h
  rw [postSelectorChain, alt]
  have h3 : chr (· = '[') b r = none := by
    cases r with
    | nil => rfl
    | cons c r =>
      have : c ≠ '[' := by rintro rfl; exact h2 _ rfl (by decide)
      simp [chr, this]
  rw [show seq (many (chr fun c => decide (c = ' ') || decide (c = '\t')))
      (alt (chr (· = '>')) (seq (chr (· = '{')) (notPrecedes (chr fun c => !(isWhitespace c || decide (c = '}')))))) b r = none from ?_]
  · exact h3
  · rw [seq, many_blank]
    simp only
    cases hd : r.dropWhile fun c => decide (c = ' ') || decide (c = '\t') with
    | nil => rfl
    | cons c r' =>
      have := h1 c (by rw [hd]; rfl)
      have h4 : c ≠ '>' := by rintro rfl; exact this (by decide)
      have h5 : c ≠ '{' := by rintro rfl; exact this (by decide)
      simp [alt, chr, seq, h4, h5]

section
variable {al : Char → Bool} (hal : LettersAndDigits al)

theorem textWord_eq : textWord al = seq (many1 (wordPat al)) (notPrecedes postSelectorChain) := rfl

include hal in
theorem textWord_word {s r b : Str} (hs : Lexes s) (hne : s ≠ []) (hr : WordEnd r) (hq : Quiet r) :
    textWord al b (s ++ r) = some (s, r) := by
  rw [textWord_eq, seq, many1_word hal hs hne hr]
  simp [notPrecedes, postSelectorChain_quiet hq]

include hal in
theorem textWord_end {r b : Str} (hr : WordEnd r) : textWord al b r = none := by
  rw [textWord_eq, seq, many1_end hal hr]

include hal in
theorem selectorChain_word {s r b : Str} (hs : Lexes s) (hne : s ≠ []) (hr : WordEnd r) (hq : Quiet r) :
    selectorChain al b (s ++ r) = none := by
  have h : LettersAndDigits (fun c => al c || c = '*') := by
    intro c hc
    simp only [Bool.or_eq_true, decide_eq_true_eq] at hc
    rcases hc with hc | rfl
    · exact hal c hc
    · refine ⟨fun h => ?_, by decide⟩
      rw [← white_iff] at h
      exact absurd h (by decide)
  rw [show selectorChain al = seq (many1 (wordPat fun c => al c || c = '*')) (precedes postSelectorChain) from rfl,
    seq, many1_word h hs hne hr]
  simp [precedes, postSelectorChain_quiet hq]

include hal in
theorem selectorChain_end {r b : Str} (hr : WordEnd r) : selectorChain al b r = none := by
  have h : LettersAndDigits (fun c => al c || c = '*') := by
    intro c hc
    simp only [Bool.or_eq_true, decide_eq_true_eq] at hc
    rcases hc with hc | rfl
    · exact hal c hc
    · refine ⟨fun h => ?_, by decide⟩
      rw [← white_iff] at h
      exact absurd h (by decide)
  rw [show selectorChain al = seq (many1 (wordPat fun c => al c || c = '*')) (precedes postSelectorChain) from rfl,
    seq, many1_end h hr]

/-- The shape of a line, as far as it matters for lexing. -/
inductive LexesLine : Str → Prop
  | word {s} : Lexes s → s ≠ [] → LexesLine s
  | more {s sp s'} : Lexes s → s ≠ [] → (∀ c ∈ sp, isSpace c = true) → sp ≠ [] → LexesLine s' → LexesLine (s ++ sp ++ s')

theorem lexesLine {s t : Str} (h : LineText s t) : LexesLine s := by
  induction h with
  | word h hs => exact .word (lexes_word h) hs
  | more h hs hb hsp _ ih => exact .more (lexes_word h) hs (fun c hc => (isSpace_iff c).2 (hb c hc)) hsp ih

theorem line_head {s : Str} (h : LexesLine s) : ∃ c s', s = c :: s' ∧ Starts c := by
  cases h with
  | word h hs => exact lexes_head h hs
  | more h hs _ _ _ =>
    obtain ⟨c, s', rfl, hc⟩ := lexes_head h hs
    exact ⟨c, _, rfl, hc⟩

/-- What follows a line: the end, or white space up to the next line with text. -/
def LineEnd (r : Str) : Prop := WordEnd r ∧ Quiet r

/-- After a line there is nothing more of it. -/
def Done (al : Char → Bool) (r : Str) : Prop := ∀ b, seq space (textWord al) b r = none

theorem space_none {b r : Str} (h : ∀ c, r.head? = some c → isSpace c = false) : space b r = none := by
  cases r with
  | nil => rfl
  | cons c r => simp [space, many1, seq, chr, h c rfl]

theorem space_some {b sp r : Str} (h1 : ∀ c ∈ sp, isSpace c = true) (h2 : sp ≠ []) (h : ∀ c, r.head? = some c → isSpace c = false) :
    space b (sp ++ r) = some (sp, r) := by
  cases sp with
  | nil => exact absurd rfl h2
  | cons c sp =>
    rw [space, many1, seq, List.cons_append]
    have : chr isSpace b (c :: (sp ++ r)) = some ([c], sp ++ r) := by simp [chr, h1 c (by simp)]
    rw [this]
    simp only
    rw [many_chr (fun c hc => h1 c (by simp [hc])) h]
    rfl

theorem starts_not_space {c : Char} (h : Starts c) : isSpace c = false := by
  rw [Bool.eq_false_iff, ne_eq, isSpace_iff]
  exact fun h' => (starts_spec h).1 h'.1

/-- White space at the end of a line. -/
theorem done_of {al : Char → Bool} (hal : LettersAndDigits al) {sp r : Str} (h1 : ∀ c ∈ sp, isSpace c = true)
    (h2 : ∀ c, r.head? = some c → c = '\n') : Done al (sp ++ r) := by
  intro b
  have h3 : ∀ c, r.head? = some c → isSpace c = false := fun c hc => by rw [h2 c hc]; decide
  rw [seq]
  by_cases hs : sp = []
  · subst hs
    rw [List.nil_append, space_none h3]
  · rw [space_some h1 hs h3]
    simp only
    rw [textWord_end hal]
    intro c hc
    rw [h2 c hc, ← white_iff]
    decide

include hal in
theorem segment_parts {s r : Str} (hs : LexesLine s) (hr : LineEnd r) (hd : Done al r) :
    ∃ w s', s = w ++ s' ∧ (∀ b, textWord al b (s ++ r) = some (w, s' ++ r)) ∧
      ∀ n b, s'.length ≤ n → manyLoop (seq space (textWord al)) n b (s' ++ r) = (s', r) := by
  induction hs with
  | @word s hs hne =>
    refine ⟨s, [], by simp, fun b => textWord_word hal hs hne hr.1 hr.2, fun n b _ => manyLoop_nil (hd b)⟩
  | @more s sp s' hs hne hsp hsne hs' ih =>
    obtain ⟨w, s2, rfl, h1, h2⟩ := ih
    obtain ⟨c, s3, hc, hcs⟩ := line_head hs'
    refine ⟨s, sp ++ (w ++ s2), by simp, fun b => ?_, fun n b hn => ?_⟩
    · have hcs' : WordEnd (sp ++ (w ++ s2 ++ r)) := by
        intro d hd
        cases sp with
        | nil => exact absurd rfl hsne
        | cons e sp => simp at hd; subst hd; exact ((isSpace_iff _).1 (hsp _ (by simp))).1
      have := textWord_word hal (b := b) hs hne (r := sp ++ (w ++ s2 ++ r)) hcs'
        ⟨sp, w ++ s2 ++ r, rfl, fun c hc => ((isSpace_iff _).1 (hsp c hc)).1, fun d hd => by
          rw [hc] at hd; simp at hd; subst hd; exact hcs⟩
      simpa using this
    · cases n with
      | zero => exact absurd (by simp at hn; exact hn.1) hsne
      | succ n =>
        have h3 : seq space (textWord al) b (sp ++ (w ++ s2) ++ r) = some (sp ++ w, s2 ++ r) := by
          rw [seq, List.append_assoc sp, space_some hsp hsne (fun d hd => by
            rw [hc] at hd; simp at hd; subst hd; exact starts_not_space hcs)]
          simp only
          rw [h1]
        rw [manyLoop, h3]
        have hl : 0 < sp.length := List.length_pos_iff.2 hsne
        obtain ⟨d, sp', rfl⟩ := List.exists_cons_of_ne_nil hsne
        simp only [List.cons_append]
        rw [h2 n _ (by simp at hn; omega)]
        simp

include hal in
/-- A segment is a whole line. -/
theorem textSegment_line {s r b : Str} (hs : LexesLine s) (hr : LineEnd r) (hd : Done al r) :
    textSegment al b (s ++ r) = some (s, r) := by
  obtain ⟨w, s', rfl, h1, h2⟩ := segment_parts hal hs hr hd
  rw [textSegment, seq, h1]
  simp only [many]
  rw [h2 _ _ (by simp)]

include hal in
theorem textSegment_end {r b : Str} (hr : WordEnd r) : textSegment al b r = none := by
  rw [textSegment, seq, textWord_end hal hr]

include hal in
/-- No selector begins at a line. -/
theorem selectorChain_line {s r b : Str} (hs : LexesLine s) (hr : LineEnd r) : selectorChain al b (s ++ r) = none := by
  cases hs with
  | word hs hne => exact selectorChain_word hal hs hne hr.1 hr.2
  | @more s sp s' hs hne hsp hsne hs' =>
    obtain ⟨c, s3, rfl, hcs⟩ := line_head hs'
    have := selectorChain_word hal (b := b) (r := sp ++ (c :: s3 ++ r)) hs hne
      (fun d hd => by
        cases sp with
        | nil => exact absurd rfl hsne
        | cons e sp => simp at hd; subst hd; exact ((isSpace_iff _).1 (hsp _ (by simp))).1)
      ⟨sp, _, rfl, fun c hc => ((isSpace_iff _).1 (hsp c hc)).1, fun d hd => by simp at hd; subst hd; exact hcs⟩
    simpa using this

end

end Mty.Grammar
