import Verif.Proofs.Lexer
import Verif.Model.Parse
import Verif.Spec.Writing

/-!
# Reading what is written: tokens
-/

set_option autoImplicit false

namespace Mty.Grammar
open Spec Pat Lex

/-! ## What follows -/

/-- No word goes on here. -/
def Ends (al : Char → Bool) (r : Str) : Prop := (∀ b, wordPat al b r = none) ∧ r.head? ≠ some '>'

/-- What is before is not a selector. -/
def Calm (r : Str) : Prop := ∀ b, postSelectorChain b r = none

/-- The end of a row: the end, a line feed, `}` or the end of `<( .. )>` and so on. -/
inductive Stop : Str → Prop
  | nil : Stop []
  | line {r} : Stop ('\n' :: r)
  | brace {r} : Stop ('}' :: r)
  | close {c r} : c ∈ [')', '/', '#', '_', '~', '"'] → Stop (c :: '>' :: r)

/-- What follows a row. -/
def Rest (r : Str) : Prop := ∃ sp r', r = sp ++ r' ∧ (∀ c ∈ sp, isSpace c = true) ∧ Stop r'

/-- What follows a text: the end of the row or `<`. -/
def After' (r : Str) : Prop := ∃ sp r', r = sp ++ r' ∧ (∀ c ∈ sp, isSpace c = true) ∧ (Stop r' ∨ r'.head? = some '<')

theorem Rest.after {r : Str} (h : Rest r) : After' r := by
  obtain ⟨sp, r', h1, h2, h3⟩ := h
  exact ⟨sp, r', h1, h2, .inl h3⟩

theorem not_white {c : Char} (h : isWhitespace c = false) : ¬ White c := by
  rw [← white_iff, h]; simp

theorem not_space {c : Char} (h : isWhitespace c = false) : isSpace c = false := by
  simp [isSpace, h]

theorem stop_head {r : Str} (h : Stop r) : ∀ c, r.head? = some c → isSpace c = false ∧ c ∉ ['>', '{', '['] := by
  intro c hc
  cases h with
  | nil => simp at hc
  | line => simp at hc; subst hc; decide
  | brace => simp at hc; subst hc; decide
  | close h =>
    simp at hc; subst hc
    simp only [List.mem_cons, List.not_mem_nil, or_false] at h
    rcases h with rfl | rfl | rfl | rfl | rfl | rfl <;> decide

theorem tail_head {r : Str} (h : Stop r ∨ r.head? = some '<') : ∀ c, r.head? = some c → isSpace c = false ∧ c ∉ ['>', '{', '['] := by
  rcases h with h | h
  · exact stop_head h
  · intro c hc
    rw [h] at hc
    cases hc
    decide

theorem postSelectorChain_none {r b : Str} (h1 : ∀ c, (r.dropWhile fun c => c = ' ' || c = '\t').head? = some c → c ∉ ['>', '{', '['])
    (h2 : ∀ c, r.head? = some c → c ∉ ['>', '{', '[']) : postSelectorChain b r = none := by
  rw [postSelectorChain, alt]
  have h3 : chr (· = '[') b r = none := by
    cases r with
    | nil => rfl
    | cons c r =>
      have : c ≠ '[' := by rintro rfl; exact h2 _ rfl (by decide)
      simp [chr, this]
  rw [show seq (many (chr fun c => decide (c = ' ') || decide (c = '\t')))
      (alt (chr (· = '>')) (seq (chr (· = '{')) (notPrecedes (chr fun c => !(isWhitespace c || decide (c = '}')))))) b r = none from ?_]
  · exact h3
  · rw [seq, many_blank]
    simp only
    cases hd : r.dropWhile fun c => decide (c = ' ') || decide (c = '\t') with
    | nil => rfl
    | cons c r' =>
      have := h1 c (by rw [hd]; rfl)
      have h4 : c ≠ '>' := by rintro rfl; exact this (by decide)
      have h5 : c ≠ '{' := by rintro rfl; exact this (by decide)
      simp [alt, chr, seq, h4, h5]

theorem calm_of {sp r : Str} (h1 : ∀ c ∈ sp, isSpace c = true) (h2 : ∀ c, r.head? = some c → isSpace c = false ∧ c ∉ ['>', '{', '[']) :
    Calm (sp ++ r) := by
  have hw : ∀ c, isSpace c = true → c ∉ ['>', '{', '['] := fun c hc => white_not_opening ((isSpace_iff c).1 hc).1
  intro b
  refine postSelectorChain_none ?_ ?_
  · induction sp with
    | nil =>
      intro c hc
      cases r with
      | nil => simp at hc
      | cons d r =>
        obtain ⟨h3, h4⟩ := h2 d rfl
        rw [List.nil_append, List.dropWhile_cons] at hc
        have : ¬ (d = ' ' || d = '\t') = true := by
          intro h
          simp only [Bool.or_eq_true, decide_eq_true_eq] at h
          rcases h with rfl | rfl <;> revert h3 <;> decide
        rw [if_neg this] at hc
        simp at hc; subst hc; exact h4
    | cons d sp ih =>
      intro c hc
      rw [List.cons_append, List.dropWhile_cons] at hc
      split at hc
      · exact ih (fun c hc => h1 c (by simp [hc])) c hc
      · simp at hc; subst hc; exact hw d (h1 d (by simp))
  · intro c hc
    cases sp with
    | nil => exact (h2 c hc).2
    | cons d sp => simp at hc; subst hc; exact hw d (h1 d (by simp))

theorem After'.calm {r : Str} (h : After' r) : Calm r := by
  obtain ⟨sp, r', rfl, h1, h2⟩ := h
  exact calm_of h1 (tail_head h2)

/-- A test that may also accept `*`, as the one for selectors. -/
structure Marks (al : Char → Bool) : Prop where
  letters : LettersAndDigits al
  quiet : ∀ c ∈ [')', '/', '#', '_', '~', '"'], al c = false

theorem marks {al : Char → Bool} (h : RightForAscii al) : Marks al := by
  refine ⟨h.1, fun c hc => ?_⟩
  rw [Bool.eq_false_iff, ne_eq]
  simp only [List.mem_cons, List.not_mem_nil, or_false] at hc
  rcases hc with rfl | rfl | rfl | rfl | rfl | rfl <;> (rw [h.2 _ (by decide)]; unfold Ascii; decide)

theorem star_letters {al : Char → Bool} (h : LettersAndDigits al) : LettersAndDigits (fun c => al c || c = '*') := by
  intro c hc
  simp only [Bool.or_eq_true, decide_eq_true_eq] at hc
  rcases hc with hc | rfl
  · exact h c hc
  · exact ⟨not_white (by decide), by decide⟩

theorem marks_star {al : Char → Bool} (h : Marks al) : Marks (fun c => al c || c = '*') := by
  refine ⟨star_letters h.letters, fun c hc => ?_⟩
  rw [h.quiet c hc]
  simp only [List.mem_cons, List.not_mem_nil, or_false] at hc
  rcases hc with rfl | rfl | rfl | rfl | rfl | rfl <;> decide

section
variable {al : Char → Bool} (hal : Marks al)

include hal in
theorem ends_special {c : Char} {r b : Str} (h : c ∈ ['\\', '[', ']', '{', '}', '<', '>']) (hc : c ≠ '\\') : wordPat al b (c :: r) = none := by
  have h1 : plainChar c = false := by
    rw [Bool.eq_false_iff, ne_eq, plainChar_iff]; exact fun hp => hp.2 h
  have h2 : al c = false := by rw [Bool.eq_false_iff]; exact fun h' => (hal.letters c h').2 h
  have h4 : ¬ ('\\' = c) := fun h => hc h.symm
  simp [wordPat, alt, seq, chr, h1, h2, escape, unicodeEscape, Pat.exact, List.isPrefixOf, hc, h4]

include hal in
theorem stop_ends {r : Str} (h : Stop r) : Ends al r := by
  cases h with
  | nil => exact ⟨fun b => rfl, by simp⟩
  | line => exact ⟨fun b => wordPat_end hal.letters (fun c hc => by simp at hc; subst hc; rw [← white_iff]; decide), by simp⟩
  | brace => exact ⟨fun b => ends_special hal (by decide) (by decide), by simp⟩
  | @close c r h =>
    have h2 : al c = false := hal.quiet c h
    have h3 : c ≠ '\\' ∧ c ≠ '>' := by
      simp only [List.mem_cons, List.not_mem_nil, or_false] at h
      rcases h with rfl | rfl | rfl | rfl | rfl | rfl <;> decide
    have h4 : ¬ ('\\' = c) := fun h => h3.1 h.symm
    refine ⟨fun b => ?_, by simpa using h3.2⟩
    cases h5 : plainChar c <;>
      simp [wordPat, alt, seq, chr, h5, h2, notPrecedes, escape, unicodeEscape, Pat.exact, List.isPrefixOf, h3.1, h4]

include hal in
theorem tail_ends {r : Str} (h : Stop r ∨ r.head? = some '<') : Ends al r := by
  rcases h with h | h
  · exact stop_ends hal h
  · cases r with
    | nil => simp at h
    | cons c r =>
      simp at h; subst h
      exact ⟨fun b => ends_special hal (by decide) (by decide), by simp⟩

include hal in
theorem space_ends {sp r : Str} (h1 : ∀ c ∈ sp, isSpace c = true) (h2 : Ends al r) : Ends al (sp ++ r) := by
  cases sp with
  | nil => exact h2
  | cons d sp =>
    have := (isSpace_iff d).1 (h1 d (by simp))
    refine ⟨fun b => wordPat_end hal.letters fun c hc => by simp at hc; subst hc; exact this.1, ?_⟩
    intro h
    simp at h
    subst h
    exact absurd (h1 '>' (by simp)) (by decide)

include hal in
theorem After'.ends {r : Str} (h : After' r) : Ends al r := by
  obtain ⟨sp, r', rfl, h1, h2⟩ := h
  exact space_ends hal h1 (tail_ends hal h2)

theorem lexes_gt' {s r : Str} (hs : Lexes s) (hr : Ends al r) : (s ++ r).head? ≠ some '>' := by
  by_cases h : s = []
  · subst h; exact hr.2
  · obtain ⟨c, s', rfl, hc⟩ := lexes_head hs h
    rintro h'
    simp at h'
    subst h'
    exact (starts_spec hc).2 (by decide)

include hal in
theorem manyLoop_word' {s r : Str} (hs : Lexes s) (hr : Ends al r) : ∀ (n : Nat) (b : Str), s.length ≤ n →
    manyLoop (wordPat al) n b (s ++ r) = (s, r) := by
  induction hs with
  | nil => intro n b _; exact manyLoop_nil (hr.1 b)
  | @plain c s hc hs ih =>
    intro n b hn
    cases n with
    | zero => simp at hn
    | succ n =>
      rw [List.cons_append, manyLoop, wordPat_plain hc (lexes_gt' hs hr)]
      simp only
      rw [ih n _ (by simp at hn; omega)]
      simp
  | @esc f s hf hs ih =>
    intro n b hn
    cases n with
    | zero => simp at hn
    | succ n =>
      rw [List.cons_append, List.cons_append, manyLoop, wordPat_esc hal.letters hf]
      simp only
      rw [ih n _ (by simp at hn; omega)]
      simp
  | @uni ds s hd hs ih =>
    intro n b hn
    cases n with
    | zero => simp at hn
    | succ n =>
      have := wordPat_uni hal.letters (b := b) (r := s ++ r) hd
      simp only [List.cons_append, List.append_assoc] at this ⊢
      rw [manyLoop, this]
      simp only
      rw [ih n _ (by simp at hn; omega)]
      simp

include hal in
theorem wordPat_some' {s r b : Str} (hs : Lexes s) (hne : s ≠ []) (hr : Ends al r) :
    ∃ m s', s = m ++ s' ∧ m ≠ [] ∧ Lexes s' ∧ wordPat al b (s ++ r) = some (m, s' ++ r) := by
  cases hs with
  | nil => exact absurd rfl hne
  | @plain c s hc hs => exact ⟨[c], s, rfl, by simp, hs, wordPat_plain hc (lexes_gt' hs hr)⟩
  | @esc f s hf hs => exact ⟨['\\', f], s, rfl, by simp, hs, wordPat_esc hal.letters hf⟩
  | @uni ds s hd hs =>
    exact ⟨'\\' :: 'u' :: '{' :: ds ++ ['}'], s, by simp, by simp, hs, by simpa using wordPat_uni hal.letters hd⟩

include hal in
theorem many1_word' {s r b : Str} (hs : Lexes s) (hne : s ≠ []) (hr : Ends al r) :
    many1 (wordPat al) b (s ++ r) = some (s, r) := by
  obtain ⟨m, s', rfl, hm, hs', h⟩ := wordPat_some' hal (b := b) hs hne hr
  rw [many1, seq, h]
  simp only [many]
  rw [manyLoop_word' hal hs' hr _ _ (by simp)]

theorem many1_end' {b r : Str} (hr : Ends al r) : many1 (wordPat al) b r = none := by
  rw [many1, seq, hr.1]

include hal in
theorem textWord_word' {s r b : Str} (hs : Lexes s) (hne : s ≠ []) (hr : Ends al r) (hq : Calm r) :
    textWord al b (s ++ r) = some (s, r) := by
  rw [textWord_eq, seq, many1_word' hal hs hne hr]
  simp [notPrecedes, hq _]

theorem textWord_end' {r b : Str} (hr : Ends al r) : textWord al b r = none := by
  rw [textWord_eq, seq, many1_end' hr]

theorem textSegment_end' {r b : Str} (hr : Ends al r) : textSegment al b r = none := by
  rw [textSegment, seq, textWord_end' hr]

/-- A selector is not a text. -/
theorem textWord_selector {s r b : Str} (hs : many1 (wordPat al) b (s ++ r) = some (s, r)) (hq : ∀ b, (postSelectorChain b r).isSome = true) :
    textWord al b (s ++ r) = none := by
  rw [textWord_eq, seq, hs]
  simp [notPrecedes, hq]

include hal in
theorem done_after {r : Str} (h : After' r) : Done al r := by
  obtain ⟨sp, r', rfl, h1, h2⟩ := h
  intro b
  have h3 : ∀ c, r'.head? = some c → isSpace c = false := fun c hc => (tail_head h2 c hc).1
  rw [seq]
  by_cases hs : sp = []
  · subst hs
    rw [List.nil_append, space_none h3]
  · rw [space_some h1 hs h3]
    simp only
    rw [textWord_end' (tail_ends hal h2)]

include hal in
theorem segment_parts' {s r : Str} (hs : LexesLine s) (hr : Ends al r) (hq : Calm r) (hd : Done al r) :
    ∃ w s', s = w ++ s' ∧ (∀ b, textWord al b (s ++ r) = some (w, s' ++ r)) ∧
      ∀ n b, s'.length ≤ n → manyLoop (seq space (textWord al)) n b (s' ++ r) = (s', r) := by
  induction hs with
  | @word s hs hne =>
    refine ⟨s, [], by simp, fun b => textWord_word' hal hs hne hr hq, fun n b _ => manyLoop_nil (hd b)⟩
  | @more s sp s' hs hne hsp hsne hs' ih =>
    obtain ⟨w, s2, rfl, h1, h2⟩ := ih
    obtain ⟨c, s3, hc, hcs⟩ := line_head hs'
    refine ⟨s, sp ++ (w ++ s2), by simp, fun b => ?_, fun n b hn => ?_⟩
    · have hcs' : WordEnd (sp ++ (w ++ s2 ++ r)) := by
        intro d hd
        cases sp with
        | nil => exact absurd rfl hsne
        | cons e sp => simp at hd; subst hd; exact ((isSpace_iff _).1 (hsp _ (by simp))).1
      have := textWord_word hal.letters (b := b) hs hne (r := sp ++ (w ++ s2 ++ r)) hcs'
        ⟨sp, w ++ s2 ++ r, rfl, fun c hc => ((isSpace_iff _).1 (hsp c hc)).1, fun d hd => by
          rw [hc] at hd; simp at hd; subst hd; exact hcs⟩
      simpa using this
    · cases n with
      | zero => exact absurd (by simp at hn; exact hn.1) hsne
      | succ n =>
        have h3 : seq space (textWord al) b (sp ++ (w ++ s2) ++ r) = some (sp ++ w, s2 ++ r) := by
          rw [seq, List.append_assoc sp, space_some hsp hsne (fun d hd => by
            rw [hc] at hd; simp at hd; subst hd; exact starts_not_space hcs)]
          simp only
          rw [h1]
        rw [manyLoop, h3]
        have hl : 0 < sp.length := List.length_pos_iff.2 hsne
        obtain ⟨d, sp', rfl⟩ := List.exists_cons_of_ne_nil hsne
        simp only [List.cons_append]
        rw [h2 n _ (by simp at hn; omega)]
        simp

include hal in
/-- A segment is a whole text. -/
theorem textSegment_text {s r b : Str} (hs : LexesLine s) (hr : After' r) : textSegment al b (s ++ r) = some (s, r) := by
  obtain ⟨w, s', rfl, h1, h2⟩ := segment_parts' hal hs (hr.ends hal) hr.calm (done_after hal hr)
  rw [textSegment, seq, h1]
  simp only [many]
  rw [h2 _ _ (by simp)]

end

/-! ## Values and names of attributes -/

/-- Characters and escapes. -/
inductive Escaped (p : Char → Bool) : Str → Prop
  | nil : Escaped p []
  | plain {c s} : p c = true → Escaped p s → Escaped p (c :: s)
  | esc {f s} : f ≠ 'u' → Escaped p s → Escaped p ('\\' :: f :: s)
  | uni {ds s} : (∀ c ∈ ds, c ∉ ['\n', '{', '}']) → Escaped p s → Escaped p ('\\' :: 'u' :: '{' :: ds ++ '}' :: s)

theorem escape_esc {b r : Str} {f : Char} (hf : f ≠ 'u') : escape b ('\\' :: f :: r) = some (['\\', f], r) := by
  have h1 : ¬ ('u' = f) := fun h => hf h.symm
  simp [alt, seq, chr, escape, unicodeEscape, Pat.exact, List.isPrefixOf, h1]

theorem escape_uni {b r ds : Str} (hd : ∀ c ∈ ds, c ∉ ['\n', '{', '}']) :
    escape b ('\\' :: 'u' :: '{' :: ds ++ '}' :: r) = some ('\\' :: 'u' :: '{' :: ds ++ ['}'], r) := by
  have h1 : ∀ b, many (chr fun c => !(c ∈ ['\n', '{', '}'])) b (ds ++ '}' :: r) = some (ds, '}' :: r) := fun b =>
    many_chr (fun c hc => by simpa using hd c hc) (fun c hc => by simp at hc; subst hc; decide)
  have h2 : unicodeEscape b ('\\' :: 'u' :: '{' :: ds ++ '}' :: r) = some ('\\' :: 'u' :: '{' :: ds ++ ['}'], r) := by
    rw [unicodeEscape, seq]
    have h3 : Pat.exact "\\u{".toList b ('\\' :: 'u' :: '{' :: ds ++ '}' :: r) =
        some ("\\u{".toList, ds ++ '}' :: r) := by
      simp [Pat.exact, List.isPrefixOf]
    rw [h3]
    simp only
    rw [seq, h1]
    simp [Pat.exact, List.isPrefixOf]
  rw [escape, alt, h2]

theorem escape_none {b r : Str} (h : r.head? ≠ some '\\') : escape b r = none := by
  cases r with
  | nil => rfl
  | cons c r =>
    have h1 : c ≠ '\\' := by rintro rfl; exact h rfl
    have h2 : ¬ ('\\' = c) := fun h => h1 h.symm
    simp [alt, seq, chr, escape, unicodeEscape, Pat.exact, List.isPrefixOf, h1, h2]

/-- Characters or escapes. -/
def escPat (p : Char → Bool) : Pat := alt (chr p) escape

theorem escPat_end {p : Char → Bool} {b r : Str} (h : ∀ c, r.head? = some c → p c = false ∧ c ≠ '\\') : escPat p b r = none := by
  rw [escPat, alt, show chr p b r = none from ?_]
  · exact escape_none fun hc => (h _ hc).2 rfl
  · cases r with
    | nil => rfl
    | cons c r => simp [chr, (h c rfl).1]

theorem manyLoop_escPat {p : Char → Bool} (hp : p '\\' = false) {s r : Str} (hs : Escaped p s)
    (hr : ∀ c, r.head? = some c → p c = false ∧ c ≠ '\\') : ∀ (n : Nat) (b : Str), s.length ≤ n →
    manyLoop (escPat p) n b (s ++ r) = (s, r) := by
  induction hs with
  | nil => intro n b _; exact manyLoop_nil (escPat_end hr)
  | @plain c s hc hs ih =>
    intro n b hn
    cases n with
    | zero => simp at hn
    | succ n =>
      have : escPat p b (c :: (s ++ r)) = some ([c], s ++ r) := by simp [escPat, alt, chr, hc]
      rw [List.cons_append, manyLoop, this]
      simp only
      rw [ih n _ (by simp at hn; omega)]
      simp
  | @esc f s hf hs ih =>
    intro n b hn
    cases n with
    | zero => simp at hn
    | succ n =>
      have : escPat p b ('\\' :: f :: (s ++ r)) = some (['\\', f], s ++ r) := by
        rw [escPat, alt, show chr p b ('\\' :: f :: (s ++ r)) = none by simp [chr, hp], escape_esc hf]
      rw [List.cons_append, List.cons_append, manyLoop, this]
      simp only
      rw [ih n _ (by simp at hn; omega)]
      simp
  | @uni ds s hd hs ih =>
    intro n b hn
    cases n with
    | zero => simp at hn
    | succ n =>
      have : escPat p b ('\\' :: 'u' :: '{' :: ds ++ '}' :: (s ++ r)) = some ('\\' :: 'u' :: '{' :: ds ++ ['}'], s ++ r) := by
        rw [escPat, alt, show chr p b ('\\' :: 'u' :: '{' :: ds ++ '}' :: (s ++ r)) = none by simp [chr, hp], escape_uni hd]
      simp only [List.cons_append, List.append_assoc] at this ⊢
      rw [manyLoop, this]
      simp only
      rw [ih n _ (by simp at hn; omega)]
      simp

theorem many1_chars {p : Char → Bool} (hp : p '\\' = false) {s r b : Str} (hs : ∀ c ∈ s, p c = true) (hne : s ≠ [])
    (hr : ∀ c, r.head? = some c → p c = false ∧ c ≠ '\\') : many1 (escPat p) b (s ++ r) = some (s, r) := by
  have he : ∀ s : Str, (∀ c ∈ s, p c = true) → Escaped p s := by
    intro s hs
    induction s with
    | nil => exact .nil
    | cons c s ih => exact .plain (hs c (by simp)) (ih fun d hd => hs d (by simp [hd]))
  cases s with
  | nil => exact absurd rfl hne
  | cons c s =>
    have : escPat p b (c :: (s ++ r)) = some ([c], s ++ r) := by simp [escPat, alt, chr, hs c (by simp)]
    rw [many1, seq, List.cons_append, this]
    simp only [many]
    rw [manyLoop_escPat hp (he s fun d hd => hs d (by simp [hd])) hr _ _ (by simp)]
    rfl

theorem quoted_escaped {q v : Str} (h : QuotedSource q v) : Escaped (fun c => !(c ∈ ['\\', '"'])) q := by
  induction h with
  | nil => exact .nil
  | plain h _ ih => exact .plain (by simpa using h) ih
  | esc he _ ih =>
    have hx : ∀ c ∈ "0123456789abcdefABCDEF".toList, (!(c ∈ ['\\', '"'])) = true := by decide
    cases he with
    | tab => exact .esc (by decide) ih
    | newline => exact .esc (by decide) ih
    | cr => exact .esc (by decide) ih
    | self h => exact .esc (by rintro rfl; revert h; decide) ih
    | byte _ hn _ =>
      have hc := hexNum_chars hn
      exact .esc (by decide) (.plain (hx _ (hc _ List.mem_cons_self)) (.plain (hx _ (hc _ (by simp))) ih))
    | unicode _ hn _ =>
      have hc := hexNum_chars hn
      have := Escaped.uni (fun c h => (hex_plain _ (hc _ h)).2) ih
      simpa using this

theorem quotedString_reads {q v r b : Str} (h : QuotedSource q v) : quotedString b ('"' :: q ++ '"' :: r) = some ('"' :: q ++ ['"'], r) := by
  have h1 := fun b => manyLoop_escPat (b := b) (by decide) (quoted_escaped h) (r := '"' :: r) (fun c hc => by simp at hc; subst hc; decide)
    (q ++ '"' :: r).length
  rw [quotedString, alt, seq, show chr (· = '"') b ('"' :: q ++ '"' :: r) = some (['"'], q ++ '"' :: r) by simp [chr]]
  simp only
  rw [seq, many]
  have h2 := h1 (b ++ ['"']) (by simp)
  rw [escPat] at h2
  rw [h2]
  simp [chr]

theorem quoted_unescapes {q v : Str} (h : QuotedSource q v) : Unescapes Accepted q v := by
  induction h with
  | nil => exact .nil
  | plain hc _ ih => exact .plain (fun h => hc (by simp [h])) ih
  | esc he _ ih => exact .esc (.inl he) ih

end Mty.Grammar
