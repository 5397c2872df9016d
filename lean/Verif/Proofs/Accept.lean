import Verif.Spec.Accepted
import Verif.Proofs.ShiftParse
import Verif.Proofs.Lexer

/-! # Sources the grammar accepts (for C80): tokens -/

set_option autoImplicit false

namespace Mty.Grammar.Accept
open Pat Lex Spec

/-- At the beginning or after white space. -/
def flag (b : Str) : Bool :=
  match b.getLast? with
  | none => true
  | some c => isWhitespace c

theorem flag_snoc (b : Str) (c : Char) : flag (b ++ [c]) = isWhitespace c := by simp [flag]

theorem white_flag {c : Char} (h : White c) : isWhitespace c = true := (white_iff c).2 h

theorem not_white {c : Char} (h : ¬ White c) : isWhitespace c = false := by
  rw [← white_iff] at h; simpa using h

theorem mono {s : Str} (b : Bool) (h : Harmless false s) : Harmless b s := by
  cases h with
  | nil => exact .nil
  | white h1 h2 => exact .white h1 h2
  | other h1 h2 h3 => exact .other h1 h2 h3
  | escape h => exact .escape h
  | code h1 h2 => exact .code h1 h2

theorem slash_not_white : ¬ White '\\' := by rw [← white_iff]; decide

theorem step {b : Bool} {c : Char} {r : Str} (hc : c ≠ '\\') (h : Harmless b (c :: r)) : Harmless (isWhitespace c) r := by
  cases h with
  | white h1 h2 => rw [white_flag h1]; exact h2
  | other h1 h2 h3 => rw [not_white h1]; exact h3
  | arrow h => exact h
  | escape h => exact absurd rfl hc
  | code h1 h2 => exact absurd rfl hc

theorem plain : ∀ (x : Str) {b r : Str}, '\\' ∉ x → Harmless (flag b) (x ++ r) → Harmless (flag (b ++ x)) r
  | [], b, r, _, h => by simpa using h
  | c :: x, b, r, hx, h => by
    have h1 := step (by rintro rfl; exact hx (by simp)) h
    rw [← flag_snoc b] at h1
    have := plain x (fun hm => hx (by simp [hm])) h1
    simpa using this

/-- The characters before which a part of an escape sequence may end. -/
def inner : Str := '\\' :: 'u' :: '{' :: "0123456789abcdefABCDEF".toList

def Ends (x : Str) : Prop := ∃ y c, x = y ++ [c] ∧ c ∉ inner

theorem Ends.tail {c : Char} {x : Str} (h : Ends (c :: x)) (hx : x ≠ []) : Ends x := by
  obtain ⟨y, d, h1, h2⟩ := h
  cases y with
  | nil => simp at h1; exact absurd h1.2 hx
  | cons e y => simp at h1; exact ⟨y, d, h1.2, h2⟩

theorem Ends.single {c : Char} (h : Ends [c]) : c ∉ inner := by
  obtain ⟨y, d, h1, h2⟩ := h
  cases y with
  | nil => simp at h1; subst h1; exact h2
  | cons e y => simp at h1

theorem Ends.right {x y : Str} (h : Ends (x ++ y)) (hy : y ≠ []) : Ends y := by
  induction x with
  | nil => simpa using h
  | cons c x ih => exact ih (h.tail (by simp [hy]))

theorem Ends.left {x y : Str} (h : Ends y) : Ends (x ++ y) := by
  obtain ⟨z, c, rfl, h2⟩ := h
  exact ⟨x ++ z, c, by simp, h2⟩

theorem last {f : Bool} {s : Str} (h : Harmless f s) : ∀ (x r b : Str), s = x ++ r → Ends x → Harmless (flag (b ++ x)) r := by
  have single : ∀ (f : Bool) (c : Char) (s x r b : Str), Harmless f (c :: s) → c ≠ '\\' →
      (∀ (x r b : Str), s = x ++ r → Ends x → Harmless (flag (b ++ x)) r) → c :: s = x ++ r → Ends x →
      Harmless (flag (b ++ x)) r := by
    intro f c s x r b h hc ih e hx
    cases x with
    | nil => obtain ⟨y, d, h1, _⟩ := hx; simp at h1
    | cons d x =>
      obtain ⟨rfl, e1⟩ := List.cons.inj e
      by_cases hn : x = []
      · subst hn
        rw [flag_snoc]
        have e2 : s = r := e1
        subst e2
        exact step hc h
      · have := ih x r (b ++ [c]) e1 (hx.tail hn)
        simpa using this
  induction h with
  | nil =>
    intro x r b e hx
    obtain ⟨rfl, rfl⟩ := List.append_eq_nil_iff.1 e.symm
    exact .nil
  | @white f c s h1 h2 ih =>
    intro x r b e hx
    exact single f c s x r b (.white h1 h2) (by rintro rfl; exact slash_not_white h1) ih e hx
  | @other f c s h1 h2 h3 ih =>
    intro x r b e hx
    exact single f c s x r b (.other h1 h2 h3) (by rintro rfl; exact h2 (by decide)) ih e hx
  | @arrow s h ih =>
    intro x r b e hx
    exact single true '>' s x r b (.arrow h) (by decide) ih e hx
  | @escape f c s h ih =>
    intro x r b e hx
    cases x with
    | nil => obtain ⟨y, d, h1, _⟩ := hx; simp at h1
    | cons d x =>
      obtain ⟨rfl, e1⟩ := List.cons.inj e
      cases x with
      | nil => exact absurd hx.single (by decide)
      | cons d x =>
        obtain ⟨rfl, e2⟩ := List.cons.inj e1
        by_cases hn : x = []
        · subst hn
          have e3 : s = r := e2
          subst e3
          exact mono _ h
        · have := ih x r (b ++ ['\\', c]) e2 ((hx.tail (by simp)).tail hn)
          simpa using this
  | @code f ds s hd h ih =>
    intro x r b e hx
    have e' : ('\\' :: 'u' :: '{' :: ds ++ ['}']) ++ s = x ++ r := by simpa using e
    rcases List.append_eq_append_iff.1 e' with ⟨z, rfl, hs⟩ | ⟨z, hz, hr⟩
    · by_cases hn : z = []
      · subst hn
        rw [List.nil_append] at hs
        subst hs
        exact mono _ h
      · have := ih z r (b ++ ('\\' :: 'u' :: '{' :: ds ++ ['}'])) hs (hx.right hn)
        simpa using this
    · rcases List.eq_nil_or_concat z with rfl | ⟨w, d, rfl⟩
      · rw [List.nil_append] at hr
        rw [hr]
        exact mono _ h
      · exfalso
        rw [List.concat_eq_append, ← List.append_assoc] at hz
        have h1 := (List.append_inj' hz rfl).1
        obtain ⟨y, c, rfl, hc⟩ := hx
        have : c ∈ '\\' :: 'u' :: '{' :: ds := by rw [h1]; simp
        apply hc
        simp only [List.mem_cons] at this
        rcases this with rfl | rfl | rfl | hm
        · decide
        · decide
        · decide
        · exact List.mem_cons_of_mem _ (List.mem_cons_of_mem _ (List.mem_cons_of_mem _ (hd c hm)))

/-! ## Patterns that end where an escape sequence does not go on -/

def Keeps (p : Pat) : Prop := ∀ b r m r', p b r = some (m, r') → Harmless (flag b) r → Harmless (flag (b ++ m)) r'

theorem keeps_plain {p : Pat} (hp : Sound p) (h : ∀ b r m r', p b r = some (m, r') → '\\' ∉ m) : Keeps p := by
  intro b r m r' hm hr
  rw [hp _ _ _ _ hm] at hr
  exact plain m (h _ _ _ _ hm) hr

theorem keeps_last {p : Pat} (hp : Sound p) (h : ∀ b r m r', p b r = some (m, r') → Ends m) : Keeps p :=
  fun _ _ _ _ hm hr => last hr _ _ _ (hp _ _ _ _ hm) (h _ _ _ _ hm)

theorem keeps_chr {q : Char → Bool} (h : q '\\' = false) : Keeps (chr q) :=
  keeps_plain (sound_chr q) fun _ _ _ _ hm => by
    obtain ⟨c, hc, rfl, _⟩ := chr_some hm
    intro hx
    simp at hx
    subst hx
    rw [h] at hc
    cases hc

theorem keeps_exact {t : Str} (h : '\\' ∉ t) : Keeps (Pat.exact t) :=
  keeps_plain (sound_exact t) fun _ _ _ _ hm => by
    obtain ⟨rfl, _⟩ := exact_some hm
    exact h

theorem keeps_seq {p q : Pat} (hp : Keeps p) (hq : Keeps q) : Keeps (seq p q) := by
  intro b r m r' hm hr
  obtain ⟨m1, r1, m2, h1, h2, rfl⟩ := seq_some hm
  rw [← List.append_assoc]
  exact hq _ _ _ _ h2 (hp _ _ _ _ h1 hr)

theorem keeps_alt {p q : Pat} (hp : Keeps p) (hq : Keeps q) : Keeps (alt p q) := by
  intro b r m r' hm hr
  rcases alt_some hm with h | ⟨_, h⟩
  · exact hp _ _ _ _ h hr
  · exact hq _ _ _ _ h hr

theorem manyLoop_keeps {p : Pat} (hp : Keeps p) : ∀ (n : Nat) (b r : Str), Harmless (flag b) r →
    Harmless (flag (b ++ (manyLoop p n b r).1)) (manyLoop p n b r).2
  | 0, b, r, h => by simpa [manyLoop] using h
  | n + 1, b, r, h => by
    rw [manyLoop]
    split
    · rename_i c m r1 hm
      have := manyLoop_keeps hp n _ _ (hp _ _ _ _ hm h)
      simpa using this
    · simpa using h

theorem keeps_many {p : Pat} (hp : Keeps p) : Keeps (many p) := by
  intro b r m r' hm hr
  have := manyLoop_keeps hp r.length b r hr
  simp only [many, Option.some.injEq] at hm
  rw [hm] at this
  exact this

theorem keeps_many1 {p : Pat} (hp : Keeps p) : Keeps (many1 p) := keeps_seq hp (keeps_many hp)

theorem keeps_precedes (p : Pat) : Keeps (precedes p) := by
  intro b r m r' hm hr
  rw [precedes] at hm
  split at hm
  · cases hm; simpa using hr
  · cases hm

theorem keeps_notPrecedes (p : Pat) : Keeps (notPrecedes p) := by
  intro b r m r' hm hr
  rw [notPrecedes] at hm
  split at hm
  · cases hm
  · cases hm; simpa using hr

theorem unicode_some {b r ds : Str} (hd : HexDigits ds) :
    unicodeEscape b ('\\' :: 'u' :: '{' :: ds ++ '}' :: r) = some ('\\' :: 'u' :: '{' :: ds ++ ['}'], r) := by
  have h1 : ∀ b, many (chr fun c => !(c ∈ ['\n', '{', '}'])) b (ds ++ '}' :: r) = some (ds, '}' :: r) := fun b =>
    many_chr (fun c hc => by simpa using (hex_plain c (hd c hc)).2) (fun c hc => by simp at hc; subst hc; decide)
  rw [unicodeEscape, seq]
  have h3 : Pat.exact "\\u{".toList b ('\\' :: 'u' :: '{' :: ds ++ '}' :: r) = some ("\\u{".toList, ds ++ '}' :: r) := by
    simp [Pat.exact, List.isPrefixOf]
  rw [h3]
  simp only
  rw [seq, h1]
  simp [Pat.exact, List.isPrefixOf]

theorem keeps_unicode : Keeps unicodeEscape :=
  keeps_last (by unfold unicodeEscape; sound) fun b r m r' h => by
    rw [unicodeEscape] at h
    obtain ⟨m1, r1, m2, _, h2, rfl⟩ := seq_some h
    obtain ⟨m3, r3, m4, _, h4, rfl⟩ := seq_some h2
    obtain ⟨rfl, _⟩ := exact_some h4
    exact .left (.left ⟨[], '}', by decide, by decide⟩)

theorem keeps_escape : Keeps Lex.escape := by
  intro b r m r' hm hr
  rw [Lex.escape] at hm
  rcases alt_some hm with h | ⟨hn, h⟩
  · exact keeps_unicode _ _ _ _ h hr
  · obtain ⟨m1, r1, m2, h1, h2, rfl⟩ := seq_some h
    obtain ⟨c, hc, rfl, rfl⟩ := chr_some h1
    obtain ⟨d, _, rfl, rfl⟩ := chr_some h2
    have hc : c = '\\' := by simpa using hc
    subst hc
    generalize hs : '\\' :: d :: r' = s at hr hn
    generalize flag b = f at hr
    cases hr with
    | nil => cases hs
    | white h1 h2 => cases hs; exact absurd h1 slash_not_white
    | other h1 h2 h3 => cases hs; exact absurd (by decide) h2
    | arrow h => exact absurd (List.cons.inj hs).1 (by decide)
    | escape h => cases hs; exact mono _ h
    | code h1 h2 => rw [unicode_some h1] at hn; cases hn

theorem keeps_wordPat {al : Char → Bool} (hal : LettersAndDigits al) : Keeps (wordPat al) :=
  keeps_alt (keeps_seq (keeps_chr (by decide)) (keeps_notPrecedes _)) (keeps_alt (keeps_chr (al_backslash hal)) keeps_escape)

theorem star_letters {al : Char → Bool} (hal : LettersAndDigits al) : LettersAndDigits fun c => al c || c = '*' := by
  intro c h
  simp only [Bool.or_eq_true, decide_eq_true_eq] at h
  rcases h with h | rfl
  · exact hal c h
  · exact ⟨by rw [← white_iff]; decide, by decide⟩

theorem keeps_space : Keeps space := keeps_many1 (keeps_chr (by decide))

theorem keeps_textWord {al : Char → Bool} (hal : LettersAndDigits al) : Keeps (textWord al) := by
  rw [textWord_eq]
  exact keeps_seq (keeps_many1 (keeps_wordPat hal)) (keeps_notPrecedes _)

theorem keeps_textSegment {al : Char → Bool} (hal : LettersAndDigits al) : Keeps (textSegment al) :=
  keeps_seq (keeps_textWord hal) (keeps_many (keeps_seq keeps_space (keeps_textWord hal)))

theorem selectorChain_eq (al : Char → Bool) :
    selectorChain al = seq (many1 (wordPat fun c => al c || c = '*')) (precedes postSelectorChain) := rfl

theorem keeps_selectorChain {al : Char → Bool} (hal : LettersAndDigits al) : Keeps (selectorChain al) := by
  rw [selectorChain_eq]
  exact keeps_seq (keeps_many1 (keeps_wordPat (star_letters hal))) (keeps_precedes _)

theorem keeps_quoted : Keeps quotedString :=
  keeps_alt (keeps_seq (keeps_chr (by decide)) (keeps_seq (keeps_many (keeps_alt (keeps_chr (by decide)) keeps_escape)) (keeps_chr (by decide))))
    (keeps_seq (keeps_chr (by decide)) (keeps_seq (keeps_many (keeps_alt (keeps_chr (by decide)) keeps_escape)) (keeps_chr (by decide))))

theorem keeps_attributeName : Keeps attributeName := keeps_many1 (keeps_alt (keeps_chr (by decide)) keeps_escape)

theorem keeps_unquotedValue : Keeps unquotedValue := keeps_many1 (keeps_alt (keeps_chr (by decide)) keeps_escape)

theorem keeps_assignment : Keeps assignment :=
  keeps_seq (keeps_many (keeps_chr (by decide))) (keeps_seq (keeps_chr (by decide)) (keeps_many (keeps_chr (by decide))))

theorem keeps_newLine : Keeps newLine :=
  keeps_seq (keeps_many (keeps_chr (by decide))) (keeps_seq (keeps_chr (by decide)) (keeps_many (keeps_chr (by decide))))

theorem lazy_ends {q : Pat} {t : Str} (ht : Ends t) (hq : ∀ b r m r', q b r = some (m, r') → m = t) {b r m r' : Str}
    (h : lazyThen q b r = some (m, r')) : Ends m := by
  obtain ⟨m1, m2, r1, rfl, _, h2⟩ := lazyThen_some h
  rw [hq _ _ _ _ h2]
  exact .left ht

theorem keeps_interpolation : Keeps interpolation :=
  keeps_last sound_interpolation fun b r m r' h => by
    rw [interpolation] at h
    rcases alt_some h with h | ⟨_, h⟩
    · obtain ⟨m1, r1, m2, _, h2, rfl⟩ := seq_some h
      obtain ⟨m3, r3, m4, _, h4, rfl⟩ := seq_some h2
      obtain ⟨m5, r5, m6, _, h6, rfl⟩ := seq_some h4
      refine .left (.left (.left (lazy_ends (t := "}}".toList) ⟨['}'], '}', by decide, by decide⟩ ?_ h6)))
      intro b r m r' h
      obtain ⟨m1, r1, m2, h1, h2, rfl⟩ := seq_some h
      obtain ⟨m3, r3, m4, h3, h4, rfl⟩ := seq_some h2
      obtain ⟨rfl, _⟩ := exact_some h3
      have e1 : m1 = [] := by
        rw [notFollows] at h1
        split at h1
        · split at h1 <;> cases h1; rfl
        · cases h1; rfl
      have e2 : m4 = [] := by
        rw [notPrecedes] at h4
        split at h4 <;> cases h4; rfl
      rw [e1, e2]
      simp
    · have fin : ∀ (o t : Str), Ends t → ∀ {b r m r' : Str}, seq (Pat.exact o) (lazyThen (Pat.exact t)) b r = some (m, r') → Ends m := by
        intro o t ht b r m r' h
        obtain ⟨m1, r1, m2, _, h2, rfl⟩ := seq_some h
        exact .left (lazy_ends ht (fun _ _ _ _ h => (exact_some h).1) h2)
      rcases alt_some h with h | ⟨_, h⟩
      · exact fin _ _ ⟨['%'], '}', by decide, by decide⟩ h
      · rcases alt_some h with h | ⟨_, h⟩
        · exact fin _ _ ⟨['%'], '>', by decide, by decide⟩ h
        · exact fin _ _ ⟨['?'], '>', by decide, by decide⟩ h

end Mty.Grammar.Accept
