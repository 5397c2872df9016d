import Verif.Proofs.Parse

/-! # The parser further on in the source (for C76)

What is read after a line break does not depend on what is before it, and the bound on the recursion does not matter. -/

set_option autoImplicit false

namespace Mty.Grammar
open Pat Lex

/-! ## Patterns -/

/-- The pattern does not look at `pre`. -/
def Shift (pre : Str) (p : Pat) : Prop := ∀ b a, p (pre ++ b) a = p b a

variable {pre : Str}

theorem shift_chr (q : Char → Bool) : Shift pre (chr q) := by
  intro b a
  cases a <;> rfl

theorem shift_exact (t : Str) : Shift pre (Pat.exact t) := fun _ _ => rfl

theorem shift_seq {p q : Pat} (hp : Shift pre p) (hq : Shift pre q) : Shift pre (seq p q) := by
  intro b a
  rw [seq, seq, hp b a]
  cases p b a with
  | none => rfl
  | some x => dsimp only; rw [List.append_assoc, hq]

theorem shift_alt {p q : Pat} (hp : Shift pre p) (hq : Shift pre q) : Shift pre (alt p q) := by
  intro b a
  rw [alt, alt, hp b a, hq b a]

theorem manyLoop_shift {p : Pat} (hp : Shift pre p) : ∀ (n : Nat) (b a : Str), manyLoop p n (pre ++ b) a = manyLoop p n b a
  | 0, _, _ => rfl
  | n + 1, b, a => by
    rw [manyLoop, manyLoop, hp b a]
    split
    · rw [List.append_assoc, manyLoop_shift hp n]
    · rfl

theorem shift_many {p : Pat} (hp : Shift pre p) : Shift pre (many p) := by
  intro b a
  rw [many, many, manyLoop_shift hp]

theorem shift_many1 {p : Pat} (hp : Shift pre p) : Shift pre (many1 p) := shift_seq hp (shift_many hp)

theorem shift_lazyThen {q : Pat} (hq : Shift pre q) : Shift pre (lazyThen q) := by
  intro b a
  induction a generalizing b with
  | nil => exact hq b []
  | cons c a ih => rw [lazyThen, lazyThen, hq, List.append_assoc, ih]

theorem shift_precedes {p : Pat} (hp : Shift pre p) : Shift pre (precedes p) := by
  intro b a
  rw [precedes, precedes, hp]

theorem shift_notPrecedes {p : Pat} (hp : Shift pre p) : Shift pre (notPrecedes p) := by
  intro b a
  rw [notPrecedes, notPrecedes, hp]

/-- Nothing, or text that ends with a line break, with tabs and spaces after it. -/
def EndsLine (pre : Str) : Prop := ∀ c, (pre.reverse.dropWhile fun c => c = '\t' || c = ' ').head? = some c → c = '\n'

theorem endsLine_nil : EndsLine [] := by simp [EndsLine]

theorem endsLine_break {pre : Str} (h : pre.getLast? = some '\n') : EndsLine pre := by
  obtain ⟨p, rfl⟩ := List.getLast?_eq_some_iff.1 h
  simp [EndsLine]

theorem EndsLine.last {pre : Str} (h : EndsLine pre) {c : Char} (hc : pre.getLast? = some c) : c = '\n' ∨ c = '\t' ∨ c = ' ' := by
  obtain ⟨p, rfl⟩ := List.getLast?_eq_some_iff.1 hc
  rw [EndsLine, List.reverse_append, List.reverse_singleton, List.singleton_append, List.dropWhile_cons] at h
  split at h
  · rename_i hk
    simp only [Bool.or_eq_true, decide_eq_true_eq] at hk
    exact .inr hk
  · exact .inl (h c rfl)

theorem shift_notFollows (hpre : EndsLine pre) {q : Char → Bool} (hq : (q '\n' || q '\t' || q ' ') = false) : Shift pre (notFollows q) := by
  intro b a
  rw [notFollows, notFollows]
  cases b with
  | nil =>
    rw [List.append_nil]
    cases hc : pre.getLast? with
    | none => rfl
    | some c =>
      have : q c = false := by
        simp only [Bool.or_eq_false_iff] at hq
        rcases hpre.last hc with rfl | rfl | rfl
        · exact hq.1.1
        · exact hq.1.2
        · exact hq.2
      simp [this]
  | cons c b =>
    rw [List.getLast?_append]
    cases h : (c :: b).getLast? with
    | none => simp at h
    | some d => rfl

theorem shift_lineEnd : Shift pre lineEnd := fun _ _ => rfl

theorem shift_srcEnd : Shift pre srcEnd := fun _ _ => rfl

theorem shift_followsIndent (hpre : EndsLine pre) : Shift pre followsIndent := by
  intro b a
  rw [followsIndent, followsIndent, List.reverse_append]
  generalize b.reverse = b
  induction b with
  | nil =>
    rw [List.nil_append]
    rw [EndsLine] at hpre
    generalize (pre.reverse.dropWhile fun c => c = '\t' || c = ' ') = l at hpre ⊢
    cases l with
    | nil => rfl
    | cons c l => simp [hpre c rfl]
  | cons c b ih =>
    rw [List.cons_append, List.dropWhile_cons, List.dropWhile_cons]
    by_cases h : (decide (c = '\t') || decide (c = ' ')) = true
    · rw [if_pos h, if_pos h]; exact ih
    · rw [if_neg h, if_neg h]

section
variable (hpre : EndsLine pre)
include hpre

macro "shift" : tactic => `(tactic| repeat (first
  | apply shift_chr | apply shift_exact | apply shift_precedes | apply shift_notPrecedes | (apply shift_notFollows _ (by decide); assumption)
  | apply shift_lineEnd | apply shift_srcEnd | (apply shift_followsIndent; assumption)
  | apply shift_many1 | apply shift_many | apply shift_lazyThen | apply shift_seq | apply shift_alt))

omit hpre in
theorem shift_escape : Shift pre Lex.escape := by unfold Lex.escape unicodeEscape; shift
omit hpre in
theorem shift_space : Shift pre space := by unfold space; shift
omit hpre in
theorem shift_newLine : Shift pre newLine := by unfold newLine; shift
omit hpre in
theorem shift_quoted : Shift pre quotedString := by unfold quotedString; shift <;> exact shift_escape
omit hpre in
theorem shift_anyChars : Shift pre anyChars := by unfold anyChars; shift
omit hpre in
theorem shift_post : Shift pre postSelectorChain := by unfold postSelectorChain; shift
omit hpre in
theorem shift_textWord (al : Char → Bool) : Shift pre (textWord al) :=
  shift_seq (shift_many1 (shift_alt (shift_seq (shift_chr _) (shift_notPrecedes (shift_chr _))) (shift_alt (shift_chr _) shift_escape)))
    (shift_notPrecedes shift_post)
omit hpre in
theorem shift_textSegment (al : Char → Bool) : Shift pre (textSegment al) := by
  unfold textSegment
  exact shift_seq (shift_textWord al) (shift_many (shift_seq shift_space (shift_textWord al)))
theorem shift_interpolation : Shift pre interpolation := by unfold interpolation; shift
omit hpre in
theorem shift_verbatimTail (n : Nat) : Shift pre (verbatimTail n) := by unfold verbatimTail; shift
omit hpre in
theorem shift_multilineOpen (q : Str) : Shift pre (multilineOpen q) := by unfold multilineOpen; shift
theorem shift_multilineBody (q : Str) : Shift pre (multilineBody q) := by unfold multilineBody; shift
omit hpre in
theorem shift_multilineClose (c : Char) : Shift pre (multilineClose c) := by unfold multilineClose; shift
omit hpre in
theorem shift_inlineCode : Shift pre inlineCode := by unfold inlineCode; shift
omit hpre in
theorem shift_elementName : Shift pre elementName := by
  unfold elementName identifierChar
  exact shift_seq (shift_notPrecedes (shift_chr _)) (shift_many1 (shift_alt (shift_chr _) shift_escape))
omit hpre in
theorem shift_className : Shift pre className := by unfold className; shift
omit hpre in
theorem shift_selectorChain (al : Char → Bool) : Shift pre (selectorChain al) :=
  shift_seq (shift_many1 (shift_alt (shift_seq (shift_chr _) (shift_notPrecedes (shift_chr _))) (shift_alt (shift_chr _) shift_escape)))
    (shift_precedes shift_post)
omit hpre in
theorem shift_attributeName : Shift pre attributeName := shift_many1 (shift_alt (shift_chr _) shift_escape)
omit hpre in
theorem shift_unquotedValue : Shift pre unquotedValue := shift_many1 (shift_alt (shift_chr _) shift_escape)
omit hpre in
theorem shift_assignment : Shift pre assignment := by unfold assignment; shift
omit hpre in
theorem shift_comment : Shift pre (fun _ r => some (commentParts 0 r)) := fun _ _ => rfl

end

end Mty.Grammar
