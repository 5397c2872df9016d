import Verif.Proofs.PartsLex
import Verif.Proofs.ShiftParse
import Verif.Proofs.Lexer
import Verif.Proofs.PlainAst
import Verif.Spec.Parts

/-! # The rules of the parser with more text after the source (for C76) -/

set_option autoImplicit false

namespace Mty.Grammar.More
open Pat Lex Spec

/-- A line break and more text after the source. -/
def more (y : Str) (s : Pos) : Pos := ⟨s.before, s.after ++ '\n' :: y⟩

variable {y : Str}

theorem _root_.Mty.Grammar.Adv.noSlash {s s1 : Pos} (h : Adv s s1) (hs : NoSlash s.after) : NoSlash s1.after := by
  obtain ⟨m, _, h⟩ := h
  rw [h] at hs
  exact hs.suffix

theorem _root_.Mty.Grammar.Adv.isIn {src : Str} {s s1 : Pos} (h : Adv s s1) (hs : s.In src) : s1.In src := by
  obtain ⟨m, h1, h2⟩ := h
  rw [Pos.In] at hs ⊢
  rw [hs, h1, h2, List.append_assoc]

/-! ## Tokens -/

theorem token_cases {p : Pat} {s s1 : Pos} {r : Range} (h : token p s = some (r, s1)) :
    ∃ m t, p s.before s.after = some (m, t) ∧ s1 = ⟨s.before ++ m, t⟩ ∧ r = ⟨s.at, s1.at⟩ := by
  rw [token] at h
  cases hm : p s.before s.after with
  | none => rw [hm] at h; cases h
  | some x => rw [hm] at h; cases h; exact ⟨_, _, rfl, rfl, rfl⟩

theorem token_of {p : Pat} {s : Pos} {m t : Str} (h : p s.before s.after = some (m, t)) :
    token p s = some (⟨s.at, (Pos.mk (s.before ++ m) t).at⟩, ⟨s.before ++ m, t⟩) := by
  rw [token, h]

theorem token_none {p : Pat} {s : Pos} : token p s = none ↔ p s.before s.after = none := by
  rw [token]
  cases p s.before s.after with
  | none => simp
  | some x => simp

theorem token_more {p : Pat} (hp : Ext p) {s : Pos} (h : NoSlash s.after) :
    token p (more y s) = (token p s).map fun x => (x.1, more y x.2) := by
  rw [token, token]
  dsimp only [more]
  rw [hp.ext _ _ _ h]
  cases p s.before s.after <;> rfl

theorem token_more_some {p : Pat} {s s1 : Pos} {r : Range} (h : token p s = some (r, s1))
    (hp : ∀ m t, p s.before s.after = some (m, t) → p s.before (s.after ++ '\n' :: y) = some (m, t ++ '\n' :: y)) :
    token p (more y s) = some (r, more y s1) := by
  obtain ⟨m, t, h1, rfl, rfl⟩ := token_cases h
  exact token_of (s := more y s) (hp m t h1)

theorem prefix_more {t a : Str} (h : '\n' ∉ t) : t <+: a ++ '\n' :: y ↔ t <+: a := by
  rw [← List.isPrefixOf_iff_prefix, ← List.isPrefixOf_iff_prefix, isPrefixOf_ext t a y h]

theorem exact_none {t b a : Str} : Pat.exact t b a = none ↔ ¬ t <+: a := by
  rw [Pat.exact, ← List.isPrefixOf_iff_prefix]
  split <;> simp [*]

theorem token_exact_none {t : Str} {s : Pos} : token (exact t) s = none ↔ ¬ t <+: s.after := by
  rw [token_none, exact_none]

theorem token_exact_some {t : Str} {s s1 : Pos} {r : Range} (h : token (exact t) s = some (r, s1)) : s.after = t ++ s1.after := by
  obtain ⟨m, u, h1, rfl, _⟩ := token_cases h
  exact (exact_some h1).2

theorem token_start {p : Pat} {s s1 : Pos} {r : Range} (h : token p s = some (r, s1)) : r.start = s.at := by
  obtain ⟨_, _, _, _, rfl⟩ := token_cases h
  rfl

/-! ## White space -/

theorem span_more (p : Char → Bool) : ∀ {a x : Str}, a.dropWhile p ≠ [] →
    (a ++ x).takeWhile p = a.takeWhile p ∧ (a ++ x).dropWhile p = a.dropWhile p ++ x
  | [], _, h => absurd rfl h
  | c :: a, x, h => by
    rw [List.dropWhile_cons] at h
    rw [List.cons_append, List.takeWhile_cons, List.takeWhile_cons, List.dropWhile_cons, List.dropWhile_cons]
    by_cases hc : p c = true
    · rw [if_pos hc] at h
      simp only [if_pos hc, (span_more p h).1, (span_more p h).2, and_self]
    · simp [hc]

theorem skip_more {p : Char → Bool} {s : Pos} (h : s.after.dropWhile p ≠ []) : skip p (more y s) = more y (skip p s) := by
  rw [skip, skip]
  dsimp only [more]
  rw [(span_more p h).1, (span_more p h).2]

theorem span_space : ∀ (a y : Str), (a ++ '\n' :: y).takeWhile isSpace = a.takeWhile isSpace ∧
    (a ++ '\n' :: y).dropWhile isSpace = a.dropWhile isSpace ++ '\n' :: y
  | [], y => by
    have : isSpace '\n' = false := by decide
    simp [List.takeWhile_cons, List.dropWhile_cons, this]
  | c :: a, y => by
    rw [List.cons_append, List.takeWhile_cons, List.takeWhile_cons, List.dropWhile_cons, List.dropWhile_cons]
    by_cases hc : isSpace c = true
    · simp only [if_pos hc, (span_space a y).1, (span_space a y).2, and_self]
    · simp [hc]

theorem skip_space_more (s : Pos) : skip isSpace (more y s) = more y (skip isSpace s) := by
  rw [skip, skip]
  dsimp only [more]
  rw [(span_space _ _).1, (span_space _ _).2]

/-- There is something other than white space. -/
def NonBlank (a : Str) : Prop := a.dropWhile isWhitespace ≠ []

theorem nonBlank_iff {a : Str} : NonBlank a ↔ ∃ c ∈ a, isWhitespace c = false := by
  rw [NonBlank]
  induction a with
  | nil => simp
  | cons c a ih =>
    rw [List.dropWhile_cons]
    by_cases h : isWhitespace c = true
    · rw [if_pos h, ih]
      simp [h]
    · rw [if_neg h]
      simp [h]

theorem _root_.Mty.Grammar.Adv.nonBlank {s s1 : Pos} (h : Adv s s1) (hs : NonBlank s1.after) : NonBlank s.after := by
  obtain ⟨m, _, h⟩ := h
  rw [nonBlank_iff] at hs ⊢
  obtain ⟨c, hc, h1⟩ := hs
  exact ⟨c, by rw [h]; exact List.mem_append_right _ hc, h1⟩

theorem space_white {c : Char} (h : isSpace c = true) : isWhitespace c = true := by
  simp only [isSpace, Bool.and_eq_true] at h
  exact h.1

theorem dropSpace_cases : ∀ a : Str, a.dropWhile isSpace = a.dropWhile isWhitespace ∨ ∃ z, a.dropWhile isSpace = '\n' :: z
  | [] => .inl rfl
  | c :: a => by
    rw [List.dropWhile_cons, List.dropWhile_cons]
    by_cases hs : isSpace c = true
    · rw [if_pos hs, if_pos (space_white hs)]
      exact dropSpace_cases a
    · rw [if_neg hs]
      by_cases hw : isWhitespace c = true
      · have : c = '\n' := by
          simp only [isSpace, hw, Bool.true_and, decide_eq_true_eq, ne_eq, not_not] at hs
          simpa using hs
        exact .inr ⟨a, by rw [this]⟩
      · rw [if_neg hw]; exact .inl rfl

/-- No node that might go on after the end begins here. -/
def NoStart (a : Str) : Prop := a.head? ≠ some '<' ∧ a.head? ≠ some '{' ∧ ∀ k, ¬ [fence k, fence k, fence k] <+: a

/-- The same after spaces. -/
def Done (a : Str) : Prop := NoStart (a.dropWhile isSpace)

theorem noStart_nil : NoStart [] := ⟨by simp, by simp, fun k => by simp⟩

theorem noStart_newLine (z : Str) : NoStart ('\n' :: z) := ⟨by simp, by simp, fun k => by cases k <;> simp [fence]⟩

theorem done_of {a : Str} (h : NoStart (a.dropWhile isWhitespace)) : Done a := by
  rw [Done]
  rcases dropSpace_cases a with h1 | ⟨z, h1⟩ <;> rw [h1]
  · exact h
  · exact noStart_newLine z

theorem done_blank {a : Str} (h : ¬ NonBlank a) : Done a := by
  refine done_of ?_
  rw [NonBlank, ne_eq, not_not] at h
  rw [h]
  exact noStart_nil

theorem dropWhile_idem (p : Char → Bool) (a : Str) : (a.dropWhile p).dropWhile p = a.dropWhile p := by
  induction a with
  | nil => rfl
  | cons c a ih =>
    rw [List.dropWhile_cons]
    by_cases h : p c = true
    · rw [if_pos h]; exact ih
    · rw [if_neg h, List.dropWhile_cons, if_neg h]

/-- The closing delimiters. -/
def Closer (t : Str) : Prop := t ≠ [] ∧ '\n' ∉ t ∧ ∀ r, NoStart (t ++ r)

theorem closer_brace : Closer "}".toList := ⟨by decide, by decide, fun r => ⟨by simp, by simp, fun k => by cases k <;> simp [fence]⟩⟩

theorem closer_paren : Closer ")>".toList := ⟨by decide, by decide, fun r => ⟨by simp, by simp, fun k => by cases k <;> simp [fence]⟩⟩

theorem closer_special (f : Ast.SpecialForm) : Closer (specialDelims f).2 := by
  cases f <;> exact ⟨by decide, by decide, fun r => ⟨by simp [specialDelims], by simp [specialDelims], fun k => by cases k <;> simp [specialDelims, fence]⟩⟩

theorem closer_bracket : Closer "]".toList := ⟨by decide, by decide, fun r => ⟨by simp, by simp, fun k => by cases k <;> simp [fence]⟩⟩

theorem closing_some {t : Str} (ht : Closer t) {s : Pos} (h : (closing t s).1.isSome = true) :
    NonBlank s.after ∧ Done s.after ∧ t <+: s.after.dropWhile isWhitespace := by
  rw [closing] at h
  split at h
  · rename_i r s' hc
    have h1 : s.after.dropWhile isWhitespace = t ++ s'.after := token_exact_some hc
    refine ⟨?_, done_of ?_, ?_⟩
    · rw [NonBlank, h1]
      intro e
      exact ht.1 (List.append_eq_nil_iff.1 e).1
    · rw [h1]; exact ht.2.2 _
    · rw [h1]; exact List.prefix_append _ _
  · cases h

theorem closing_more {t : Str} (ht : Closer t) {s : Pos} (hs : NoSlash s.after) (h : (closing t s).1.isSome = true) :
    closing t (more y s) = ((closing t s).1, more y (closing t s).2) := by
  have h1 := (closing_some ht h).1
  rw [closing] at h
  rw [closing, closing, skip_more h1, token_more (ext_exact ht.2.1) ((skip_adv _ s).noSlash hs)]
  cases hc : token (exact t) (skip isWhitespace s) with
  | none => rw [hc] at h; cases h
  | some x => rfl

theorem newLine_more {b a m r : Str} (ha : NoSlash a) (h : newLine b a = some (m, r)) :
    newLine b (a ++ '\n' :: y) = some (m, r ++ '\n' :: y) := by
  obtain ⟨m1, r1, m2, h1, h2, rfl⟩ := seq_some h
  obtain ⟨m3, r3, m4, h3, h4, rfl⟩ := seq_some h2
  have hx : Ext (many (chr isSpace)) := ext_many (ext_chr (by decide))
  have ha1 := hx.sound.noSlash h1 ha
  have hr1 : r1 ≠ [] := by rintro rfl; simp [chr] at h3
  have e3 := (extNe_chr (· = '\n')).ext (b ++ m1) r1 y ha1 hr1
  rw [h3] at e3
  rw [newLine, seq, hx.some ha h1]
  simp only
  rw [seq, e3]
  simp only [Option.map_some, add]
  rw [hx.some ((sound_chr _).noSlash h3 ha1) h4]

theorem newLine_more_none {b a : Str} (ha : NoSlash a) (hb : NonBlank a) (h : newLine b a = none) : newLine b (a ++ '\n' :: y) = none := by
  have hx : Ext (many (chr isSpace)) := ext_many (ext_chr (by decide))
  rw [newLine, seq] at h ⊢
  rw [hx.ext _ _ _ ha]
  rw [many_blank] at h ⊢
  simp only [Option.map_some, add] at h ⊢
  have hr : a.dropWhile isSpace ≠ [] := by
    intro e
    rcases dropSpace_cases a with h1 | ⟨z, h1⟩
    · rw [e] at h1; exact hb h1.symm
    · rw [e] at h1; cases h1
  obtain ⟨c, r, hc⟩ := List.exists_cons_of_ne_nil hr
  rw [hc] at h ⊢
  by_cases hn : c = '\n'
  · subst hn
    simp [seq, chr, many] at h
  · simp [seq, chr, hn]

/-- A line break is read if there is one after the spaces. -/
theorem newLine_done {s s1 : Pos} {r : Range} (h : token newLine s = some (r, s1)) : Done s.after := by
  obtain ⟨m, t, h, _, _⟩ := token_cases h
  obtain ⟨m1, r1, m2, h1, h2, rfl⟩ := seq_some h
  obtain ⟨m3, r3, m4, h3, h4, rfl⟩ := seq_some h2
  rw [many_blank] at h1
  cases h1
  obtain ⟨c, hc, _, h5⟩ := chr_some h3
  rw [Done, h5, of_decide_eq_true hc]
  exact noStart_newLine _

/-! ## Where nodes begin -/

theorem multiline_none {k : MultilineKind} {s : Pos} (h : ¬ [fence k, fence k, fence k] <+: s.after) : multiline k s = none := by
  have : token (multilineOpen [fence k, fence k, fence k]) s = none := by
    rw [token_none, multilineOpen, seq, exact_none.2 h]
  rw [multiline, this]

theorem multiline_prefix {k : MultilineKind} {s : Pos} {x} (h : multiline k s = some x) : [fence k, fence k, fence k] <+: s.after := by
  by_contra hc
  rw [multiline_none hc] at h
  cases h

theorem verbatim_none {s : Pos} (h : ¬ "<[".toList <+: s.after) : verbatim s = none := by
  rw [verbatim, token_exact_none.2 h]

theorem comment_none {s : Pos} (h : ¬ "<!".toList <+: s.after) : comment s = none := by
  rw [comment, token_exact_none.2 h]

/-- The beginnings of interpolations. -/
def NoInterpolation (a : Str) : Prop := ¬ "{{".toList <+: a ∧ ¬ "{%".toList <+: a ∧ ¬ "<%".toList <+: a ∧ ¬ "<?".toList <+: a

theorem interpolation_none {b a : Str} (h : NoInterpolation a) : interpolation b a = none := by
  obtain ⟨h1, h2, h3, h4⟩ := h
  have e1 : ∀ q, seq (exact "{{".toList) q b a = none := fun q => by rw [seq, exact_none.2 h1]
  have e0 : ∀ p q, seq (notFollows p) (seq (exact "{{".toList) q) b a = none := fun p q => by
    rw [seq]
    cases hn : notFollows p b a with
    | none => rfl
    | some x =>
      have : x = ([], a) := by
        rw [notFollows] at hn
        split at hn
        · split at hn <;> cases hn; rfl
        · cases hn; rfl
      subst this
      simp only [List.append_nil, e1]
  have e2 : ∀ q, seq (exact "{%".toList) q b a = none := fun q => by rw [seq, exact_none.2 h2]
  have e3 : ∀ q, seq (exact "<%".toList) q b a = none := fun q => by rw [seq, exact_none.2 h3]
  have e4 : ∀ q, seq (exact "<?".toList) q b a = none := fun q => by rw [seq, exact_none.2 h4]
  rw [interpolation, alt, e0, alt, e2, alt, e3, e4]

theorem noInterpolation_more {a : Str} : NoInterpolation (a ++ '\n' :: y) ↔ NoInterpolation a := by
  rw [NoInterpolation, NoInterpolation, prefix_more (by decide), prefix_more (by decide), prefix_more (by decide), prefix_more (by decide)]

theorem leaf_none {p : Pat} {f : Range → Ast.NodeType} {s : Pos} (h : p s.before s.after = none) : leaf p f s = none := by
  rw [leaf, token_none.2 h]

theorem leaf_none_iff {p : Pat} {f : Range → Ast.NodeType} {s : Pos} : leaf p f s = none ↔ p s.before s.after = none := by
  rw [← token_none, leaf]
  cases token p s <;> simp

theorem leaf_more {p : Pat} (hp : Ext p) (f : Range → Ast.NodeType) {s : Pos} (hs : NoSlash s.after) :
    leaf p f (more y s) = (leaf p f s).map fun x => (x.1, more y x.2) := by
  rw [leaf, leaf, token_more hp hs]
  cases token p s <;> rfl

theorem code_none {b a : Str} (h : ¬ "<`".toList <+: a) : inlineCode b a = none := by
  rw [inlineCode, seq, exact_none.2 h]

theorem block_none_iff {alnum : Char → Bool} {n : Nat} {s : Pos} : block alnum (n + 1) s = none ↔ ¬ "{".toList <+: s.after := by
  rw [← token_exact_none, block]
  cases token (exact "{".toList) s <;> simp

theorem inline_none_iff {alnum : Char → Bool} {n : Nat} {s : Pos} : inline alnum (n + 1) s = none ↔ ¬ "<(".toList <+: s.after := by
  rw [← token_exact_none, inline]
  cases token (exact "<(".toList) s with
  | none => simp
  | some x =>
    simp only [reduceCtorEq, iff_false]
    split <;> simp

theorem special_none_iff {alnum : Char → Bool} {n : Nat} {f : Ast.SpecialForm} {s : Pos} :
    special alnum (n + 1) f s = none ↔ ¬ (specialDelims f).1 <+: s.after := by
  rw [← token_exact_none, special]
  cases token (exact (specialDelims f).1) s <;> simp

theorem escape_head {b a : Str} {x} (h : escape b a = some x) : a.head? = some '\\' := by
  obtain ⟨m, r⟩ := x
  rcases alt_some h with h | ⟨_, h⟩
  · obtain ⟨m1, r1, m2, h1, _, _⟩ := seq_some h
    rw [(exact_some h1).2]; rfl
  · obtain ⟨m1, r1, m2, h1, _, _⟩ := seq_some h
    obtain ⟨c, hc, _, rfl⟩ := chr_some h1
    simp only [decide_eq_true_eq] at hc
    rw [hc]; rfl

theorem word_head {q : Char → Bool} {p' : Pat} (h1 : q '<' = false) (h2 : q '{' = false) {b a : Str} {x}
    (h : seq (many1 (alt (seq (chr plainChar) (notPrecedes (chr (· = '>')))) (alt (chr q) escape))) p' b a = some x) :
    a.head? ≠ some '<' ∧ a.head? ≠ some '{' := by
  obtain ⟨m, r⟩ := x
  obtain ⟨m1, r1, m2, h, _, _⟩ := seq_some h
  obtain ⟨m1, r1, m2, h, _, _⟩ := seq_some h
  rcases alt_some h with h | ⟨_, h⟩
  · obtain ⟨m1, r1, m2, h, _, _⟩ := seq_some h
    obtain ⟨c, hc, _, rfl⟩ := chr_some h
    constructor <;>
    · intro e
      simp only [List.head?_cons, Option.some.injEq] at e
      subst e
      revert hc
      decide
  · rcases alt_some h with h | ⟨_, h⟩
    · obtain ⟨c, hc, _, rfl⟩ := chr_some h
      constructor <;>
      · intro e
        simp only [List.head?_cons, Option.some.injEq] at e
        subst e
        simp_all
    · rw [escape_head h]
      decide

theorem segment_head {alnum : Char → Bool} (h1 : alnum '<' = false) (h2 : alnum '{' = false) {b a : Str} {x}
    (h : textSegment alnum b a = some x) : a.head? ≠ some '<' ∧ a.head? ≠ some '{' := by
  obtain ⟨m, r⟩ := x
  obtain ⟨m1, r1, m2, h, _, _⟩ := seq_some h
  exact word_head h1 h2 h

theorem chain_head {alnum : Char → Bool} (h1 : alnum '<' = false) (h2 : alnum '{' = false) {tag : Bool} {s : Pos} {x}
    (h : chain alnum tag s = some x) : s.after.head? ≠ some '<' ∧ s.after.head? ≠ some '{' := by
  rw [chain] at h
  cases hm : selectorChain alnum s.before s.after with
  | none => rw [hm] at h; cases h
  | some y => exact word_head (by simp [h1]) (by simp [h2]) hm

theorem attributeSelector_none_iff {s : Pos} : attributeSelector s = none ↔ ¬ "[".toList <+: s.after := by
  rw [← token_exact_none, attributeSelector]
  cases token (exact "[".toList) s <;> simp

theorem selector_head {alnum : Char → Bool} (h1 : alnum '<' = false) (h2 : alnum '{' = false) {s : Pos} {x}
    (h : selector alnum s = some x) : s.after.head? ≠ some '<' ∧ s.after.head? ≠ some '{' := by
  rw [selector] at h
  cases hs : selectorStart alnum s with
  | none => rw [hs] at h; cases h
  | some z =>
    rw [selectorStart] at hs
    cases ha : attributeSelector s with
    | some w =>
      have : "[".toList <+: s.after := by
        by_contra hc
        rw [attributeSelector_none_iff.2 hc] at ha
        cases ha
      obtain ⟨r, hr⟩ := this
      rw [← hr]
      exact ⟨by simp, by simp⟩
    | none =>
      rw [ha] at hs
      cases hc : chain alnum true s with
      | none => rw [hc] at hs; cases hs
      | some w => exact chain_head h1 h2 hc

end Mty.Grammar.More
