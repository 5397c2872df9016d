import Verif.Proofs.Ranges
import Verif.Proofs.Convert
import Verif.Props.Examples

/-!
# C12: source ranges

`PositionsOk src ast` (`Spec/Ranges.lean`) says that the parser reported positions of `src`.
-/

set_option autoImplicit false

namespace Mty
open Spec

/-- **C12.** If the parser reports positions of the source, every range stored in the built document
is a valid range of the source, and so is the range of every error. -/
theorem C12_ranges (src : Str) (ast : Ast.Document) (e e' : Errors) (doc : Option Document)
    (hp : PositionsOk src ast) (h : Build.fromAst src ast e = (doc, e')) :
    (∀ d, doc = some d → ∀ r ∈ docRanges d, ValidRange src r) ∧
    ∃ es, e'.syntaxErrors = e.syntaxErrors ++ es ∧ ∀ x ∈ es, ValidRange src x.range := by
  obtain ⟨d, es, hl, h1, h2⟩ := fromAst_good hp
  cases hf : e.failFast with
  | false =>
    rw [hl.slow e hf] at h
    cases h
    exact ⟨by rintro _ ⟨⟩; exact h1, es, rfl, fun x hx => (h2 x hx).1⟩
  | true =>
    by_cases hn : es = []
    · rw [hl.fastOk hn e] at h
      cases h
      exact ⟨by rintro _ ⟨⟩; exact h1, [], by simp, by simp⟩
    · obtain ⟨es', _, hp', h'⟩ := hl.fast hn e hf
      rw [h'] at h
      cases h
      exact ⟨by rintro _ ⟨⟩, es', rfl, fun x hx => (h2 x (hp'.subset hx)).1⟩

/-- **C12.** The range of every error returned by `convert` for a parsed document is a valid range
of the source. -/
theorem C12_convert_errors (parse : Parser) (src : Str) (cfg : OutputConfig) (ast : Ast.Document)
    (es : List SyntaxError) (s : Str) (hp : parse src = .ok ast) (hr : PositionsOk src ast)
    (h : convert parse src cfg = .error (.syntax es s)) :
    s = src ∧ ∀ x ∈ es, ValidRange src x.range := by
  obtain ⟨doc, es', hl, _, h2⟩ := fromAst_good hr
  by_cases hn : es' = []
  · subst hn
    rw [convert_ok hp hl] at h
    split at h <;> cases h
  · obtain ⟨e1, _, hpre, _, h4⟩ := convert_bad hp hl hn cfg
    rw [h4] at h
    cases h
    exact ⟨rfl, fun x hx => (h2 x (hpre.subset hx)).1⟩

/-- For a source that does not parse, the range is valid if the parser reports a token of the
source and its position. -/
theorem C12_parse_error (parse : Parser) (src : Str) (cfg : OutputConfig) (pe : Build.ParseError)
    (es : List SyntaxError) (s : Str) (hp : parse src = .error pe)
    (hpos : ∃ a b, src = a ++ pe.actual ++ b ∧ byteLen a = pe.location)
    (h : convert parse src cfg = .error (.syntax es s)) :
    s = src ∧ ∀ x ∈ es, ValidRange src x.range := by
  rw [convert_parse_error hp] at h
  cases h
  refine ⟨rfl, fun x hx => ?_⟩
  simp only [List.mem_singleton] at hx
  subst hx
  obtain ⟨a, b, h1, h2⟩ := hpos
  refine ⟨by simp [Build.ParseError.toSyntax], ⟨a, pe.actual ++ b, by simp [h1], h2⟩,
    ⟨a ++ pe.actual, b, h1, ?_⟩⟩
  simp [Build.ParseError.toSyntax, byteLen_append, h2]

/-- Slicing a valid range gives the characters between its ends. -/
theorem C12_slice (src : Str) (r : Range) (h : ValidRange src r) :
    ∃ a m b, src = a ++ m ++ b ∧ byteLen a = r.start ∧ byteLen (a ++ m) = r.stop ∧ r.slice src = m := by
  obtain ⟨a, m, b, h1, rfl, h3⟩ := h.split
  exact ⟨a, m, b, by simp [h1], rfl, rfl, h3⟩

/-! A tree that meets the hypothesis (with delimited tokens and a character of two bytes). -/

/-- Decides `isBoundary` for the example. -/
def boundaryB : Str → Nat → Bool
  | _, 0 => true
  | [], _ + 1 => false
  | c :: s, p + 1 => decide (c.utf8Size ≤ p + 1) && boundaryB s (p + 1 - c.utf8Size)

theorem boundaryB_sound : ∀ (s : Str) (p : Nat), boundaryB s p = true → isBoundary s p
  | s, 0, _ => ⟨[], s, rfl, rfl⟩
  | [], _ + 1, h => by simp [boundaryB] at h
  | c :: s, p + 1, h => by
    simp only [boundaryB, Bool.and_eq_true, decide_eq_true_eq] at h
    obtain ⟨a, b, h1, h2⟩ := boundaryB_sound s _ h.2
    refine ⟨c :: a, b, by simp [h1], ?_⟩
    have := h.1
    simp only [byteLen, h2]
    omega

theorem validB_sound (s : Str) (a b : Nat)
    (h : (decide (a ≤ b) && boundaryB s a && boundaryB s b) = true) : ValidRange s ⟨a, b⟩ := by
  simp only [Bool.and_eq_true, decide_eq_true_eq] at h
  exact ⟨h.1.1, boundaryB_sound _ _ h.1.2, boundaryB_sound _ _ h.2⟩

theorem withinB_sound (s : Str) (lo hi a b : Nat)
    (h : (decide (a ≤ b) && boundaryB s a && boundaryB s b && decide (lo ≤ a) && decide (b ≤ hi)) = true) :
    Within s lo hi ⟨a, b⟩ := by
  rw [Bool.and_eq_true, Bool.and_eq_true] at h
  exact ⟨validB_sound _ _ _ h.1.1, by simpa using h.1.2, by simpa using h.2⟩

example : PositionsOk Ex.src6 Ex.ast6 := by
  refine ⟨validB_sound _ _ _ (by decide +kernel), ?_⟩
  simp only [linesIn, nodesIn, nodeIn, typeIn, inlineTextIn, selectorIn,
    verbatimTailRange, verbatimTailOk, attributesIn, attributeIn, List.mem_singleton, forall_eq,
    List.not_mem_nil, false_implies, implies_true, true_and]
  refine ⟨?_, ⟨⟨?_, ?_, ⟨?_, ?_, ?_, ⟨?_, ?_, '"', by simp, ?_⟩, ?_⟩⟩, ⟨?_, ?_⟩,
    ⟨?_, ?_, ?_, ?_, ?_⟩, ⟨?_, ?_, ?_, ?_⟩, ?_⟩, Nat.le_refl _⟩ <;>
  first
    | exact withinB_sound _ _ _ _ _ (by decide +kernel)
    | exact validB_sound _ _ _ (by decide +kernel)
    | exact ⟨"p".toList, "a=\"é\"]> <[[b]]> <`c`>".toList, by decide +kernel, by decide +kernel⟩
    | exact ⟨"p[a=".toList, "é".toList, "]> <[[b]]> <`c`>".toList, by decide +kernel, by decide +kernel⟩
    | exact ⟨"p[a=\"é\"]> <[".toList, "b".toList, " <`c`>".toList, by decide +kernel, by decide +kernel⟩
    | exact ⟨"p[a=\"é\"]> <[[b]]> ".toList, "c".toList, [], by decide +kernel, by decide +kernel⟩
    | decide

end Mty
