import Verif.Proofs.Convert
import Verif.Props.Examples

/-!
# C07–C10: the public functions

`parse` is the parser (any function from sources to a parse error or a syntax tree). `convert`,
`convertForgiving` and `convertTo` are the three public functions; `WellFormed` (`Spec/Syntax.lean`)
says which syntax trees are free of errors.
-/

set_option autoImplicit false

namespace Mty
open Spec

/-! ## C07 -/

/-- **C07.** `convert` and `convert_forgiving` succeed on the same inputs with the same output and
fail with the same error. -/
theorem C07_convert_forgiving (parse : Parser) (src : Str) (cfg : OutputConfig) :
    (∀ out, convert parse src cfg = .ok out ↔ convertForgiving parse src cfg = .ok out) ∧
    (∀ err, convert parse src cfg = .error err ↔
      ∃ partialOut, convertForgiving parse src cfg = .error (partialOut, err)) := by
  have key : (∃ out, convert parse src cfg = .ok out ∧ convertForgiving parse src cfg = .ok out) ∨
      (∃ err p, convert parse src cfg = .error err ∧
        convertForgiving parse src cfg = .error (p, err)) := by
    cases hp : parse src with
    | error pe =>
      exact Or.inr ⟨_, none, convert_parse_error hp cfg,
        forgiving_eq (internal_parse_error hp cfg true)⟩
    | ok ast =>
      obtain ⟨doc, es, hl, -⟩ := build_cases src ast
      by_cases hn : es = []
      · subst hn
        have h := internal_ok hp hl cfg
        rcases ho : outputHtmlTo src (transformDocument doc src cfg) cfg with ⟨out, ok⟩
        rw [ho] at h
        cases ok with
        | true => exact Or.inl ⟨out, by simp [convert, h], by simp [convertForgiving, h]⟩
        | false =>
          refine Or.inr ⟨.unknown, if out.isEmpty then none else some out, by simp [convert, h], ?_⟩
          by_cases he : out.isEmpty <;> simp [convertForgiving, h, he]
      · obtain ⟨e1, -, -, hs1, h1⟩ := internal_bad hp hl hn cfg false
        obtain ⟨e2, -, -, hs2, h2⟩ := internal_bad hp hl hn cfg true
        have he : e1 = e2 := by
          cases hf : cfg.failFast.getD false with
          | false => rw [hs1 hf, hs2 hf]
          | true =>
            have hx : (convertToInternal parse src cfg false).2 = (convertToInternal parse src cfg true).2 := by
              obtain ⟨x, _, _, hx⟩ := hl.fast hn (Errors.new cfg) hf
              have : Build.parseDocument parse src (Errors.new cfg) =
                  (none, (Errors.new cfg).add x) := by
                simp only [Build.parseDocument, hp]; exact hx
              simp only [convertToInternal, this]
            rw [h1, h2] at hx
            simpa using hx
        subst he
        have h3 := forgiving_eq h2
        simp only at h3
        generalize (if (true && !cfg.failFast.getD false) = true then _ else _ : Str) = o at h3
        split at h3
        · exact Or.inr ⟨_, _, convert_eq h1, h3⟩
        · exact Or.inr ⟨_, _, convert_eq h1, h3⟩
  rcases key with ⟨o, h1, h2⟩ | ⟨e, p, h1, h2⟩
  · rw [h1, h2]; simp
  · rw [h1, h2]; simp

/-- `convert_to` appends to its buffer exactly what `convert_forgiving` hands back (`Ok` text or
partial text; an empty partial text is handed back as `None`) and has the same result. -/
theorem C07_convert_to (parse : Parser) (src : Str) (cfg : OutputConfig) (buf : Str) :
    convertTo parse src cfg buf =
      match convertForgiving parse src cfg with
      | .ok out => (buf ++ out, .ok ())
      | .error (some out, err) => (buf ++ out, .error err)
      | .error (none, err) => (buf, .error err) := by
  rcases h : convertToInternal parse src cfg true with ⟨out, r⟩
  cases r with
  | ok u => simp [convertTo, convertForgiving, h]
  | error e =>
    cases out with
    | nil => simp [convertTo, convertForgiving, h]
    | cons c o => simp [convertTo, convertForgiving, h]

/-- An empty partial text is never handed back. -/
theorem C07_partial_nonempty (parse : Parser) (src : Str) (cfg : OutputConfig) (out : Str)
    (err : ConvertError) (h : convertForgiving parse src cfg = .error (some out, err)) : out ≠ [] := by
  rcases h' : convertToInternal parse src cfg true with ⟨o, r⟩
  cases r with
  | ok u => simp [convertForgiving, h'] at h
  | error e =>
    cases o with
    | nil => simp [convertForgiving, h'] at h
    | cons c o => simp [convertForgiving, h'] at h; simp [← h.1]

set_option maxRecDepth 20000 in
example : convert (Ex.parser Ex.ast1) Ex.src1 {} = .ok "<p>a <b>c</b></p>".toList := by
  decide +kernel

set_option maxRecDepth 20000 in
example : convertForgiving (Ex.parser Ex.ast2) Ex.src2 {} =
    .error (some "<ul><li>a x".toList, .syntax [⟨⟨3, 4⟩, .unclosed .block⟩,
      ⟨⟨8, 10⟩, .invalidEscape⟩] Ex.src2) := by
  decide +kernel

/-! ## C08 -/

/-- **C08.** `convert` succeeds exactly when the source parses, the syntax tree is well-formed and
the output could be written; and it then returns what was written. -/
theorem C08_ok_iff (parse : Parser) (src : Str) (cfg : OutputConfig) (out : Str) :
    convert parse src cfg = .ok out ↔
      ∃ ast doc, parse src = .ok ast ∧ WellFormed src ast ∧
        Build.fromAst src ast (Errors.new cfg) = (some doc, Errors.new cfg) ∧
        outputHtmlTo src (transformDocument doc src cfg) cfg = (out, true) := by
  cases hp : parse src with
  | error pe => simp [convert, internal_parse_error hp]
  | ok ast =>
    obtain ⟨doc, es, hl, hw⟩ := build_cases src ast
    by_cases hn : es = []
    · subst hn
      have h := internal_ok hp hl cfg false
      have hb := hl.fastOk rfl (Errors.new cfg)
      simp only [true_iff] at hw
      simp only [convert, h, Except.ok.injEq, exists_and_left, exists_eq_left', hb, Prod.mk.injEq,
        Option.some.injEq, and_true, hw, true_and]
      rcases outputHtmlTo src (transformDocument doc src cfg) cfg with ⟨o, ok⟩
      cases ok <;> simp
    · obtain ⟨e1, -, -, -, h1⟩ := internal_bad hp hl hn cfg false
      have hnw : ¬ WellFormed src ast := fun h => hn (hw.2 h)
      rw [convert_eq h1]
      refine ⟨fun h => (by cases h), fun ⟨a, d, ha, hw', _⟩ => ?_⟩
      cases ha
      exact absurd hw' hnw

/-- The three ways to fail: the parser's error alone; the non-empty list of errors of an ill-formed
tree; or, for a well-formed tree, `Unknown`. No semantic error is ever returned, and a syntax
error hands back the source. -/
theorem C08_error_cases (parse : Parser) (src : Str) (cfg : OutputConfig) (err : ConvertError)
    (h : convert parse src cfg = .error err) :
    (∃ pe, parse src = .error pe ∧ err = .syntax [pe.toSyntax] src) ∨
    (∃ ast es, parse src = .ok ast ∧ ¬ WellFormed src ast ∧ es ≠ [] ∧ err = .syntax es src) ∨
    (∃ ast, parse src = .ok ast ∧ WellFormed src ast ∧ err = .unknown) := by
  cases hp : parse src with
  | error pe =>
    left
    simp only [convert, internal_parse_error hp] at h
    exact ⟨pe, rfl, by simpa using h.symm⟩
  | ok ast =>
    right
    obtain ⟨doc, es, hl, hw⟩ := build_cases src ast
    by_cases hn : es = []
    · right
      subst hn
      refine ⟨ast, rfl, hw.1 rfl, ?_⟩
      rw [convert_ok hp hl] at h
      split at h
      · cases h
      · cases h; rfl
    · left
      obtain ⟨e1, h0, -, -, h1⟩ := internal_bad hp hl hn cfg false
      refine ⟨ast, e1, rfl, fun h => hn (hw.2 h), h0, ?_⟩
      simp only [convert, h1] at h
      simpa using h.symm

set_option maxRecDepth 20000 in
example : convert (Ex.parser Ex.ast3) Ex.src3 {} = .error .unknown := by decide +kernel

set_option maxRecDepth 20000 in
example : convert (fun _ => .error ⟨2, "}".toList, []⟩) "a }".toList {} =
    .error (.syntax [⟨⟨2, 3⟩, .parseFailed []⟩] "a }".toList) := by decide +kernel

/-! ## C09 -/

/-- **C09.** `fail_fast` does not change success or the output, and an error list is a non-empty
initial part of the list reported without it. The other kind of error is unchanged. -/
theorem C09_fail_fast (parse : Parser) (src : Str) (cfg : OutputConfig) :
    (∀ out, convert parse src { cfg with failFast := some true } = .ok out ↔
      convert parse src { cfg with failFast := some false } = .ok out) ∧
    (∀ es s, convert parse src { cfg with failFast := some true } = .error (.syntax es s) →
      es ≠ [] ∧ s = src ∧ ∃ all, es <+: all ∧
        convert parse src { cfg with failFast := some false } = .error (.syntax all src)) ∧
    (convert parse src { cfg with failFast := some true } = .error .unknown ↔
      convert parse src { cfg with failFast := some false } = .error .unknown) := by
  cases hp : parse src with
  | error pe => simp [convert, internal_parse_error hp]
  | ok ast =>
    obtain ⟨doc, es, hl, hw⟩ := build_cases src ast
    by_cases hn : es = []
    · subst hn
      have h1 := convert_ok hp hl { cfg with failFast := some true }
      have h2 := convert_ok hp hl { cfg with failFast := some false }
      rw [transform_failFast, output_failFast] at h1 h2
      rw [h1, h2]
      refine ⟨fun _ => Iff.rfl, fun es s h => ?_, Iff.rfl⟩
      split at h <;> cases h
    · obtain ⟨e1, a1, b1, -, h1⟩ := convert_bad hp hl hn { cfg with failFast := some true }
      obtain ⟨e2, -, -, c2, h2⟩ := convert_bad hp hl hn { cfg with failFast := some false }
      obtain rfl := c2 rfl
      rw [h1, h2]
      refine ⟨by simp, fun es s h => ?_, by simp⟩
      cases h
      exact ⟨a1, rfl, _, b1, rfl⟩

/-- Leaving `fail_fast` unset means not failing fast. -/
theorem C09_default (parse : Parser) (src : Str) (cfg : OutputConfig) :
    convert parse src { cfg with failFast := none } =
      convert parse src { cfg with failFast := some false } := by
  cases hp : parse src with
  | error pe => simp [convert, internal_parse_error hp]
  | ok ast =>
    obtain ⟨doc, es, hl, hw⟩ := build_cases src ast
    by_cases hn : es = []
    · subst hn
      have h1 := internal_ok hp hl { cfg with failFast := none } false
      have h2 := internal_ok hp hl { cfg with failFast := some false } false
      rw [transform_failFast, output_failFast] at h1 h2
      simp only [convert, h1, h2]
    · obtain ⟨e1, -, -, c1, h1⟩ := internal_bad hp hl hn { cfg with failFast := none } false
      obtain ⟨e2, -, -, c2, h2⟩ := internal_bad hp hl hn { cfg with failFast := some false } false
      simp only [convert, h1, h2, c1 rfl, c2 rfl]

/-- With `fail_fast` a failing conversion hands back no partial output for an ill-formed tree. -/
theorem C09_no_partial (parse : Parser) (src : Str) (cfg : OutputConfig) (p : Option Str)
    (es : List SyntaxError) (s : Str) (hf : cfg.failFast = some true)
    (h : convertForgiving parse src cfg = .error (p, .syntax es s)) : p = none := by
  cases hp : parse src with
  | error pe =>
    simp only [convertForgiving, internal_parse_error hp] at h
    simp at h; exact h.1.symm
  | ok ast =>
    obtain ⟨doc, es, hl, hw⟩ := build_cases src ast
    by_cases hn : es = []
    · subst hn
      have h2 := internal_ok hp hl cfg true
      rcases ho : outputHtmlTo src (transformDocument doc src cfg) cfg with ⟨o, ok⟩
      rw [ho] at h2
      cases ok
      · rw [forgiving_eq h2] at h
        simp only at h
        split at h <;> cases h
      · rw [forgiving_eq h2] at h; cases h
    · obtain ⟨e1, -, -, -, h1⟩ := internal_bad hp hl hn cfg true
      simp [convertForgiving, h1, hf] at h
      exact h.1.symm

set_option maxRecDepth 20000 in
example : convert (Ex.parser Ex.ast2) Ex.src2 { failFast := some true } =
    .error (.syntax [⟨⟨3, 4⟩, .unclosed .block⟩] Ex.src2) := by decide +kernel

/-! ## C10 -/

/-- **C10.** For a source that parses, syntax errors are reported exactly when the syntax tree is not
well-formed. -/
theorem C10_syntax_errors_iff (parse : Parser) (src : Str) (cfg : OutputConfig) (ast : Ast.Document)
    (hp : parse src = .ok ast) :
    (∃ es s, convert parse src cfg = .error (.syntax es s)) ↔ ¬ WellFormed src ast := by
  constructor
  · rintro ⟨es, s, h⟩
    rcases C08_error_cases _ _ _ _ h with ⟨pe, h', _⟩ | ⟨a, _, h', hw, _⟩ | ⟨_, _, _, h'⟩
    · rw [hp] at h'; simp at h'
    · rw [hp] at h'; simp at h'; subst h'; exact hw
    · simp at h'
  · intro hw
    obtain ⟨doc, es, hl, hw'⟩ := build_cases src ast
    have hn : es ≠ [] := fun h => hw (hw'.1 h)
    obtain ⟨e1, -, -, -, h1⟩ := internal_bad hp hl hn cfg false
    exact ⟨e1, src, by simp [convert, h1]⟩

/-- The trees of the examples: the first is well-formed, the second is not. -/
example : WellFormed Ex.src1 Ex.ast1 := by
  have := C08_error_cases (Ex.parser Ex.ast1) Ex.src1 {}
  by_contra h
  obtain ⟨es, s, h'⟩ := (C10_syntax_errors_iff (Ex.parser Ex.ast1) Ex.src1 {} Ex.ast1 rfl).2 h
  have h2 : convert (Ex.parser Ex.ast1) Ex.src1 {} = .ok "<p>a <b>c</b></p>".toList := by
    decide +kernel
  rw [h2] at h'; cases h'

example : ¬ WellFormed Ex.src2 Ex.ast2 := by
  simp [WellFormed, Ex.ast2, LinesOk, itemsOf, itemOf, TypeOk, LineOk, LineOkWith, OneOrInline, shapeOf, Ex.tag]
  intro r v h
  cases h <;> simp_all
  · rename_i hc _
    cases hc <;> simp_all
  · rename_i hc
    cases hc <;> simp_all

end Mty
