import Verif.Proofs.Leaves
import Verif.Proofs.Convert
import Verif.Props.Convert

/-!
# C10 (error list) and C11: what becomes of the parsed content

`Build.fromAst src ast e` builds the document from a syntax tree, with `e` the errors so far; it
yields the document (`none` if stopped by `fail_fast`) and the errors. The specifications are in
`Spec/Leaves.lean`.
-/

set_option autoImplicit false

namespace Mty
open Spec

/-- Without `fail_fast`, building always yields a document. -/
theorem C10_builds (src : Str) (ast : Ast.Document) (e : Errors) (hf : e.failFast = false) :
    ∃ doc es, Build.fromAst src ast e = (some doc, { e with syntaxErrors := e.syntaxErrors ++ es }) := by
  obtain ⟨doc, es, hl, _⟩ := Build.fromAst_cov src ast
  exact ⟨doc, es, hl.slow e hf⟩

/-- **C10, error list.** Without `fail_fast`, the errors other than misplaced items are exactly, once
and in source order: one error for every unclosed delimiter (with the range of the opening
delimiter), every invalid selector part (with its range) and every invalid escape sequence in text
(`C05` describes `escapeErrors`), of everything in the tree that is looked at. -/
theorem C10_error_list (src : Str) (ast : Ast.Document) (e : Errors) (hf : e.failFast = false)
    (doc : Document) (e' : Errors) (h : Build.fromAst src ast e = (some doc, e')) :
    ∃ es, e'.syntaxErrors = e.syntaxErrors ++ es ∧
      es.filter (fun x => !isMisplaced x) =
        astErrs (fun r => escapeErrors (r.slice src) r.start) ast := by
  obtain ⟨doc', es, hl, _, h2⟩ := Build.fromAst_cov src ast
  rw [hl.slow e hf] at h
  cases h
  exact ⟨es, rfl, h2⟩

/-- The same for the error returned by `convert`. -/
theorem C10_convert_error_list (parse : Parser) (src : Str) (cfg : OutputConfig) (ast : Ast.Document)
    (es : List SyntaxError) (s : Str) (hp : parse src = .ok ast)
    (hf : cfg.failFast.getD false = false)
    (h : convert parse src cfg = .error (.syntax es s)) :
    es.filter (fun x => !isMisplaced x) =
      astErrs (fun r => escapeErrors (r.slice src) r.start) ast := by
  obtain ⟨doc, es', hl, _, h2⟩ := Build.fromAst_cov src ast
  by_cases hn : es' = []
  · subst hn
    rw [convert_ok hp hl] at h
    split at h <;> cases h
  · obtain ⟨e1, _, _, h3, h4⟩ := convert_bad hp hl hn cfg
    rw [h4] at h
    cases h
    rw [h3 hf]
    exact h2

set_option maxRecDepth 20000 in
example : (convert (Ex.parser Ex.ast5) Ex.src5 {} =
    .error (.syntax [⟨⟨2, 4⟩, .invalidItem .selector⟩,
      ⟨⟨8, 11⟩, .misplacedItem (.mustNotFollow [.selector] .selector)⟩,
      ⟨⟨9, 10⟩, .unclosed .attributeList⟩] Ex.src5)) ∧
    astErrs (fun r => escapeErrors (r.slice Ex.src5) r.start) Ex.ast5 =
      [⟨⟨2, 4⟩, .invalidItem .selector⟩, ⟨⟨9, 10⟩, .unclosed .attributeList⟩] := by
  constructor <;> decide +kernel

/-! ## C11 -/

/-- **C11, exact.** The text and comments of the built document are, once and in source order, the
text and comments of the syntax tree that are not in an ignored end of a line. -/
theorem C11_content_exact (src : Str) (ast : Ast.Document) (e e' : Errors) (doc : Document)
    (h : Build.fromAst src ast e = (some doc, e')) :
    docLeaves doc.nodes = astLeaves false ast := by
  obtain ⟨doc', es, hl, h1, _⟩ := Build.fromAst_cov src ast
  cases hf : e.failFast with
  | false => rw [hl.slow e hf] at h; cases h; exact h1
  | true =>
    by_cases hn : es = []
    · rw [hl.fastOk hn e] at h; cases h; exact h1
    · obtain ⟨_, _, _, h'⟩ := hl.fast hn e hf
      rw [h'] at h; cases h

/-- **C11, partial.** If no line has an ignored end, all text and comments of the syntax tree are in
the document, once and in source order. What is missing: lines in which an element that begins with
a bare `>` and has a block is followed by more (see `C11_content_lost`). -/
theorem C11_content_kept_partial (src : Str) (ast : Ast.Document) (e e' : Errors) (doc : Document)
    (hall : NothingIgnored ast) (h : Build.fromAst src ast e = (some doc, e')) :
    docLeaves doc.nodes = astLeaves true ast := by
  rw [C11_content_exact src ast e e' doc h]
  obtain ⟨⟨_, lines, _⟩⟩ := ast
  exact Build.linesLeaves_all lines hall

/-- Where every `>` of a line follows a selector, possibly with comments in between, nothing of the
line is ignored. -/
theorem C11_no_bare_arrow (nodes : List Ast.Node)
    (h : EveryArrowAfterSelector false (nodes.map nodeShape)) : ignored nodes = [] := by
  have key : ∀ (l : List Ast.Node),
      (∀ k, EveryArrowAfterSelector false (l.map nodeShape) → ignoredFrom nodeShape .top k l = []) ∧
      (∀ k, EveryArrowAfterSelector false (l.map nodeShape) →
        ignoredFrom nodeShape .arrow (k + 1) l = []) ∧
      (∀ k, EveryArrowAfterSelector true (l.map nodeShape) →
        ignoredFrom nodeShape .selector (k + 1) l = []) := by
    intro l
    induction l with
    | nil => simp [ignoredFrom]
    | cons n l ih =>
      obtain ⟨h1, h2, h3⟩ := ih
      refine ⟨fun k hk => ?_, fun k hk => ?_, fun k hk => ?_⟩ <;>
      · simp only [List.map_cons] at hk
        simp only [ignoredFrom]
        rcases hs : nodeShape n <;>
        · rw [hs] at hk
          simp only [EveryArrowAfterSelector] at hk
          first
            | exact h1 _ hk
            | exact h3 _ hk
            | exact h2 _ hk.2
            | exact absurd hk.1 (by simp)
  exact (key nodes).1 0 h

set_option maxRecDepth 20000 in
/-- **C11 fails for the code.** For `> { x } y` conversion succeeds and `y` is in the syntax tree, but
neither in the document nor in the output. -/
theorem C11_content_lost :
    convert (Ex.parser Ex.ast4) Ex.src4 {} = .ok "<p>x</p>".toList ∧
    Leaf.text ⟨8, 9⟩ true true false false ∈ astLeaves true Ex.ast4 ∧
    (Range.mk 8 9).slice Ex.src4 = "y".toList ∧
    ∃ doc e', Build.fromAst Ex.src4 Ex.ast4 (Errors.new {}) = (some doc, e') ∧
      Leaf.text ⟨8, 9⟩ true true false false ∉ docLeaves doc.nodes := by
  refine ⟨by decide +kernel, by decide +kernel, by decide +kernel, ?_⟩
  obtain ⟨doc, es, h⟩ := C10_builds Ex.src4 Ex.ast4 (Errors.new {}) rfl
  refine ⟨doc, _, h, ?_⟩
  rw [C11_content_exact _ _ _ _ _ h]
  decide +kernel

set_option maxRecDepth 20000 in
example : NothingIgnored Ex.ast1 ∧ astLeaves true Ex.ast1 =
    [.text ⟨3, 4⟩ true true false false, .text ⟨10, 11⟩ true true false false] := by
  constructor
  · simp [NothingIgnored, Ex.ast1, LinesAll, NodesAll, NodeAll, TypeAll, ignored, ignoredFrom,
      nodeShape, shapeOf, Ex.tag, Ex.seg]
  · decide +kernel

end Mty
