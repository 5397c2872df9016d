import Verif.Proofs.InferTree
import Verif.Props.Examples

/-!
# C17–C22, C46: inference of element types

The specification is in `Spec/Infer.lean`: `inferForest` gives names to the elements of a tree by the
tables of the manual. `forestOf src nodes` is the tree of a document, with selector chains written out
as nested elements.
-/

set_option autoImplicit false

namespace Mty
open Spec

/-- The document in which names are inferred: the built document with the configured special tags and,
if configured, completed to a page (the first two steps of `transformDocument`). -/
def toInfer (cfg : OutputConfig) (src : Str) (doc : Document) : List Node :=
  (if cfg.completePage.getD false then completePage src (applySpecialTags cfg doc)
    else applySpecialTags cfg doc).nodes

/-- The other steps of `transformDocument`. -/
theorem transformDocument_eq (cfg : OutputConfig) (src : Str) (doc : Document) :
    (transformDocument doc src cfg).nodes =
      (match cfg.lang with | some l => List.map (langNode l) | none => id)
        ((match cfg.metadata with | some m => (metaNodes m · true) | none => id)
          (Infer.infer src (toInfer cfg src doc))) := by
  unfold transformDocument toInfer applyLang addMetadata
  cases hm : cfg.metadata <;> cases hl : cfg.lang <;> rfl

section
variable {src : Str} {ast : Ast.Document} {e e' : Errors} {doc : Document}

theorem toInfer_plain (cfg : OutputConfig) (h : Build.fromAst src ast e = (some doc, e')) :
    ∀ n ∈ toInfer cfg src doc, PlainParagraphs n :=
  beforeInference_plain cfg src doc (fromAst_plain h)

/-! ## C20, C46: the tables -/

/-- **C20, C46.** For every built document and configuration, inference gives every element exactly
the name that the tables of the specification give for its context, and the context inside an
element is the one the specification gives for its name. -/
theorem C20_inference (cfg : OutputConfig) (h : Build.fromAst src ast e = (some doc, e')) :
    forestOf src (Infer.infer src (toInfer cfg src doc)) =
      inferForest .section none none true (forestOf src (toInfer cfg src doc)) :=
  (infer_tree src _ (toInfer_plain cfg h)).1

/-- **C20, converted document.** The same for the document that is written, if there is no metadata and
no `lang`. -/
theorem C20_document (cfg : OutputConfig) (h : Build.fromAst src ast e = (some doc, e'))
    (hm : cfg.metadata = none) (hl : cfg.lang = none) :
    forestOf src (transformDocument doc src cfg).nodes =
      inferForest .section none none true (forestOf src (toInfer cfg src doc)) := by
  rw [transformDocument_eq, hm, hl]
  exact C20_inference cfg h

/-- **C20, tables of the manual.** The tables of the specification contain those of the manual. The
names for header cells (`header`, see C22) are not in the manual. -/
theorem C20_manual (c : Context) (f : Form) (name : String) (first last : Bool) (h : manualName c f = some name) :
    nameIn c (some f) first last false = some name := by
  cases c <;> cases f <;> simp [manualName] at h <;> subst h <;> cases first <;> cases last <;> rfl

/-- **C20, details and fieldset.** The first line, block or paragraph of `details` is a `summary`, a
paragraph at the beginning of `fieldset` a `legend`; all others are as in a section. -/
theorem C20_first (f : Form) (last : Bool) :
    nameIn .details (some f) true last false = some "summary" ∧
    nameIn .fieldset (some .paragraph) true last false = some "legend" ∧
    nameIn .details (some f) false last false = nameIn .section (some f) false last false ∧
    nameIn .fieldset (some f) false last false = nameIn .section (some f) false last false ∧
    (f ≠ .paragraph → nameIn .fieldset (some f) true last false = nameIn .section (some f) true last false) := by
  cases f <;> cases last <;> simp [nameIn]

/-- **C20, stability.** Writing the inferred names explicitly changes nothing. -/
theorem C20_stable (c : Context) (parent grand : Option Str) (first last : Bool) (t : Tree) :
    inferTree c parent grand first last (inferTree c parent grand first last t) =
      inferTree c parent grand first last t :=
  inferTree_stable t c parent grand first last

/-- **C46, contexts of the manual.** The elements that the manual lists for a context have that
context, however they are written. All other elements have a section context if written as a block
and a paragraph context if written as a line, line-block or inline element. Missing: `a` and custom
elements do not take the context they are used in, see `C46_link_in_paragraph`. -/
theorem C46_manual_partial :
    (∀ p ∈ manualContexts, ∀ form, contextInside (some p.1.toList) form = p.2) ∧
    (∀ name ∈ ["td", "th", "li", "dd", "figcaption", "a"],
      contextInside (some name.toList) (some .block) = .section ∧
      contextInside (some name.toList) (some .line) = .paragraph) := by
  constructor
  · intro p hp form
    revert p
    rcases form with _ | _ | _ | _ <;> decide +kernel
  · decide +kernel

set_option maxRecDepth 20000 in
/-- **C46, deviation.** The manual says that an `a` used in a paragraph context contains a paragraph
context, so that a line in it is a `span`. As a block it contains a section context, and the line is
a `p`. -/
theorem C46_link_in_paragraph :
    convert (Ex.parser Ex.ast10) Ex.src10 {} = .ok "<span><a><p>x</p></a></span>".toList := by
  decide +kernel

/-! ## C17: selector chains -/

/-- **C17, one selector.** After the transformation no element has more than one selector. -/
theorem C17_single (cfg : OutputConfig) (h : Build.fromAst src ast e = (some doc, e')) :
    ∀ n ∈ (transformDocument doc src cfg).nodes, SingleSelectors n := by
  rw [transformDocument_eq]
  have h1 := (infer_tree src _ (toInfer_plain cfg h)).2
  generalize Infer.infer src (toInfer cfg src doc) = ns at *
  have h2 : ∀ n ∈ (match cfg.metadata with | some m => (metaNodes m · true) | none => id) ns, SingleSelectors n := by
    cases cfg.metadata with
    | none => exact h1
    | some m => exact metaNodes_single m ns true h1
  generalize (match cfg.metadata with | some m => (metaNodes m · true) | none => id) ns = ns' at *
  cases cfg.lang with
  | none => exact h2
  | some l =>
    intro n hn
    obtain ⟨n', hn', rfl⟩ := List.mem_map.1 hn
    exact langNode_single l (h2 n' hn')

/-- **C17, nesting.** In the tree of a document a chain `s1 > s2 > … > sn` stands for `n` nested
elements, `s1` outermost, and inference of a chain of named elements gives just these nested
elements. (For elements of the chain without a name see `C18_kept`.) -/
theorem C17_nested (src : Str) (r : Range) (h : EHead) (ch : List Node) (hs : h.selectors ≠ []) :
    Nested (forestOf src ch) (h.selectors.map (selOf src)) (treeOf src (.elem r h ch)) ∧
    ((∀ s ∈ h.selectors, s.tag.name.isSome) → ∀ c parent grand first last, ∃ c' parent' grand',
      Nested (inferForest c' parent' grand' true (forestOf src ch)) (h.selectors.map (selOf src))
        (inferTree c parent grand first last (treeOf src (.elem r h ch)))) := by
  have h1 : Nested (forestOf src ch) (h.selectors.map (selOf src)) (treeOf src (.elem r h ch)) := by
    rw [treeOf]
    exact chainTree_nested src h _ _ hs
  refine ⟨h1, fun hn c p g fi la => inferTree_nested h1 (fun s hs => ?_) c p g fi la⟩
  obtain ⟨s', hs', rfl⟩ := List.mem_map.1 hs
  simpa [selOf] using hn s' hs'

set_option maxRecDepth 20000 in
/-- The hypotheses of C17 to C20 are met by this chain. -/
example : convert (Ex.parser Ex.ast8) Ex.src8 {} = .ok "<ul><li class=\"x\"><b>t</b></li></ul>".toList := by
  decide +kernel

/-! ## C18, C19: nothing but names is added -/

/-- **C18.** An element with a name keeps its name, classes, ids and attributes; classes, ids and
attributes without a name are kept as well. Nothing but names (and the `raw` mark) changes: the
elements, text and comments are the same, in the same place. -/
theorem C18_kept (cfg : OutputConfig) (h : Build.fromAst src ast e = (some doc, e')) :
    List.Forall₂ Kept (forestOf src (toInfer cfg src doc))
      (forestOf src (Infer.infer src (toInfer cfg src doc))) := by
  have hp := toInfer_plain cfg h
  rw [C20_inference cfg h]
  refine inferForest_forall₂ _ _ _ _ _ fun t ht fi la => inferTree_kept t ?_ _ _ _ _ _
  rw [forestOf_eq] at ht
  obtain ⟨n, hn, rfl⟩ := List.mem_map.1 ht
  exact treeOf_plain src (hp n hn)

/-- **C19.** Inference keeps the sequence of text, comment and space nodes. (That it adds no elements
is `C18_kept`.) -/
theorem C19_texts (cfg : OutputConfig) (h : Build.fromAst src ast e = (some doc, e')) :
    nodesTexts (Infer.infer src (toInfer cfg src doc)) = nodesTexts (toInfer cfg src doc) := by
  rw [← forestOf_texts src, ← forestOf_texts src, C20_inference cfg h, inferForest_texts]

/-! ## C21: nothing is left undecided -/

/-- **C21.** After inference every line, block and paragraph has a name, except paragraphs in paragraph
context, which are plain content. Missing: blocks and paragraphs in `picture` get no name, see
`C21_picture`. -/
theorem C21_decided_partial (cfg : OutputConfig) (h : Build.fromAst src ast e = (some doc, e')) :
    ∀ t ∈ forestOf src (Infer.infer src (toInfer cfg src doc)), Decided .section t := by
  have hp := toInfer_plain cfg h
  rw [C20_inference cfg h]
  refine inferForest_forall _ _ _ _ _ fun t ht fi la => inferTree_decided t ?_ _ _ _ _ _
  rw [forestOf_eq] at ht
  obtain ⟨n, hn, rfl⟩ := List.mem_map.1 ht
  exact treeOf_plain src (hp n hn)

/-- **C21, one pass.** For every list of siblings, one pass over them resolves all of them. -/
theorem C21_one_pass (src : Str) (m : Infer.Method) (parent : Option Infer.PredCx) (nodes : List Node) :
    ∃ nodes' states, Infer.inferTagPass src m.tags parent (List.range nodes.length) nodes
      (List.replicate nodes.length (some 0)) = (nodes', states, nodes.length) ∧
      ∀ s ∈ states, s = none := inferTagPass_resolves src m parent nodes

set_option maxRecDepth 20000 in
/-- **C21, deviation.** A block in `picture` gets no name; only its content is written. -/
theorem C21_picture :
    convert (Ex.parser Ex.ast11) Ex.src11 {} = .ok "<picture><p>a</p></picture>".toList := by
  decide +kernel

/-! ## C22: header cells -/

/-- **C22.** A line, block or paragraph without a name in a `tr` becomes a `th` if the parent of the
`tr` is a `thead`, and a `td` otherwise. -/
theorem C22_cells (cfg : OutputConfig) (h : Build.fromAst src ast e = (some doc, e')) :
    List.Forall₂ (Cells none none) (forestOf src (toInfer cfg src doc))
      (forestOf src (Infer.infer src (toInfer cfg src doc))) := by
  rw [C20_inference cfg h]
  exact inferForest_forall₂ _ _ _ _ _ fun t ht fi la => inferTree_cells t _ _ _ _ _ (by simp)

set_option maxRecDepth 20000 in
/-- The hypotheses of C20, C21 and C22 are met by this table. -/
example : convert (Ex.parser Ex.ast9) Ex.src9 {} =
    .ok "<table><thead><tr><th>a</th></tr></thead> <tr><td>b</td></tr></table>".toList := by
  decide +kernel

end

end Mty
