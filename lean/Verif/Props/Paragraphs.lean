import Verif.Proofs.Paragraphs
import Verif.Proofs.Convert
import Verif.Props.Examples

/-!
# C13: paragraph formation

The specification is in `Spec/Paragraphs.lean`. `srcLine src line` is a line of the syntax tree
(blank or not) with the nodes that the line itself is built to.
-/

set_option autoImplicit false

namespace Mty
open Spec

/-- **C13, top level.** The nodes of the document are the lines of the source laid out with
paragraphs: each maximal run of consecutive text lines is one paragraph, blank lines and
block-level elements end it, lines after a `>` element continue that element. -/
theorem C13_layout (src : Str) (s t : Nat) (lines : List Ast.Line) (e e' : Errors) (doc : Document)
    (h : Build.fromAst src ⟨.mk s lines t⟩ e = (some doc, e')) :
    Layout true false s (lines.map (srcLine src)) doc.nodes :=
  ((fromAst_layout src s t lines).document h).choose_spec.1

/-- **C13, blocks.** The same for the content of a block; with `paragraphs = false` there are no
paragraphs. -/
theorem C13_layout_block (src : Str) (l : Range) (s t : Nat) (lines : List Ast.Line) (r : Option Range)
    (range : Range) (paragraphs : Bool) (e e' : Errors) (head : EHead) (nodes : List Node)
    (h : Build.buildBlock l s (Build.prepLines src lines) t r range paragraphs e = (some (head, nodes), e')) :
    Layout paragraphs false s (lines.map (srcLine src)) nodes := by
  have hc := buildContent_layout src paragraphs s lines
  have hr : Run (Build.buildBlock l s (Build.prepLines src lines) t r range paragraphs)
      fun x _ => Layout paragraphs false s (lines.map (srcLine src)) x.2 := by
    cases r with
    | none => exact Run.bind' (Run.syntaxErr (Run.bind' (hc.mono fun ns es h => Run.pure' h)))
    | some r => exact Run.bind' (hc.mono fun ns es h => Run.pure' h)
  exact (hr.document h).choose_spec.1

/-- **C13, special inline elements.** Their content is laid out without paragraphs. -/
theorem C13_layout_special (src : Str) (f : Ast.SpecialForm) (o : Range) (s t : Nat)
    (lines : List Ast.Line) (r : Option Range) (range : Range) (e e' : Errors) (ns : List Node)
    (h : Build.buildInlineSpecial range f o s (Build.prepLines src lines) t r e = (some ns, e')) :
    ∃ rg head nodes, ns = [.elem rg head nodes] ∧
      Layout false false s (lines.map (srcLine src)) nodes := by
  have hc := buildContent_layout src false s lines
  have hr : Run (Build.buildInlineSpecial range f o s (Build.prepLines src lines) t r)
      fun ns _ => ∃ rg head nodes, ns = [.elem rg head nodes] ∧
        Layout false false s (lines.map (srcLine src)) nodes := by
    cases r with
    | none =>
      exact Run.bind' (Run.syntaxErr (Run.bind' (hc.mono fun ns es h => Run.pure' ⟨_, _, _, rfl, h⟩)))
    | some r => exact Run.bind' (hc.mono fun ns es h => Run.pure' ⟨_, _, _, rfl, h⟩)
  exact (hr.document h).choose_spec.1

/-- **C13, where paragraphs occur.** In every built document, paragraphs are found only at top level
and directly in `{ .. }` blocks that do not follow a `>`: never in a paragraph, a line element, a
line-block, or an inline or special inline element. -/
theorem C13_where (src : Str) (ast : Ast.Document) (e e' : Errors) (doc : Document)
    (h : Build.fromAst src ast e = (some doc, e')) :
    ∀ n ∈ doc.nodes, ParagraphsOk False n := by
  have := (((paragraphInv src False).fromAst_inv (fun _ => trivial) ast).document h).choose_spec.1
  exact (this fun h => h.elim).1

/-- **C13, no loose text.** If no error was logged, every visible node at top level and in such blocks
is a paragraph, a block-level element or a code block. -/
theorem C13_no_loose_text (src : Str) (ast : Ast.Document) (e e' : Errors) (doc : Document)
    (h : Build.fromAst src ast e = (some doc, e')) (he : e'.syntaxErrors = e.syntaxErrors) :
    Divided doc.nodes ∧ ∀ n ∈ doc.nodes, ParagraphsOk True n := by
  obtain ⟨es, h1, h2⟩ := ((paragraphInv src True).fromAst_inv (fun _ => trivial) ast).document h
  have hes : es = [] := by rw [he] at h2; simpa using h2
  have := h1 fun _ => hes
  exact ⟨this.2.2 trivial rfl, this.1⟩

set_option maxRecDepth 20000 in
example : convert (Ex.parser Ex.ast7) Ex.src7 {} = .ok "<p>a b</p> <p>c d</p> <p>e</p>".toList := by
  decide +kernel

/-- The hypothesis of `C13_layout`, `C13_where` and `C13_no_loose_text` is met, without errors, by
that document: there is a document with paragraphs, a `>` element continued by a line and a
block. -/
example : ((Build.fromAst Ex.src7 Ex.ast7 { failFast := false }).1.map fun d => d.nodes.length) = some 6 ∧
    (Build.fromAst Ex.src7 Ex.ast7 { failFast := false }).2 = { failFast := false } := by
  constructor <;> rfl

end Mty
