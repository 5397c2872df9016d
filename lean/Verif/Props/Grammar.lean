import Verif.Proofs.Grammar
import Verif.Props.Ranges
import Verif.Props.Examples

/-!
# C12 for the trees of the grammar

The hypothesis on positions of `Props/Ranges.lean` follows from the grammar: it is enough that the tree
is a tree of the grammar for the source (`Grammar.Conforms`), whichever one the parser chooses.
-/

set_option autoImplicit false

namespace Mty
open Spec

/-- **C12, positions.** Every position in a tree of the grammar is a position of the source. -/
theorem C12_grammar_positions (alnum : Char → Bool) (src : Str) (ast : Ast.Document)
    (h : Grammar.Conforms alnum src ast = true) : PositionsOk src ast :=
  Grammar.conforms_positions h

/-- **C12, documents.** For every tree of the grammar for a source, every range in the document and of
every error is a valid range of the source: slicing it never fails. -/
theorem C12_grammar (alnum : Char → Bool) (src : Str) (ast : Ast.Document) (e e' : Errors)
    (doc : Option Document) (hc : Grammar.Conforms alnum src ast = true)
    (h : Build.fromAst src ast e = (doc, e')) :
    (∀ d, doc = some d → ∀ r ∈ docRanges d, ValidRange src r) ∧
    ∃ es, e'.syntaxErrors = e.syntaxErrors ++ es ∧ ∀ x ∈ es, ValidRange src x.range :=
  C12_ranges src ast e e' doc (Grammar.conforms_positions hc) h

/-- **C12, errors.** If the parser returns a tree of the grammar, all errors that `convert` returns have
valid ranges. -/
theorem C12_grammar_errors (alnum : Char → Bool) (parse : Parser) (src : Str) (cfg : OutputConfig)
    (ast : Ast.Document) (es : List SyntaxError) (s : Str) (hp : parse src = .ok ast)
    (hc : Grammar.Conforms alnum src ast = true) (h : convert parse src cfg = .error (.syntax es s)) :
    s = src ∧ ∀ x ∈ es, ValidRange src x.range :=
  C12_convert_errors parse src cfg ast es s hp (Grammar.conforms_positions hc) h

set_option maxRecDepth 20000 in
/-- The trees of all examples are trees of the grammar for their sources. -/
example : [(Ex.src1, Ex.ast1), (Ex.src2, Ex.ast2), (Ex.src3, Ex.ast3), (Ex.src4, Ex.ast4), (Ex.src5, Ex.ast5),
    (Ex.src6, Ex.ast6), (Ex.src7, Ex.ast7), (Ex.src8, Ex.ast8), (Ex.src9, Ex.ast9), (Ex.src10, Ex.ast10),
    (Ex.src11, Ex.ast11), (Ex.src12, Ex.ast12), (Ex.src13, Ex.ast13), (Ex.src14, Ex.ast14),
    (Ex.src15, Ex.ast15), (Ex.src16, Ex.ast16), (Ex.src17, Ex.ast17), (Ex.src18, Ex.ast18),
    (Ex.src19, Ex.ast19), (Ex.src20, Ex.ast20), (Ex.src21, Ex.ast21), (Ex.src22, Ex.ast22),
    (Ex.src23, Ex.ast23)].all (fun p => Grammar.Conforms Char.isAlphanum p.1 p.2) = true := by
  decide +kernel

/-- A wrong tree is not a tree of the grammar: the end of the segment is wrong. -/
example : Grammar.Conforms Char.isAlphanum "ab".toList ⟨.mk 0 [.mk 0 [.mk none 0 1 (Ex.seg 0 1)] 1] 1⟩ = false := by
  decide +kernel

end Mty
