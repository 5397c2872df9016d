import Verif.Proofs.ErrorOrder
import Verif.Props.Document
import Verif.Props.PartsErrors

/-!
# C81: errors are reported once, in the order of the source

Specification: `Spec/ErrorOrder.lean`.
-/

set_option autoImplicit false

namespace Mty
open Spec

/-- **C81, partial.** The reported errors other than those about misplaced items are at places of their own that follow each other in the
source, for every tree that the grammar allows and also with `fail_fast`. So each is reported once. What is missing: the code reports
errors about misplaced items after the others of their line, and those in an inline element twice (`C81_twice`, `C81_unordered`). -/
theorem C81_order_partial (alnum : Char → Bool) (parse : Parser) (src : Str) (ast : Ast.Document) (hp : parse src = .ok ast)
    (hg : Grammar.Conforms alnum src ast = true) (cfg : OutputConfig) :
    InSourceOrder ((reported (convert parse src cfg)).filter fun e => !isMisplaced e) := by
  obtain ⟨doc, es, hl, _, h2⟩ := Build.fromAst_cov src ast
  have ho : InSourceOrder (es.filter fun e => !isMisplaced e) := by
    have h2 : es.filter (fun e => !isMisplaced e) = _ := h2
    rw [h2]
    exact Grammar.Order.doc_in hg
  have hs : (reported (convert parse src cfg)).Sublist es := by
    by_cases hn : es = []
    · subst hn
      rw [convert_ok hp hl]
      split <;> exact .slnil
    · obtain ⟨e1, _, h3, _, h4⟩ := convert_bad hp hl hn cfg
      rw [h4]
      exact h3.sublist
  have hs := hs.filter fun e => !isMisplaced e
  exact ⟨fun e he => ho.1 e (hs.subset he), ho.2.sublist hs⟩

set_option maxRecDepth 20000 in
example : (reported (convert RepoTests.parser "</ \\q <( \\z [b <! c !> {".toList {})).filter (fun e => !isMisplaced e) =
    [⟨⟨0, 2⟩, .unclosed (.specialInline .emphasis)⟩, ⟨⟨3, 5⟩, .invalidEscape⟩, ⟨⟨6, 8⟩, .unclosed .inline⟩,
      ⟨⟨9, 11⟩, .invalidEscape⟩, ⟨⟨12, 13⟩, .unclosed .attributeList⟩, ⟨⟨23, 24⟩, .unclosed .block⟩] := by
  decide +kernel

set_option maxRecDepth 20000 in
/-- An error about a misplaced item in an inline element is reported twice. -/
theorem C81_twice : reported (convert RepoTests.parser "<(a {}b)>".toList {}) =
    [⟨⟨2, 6⟩, .misplacedItem (.mustNotPrecede .element [.text])⟩, ⟨⟨2, 6⟩, .misplacedItem (.mustNotPrecede .element [.text])⟩] := by
  decide +kernel

set_option maxRecDepth 20000 in
/-- An error about a misplaced item is reported after those that are in the item. -/
theorem C81_unordered : reported (convert RepoTests.parser "{ \\q } x".toList {}) =
    [⟨⟨2, 4⟩, .invalidEscape⟩, ⟨⟨0, 6⟩, .misplacedItem (.mustNotPrecede .element [.text])⟩] := by
  decide +kernel

end Mty
