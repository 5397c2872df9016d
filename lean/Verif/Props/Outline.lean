import Verif.Proofs.Outline
import Verif.Props.PartsErrors

/-!
# C89: comments and white space do not change what an element is

Specification: `Spec/Outline.lean`. The property as a whole is not true of the code: a comment before the first element of `details` or
`fieldset` (`C89_comment_first`) and a line break before the closing brace of `picture` (`C89_line_break_last`) change the names that are
inferred.
-/

set_option autoImplicit false

namespace Mty
open Spec

/-- **C89, partial.** If two sources have the same elements, written in the same way and with the same written names, then they have the same
elements with the same names after inference, whatever comments and white space are between them.

Missing: sources in which a comment or white space is in the first place of `details`, `fieldset` or `html` with an element after it, or in
the last place of `picture` with an element before it, for which it is false. -/
theorem C89_names_partial (cfg : OutputConfig) {src1 src2 : Str} {ast1 ast2 : Ast.Document} {doc1 doc2 : Document} {e1 e2 e1' e2' : Errors}
    (h1 : Build.fromAst src1 ast1 e1 = (some doc1, e1')) (h2 : Build.fromAst src2 ast2 e2 = (some doc2, e2'))
    (hs : outline (forestOf src1 (toInfer cfg src1 doc1)) = outline (forestOf src2 (toInfer cfg src2 doc2)))
    (hp1 : ∀ t ∈ forestOf src1 (toInfer cfg src1 doc1), Placed t) (hp2 : ∀ t ∈ forestOf src2 (toInfer cfg src2 doc2), Placed t) :
    outline (forestOf src1 (Infer.infer src1 (toInfer cfg src1 doc1))) =
      outline (forestOf src2 (Infer.infer src2 (toInfer cfg src2 doc2))) := by
  have no : ∀ ts, FirstOk .section true true ts := fun ts h => by simp [firstCounts] at h
  rw [C20_inference cfg h1, C20_inference cfg h2, outline_inferForest _ _ _ true true _ hp1 (no _) (by simp),
    outline_inferForest _ _ _ true true _ hp2 (no _) (by simp), hs]

/-! ## A case: a comment, blank lines and line breaks in lists and `details` -/

namespace Ex.Outline

def src1 : Str := "ul {\n a\n\n > b }\ndetails { x\n\n y }".toList
def src2 : Str := "ul {\n\n <! c !>\n\n a <! d !>\n\n\n\n > b\n}\n\n<! e !>\n\ndetails {\n x\n\n <! f !>\n\n\n y\n}\n".toList

/-- The document that is built, and the tree before and after inference. -/
def built (src : Str) : Option Document :=
  match Grammar.parse Char.isAlphanum src with
  | some d => (Build.fromAst src d (Errors.new {})).1
  | none => none

set_option maxRecDepth 20000 in
theorem same : (match built src1, built src2 with
    | some d1, some d2 => sameOutlines (outline (forestOf src1 (toInfer {} src1 d1))) (outline (forestOf src2 (toInfer {} src2 d2))) &&
        placedAllB (forestOf src1 (toInfer {} src1 d1)) && placedAllB (forestOf src2 (toInfer {} src2 d2))
    | _, _ => false) = true := by decide +kernel

/-- All hypotheses of `C89_names_partial` are met. -/
example : ∃ (a1 a2 : Ast.Document) (e1 e2 : Errors) (d1 d2 : Document),
    Build.fromAst src1 a1 (Errors.new {}) = (some d1, e1) ∧ Build.fromAst src2 a2 (Errors.new {}) = (some d2, e2) ∧
    outline (forestOf src1 (toInfer {} src1 d1)) = outline (forestOf src2 (toInfer {} src2 d2)) ∧
    (∀ t ∈ forestOf src1 (toInfer {} src1 d1), Placed t) ∧ (∀ t ∈ forestOf src2 (toInfer {} src2 d2), Placed t) := by
  have h := same
  have main : ∀ s d, built s = some d → ∃ a e, Build.fromAst s a (Errors.new {}) = (some d, e) := by
    intro s d hd
    unfold built at hd
    split at hd
    · rename_i a _
      exact ⟨a, _, Prod.ext hd rfl⟩
    · cases hd
  split at h
  · rename_i d1 d2 k1 k2
    simp only [Bool.and_eq_true] at h
    obtain ⟨a1, e1, q1⟩ := main _ _ k1
    obtain ⟨a2, e2, q2⟩ := main _ _ k2
    exact ⟨a1, a2, e1, e2, d1, d2, q1, q2, sameOutlines_sound h.1.1, placedAllB_sound h.1.2, placedAllB_sound h.2⟩
  · cases h

set_option maxRecDepth 20000 in
example : convert RepoTests.parser src1 {} =
      .ok "<ul><li>a</li> <li>b</li></ul> <details><summary>x</summary> <p>y</p></details>".toList ∧
    convert RepoTests.parser src2 {} =
      .ok "<ul><!-- c --> <li>a <!-- d --></li> <li>b</li></ul> <!-- e --> <details><summary>x</summary> <!-- f --> <p>y</p></details>".toList := by
  decide +kernel

end Ex.Outline

/-! ## Places that comments and white space take -/

set_option maxRecDepth 20000 in
/-- **C89 is false after a comment.** With a comment at the beginning of `details`, its first paragraph is not its summary any more. -/
theorem C89_comment_first :
    convert RepoTests.parser "details {\n x\n\n y\n}".toList {} = .ok "<details><summary>x</summary> <p>y</p></details>".toList ∧
    convert RepoTests.parser "details {\n <! c !>\n\n x\n\n y\n}".toList {} =
      .ok "<details><!-- c --> <p>x</p> <p>y</p></details>".toList := by
  decide +kernel

set_option maxRecDepth 20000 in
/-- **C89 is false before a closing brace.** If the closing brace of `picture` is in a line of its own, the last line in it is not an image
but one more source. -/
theorem C89_line_break_last :
    convert RepoTests.parser "picture {\n [srcset=a]>\n [src=b]> }".toList {} =
      .ok "<picture><source srcset=\"a\"> <img src=\"b\"></picture>".toList ∧
    convert RepoTests.parser "picture {\n [srcset=a]>\n [src=b]>\n}".toList {} =
      .ok "<picture><source srcset=\"a\"> <source src=\"b\"></picture>".toList := by
  decide +kernel

end Mty
