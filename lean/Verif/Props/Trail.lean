import Verif.Proofs.Trail
import Verif.Props.Outline

/-!
# C92: what an element is depends only on the elements around it

Specification: `Spec/Trail.lean`.
-/

set_option autoImplicit false

namespace Mty
open Spec

/-- **C92, inference.** Take an element in one source and an element in another one, or in another place of the same, such that the elements
on the way to them are written in the same way, have the same written names, and are or are not first and last in the same places. Then they
and the elements on the way have the same names after inference. Nothing else counts: not what is in them or beside them, not their classes,
ids and attributes, not the configuration. -/
theorem C92_around (cfg1 cfg2 : OutputConfig) {src1 src2 : Str} {ast1 ast2 : Ast.Document} {doc1 doc2 : Document} {e1 e2 e1' e2' : Errors}
    (h1 : Build.fromAst src1 ast1 e1 = (some doc1, e1')) (h2 : Build.fromAst src2 ast2 e2 = (some doc2, e2')) (p1 p2 : List Nat)
    (h : trail p1 (forestOf src1 (toInfer cfg1 src1 doc1)) = trail p2 (forestOf src2 (toInfer cfg2 src2 doc2))) :
    trail p1 (forestOf src1 (Infer.infer src1 (toInfer cfg1 src1 doc1))) =
      trail p2 (forestOf src2 (Infer.infer src2 (toInfer cfg2 src2 doc2))) := by
  rw [C20_inference cfg1 h1, C20_inference cfg2 h2, trail_inferForest, trail_inferForest, h]

/-- The written document has the elements that inference gives it, if there are no metadata elements. -/
theorem trail_document (cfg : OutputConfig) (src : Str) (doc : Document) (hm : ∀ m, cfg.metadata = some m → m.elements = false) (p : List Nat) :
    trail p (forestOf src (transformDocument doc src cfg).nodes) = trail p (forestOf src (Infer.infer src (toInfer cfg src doc))) := by
  rw [transformDocument_eq]
  generalize Infer.infer src (toInfer cfg src doc) = ns
  have h1 : ∀ ns : List Node, trail p (forestOf src ((match cfg.metadata with | some m => (metaNodes m · true) | none => id) ns)) =
      trail p (forestOf src ns) := by
    intro ns
    cases h : cfg.metadata with
    | none => rfl
    | some m => exact trail_twin p (metas_twin src m (hm m h) ns true)
  cases h : cfg.lang with
  | none => exact h1 ns
  | some l => exact (trail_twin p (lang_twin src l _)).trans (h1 ns)

/-- **C20, converted document, any language and metadata.** The elements of the document that is written have the names of the tables, also with
`lang` and with metadata (but not with metadata elements). -/
theorem C20_written (cfg : OutputConfig) {src : Str} {ast : Ast.Document} {doc : Document} {e e' : Errors}
    (h : Build.fromAst src ast e = (some doc, e')) (hm : ∀ m, cfg.metadata = some m → m.elements = false) (p : List Nat) :
    trail p (forestOf src (transformDocument doc src cfg).nodes) =
      trail p (inferForest .section none none true (forestOf src (toInfer cfg src doc))) := by
  rw [trail_document cfg src doc hm, C20_inference cfg h]

/-- **C92, converted document.** The same for the documents that are written, with any language and any metadata except metadata elements, which
are additional elements. -/
theorem C92_document (cfg1 cfg2 : OutputConfig) {src1 src2 : Str} {ast1 ast2 : Ast.Document} {doc1 doc2 : Document} {e1 e2 e1' e2' : Errors}
    (h1 : Build.fromAst src1 ast1 e1 = (some doc1, e1')) (h2 : Build.fromAst src2 ast2 e2 = (some doc2, e2')) (p1 p2 : List Nat)
    (hm1 : ∀ m, cfg1.metadata = some m → m.elements = false) (hm2 : ∀ m, cfg2.metadata = some m → m.elements = false)
    (h : trail p1 (forestOf src1 (toInfer cfg1 src1 doc1)) = trail p2 (forestOf src2 (toInfer cfg2 src2 doc2))) :
    trail p1 (forestOf src1 (transformDocument doc1 src1 cfg1).nodes) =
      trail p2 (forestOf src2 (transformDocument doc2 src2 cfg2).nodes) := by
  rw [trail_document cfg1 src1 doc1 hm1, trail_document cfg2 src2 doc2 hm2]
  exact C92_around cfg1 cfg2 h1 h2 p1 p2 h

/-- **C92, nothing is added or removed.** Inference leads to an element where there was one before, and the elements on the way are written in
the same way, in the same places, and keep the names they have. -/
theorem C92_kept (cfg : OutputConfig) {src : Str} {ast : Ast.Document} {doc : Document} {e e' : Errors}
    (hb : Build.fromAst src ast e = (some doc, e')) (p : List Nat) :
    match trail p (forestOf src (toInfer cfg src doc)), trail p (forestOf src (Infer.infer src (toInfer cfg src doc))) with
    | none, none => True
    | some before, some after => List.Forall₂ (fun a b => b.form = a.form ∧ b.first = a.first ∧ b.last = a.last ∧
        (∀ n, a.name = some n → b.name = some n)) before after
    | _, _ => False := by
  rw [C20_inference cfg hb, trail_inferForest]
  cases trail p (forestOf src (toInfer cfg src doc)) with
  | none => trivial
  | some t =>
    simp only [Option.map_some]
    suffices ∀ (c : Context) (parent grand : Option Str), List.Forall₂ (fun a b : Seen => b.form = a.form ∧ b.first = a.first ∧
        b.last = a.last ∧ (∀ n, a.name = some n → b.name = some n)) t (nameTrail c parent grand t) from this _ _ _
    induction t with
    | nil => intro _ _ _; exact .nil
    | cons s ss ih =>
      intro c parent grand
      refine .cons ⟨rfl, rfl, rfl, fun n hn => ?_⟩ (ih _ _ _)
      simp [newName, hn]

/-! ## A case: the second of three cells, and the third of four in another table -/

namespace Ex.Trail
open Ex.Outline

def src1 : Str := "table { thead { { > a\n> b\n> c } }\n{ > d } }".toList
def src2 : Str := "table.k { thead#i { { [colspan=2]> <(em> x)> y\n <! n !>\n> q\n> b\n> } }\ncaption> t }".toList

set_option maxRecDepth 20000 in
theorem same : (match built src1, built src2 with
    | some d1, some d2 => decide ((trail [0, 0, 0, 2] (forestOf src1 (toInfer {} src1 d1))).isSome) &&
        decide (trail [0, 0, 0, 2] (forestOf src1 (toInfer {} src1 d1)) = trail [0, 0, 0, 4] (forestOf src2 (toInfer {} src2 d2)))
    | _, _ => false) = true := by decide +kernel

/-- All hypotheses of `C92_around` are met, with an element. -/
example : ∃ (a1 a2 : Ast.Document) (e1 e2 : Errors) (d1 d2 : Document),
    Build.fromAst src1 a1 (Errors.new {}) = (some d1, e1) ∧ Build.fromAst src2 a2 (Errors.new {}) = (some d2, e2) ∧
    (trail [0, 0, 0, 2] (forestOf src1 (toInfer {} src1 d1))).isSome ∧
    trail [0, 0, 0, 2] (forestOf src1 (toInfer {} src1 d1)) = trail [0, 0, 0, 4] (forestOf src2 (toInfer {} src2 d2)) := by
  have h := same
  have main : ∀ s d, built s = some d → ∃ a e, Build.fromAst s a (Errors.new {}) = (some d, e) := by
    intro s d hd
    unfold built at hd
    split at hd
    · rename_i a _
      exact ⟨a, _, Prod.ext hd rfl⟩
    · cases hd
  split at h
  · rename_i d1 d2 k1 k2
    simp only [Bool.and_eq_true, decide_eq_true_eq] at h
    obtain ⟨a1, e1, q1⟩ := main _ _ k1
    obtain ⟨a2, e2, q2⟩ := main _ _ k2
    exact ⟨a1, a2, e1, e2, d1, d2, q1, q2, h.1, h.2⟩
  · cases h

set_option maxRecDepth 20000 in
/-- Both become header cells. -/
example : convert RepoTests.parser src1 {} =
      .ok "<table><thead><tr><th>a</th> <th>b</th> <th>c</th></tr></thead> <tr><td>d</td></tr></table>".toList ∧
    convert RepoTests.parser src2 {} =
      .ok ("<table class=\"k\"><thead id=\"i\"><tr><th colspan=\"2\"><em>x</em> y <!-- n --></th> <th>q</th> <th>b</th> <th></th></tr>" ++
        "</thead> <caption>t</caption></table>").toList := by
  decide +kernel

set_option maxRecDepth 20000 in
/-- With a language and metadata (`C20_written`, `C92_document`). -/
example : convert RepoTests.parser "ul { > a }".toList { lang := some "en".toList, metadata := some {} } =
    .ok ("<ul xmlns:mty=\"tag:youngspe.github.io,2024:mintyml/metadata\" mty:start=\"0\" mty:end=\"10\" mty:content-start=\"5\"" ++
      " mty:content-end=\"9\" lang=\"en\"><li mty:start=\"5\" mty:end=\"8\" mty:content-start=\"6\" mty:content-end=\"8\">a</li></ul>").toList := by
  decide +kernel

end Ex.Trail
end Mty
