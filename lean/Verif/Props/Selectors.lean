import Verif.Proofs.Selectors
import Verif.Proofs.Parse
import Verif.Props.Pieces
import Verif.Props.Source

/-!
# C45: from the selectors of the source to the start tags of the output
-/

set_option autoImplicit false

namespace Mty
open Spec

/-- **C45.** The start tags of the output, for every source: each selector written in the source that has an element (one at the end of a
line has none) has exactly one element in the output, in the same order, with its name, or one that was filled in, and exactly its ids,
classes and attributes; other elements (paragraphs, special elements) have none. The start tag of each element that has a name is found in
the output, in order and without overlap, and carries the first id, all classes in one attribute and all attributes in order. Nothing is
assumed about names. (For completed pages, `lang` and metadata, which add attributes, see `C45_tags`, C25, C27 and C28. Lines with an
ignored end are the defect of C11.) -/
theorem C45_source {parse : Parser} {src : Str} {ast : Ast.Document} {cfg : OutputConfig} {out : Str}
    (hp : parse src = .ok ast) (hall : NothingIgnored ast) (hc : cfg.completePage.getD false = false) (hm : cfg.metadata = none)
    (hl : cfg.lang = none) (h : convert parse src cfg = .ok out) :
    ∃ elements tags, Carried (sourceSelectors src ast) elements ∧
      List.Forall₂ (StartTag cfg.isXml) (named elements) tags ∧ Contains tags out := by
  obtain ⟨s, lines, t, doc, rfl, h1, h2⟩ := convert_document hp h
  obtain ⟨tags, h3, h4⟩ := C45_tags hp h1 h
  refine ⟨(nodesSelectors (transformDocument doc src cfg).nodes).map (sigOf src), tags, ?_, ?_, h4⟩
  · have hk := C18_kept cfg h1
    have ht : (transformDocument doc src cfg).nodes = Infer.infer src (toInfer cfg src doc) := by
      rw [transformDocument_eq, hm, hl]; rfl
    rw [← ht, toInfer, if_neg (by simp [hc])] at hk
    have := Selectors.nodes_carried (src := src) cfg.specialTags (fromAst_fresh h1) hk
    rw [show Selectors.said _ = Selectors.dsigs src doc.nodes from rfl, Selectors.content_sigs h2 hall] at this
    exact this
  · have key : ∀ (l : List Selector) (tags : List Str),
        List.Forall₂ (TagWritten cfg.isXml src) (l.filterMap fun s => s.tag.name.map fun n => (n, s.items)) tags →
        List.Forall₂ (StartTag cfg.isXml) (named (l.map (sigOf src))) tags := by
      intro l
      induction l with
      | nil => intro tags h; cases h; exact .nil
      | cons x l ih =>
        intro tags h
        cases hx : x.tag.name with
        | none =>
          rw [List.filterMap_cons_none (by simp [hx])] at h
          have := ih tags h
          simpa [named, sigOf, hx] using this
        | some n =>
          rw [List.filterMap_cons_some (b := (n, x.items)) (by simp [hx])] at h
          cases h with
          | @cons _ tag _ tags' g1 g2 =>
            have := ih tags' g2
            have e : named ((x :: l).map (sigOf src)) = (n.asStr src, documentParts src x.items) :: named (l.map (sigOf src)) := by
              simp [named, sigOf, hx]
            rw [e]
            refine .cons ?_ this
            obtain ⟨attrs, ws, close, a1, a2, a3, a4⟩ := g1
            exact ⟨attrs, ws, close, Selectors.partsRead_of a1, a2, a3, a4⟩
    exact key _ _ h3

mutual
  /-- A check for `TypeAll`. -/
  def typeAllB : Ast.NodeType → Bool
    | .block _ (.mk _ lines _) _ => linesAllB lines
    | .inline _ inner _ => (ignored inner).isEmpty && nodesAllB inner
    | .special _ _ (.mk _ lines _) _ => linesAllB lines
    | _ => true
  def nodesAllB : List Ast.Node → Bool
    | [] => true
    | .mk _ _ _ ty :: ns => typeAllB ty && nodesAllB ns
  def linesAllB : List Ast.Line → Bool
    | [] => true
    | .mk _ nodes _ :: ls => ((ignored nodes).isEmpty && nodesAllB nodes) && linesAllB ls
end

mutual
  theorem typeAllB_sound : ∀ ty : Ast.NodeType, typeAllB ty = true → TypeAll ty
    | .block _ (.mk _ lines _) _, h => by
      rw [TypeAll]; exact linesAllB_sound lines (by simpa [typeAllB] using h)
    | .inline _ inner _, h => by
      rw [TypeAll]
      simp only [typeAllB, Bool.and_eq_true, List.isEmpty_iff] at h
      exact ⟨h.1, nodesAllB_sound inner h.2⟩
    | .special _ _ (.mk _ lines _) _, h => by
      rw [TypeAll]; exact linesAllB_sound lines (by simpa [typeAllB] using h)
    | .multiline .., _ => by simp [TypeAll]
    | .text _, _ => by simp [TypeAll]
    | .selector _, _ => by simp [TypeAll]
    | .line _, _ => by simp [TypeAll]
    | .code _, _ => by simp [TypeAll]
  theorem nodesAllB_sound : ∀ ns : List Ast.Node, nodesAllB ns = true → NodesAll ns
    | [], _ => trivial
    | .mk _ _ _ ty :: ns, h => by
      simp only [nodesAllB, Bool.and_eq_true] at h
      exact ⟨typeAllB_sound ty h.1, nodesAllB_sound ns h.2⟩
  theorem linesAllB_sound : ∀ ls : List Ast.Line, linesAllB ls = true → LinesAll ls
    | [], _ => trivial
    | .mk _ nodes _ :: ls, h => by
      simp only [linesAllB, Bool.and_eq_true, List.isEmpty_iff] at h
      exact ⟨⟨h.1.1, nodesAllB_sound nodes h.1.2⟩, linesAllB_sound ls h.2⟩
end

/-- The lines of a document. -/
def linesOf : Ast.Document → List Ast.Line
  | ⟨.mk _ lines _⟩ => lines

/-- A source with selectors in blocks, chains, lines, inline elements and paragraphs; the last one has no element. -/
def selectorSource : Str := "ul#l.a.b { > x\n.c > <(#i[href=\"u\\\"v\"]> y)> z }\n\n*> w\n\nq[k]".toList

set_option maxRecDepth 20000 in
/-- The hypotheses are met. -/
example : ∃ ast, Grammar.parse Char.isAlphanum selectorSource = some ast ∧ RepoTests.parser selectorSource = .ok ast ∧ NothingIgnored ast ∧
    sourceSelectors selectorSource ast = [(some "ul".toList, [.id "l".toList, .cls "a".toList, .cls "b".toList]),
      (none, [.cls "c".toList]), (none, [.id "i".toList, .attribute "href".toList (some "u\\\"v".toList)])] ∧
    convert RepoTests.parser selectorSource {} =
      .ok "<ul id=\"l\" class=\"a b\"><li>x</li> <li class=\"c\"><span id=\"i\" href=\"u&quot;v\">y</span> z</li></ul> <p>w</p>".toList := by
  cases h : Grammar.parse Char.isAlphanum selectorSource with
  | none => exact absurd h (by decide +kernel)
  | some ast =>
    have h1 : (Grammar.parse Char.isAlphanum selectorSource).all (fun ast => linesAllB (linesOf ast) &&
        decide (sourceSelectors selectorSource ast = [(some "ul".toList, [.id "l".toList, .cls "a".toList, .cls "b".toList]),
      (none, [.cls "c".toList]), (none, [.id "i".toList, .attribute "href".toList (some "u\\\"v".toList)])])) = true := by decide +kernel
    rw [h] at h1
    simp only [Option.all_some, Bool.and_eq_true, decide_eq_true_eq] at h1
    refine ⟨ast, rfl, by rw [RepoTests.parser, h], ?_, h1.2, by decide +kernel⟩
    obtain ⟨⟨s, lines, t⟩⟩ := ast
    exact linesAllB_sound lines h1.1

end Mty
