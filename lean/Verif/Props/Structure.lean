import Verif.Proofs.Structure
import Verif.Proofs.Convert
import Verif.Proofs.PlainAst
import Verif.Props.Examples

/-!
# C55: the document has the structure of the source

The specification is in `Spec/Structure.lean`: `ContentIs src true s lines nodes` relates the lines of a syntax tree to the nodes of a
document.
-/

set_option autoImplicit false

namespace Mty
open Spec

/-- **C55.** If building the document reports no error, the document consists of what the lines of the source stand for: the same
elements with the same names, ids, classes and attributes, nested in the same way, with the same texts, in the same order. -/
theorem C55_structure (src : Str) (s t : Nat) (lines : List Ast.Line) (e : Errors) (doc : Document)
    (h : Build.fromAst src ⟨.mk s lines t⟩ e = (some doc, e)) :
    ContentIs src true s lines doc.nodes := by
  obtain ⟨doc', es, hl, hr⟩ := Structure.fromAst_structure src s t lines
  have hes : es = [] := by
    cases hf : e.failFast with
    | false =>
      rw [hl.slow e hf, Prod.mk.injEq] at h
      have := congrArg Errors.syntaxErrors h.2
      simpa [Errors.add] using this
    | true =>
      by_cases hn : es = []
      · exact hn
      · obtain ⟨es', _, _, h3⟩ := hl.fast hn e hf
        rw [h3] at h
        cases h
  rw [hl.fastOk hes e] at h
  cases h
  exact hr hes

/-- **C55, conversion.** What `convert` returns is the HTML of a document that has the structure of the source, after the
transformations (special tags, complete page, inference of names, metadata, language). -/
theorem C55_convert (parse : Parser) (src : Str) (cfg : OutputConfig) (out : Str) (h : convert parse src cfg = .ok out) :
    ∃ s lines t doc, parse src = .ok ⟨.mk s lines t⟩ ∧ ContentIs src true s lines doc.nodes ∧
      outputHtmlTo src (transformDocument doc src cfg) cfg = (out, true) := by
  cases hp : parse src with
  | error pe => rw [convert_parse_error hp] at h; cases h
  | ok ast =>
    obtain ⟨⟨s, lines, t⟩⟩ := ast
    obtain ⟨doc, es, hl, hr⟩ := Structure.fromAst_structure src s t lines
    by_cases hn : es = []
    · subst hn
      rw [convert_ok hp hl] at h
      refine ⟨s, lines, t, doc, rfl, hr rfl, ?_⟩
      rcases ho : outputHtmlTo src (transformDocument doc src cfg) cfg with ⟨o, _ | _⟩ <;> rw [ho] at h <;> cases h
      rfl
    · obtain ⟨es', _, _, _, h4⟩ := convert_bad hp hl hn cfg
      rw [h4] at h
      cases h

/-- **C55, quoted values.** In a tree of the grammar the value of an attribute in quotation marks is the text between them. -/
theorem C55_quoted (src : Str) (a : Ast.Attribute) (r : Range) (h : Grammar.attributeOk src a = true) (hv : a.value = some (.quoted r)) :
    ∃ before after q, q ∈ ['"', '\''] ∧ src = before ++ q :: (valueText src (.quoted r) ++ q :: after) := by
  simp only [Grammar.attributeOk, hv, Bool.and_eq_true] at h
  obtain ⟨q, hq, b, body, a, h1, h2⟩ := Grammar.reads_quoted h.2.1.2
  refine ⟨b, a, q, hq, ?_⟩
  have hb : byteLen [q] = 1 := by
    simp only [List.mem_cons, List.not_mem_nil, or_false] at hq
    rcases hq with rfl | rfl <;> decide
  have : valueText src (.quoted r) = body := by
    have := Grammar.slice_mid (b ++ [q]) body ([q] ++ a)
    rw [h1, h2, valueText]
    simp only [byteLen_append, hb] at this ⊢
    have hs : b ++ [q] ++ (body ++ ([q] ++ a)) = b ++ ([q] ++ (body ++ ([q] ++ a))) := by simp
    rw [hs] at this
    have he : byteLen b + (1 + (byteLen body + 1)) - 1 = byteLen b + 1 + byteLen body := by omega
    rw [he]
    exact this
  rw [this, h1]
  simp

/-! ## Examples -/

/-- `p#i.x.y[k="1<2" h]> ..`: the parts of the selector. -/
example : writtenName Ex.src16 ⟨0, .tag (some (.name ⟨0, 1⟩)) [.id ⟨1, 2⟩ ⟨2, 3⟩, .cls ⟨3, 4⟩ ⟨4, 5⟩, .cls ⟨5, 6⟩ ⟨6, 7⟩],
      [.attributes ⟨7, ⟨7, 8⟩, [⟨8, ⟨8, 9⟩, some (.quoted ⟨10, 15⟩), 15⟩, ⟨16, ⟨16, 17⟩, none, 17⟩], some ⟨17, 18⟩, 18⟩], 18⟩ = some "p".toList ∧
    writtenParts Ex.src16 ⟨0, .tag (some (.name ⟨0, 1⟩)) [.id ⟨1, 2⟩ ⟨2, 3⟩, .cls ⟨3, 4⟩ ⟨4, 5⟩, .cls ⟨5, 6⟩ ⟨6, 7⟩],
      [.attributes ⟨7, ⟨7, 8⟩, [⟨8, ⟨8, 9⟩, some (.quoted ⟨10, 15⟩), 15⟩, ⟨16, ⟨16, 17⟩, none, 17⟩], some ⟨17, 18⟩, 18⟩], 18⟩ =
      [.id "i".toList, .cls "x".toList, .cls "y".toList, .attribute "k".toList (some "1<2".toList), .attribute "h".toList none] := by
  decide +kernel

/-- Documents without errors: a paragraph with an inline element, blocks and lines, chains of selectors, tables. -/
example : [(Ex.src1, Ex.ast1), (Ex.src7, Ex.ast7), (Ex.src8, Ex.ast8), (Ex.src9, Ex.ast9), (Ex.src16, Ex.ast16)].all
    (fun p => (Build.fromAst p.1 p.2 (Errors.new {})).1.isSome && (Build.fromAst p.1 p.2 (Errors.new {})).2.isEmpty) = true := by decide +kernel

end Mty
