import Verif.Proofs.Usable
import Verif.Proofs.Parse
import Verif.Props.Output
import Verif.Props.Structure
import Verif.Props.RefParser

/-!
# C14–C16, C45, stated for sources

The conditions of `Props/Output.lean` on the document follow from conditions on the source (`Spec/Usable.lean`), for every tree of the
grammar: names of elements begin with a letter, names are written without escapes, there are no interpolations, and in HTML neither raw
texts nor `script` and `style`.
-/

set_option autoImplicit false

namespace Mty
open Spec

section
variable {alnum : Char → Bool} {parse : Parser} {src : Str} {ast : Ast.Document} {cfg : OutputConfig} {out : Str}

/-- The document that a successful conversion has built. -/
theorem convert_document (hp : parse src = .ok ast) (h : convert parse src cfg = .ok out) :
    ∃ s lines t doc, ast = ⟨.mk s lines t⟩ ∧ Build.fromAst src ast (Errors.new cfg) = (some doc, Errors.new cfg) ∧
      ContentIs src true s lines doc.nodes := by
  obtain ⟨⟨s, lines, t⟩⟩ := ast
  obtain ⟨doc, es, hl, hr⟩ := Structure.fromAst_structure src s t lines
  by_cases hn : es = []
  · exact ⟨s, lines, t, doc, rfl, hl.fastOk hn _, hr hn⟩
  · obtain ⟨es', _, _, _, h4⟩ := convert_bad hp hl hn cfg
    rw [h4] at h
    cases h

/-- **C16.** The output of a usable source, read as markup, gives the DOCTYPE if configured and then exactly what the document of the
source (C55) with the transformations (special tags, complete page, names, metadata, language) stands for. -/
theorem C16_source_partial (hp : parse src = .ok ast) (hg : Grammar.Conforms alnum src ast = true) (hu : Usable cfg.isXml src ast)
    (hc : SafeTags cfg.isXml cfg.specialTags) (hm : ∀ m, cfg.metadata = some m → m.elements = true → cfg.isXml = true)
    (hi : ∀ i, cfg.indent = some i → Blank i) (h : convert parse src cfg = .ok out) :
    ∃ s lines t doc toks b ws ws', ast = ⟨.mk s lines t⟩ ∧ ContentIs src true s lines doc.nodes ∧
      readMarkup cfg.isXml out =
        some ((if cfg.completePage.getD false then [.doctype "DOCTYPE html".toList, .char '\n'] else []) ++ (toks ++ b)) ∧
      ReadsAs cfg.isXml src cfg.indent false true (inner (transformDocument doc src cfg).nodes) toks ws ∧
      Gap cfg.indent false ws ws' b := by
  obtain ⟨s, lines, t, doc, rfl, h1, h2⟩ := convert_document hp h
  obtain ⟨toks, b, ws, ws', h3⟩ := C16_reads_back_partial hp h1 hc hm hi (Usable.usable_clean hg hu h2) h
  exact ⟨s, lines, t, doc, toks, b, ws, ws', rfl, h2, h3⟩

/-- **C14.** The XML output of a usable source is balanced. -/
theorem C14_source_partial (hx : cfg.xml = some true) (hp : parse src = .ok ast) (hg : Grammar.Conforms alnum src ast = true)
    (hu : Usable true src ast) (hc : SafeTags true cfg.specialTags) (hi : ∀ i, cfg.indent = some i → Blank i)
    (h : convert parse src cfg = .ok out) :
    ∃ toks, readMarkup true out =
        some ((if cfg.completePage.getD false then [.doctype "DOCTYPE html".toList, .char '\n'] else []) ++ toks) ∧
      Balanced (fun _ => false) toks := by
  obtain ⟨s, lines, t, doc, rfl, h1, h2⟩ := convert_document hp h
  exact C14_balanced_partial hx hp h1 hc hi (Usable.usable_clean hg hu h2) h

/-- **C15.** The HTML output of a usable source is balanced apart from void elements. -/
theorem C15_source_partial (hx : cfg.xml ≠ some true) (hp : parse src = .ok ast) (hg : Grammar.Conforms alnum src ast = true)
    (hu : Usable false src ast) (hc : SafeTags false cfg.specialTags) (hm : ∀ m, cfg.metadata = some m → m.elements = false)
    (hi : ∀ i, cfg.indent = some i → Blank i) (h : convert parse src cfg = .ok out) :
    ∃ toks, readMarkup false out =
        some ((if cfg.completePage.getD false then [.doctype "DOCTYPE html".toList, .char '\n'] else []) ++ toks) ∧
      Balanced (voidName false) toks := by
  obtain ⟨s, lines, t, doc, rfl, h1, h2⟩ := convert_document hp h
  exact C15_balanced_partial hx hp h1 hc hm hi (Usable.usable_clean hg hu h2) h

/-- **C45.** The start tags of the output of a usable source are those of the named elements of its document, each with the first id,
all classes in one attribute, and all attributes in order. -/
theorem C45_source_partial (hp : parse src = .ok ast) (hg : Grammar.Conforms alnum src ast = true) (hu : Usable cfg.isXml src ast)
    (hc : SafeTags cfg.isXml cfg.specialTags) (hm : ∀ m, cfg.metadata = some m → m.elements = true → cfg.isXml = true)
    (hi : ∀ i, cfg.indent = some i → Blank i) (h : convert parse src cfg = .ok out) :
    ∃ s lines t doc toks, ast = ⟨.mk s lines t⟩ ∧ ContentIs src true s lines doc.nodes ∧ readMarkup cfg.isXml out = some toks ∧
      List.Forall₂ (fun (s : TextSlice × List SelectorItem) (t : Str × List (Str × Option Str)) =>
        t.1 = s.1.asStr src ∧ AttrsRead cfg.isXml src s.2 t.2)
        (namedSelectors (transformDocument doc src cfg).nodes) (startTags toks) := by
  obtain ⟨s, lines, t, doc, rfl, h1, h2⟩ := convert_document hp h
  obtain ⟨toks, h3⟩ := C45_attributes_partial hp h1 hc hm hi (Usable.usable_clean hg hu h2) h
  exact ⟨s, lines, t, doc, toks, rfl, h2, h3⟩

end

/-! ## The hypotheses are met -/

/-- A check for `UsableNode`. -/
def usableB (xml : Bool) (src : Str) : Ast.Node → Bool
  | .mk sp _ _ ty => sp.all (fun r => !(r.slice src).contains '\r') &&
    match ty with
    | .selector s => (writtenName src s).all (fun n => n.head?.any (fun c => ('a' ≤ c && c ≤ 'z') || ('A' ≤ c && c ≤ 'Z')) &&
          !n.contains '\\' && (xml || (n != "script".toList && n != "style".toList))) &&
        (writtenParts src s).all fun
          | .attribute n _ => n.all fun c => c != '\\' && c != '<' && c != '&' && 32 ≤ c.toNat && c.toNat != 127
          | _ => true
    | .text (.interpolation _) => false
    | .text (.verbatim _ (some _) _) => xml
    | _ => true

theorem usableB_sound {xml : Bool} {src : Str} {n : Ast.Node} (h : usableB xml src n = true) : UsableNode xml src n := by
  obtain ⟨sp, a, b, ty⟩ := n
  simp only [usableB, Bool.and_eq_true] at h
  obtain ⟨h1, h2⟩ := h
  refine ⟨?_, ?_⟩
  · rintro r rfl
    simpa using h1
  · split at h2
    · simp only [Bool.and_eq_true, List.all_eq_true] at h2
      obtain ⟨h2, h3⟩ := h2
      refine ⟨fun n hn => ?_, fun n v hm => ?_⟩
      · rw [hn] at h2
        simp only [Option.all_some, Bool.and_eq_true] at h2
        obtain ⟨⟨h4, h5⟩, h6⟩ := h2
        refine ⟨?_, by simpa using h5, ?_⟩
        · cases n with
          | nil => simp at h4
          | cons c s => exact ⟨c, s, rfl, by simpa [isLetter] using h4⟩
        · rintro rfl
          simpa only [Bool.false_or, Bool.and_eq_true, bne_iff_ne] using h6
      · have := h3 _ hm
        intro c hc
        have := List.all_eq_true.1 this c hc
        simp only [Bool.and_eq_true, bne_iff_ne, decide_eq_true_eq] at this
        tauto
    · exact absurd h2 (by simp)
    · exact h2
    · rename_i h3 h4 h5
      split
      · exact absurd rfl (h3 _)
      · exact absurd rfl (h4 _)
      · exact absurd rfl (h5 _ _ _)
      · trivial

/-- A source with selectors, ids, classes, attributes, inline elements, special elements, code, comments and blocks. -/
def usableSource : Str :=
  "main#top.a[data-x=1 hidden] {\n h1> Title <! note !>\n\n Some <(a[href=\"/x?a&b\"]> link)> and </em/> `q`\n > item\n\n ```\n x < y\n ```\n}\n".toList

set_option maxRecDepth 30000 in
/-- It is a source for which the theorems above speak, for HTML and XML. -/
example : ∃ ast, Grammar.parse Char.isAlphanum usableSource = some ast ∧ Grammar.Conforms Char.isAlphanum usableSource ast = true ∧
    (∀ xml, Usable xml usableSource ast) ∧
    convert RepoTests.parser usableSource { xml := some true } = .ok ("<main id=\"top\" class=\"a\" data-x=\"1\" hidden=\"\"><h1>Title <!-- note --></h1> <p>Some <a href=\"/x?a&amp;b\">link</a> and <em>em</em> `q`</p> " ++
      "<p>item</p> <pre><code>x &lt; y</code></pre></main>").toList := by
  have hx : ∃ ast, Grammar.parse Char.isAlphanum usableSource = some ast ∧
      (allNodes ast).all (usableB true usableSource) = true ∧ (allNodes ast).all (usableB false usableSource) = true := by
    cases h : Grammar.parse Char.isAlphanum usableSource with
    | none => revert h; decide +kernel
    | some ast =>
      have h1 : (Grammar.parse Char.isAlphanum usableSource).all (fun ast => (allNodes ast).all (usableB true usableSource) &&
        (allNodes ast).all (usableB false usableSource)) = true := by decide +kernel
      rw [h] at h1
      simp only [Option.all_some, Bool.and_eq_true] at h1
      exact ⟨ast, rfl, h1⟩
  obtain ⟨ast, h1, h2, h3⟩ := hx
  refine ⟨ast, h1, Grammar.parse_conforms h1, fun xml n hn => ?_, by decide +kernel⟩
  cases xml with
  | true => exact usableB_sound (List.all_eq_true.1 h2 n hn)
  | false => exact usableB_sound (List.all_eq_true.1 h3 n hn)

end Mty
