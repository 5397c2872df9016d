import Verif.Proofs.Clean
import Verif.Proofs.Convert
import Verif.Props.Examples

/-!
# C14–C16, C36, C45: reading the output

`readMarkup` (`Spec/Markup.lean`) is a small strict reader for markup, `ReadsAs` says which tokens
a document stands for.
-/

set_option autoImplicit false

namespace Mty
open Spec

section
variable {parse : Parser} {src : Str} {ast : Ast.Document} {doc : Document} {e : Errors} {cfg : OutputConfig} {out : Str}

/-- What a successful conversion has written. -/
theorem convert_out (hp : parse src = .ok ast) (hd : Build.fromAst src ast (Errors.new cfg) = (some doc, e))
    (h : convert parse src cfg = .ok out) : outputHtmlTo src (transformDocument doc src cfg) cfg = (out, true) := by
  have hpd : Build.parseDocument parse src (Errors.new cfg) = (some doc, e) := by
    simp only [Build.parseDocument, hp]; exact hd
  unfold convert convertToInternal at h
  rw [hpd] at h
  dsimp only at h
  cases hb : (e.isEmpty || false) with
  | false =>
    rw [hb] at h
    obtain ⟨doc', es, hl, _⟩ := build_cases src ast
    by_cases hn : es = []
    · subst hn
      rw [hl.fastOk rfl] at hd
      cases hd
      simp [Errors.isEmpty, Errors.new, Errors.count] at hb
    · cases hf : (Errors.new cfg).failFast with
      | true =>
        obtain ⟨_, _, _, h'⟩ := hl.fast hn (Errors.new cfg) hf
        rw [h'] at hd; cases hd
      | false =>
        have : Build.fromAst src ast (Errors.new cfg) = (some doc', (Errors.new cfg).add es) := hl.slow _ hf
        rw [this] at hd
        cases hd
        rw [toConvertError_add cfg src hn] at h
        simp at h
  | true =>
    rw [hb] at h
    simp only [if_true] at h
    rcases ho : outputHtmlTo src (transformDocument doc src cfg) cfg with ⟨o, ok⟩
    rw [ho] at h
    cases ok with
    | true =>
      dsimp only at h
      cases hr : e.toConvertError src with
      | ok => rw [hr] at h; cases h; rfl
      | error => rw [hr] at h; cases h
    | false =>
      dsimp only at h
      simp only [Bool.or_false] at hb
      exfalso
      obtain ⟨doc', es, hl, _⟩ := build_cases src ast
      have he : e = Errors.new cfg := by
        by_cases hn : es = []
        · subst hn
          rw [hl.fastOk rfl] at hd
          cases hd; rfl
        · cases hf : (Errors.new cfg).failFast with
          | true =>
            obtain ⟨_, _, _, h'⟩ := hl.fast hn (Errors.new cfg) hf
            rw [h'] at hd; cases hd
          | false =>
            have : Build.fromAst src ast (Errors.new cfg) = (some doc', (Errors.new cfg).add es) := hl.slow _ hf
            rw [this] at hd
            cases hd
            cases es with
            | nil => exact absurd rfl hn
            | cons a l => simp [Errors.isEmpty, Errors.count, Errors.add] at hb
      subst he
      rw [toConvertError_unknown_nil] at h
      cases h

/-! ## C16 -/

/-- **C16.** A successful conversion of a document without raw parts and with usable names, read as
markup, gives the DOCTYPE if configured and then exactly what the converted document stands for:
the same elements with the same attributes, the same characters and comments, in the same order.
White space is added or dropped only next to other white space, at the beginning and end of elements
(`inner`) and where indentation is enabled. -/
theorem C16_reads_back_partial (hp : parse src = .ok ast) (hd : Build.fromAst src ast (Errors.new cfg) = (some doc, e))
    (hc : SafeTags cfg.isXml cfg.specialTags) (hm : ∀ m, cfg.metadata = some m → m.elements = true → cfg.isXml = true)
    (hi : ∀ i, cfg.indent = some i → Blank i) (hcl : ∀ t ∈ forestOf src doc.nodes, Clean cfg.isXml src false t)
    (h : convert parse src cfg = .ok out) :
    ∃ toks b ws ws', readMarkup cfg.isXml out =
        some ((if cfg.completePage.getD false then [.doctype "DOCTYPE html".toList, .char '\n'] else []) ++ (toks ++ b)) ∧
      ReadsAs cfg.isXml src cfg.indent false true (inner (transformDocument doc src cfg).nodes) toks ws ∧
      Gap cfg.indent false ws ws' b := by
  have ho := convert_out hp hd h
  have := document_reads (doc := transformDocument doc src cfg) hi (transform_readable hd hc hm hcl) (by rw [ho])
  rw [ho] at this
  exact this

/-- **C14, C15.** The same tokens without the DOCTYPE are properly nested; in HTML the void elements have
no end tag. -/
theorem output_balanced (hp : parse src = .ok ast) (hd : Build.fromAst src ast (Errors.new cfg) = (some doc, e))
    (hc : SafeTags cfg.isXml cfg.specialTags) (hm : ∀ m, cfg.metadata = some m → m.elements = true → cfg.isXml = true)
    (hi : ∀ i, cfg.indent = some i → Blank i) (hcl : ∀ t ∈ forestOf src doc.nodes, Clean cfg.isXml src false t)
    (h : convert parse src cfg = .ok out) :
    ∃ toks, readMarkup cfg.isXml out =
        some ((if cfg.completePage.getD false then [.doctype "DOCTYPE html".toList, .char '\n'] else []) ++ toks) ∧
      Balanced (voidName cfg.isXml) toks := by
  obtain ⟨toks, b, ws, ws', h1, h2, h3⟩ := C16_reads_back_partial hp hd hc hm hi hcl h
  exact ⟨toks ++ b, h1, balanced_append (readsAs_balanced h2) (gap_balanced h3)⟩

/-- **C14.** XML output is balanced: every start tag is closed by its end tag. -/
theorem C14_balanced_partial (hx : cfg.xml = some true) (hp : parse src = .ok ast)
    (hd : Build.fromAst src ast (Errors.new cfg) = (some doc, e)) (hc : SafeTags true cfg.specialTags)
    (hi : ∀ i, cfg.indent = some i → Blank i) (hcl : ∀ t ∈ forestOf src doc.nodes, Clean true src false t)
    (h : convert parse src cfg = .ok out) :
    ∃ toks, readMarkup true out =
        some ((if cfg.completePage.getD false then [.doctype "DOCTYPE html".toList, .char '\n'] else []) ++ toks) ∧
      Balanced (fun _ => false) toks := by
  have hx' : cfg.isXml = true := by simp [OutputConfig.isXml, hx]
  have := output_balanced hp hd (by rw [hx']; exact hc) (fun _ _ _ => hx') hi (by rw [hx']; exact hcl) h
  rw [hx'] at this
  have hv : voidName true = fun _ => false := by funext n; simp [voidName]
  rw [hv] at this
  exact this

/-- **C15.** HTML output is balanced apart from void elements, which have no end tag. -/
theorem C15_balanced_partial (hx : cfg.xml ≠ some true) (hp : parse src = .ok ast)
    (hd : Build.fromAst src ast (Errors.new cfg) = (some doc, e)) (hc : SafeTags false cfg.specialTags)
    (hm : ∀ m, cfg.metadata = some m → m.elements = false)
    (hi : ∀ i, cfg.indent = some i → Blank i) (hcl : ∀ t ∈ forestOf src doc.nodes, Clean false src false t)
    (h : convert parse src cfg = .ok out) :
    ∃ toks, readMarkup false out =
        some ((if cfg.completePage.getD false then [.doctype "DOCTYPE html".toList, .char '\n'] else []) ++ toks) ∧
      Balanced (voidName false) toks := by
  have hx' : cfg.isXml = false := by simp [OutputConfig.isXml, hx]
  have := output_balanced hp hd (by rw [hx']; exact hc) (fun m h1 h2 => by rw [hm m h1] at h2; cases h2) hi
    (by rw [hx']; exact hcl) h
  rw [hx'] at this
  exact this

/-- **C45.** The start tags of the output are, in order, those of the named elements of the converted
document, each with the first id, all classes in one attribute, and all attributes in order. -/
theorem C45_attributes_partial (hp : parse src = .ok ast) (hd : Build.fromAst src ast (Errors.new cfg) = (some doc, e))
    (hc : SafeTags cfg.isXml cfg.specialTags) (hm : ∀ m, cfg.metadata = some m → m.elements = true → cfg.isXml = true)
    (hi : ∀ i, cfg.indent = some i → Blank i) (hcl : ∀ t ∈ forestOf src doc.nodes, Clean cfg.isXml src false t)
    (h : convert parse src cfg = .ok out) :
    ∃ toks, readMarkup cfg.isXml out = some toks ∧
      List.Forall₂ (fun (s : TextSlice × List SelectorItem) (t : Str × List (Str × Option Str)) =>
        t.1 = s.1.asStr src ∧ AttrsRead cfg.isXml src s.2 t.2)
        (namedSelectors (transformDocument doc src cfg).nodes) (startTags toks) := by
  obtain ⟨toks, b, ws, ws', h1, h2, h3⟩ := C16_reads_back_partial hp hd hc hm hi hcl h
  refine ⟨_, h1, ?_⟩
  have := readsAs_tags h2
  rw [namedSelectors_inner] at this
  rw [startTags_append, startTags_append, gap_startTags h3, List.append_nil]
  have e0 : startTags (if cfg.completePage.getD false then [.doctype "DOCTYPE html".toList, .char '\n'] else []) = [] := by
    split <;> rfl
  rw [e0]
  exact this

/-- **C36, C24.** There is a DOCTYPE in the output exactly if pages are completed, and then it comes first. -/
theorem C36_doctype (hp : parse src = .ok ast) (hd : Build.fromAst src ast (Errors.new cfg) = (some doc, e))
    (hc : SafeTags cfg.isXml cfg.specialTags) (hm : ∀ m, cfg.metadata = some m → m.elements = true → cfg.isXml = true)
    (hi : ∀ i, cfg.indent = some i → Blank i) (hcl : ∀ t ∈ forestOf src doc.nodes, Clean cfg.isXml src false t)
    (h : convert parse src cfg = .ok out) :
    ∃ toks, readMarkup cfg.isXml out = some toks ∧
      (cfg.completePage = some true → toks.head? = some (.doctype "DOCTYPE html".toList)) ∧
      (cfg.completePage ≠ some true → ∀ t, Token.doctype t ∉ toks) := by
  obtain ⟨toks, h1, h2⟩ := output_balanced hp hd hc hm hi hcl h
  refine ⟨_, h1, fun hp => by simp [hp], fun hp t => ?_⟩
  have hp' : cfg.completePage.getD false = false := by
    cases hq : cfg.completePage with
    | none => rfl
    | some b => cases b <;> simp_all
  rw [hp']
  simp only [Bool.false_eq_true, if_false, List.nil_append]
  clear h1
  induction h2 with
  | nil => simp
  | char _ ih => simpa using ih
  | comment _ ih => simpa using ih
  | empty _ ih => simpa using ih
  | void _ _ ih => simpa using ih
  | pair _ _ _ ih1 ih2 => simp [ih1, ih2]

/-! ## The hypotheses are met -/

set_option maxRecDepth 20000 in
/-- A document with an id, classes, attributes, a character reference, a comment and nested elements meets
the hypotheses of C14, C16, C36 and C45, also with indentation and a completed page. -/
example : convert (Ex.parser Ex.ast16) Ex.src16
    { xml := some true, indent := some "  ".toList, completePage := some true } =
      .ok ("<!DOCTYPE html>\n<html>\n<head/>\n<body>\n  <p id=\"i\" class=\"x y\" k=\"1&lt;2\" h=\"\">" ++
        "a &amp; b <!--c--> <em>d</em></p>\n</body>\n</html>\n").toList ∧
    (∃ doc e, Build.fromAst Ex.src16 Ex.ast16 { failFast := false } = (some doc, e) ∧
      (∀ t ∈ forestOf Ex.src16 doc.nodes, Clean true Ex.src16 false t) ∧
      (∀ t ∈ forestOf Ex.src16 doc.nodes, Clean false Ex.src16 false t)) ∧
    SafeTags true {} ∧ SafeTags false {} ∧ Blank "  ".toList := by
  refine ⟨by decide +kernel, ⟨_, _, rfl, cleansB_sound ?_, cleansB_sound ?_⟩, ?_, ?_, ?_⟩
  · decide +kernel
  · decide +kernel
  · intro k; cases k <;> exact .inr ⟨safeName_of_check (by decide), rfl⟩
  · intro k; cases k <;> exact .inr ⟨safeName_of_check (by decide), rfl⟩
  · intro c hc; simp at hc; subst hc; decide

set_option maxRecDepth 20000 in
/-- The same for C15, with void elements. -/
example : convert (Ex.parser Ex.ast21) Ex.src21 {} = .ok "<br>a <img>b".toList ∧
    ∃ doc e, Build.fromAst Ex.src21 Ex.ast21 { failFast := false } = (some doc, e) ∧
      (∀ t ∈ forestOf Ex.src21 doc.nodes, Clean false Ex.src21 false t) := by
  refine ⟨by decide +kernel, _, _, rfl, cleansB_sound ?_⟩
  decide +kernel

/-! ## Where the claims fail for the code -/

set_option maxRecDepth 20000 in
/-- **C14, C16 fail for the code** if escapes are used in names of attributes: `p[x\>y]> a`. -/
theorem C14_attribute_name :
    convert (Ex.parser Ex.ast17) Ex.src17 { xml := some true } = .ok "<p x>y=\"\">a</p>".toList ∧
    readMarkup true "<p x>y=\"\">a</p>".toList = none := by
  constructor <;> decide +kernel

set_option maxRecDepth 20000 in
/-- **C14, C16 fail for the code** if the name of an element begins with `-`: `-x> a`. -/
theorem C14_element_name :
    convert (Ex.parser Ex.ast18) Ex.src18 { xml := some true } = .ok "<-x>a</-x>".toList ∧
    readMarkup true "<-x>a</-x>".toList = none := by
  constructor <;> decide +kernel

set_option maxRecDepth 20000 in
/-- Balanced output need not be well-formed XML: white space that XML does not allow is copied (U+000B
between words). -/
theorem C14_control_character :
    convert (Ex.parser Ex.ast19) Ex.src19 { xml := some true } = .ok "<p>a\x0b<b>c</b></p>".toList ∧
    XmlChar 0x0b = false := by
  constructor <;> decide +kernel

set_option maxRecDepth 20000 in
/-- Balanced output need not be well-formed XML: attributes written twice are written twice. -/
theorem C14_duplicate_attribute :
    convert (Ex.parser Ex.ast20) Ex.src20 { xml := some true } = .ok "<p a=\"1\" a=\"2\">x</p>".toList ∧
    (readMarkup true "<p a=\"1\" a=\"2\">x</p>".toList).map startTags =
      some [("p".toList, [("a".toList, some "1".toList), ("a".toList, some "2".toList)])] := by
  constructor <;> decide +kernel

end
end Mty
