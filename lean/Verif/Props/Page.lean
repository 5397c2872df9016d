import Verif.Proofs.Page
import Verif.Props.RefParser

/-!
# C67: completing a page puts the output into a page

`Spec.pageAround` is the page that is to be written around the output.
-/

set_option autoImplicit false

namespace Mty
open Spec

variable {parse : Parser} {src : Str} {ast : Ast.Document} {doc : Document} {e : Errors} {cfg : OutputConfig}

/-- **C67.** Without indentation and metadata of ranges, and with no element of a page at top level (`html`,
`head`, `body` or one for metadata), completing the page writes the same output, unchanged, into the `body` of a
page, with the language on its `html` element; and it fails exactly when the conversion fails without it, with
the same error. -/
theorem C67_page (hp : parse src = .ok ast) (hd : Build.fromAst src ast (Errors.new cfg) = (some doc, e))
    (hi : cfg.indent = none) (hm : cfg.metadata = none) (hl : ∀ l, cfg.lang = some l → LangCode l)
    (hs : ∀ k, configuredTag cfg.specialTags k ≠ [])
    (hn : ∀ n ∈ (applySpecialTags cfg doc).nodes, isNamed src (["html", "head", "body"] ++ headContentNames) n = false) :
    convert parse src { cfg with completePage := some true } =
      (convert parse src { cfg with completePage := none, lang := none }).map
        (pageAround cfg.isXml doc.nodes.isEmpty cfg.lang) := by
  obtain ⟨doc', es, hlg, hw⟩ := build_cases src ast
  by_cases he : es = []
  case neg =>
    rw [convert_bad_same hp hlg he (cfg := { cfg with completePage := some true }) (cfg' := { cfg with completePage := none, lang := none }) rfl]
    obtain ⟨es', -, -, -, h⟩ := convert_bad hp hlg he { cfg with completePage := none, lang := none }
    rw [h]; rfl
  subst he
  have hb := hlg.fastOk rfl (Errors.new cfg)
  obtain ⟨rfl, rfl⟩ : doc' = doc ∧ Errors.new cfg = e := by
    rw [hb] at hd; simpa using hd
  rw [convert_ok hp hlg, convert_ok hp hlg]
  have hx : (decide (cfg.xml = some true)) = cfg.isXml := by rw [OutputConfig.isXml, Bool.eq_iff_iff]; simp
  have names : ∀ (names : List String), (∀ m ∈ names, m ∈ ["html", "head", "body"] ++ headContentNames) →
      ∀ n ∈ (applySpecialTags cfg doc').nodes, isNamed src names n = false := by
    intro names hm n hnn
    have := hn n hnn
    cases n with
    | text => rfl
    | elem r h ch =>
      dsimp only [isNamed] at this ⊢
      generalize h.selectors.head?.bind (fun s => s.tag.name) = t at this ⊢
      cases t with
      | none => rfl
      | some t =>
        simp only [List.any_eq_false] at this ⊢
        exact fun m hmm => this m (hm m hmm)
  -- the documents
  have f1 : forestOf src (transformDocument doc' src { cfg with completePage := none, lang := none }).nodes =
      inferForest .section none none true (forestOf src (specialNodes cfg.specialTags doc'.nodes)) :=
    C20_document (cfg := { cfg with completePage := none, lang := none }) (e := Errors.new cfg) (e' := Errors.new cfg) hb hm rfl
  have hh : headNodes src (applySpecialTags cfg doc').nodes = [] := by
    rw [headNodes, List.flatMap_eq_nil_iff]
    intro n hnn
    rw [names ["head"] (by decide) n hnn, names headContentNames (by decide) n hnn]
    rfl
  have hbn : bodyNodes src (applySpecialTags cfg doc').nodes = (applySpecialTags cfg doc').nodes := by
    rw [bodyNodes, List.filter_eq_self]
    intro n hnn
    rw [names ["head"] (by decide) n hnn, names headContentNames (by decide) n hnn]
    rfl
  have f2 : ∃ r, forestOf src (transformDocument doc' src { cfg with completePage := some true }).nodes =
      [pageTree (langItems r cfg.lang) (inferForest .section none none true (forestOf src (specialNodes cfg.specialTags doc'.nodes)))] := by
    have h := C20_document (cfg := { cfg with completePage := some true, lang := none }) (e := Errors.new cfg) (e' := Errors.new cfg) hb hm rfl
    have ht : toInfer { cfg with completePage := some true, lang := none } src doc' = (completePage src (applySpecialTags cfg doc')).nodes := rfl
    rw [ht, (C24_page src (applySpecialTags cfg doc')).2.2 (names _ (by decide)), hh, hbn] at h
    have h := h.trans (infer_page _)
    cases hlang : cfg.lang with
    | none => exact ⟨Range.INVALID, h⟩
    | some l =>
      obtain ⟨r, hr⟩ := lang_page (l := l) (C17_single { cfg with completePage := some true, lang := none } hb) h
      refine ⟨r, ?_⟩
      rw [transformDocument_eq] at hr ⊢
      exact hr
  obtain ⟨r, f2⟩ := f2
  obtain ⟨⟨attrs, hattrs⟩, hexact⟩ := langItems_exact (xml := cfg.isXml) (src := src) (r := r) hl
  -- what is written
  have hst : ∀ k, specialTagName cfg.specialTags k ≠ [] := by
    intro k
    cases k with
    | codeBlockContainer =>
      have := hs .emphasis
      simp only [configuredTag, specialTagName] at this ⊢
      cases h : cfg.specialTags.emphasis <;> simp_all
    | emphasis => exact hs .emphasis
    | strong => exact hs .strong
    | underline => exact hs .underline
    | strike => exact hs .strike
    | quote => exact hs .quote
    | code => exact hs .code
  have htop := top_trees (src := src) (C13_no_loose_text src ast _ _ doc' hb rfl).1 hst
  generalize hT : inferForest .section none none true (forestOf src (specialNodes cfg.specialTags doc'.nodes)) = ts at *
  have hem : ts.isEmpty = doc'.nodes.isEmpty := by
    rw [← hT]
    cases doc'.nodes with
    | nil => rfl
    | cons n ns => rw [specialNodes, forestOf, inferForest]; rfl
  have i1 : documentItems { cfg with completePage := none, lang := none } src (transformDocument doc' src { cfg with completePage := none, lang := none }) =
      trimSpaces (forestItems cfg.isXml false ⟨false, 0⟩ ts) ++ [.gap ⟨false, 0⟩ none] := by
    rw [documentItems, contentItems_forest _ _ _ _ _ (C17_single _ hb), f1, ← hx]; rfl
  have i2 : documentItems { cfg with completePage := some true } src (transformDocument doc' src { cfg with completePage := some true }) =
      .doctype :: pageItems cfg.isXml (langItems r cfg.lang) ⟨false, 0⟩ ts ++ [.gap ⟨false, 0⟩ none] := by
    rw [documentItems, contentItems_forest _ _ _ _ _ (C17_single _ hb), f2, pageTree_items, ← hx]; rfl
  obtain ⟨w1, v1⟩ := document_weaves (src := src) (cfg := { cfg with completePage := none, lang := none }) (singles_of (C17_single _ hb))
  obtain ⟨w2, v2⟩ := document_weaves (src := src) (cfg := { cfg with completePage := some true }) (singles_of (C17_single _ hb))
  rw [i1] at w1 v1
  rw [i2] at w2 v2
  have hok : (outputHtmlTo src (transformDocument doc' src { cfg with completePage := none, lang := none }) { cfg with completePage := none, lang := none }).2 = true ↔
      (outputHtmlTo src (transformDocument doc' src { cfg with completePage := some true }) { cfg with completePage := some true }).2 = true := by
    have hg : ∀ l, Writable cfg.isXml src (.gap l none) := fun _ => trivial
    have hdt : Writable cfg.isXml src .doctype := trivial
    have := pageItems_writable (xml := cfg.isXml) (src := src) (l := ⟨false, 0⟩) (l' := ⟨false, 0⟩) (ts := ts) hattrs
    refine w1.trans (Iff.trans ?_ w2.symm)
    show (∀ i ∈ _, Writable cfg.isXml src i) ↔ (∀ i ∈ _, Writable cfg.isXml src i)
    simp only [List.forall_mem_append, List.forall_mem_cons, List.cons_append, this, hg, hdt, true_and]
  rcases h1 : outputHtmlTo src (transformDocument doc' src { cfg with completePage := none, lang := none }) { cfg with completePage := none, lang := none } with ⟨o1, b1⟩
  rcases h2 : outputHtmlTo src (transformDocument doc' src { cfg with completePage := some true }) { cfg with completePage := some true } with ⟨o2, b2⟩
  rw [h1] at v1 hok
  rw [h2] at v2 hok
  cases b1 with
  | false =>
    cases b2 with
    | false => rfl
    | true => simp at hok
  | true =>
    cases b2 with
    | false => simp at hok
    | true =>
      obtain ⟨x1, v1⟩ := v1 rfl
      obtain ⟨x2, v2⟩ := v2 rfl
      simp only [hi] at v1 v2
      have hgap : ∀ {w}, Weaves (pieceOf cfg.isXml src) src none w [.gap ⟨false, 0⟩ none] [] w := .noBreak (.inr (.inr rfl)) .nil
      obtain ⟨o, -, w, -, hv, -⟩ := weaves_split v1
      obtain ⟨rfl, -⟩ := weaves_unique v1 (weaves_append hv hgap)
      obtain ⟨rfl, -⟩ := weaves_unique v2 (weaves_append (pageItems_weave hexact htop hv) hgap)
      rw [hem]
      simp only [Except.map, List.append_nil]
      rfl

/-- The hypotheses of `C67_page` are met by a document with paragraphs, an element for a line and a block. -/
example : ∃ doc e, Ex.parser Ex.ast7 Ex.src7 = .ok Ex.ast7 ∧
    Build.fromAst Ex.src7 Ex.ast7 (Errors.new { lang := some "en-GB".toList }) = (some doc, e) ∧ doc.nodes.length = 6 ∧
    (∀ k, configuredTag {} k ≠ []) ∧ LangCode "en-GB".toList ∧
    ∀ n ∈ (applySpecialTags {} doc).nodes, isNamed Ex.src7 (["html", "head", "body"] ++ headContentNames) n = false :=
  ⟨_, _, rfl, rfl, rfl, fun k => by cases k <;> decide, by simp [LangCode], by decide⟩

set_option maxRecDepth 20000 in
/-- Such a page, in XML. -/
example : convert RepoTests.parser "h1> a\n\n```\nx\n```\n".toList { xml := some true } =
      .ok "<h1>a</h1> <pre><code>x</code></pre>".toList ∧
    convert RepoTests.parser "h1> a\n\n```\nx\n```\n".toList { completePage := some true, lang := some "en".toList, xml := some true } =
      .ok "<!DOCTYPE html>\n<html lang=\"en\"><head/> <body><h1>a</h1> <pre><code>x</code></pre></body></html>".toList := by
  constructor <;> decide +kernel

/-- **C67, errors.** Whether a page is completed does not matter for syntax errors: they are those of the
source, whatever else is configured. -/
theorem C67_errors (parse : Parser) (src : Str) (cfg cfg' : OutputConfig) (hf : cfg.failFast = cfg'.failFast)
    (es : List SyntaxError) (s : Str) :
    convert parse src cfg = .error (.syntax es s) ↔ convert parse src cfg' = .error (.syntax es s) := by
  cases hp : parse src with
  | error pe => rw [convert_parse_error hp, convert_parse_error hp]
  | ok ast =>
    obtain ⟨doc, es', hl, hw⟩ := build_cases src ast
    by_cases hn : es' = []
    · subst hn
      rw [convert_ok hp hl, convert_ok hp hl]
      constructor <;> intro h <;> split at h <;> cases h
    · rw [convert_bad_same hp hl hn hf]

end Mty
