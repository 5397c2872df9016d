import Verif.Proofs.Transform
import Verif.Props.Infer

/-!
# C23–C29, C36: special tags, completed pages, `lang` and metadata

The specification is in `Spec/Transform.lean`.
-/

set_option autoImplicit false

namespace Mty
open Spec

section
variable {src : Str} {ast : Ast.Document} {e e' : Errors} {doc : Document}

/-! ## C23: special tags -/

/-- **C23.** For every built document and configuration, special elements get the tag configured for
their kind or its default, code blocks a container around the tag for code, empty tags do not wrap,
and nothing else changes. The container is one and the same for all code blocks. Missing: it is `pre`
or what is configured for emphasis, not what is configured for the container
(`C23_container_ignored`). -/
theorem C23_special_partial (cfg : OutputConfig) (h : Build.fromAst src ast e = (some doc, e')) :
    List.Forall₂ (SpecialTagged src cfg.specialTags (cfg.specialTags.emphasis.getD "pre".toList))
      doc.nodes (applySpecialTags cfg doc).nodes := by
  rw [applySpecialTags, specialNodes_eq, List.forall₂_map_right_iff]
  exact List.forall₂_same.2 fun n hn => specialNode_tagged src _ n (fromAst_fresh h n hn)

/-- **C23, default container.** With neither the container nor emphasis configured, the claim holds in
full. -/
theorem C23_default (cfg : OutputConfig) (h : Build.fromAst src ast e = (some doc, e'))
    (h1 : cfg.specialTags.emphasis = none) (h2 : cfg.specialTags.codeBlockContainer = none) :
    List.Forall₂ (SpecialTagged src cfg.specialTags (configuredTag cfg.specialTags .codeBlockContainer))
      doc.nodes (applySpecialTags cfg doc).nodes := by
  have hd : configuredTag cfg.specialTags .codeBlockContainer = cfg.specialTags.emphasis.getD "pre".toList := by
    rw [h1, configuredTag, h2]
  rw [hd]
  exact C23_special_partial cfg h

set_option maxRecDepth 20000 in
/-- **C23, deviation.** The tag configured for the container of code blocks is ignored, the one
configured for emphasis is taken instead. -/
theorem C23_container_ignored :
    convert (Ex.parser Ex.ast12) Ex.src12 { specialTags := { codeBlockContainer := some "div".toList } } =
      .ok "<p><em>a</em></p> <pre><code>c</code></pre>".toList ∧
    convert (Ex.parser Ex.ast12) Ex.src12 { specialTags := { emphasis := some "i".toList } } =
      .ok "<p><i>a</i></p> <i><code>c</code></i>".toList := by
  decide +kernel

set_option maxRecDepth 20000 in
/-- The hypotheses are met, and empty tags do not wrap. -/
example : convert (Ex.parser Ex.ast12) Ex.src12
      { specialTags := { emphasis := some [], code := some "samp".toList } } =
    .ok "<p>a</p> <samp>c</samp>".toList := by decide +kernel

/-! ## C24–C26: completed pages -/

/-- **C24.** For every document: with an `html` element at top level, it is not changed; otherwise,
with a `body` element at top level, all of it is put into an `html` element; otherwise it becomes an
`html` element with a `head` and a `body`, the head with the contents of `head` elements and the
elements for metadata, the body with everything else, in order. -/
theorem C24_page (src : Str) (doc : Document) :
    ((∃ n ∈ doc.nodes, isNamed src ["html"] n = true) → completePage src doc = doc) ∧
    ((∀ n ∈ doc.nodes, isNamed src ["html"] n = false) → (∃ n ∈ doc.nodes, isNamed src ["body"] n = true) →
      forestOf src (completePage src doc).nodes = [plainTree "html" (forestOf src doc.nodes)]) ∧
    ((∀ n ∈ doc.nodes, isNamed src ["html", "body"] n = false) →
      forestOf src (completePage src doc).nodes =
        [plainTree "html" [plainTree "head" (forestOf src (headNodes src doc.nodes)),
          .leaf (.space .paragraphEnd), plainTree "body" (forestOf src (bodyNodes src doc.nodes))]]) := by
  have hany : ∀ names, doc.nodes.any (isNamed src names) = true ↔ ∃ n ∈ doc.nodes, isNamed src names n = true :=
    fun names => List.any_eq_true
  have hnone : ∀ names, doc.nodes.any (isNamed src names) = false ↔ ∀ n ∈ doc.nodes, isNamed src names n = false :=
    fun names => by rw [List.any_eq_false]; simp
  rcases completePage_cases src doc with ⟨h1, h2⟩ | ⟨h1, h2, hd, hh, h3⟩ | ⟨h1, h2, hd, hh, h3⟩
  · refine ⟨fun _ => h2, fun h => ?_, fun h => ?_⟩
    · rw [(hnone _).2 h] at h1; cases h1
    · obtain ⟨n, hn, k⟩ := (hany _).1 h1
      have := h n hn
      rw [isNamed_cons] at this
      simp [k] at this
  · refine ⟨fun h => ?_, fun _ _ => ?_, fun h => ?_⟩
    · rw [(hany _).2 h] at h1; cases h1
    · rw [h3]
      simp only [forestOf]
      rw [treeOf_page src "html" (by decide) hd hh]
    · obtain ⟨n, hn, k⟩ := (hany _).1 h2
      have := h n hn
      rw [isNamed_cons] at this
      simp [k] at this
  · refine ⟨fun h => ?_, fun _ h => ?_, fun _ => ?_⟩
    · rw [(hany _).2 h] at h1; cases h1
    · rw [(hany _).2 h] at h2; cases h2
    · rw [h3]
      simp only [forestOf]
      rw [treeOf_page src "html" (by decide) hd hh]
      simp only [forestOf]
      rw [treeOf_page src "head" (by decide) _ rfl, treeOf_page src "body" (by decide) _ rfl]
      rfl

/-- **C24, converted document.** When a page is completed, the document that is written has an `html`
element at top level with the names inferred inside of it, or had one before. -/
theorem C24_converted (cfg : OutputConfig) (h : Build.fromAst src ast e = (some doc, e'))
    (hc : cfg.completePage = some true) (hm : cfg.metadata = none) (hl : cfg.lang = none)
    (hn : ∀ n ∈ (applySpecialTags cfg doc).nodes, isNamed src ["html", "body"] n = false) :
    ∃ head body, forestOf src (transformDocument doc src cfg).nodes =
        [plainTree "html" [plainTree "head" head, .leaf (.space .paragraphEnd), plainTree "body" body]] ∧
      List.Forall₂ Kept (forestOf src (headNodes src (applySpecialTags cfg doc).nodes)) head ∧
      List.Forall₂ Kept (forestOf src (bodyNodes src (applySpecialTags cfg doc).nodes)) body := by
  have hp := toInfer_plain cfg h
  have ht : toInfer cfg src doc = (completePage src (applySpecialTags cfg doc)).nodes := by
    unfold toInfer; rw [hc]; rfl
  rw [C20_document cfg h hm hl, ht, (C24_page src _).2.2 hn]
  have hpl : ∀ n ∈ (applySpecialTags cfg doc).nodes, PlainParagraphs n := by
    have := beforeInference_plain { cfg with completePage := none } src doc (fromAst_plain h)
    exact this
  have hsp := splitPage_plain src _ hpl
  rw [splitPage_eq] at hsp
  have key : ∀ (ns : List Node) (c : Context) (p g : Option Str), (∀ n ∈ ns, PlainParagraphs n) →
      List.Forall₂ Kept (forestOf src ns) (inferForest c p g true (forestOf src ns)) := by
    intro ns c p g hns
    refine inferForest_forall₂ _ _ _ _ _ fun t ht fi la => inferTree_kept t ?_ _ _ _ _ _
    rw [forestOf_eq] at ht
    obtain ⟨n, hn, rfl⟩ := List.mem_map.1 ht
    exact treeOf_plain src (hns n hn)
  exact ⟨_, _, rfl, key _ _ _ _ hsp.1, key _ _ _ _ hsp.2⟩

/-- **C25, text.** Completing a page keeps all text, comments and spaces; at most one space is added. -/
theorem C25_texts (src : Str) (doc : Document) :
    (nodesTexts (completePage src doc).nodes).Perm (nodesTexts doc.nodes) ∨
    (nodesTexts (completePage src doc).nodes).Perm (.space .paragraphEnd :: nodesTexts doc.nodes) := by
  rcases completePage_cases src doc with ⟨h1, h2⟩ | ⟨h1, h2, hd, hh, h3⟩ | ⟨h1, h2, hd, hh, h3⟩
  · left; rw [h2]
  · left; rw [h3]; simp [nodesTexts, nodeTexts, Node.ofElem]
  · right
    rw [h3]
    simp only [nodesTexts, nodeTexts, Node.ofElem, List.append_nil, List.singleton_append]
    exact List.perm_middle.trans ((split_texts src doc.nodes).cons _)

/-- **C25, elements.** Completing a page keeps all elements with their names, classes, ids and
attributes, apart from `html`, `head` and `body` without attributes, which are added and replaced.
Missing: a `head` element with attributes, or followed by other selectors, loses them
(`C25_head_lost`). -/
theorem C25_elements_partial (src : Str) (doc : Document)
    (hs : ∀ r h ch, Node.elem r h ch ∈ doc.nodes → isNamed src ["head"] (.elem r h ch) = true →
      ∃ s, h.selectors = [s] ∧ s.items = []) :
    (((nodesSelectors (completePage src doc).nodes).map (selOf src)).filter fun s => !isPagePart s).Perm
      (((nodesSelectors doc.nodes).map (selOf src)).filter fun s => !isPagePart s) := by
  rcases completePage_cases src doc with ⟨h1, h2⟩ | ⟨h1, h2, hd, hh, h3⟩ | ⟨h1, h2, hd, hh, h3⟩
  · rw [h2]
  · rw [h3]
    have : hd.selectors = (pageElement "html".toList).selectors := by rw [hh]
    simp only [nodesSelectors, nodeSelectors, Node.ofElem, List.append_nil, this, List.map_append, List.filter_append]
    exact .refl _
  · rw [h3]
    have : hd.selectors = (pageElement "html".toList).selectors := by rw [hh]
    simp only [nodesSelectors, nodeSelectors, Node.ofElem, List.append_nil, this, List.map_append, List.filter_append,
      List.nil_append]
    refine List.Perm.trans ?_ (split_selectors src doc.nodes ?_)
    · rw [List.map_append, List.filter_append]
      exact .refl _
    · intro r h ch hm hn s hs'
      obtain ⟨s0, e1, e2⟩ := hs r h ch hm hn
      rw [e1, List.mem_singleton] at hs'
      subst hs'
      simp only [isNamed, e1, List.head?_cons, Option.bind_some] at hn
      unfold isPagePart selOf
      cases ht : s.tag.name with
      | none => simp [ht] at hn
      | some n =>
        simp only [ht, List.any_cons, List.any_nil, Bool.or_false] at hn
        simp only [e2, List.isEmpty_nil, Bool.true_and, Option.map_some, List.any_cons, hn, Bool.true_or, Bool.or_true]

set_option maxRecDepth 20000 in
/-- **C25, deviation.** In `head > title > T` the `title` is lost. -/
theorem C25_head_lost :
    convert (Ex.parser Ex.ast14) Ex.src14 { completePage := some true } =
      .ok "<!DOCTYPE html>\n<html><head>T</head> <body></body></html>".toList := by
  decide +kernel

/-- **C26.** A completed page is not changed by completing it again. -/
theorem C26_idempotent (src : Str) (doc : Document) :
    completePage src (completePage src doc) = completePage src doc := by
  refine (C24_page src _).1 ?_
  have key : ∀ (hd : EHead) (ch : List Node), hd = { pageElement "html".toList with contentRange := hd.contentRange } →
      isNamed src ["html"] (Node.ofElem hd ch) = true := by
    intro hd ch hh
    rw [hh]
    rfl
  rcases completePage_cases src doc with ⟨h1, h2⟩ | ⟨h1, h2, hd, hh, h3⟩ | ⟨h1, h2, hd, hh, h3⟩
  · rw [h2]; exact List.any_eq_true.1 h1
  · rw [h3]; exact ⟨_, List.mem_singleton.2 rfl, key _ _ hh⟩
  · rw [h3]; exact ⟨_, List.mem_singleton.2 rfl, key _ _ hh⟩

set_option maxRecDepth 20000 in
/-- A completed page. -/
example : convert (Ex.parser Ex.ast13) Ex.src13 { completePage := some true } =
    .ok "<!DOCTYPE html>\n<html><head><title>T</title> <link></head> <body><p>x</p></body></html>".toList := by
  decide +kernel

/-! ## C27: `lang` -/

/-- **C27.** For every built document and configuration, the result with `lang` is the result without,
with the attribute `lang` added to the elements at top level that have a name. -/
theorem C27_lang (cfg : OutputConfig) (lang : Str) (h : Build.fromAst src ast e = (some doc, e')) :
    List.Forall₂ (LangAdded lang) (transformDocument doc src { cfg with lang := none }).nodes
      (transformDocument doc src { cfg with lang := some lang }).nodes := by
  have hs := C17_single { cfg with lang := none } h
  rw [transformDocument_eq] at hs
  rw [transformDocument_eq, transformDocument_eq]
  dsimp only [_root_.id] at hs ⊢
  rw [List.forall₂_map_right_iff]
  exact List.forall₂_same.2 fun n hn => langNode_added lang n (hs n hn)

set_option maxRecDepth 20000 in
example : convert (Ex.parser Ex.ast7) Ex.src7 { lang := some "en".toList } =
    .ok "<p lang=\"en\">a b</p> <p lang=\"en\">c d</p> <p lang=\"en\">e</p>".toList := by
  decide +kernel

/-! ## C28: metadata -/

/-- **C28.** For every built document and configuration, the result with metadata (without metadata
elements) and the result without are the same but for attributes whose name begins with `mty:` or is
`xmlns:mty` and that do not come from the source. -/
theorem C28_erase (cfg : OutputConfig) (m : MetadataConfig) (hm : m.elements = false) (src : Str) (doc : Document) :
    eraseNodes (transformDocument doc src { cfg with metadata := some m }).nodes =
      eraseNodes (transformDocument doc src { cfg with metadata := none }).nodes := by
  rw [transformDocument_eq, transformDocument_eq]
  have ht : toInfer { cfg with metadata := some m } src doc = toInfer { cfg with metadata := none } src doc := rfl
  rw [ht]
  generalize Infer.infer src _ = ns
  dsimp only
  cases cfg.lang with
  | none => exact metaNodes_erase m hm ns true
  | some l =>
    have : ∀ x : List Node, eraseNodes (x.map (langNode l)) = (eraseNodes x).map (langNode l) := by
      intro x
      simp [eraseNodes_eq, langNode_erase]
    dsimp only [_root_.id]
    rw [this, this, metaNodes_erase m hm]

/-- **C28, positions.** What is added to the elements with a name: the namespace at top level, whether
text in it is not escaped, and the positions of the element and its content, if they are valid. -/
theorem C28_added (cfg : OutputConfig) (m : MetadataConfig) (hm : m.elements = false)
    (h : Build.fromAst src ast e = (some doc, e')) :
    List.Forall₂ (MetadataAdded true) (transformDocument doc src { cfg with metadata := none, lang := none }).nodes
      (transformDocument doc src { cfg with metadata := some m, lang := none }).nodes := by
  have hs := C17_single { cfg with metadata := none, lang := none } h
  rw [transformDocument_eq] at hs
  rw [transformDocument_eq, transformDocument_eq]
  dsimp only [_root_.id] at hs ⊢
  exact metaNodes_added m hm _ true hs

set_option maxRecDepth 20000 in
example : convert (Ex.parser Ex.ast15) Ex.src15 { metadata := some { elements := false } } =
    .ok ("<p xmlns:mty=\"tag:youngspe.github.io,2024:mintyml/metadata\" mty:start=\"0\" mty:end=\"6\"" ++
      " mty:content-start=\"0\" mty:content-end=\"6\">1 &lt; 2</p>").toList := by
  decide +kernel

/-! ## C29: metadata and escaping -/

/-- **C29.** Attributes with metadata do not change which texts there are and which of them are written
without escaping. With metadata elements too, no text is written without escaping in XML that is not
without metadata. Missing: metadata elements in HTML (`C29_elements_unescaped`). -/
theorem C29_escaping_partial (cfg : OutputConfig) (m : MetadataConfig) (src : Str) (doc : Document) :
    (m.elements = false → ∀ xml, nodesTextModes xml false (transformDocument doc src { cfg with metadata := some m }).nodes =
      nodesTextModes xml false (transformDocument doc src { cfg with metadata := none }).nodes) ∧
    rawTexts true (transformDocument doc src { cfg with metadata := some m }).nodes =
      rawTexts true (transformDocument doc src { cfg with metadata := none }).nodes := by
  constructor
  · intro hm xml
    rw [← nodesTextModes_erase, C28_erase cfg m hm, nodesTextModes_erase]
  · rw [transformDocument_eq, transformDocument_eq]
    have ht : toInfer { cfg with metadata := some m } src doc = toInfer { cfg with metadata := none } src doc := rfl
    rw [ht]
    generalize Infer.infer src _ = ns
    unfold rawTexts
    cases cfg.lang with
    | none => exact metaNodes_raw m false false ns true
    | some l =>
      dsimp only [_root_.id]
      rw [langNode_textModes, langNode_textModes]
      exact metaNodes_raw m false false ns true

set_option maxRecDepth 20000 in
/-- **C29, deviation.** With metadata elements the text `1 < 2` is written without escaping in HTML. -/
theorem C29_elements_unescaped :
    convert (Ex.parser Ex.ast15) Ex.src15 { metadata := some { elements := true } } =
      .ok ("<p xmlns:mty=\"tag:youngspe.github.io,2024:mintyml/metadata\" mty:start=\"0\" mty:end=\"6\"" ++
        " mty:content-start=\"0\" mty:content-end=\"6\"><mty:text mty:raw=\"true\" mty:start=\"0\"" ++
        " mty:end=\"6\">1 < 2</mty:text></p>").toList ∧
    convert (Ex.parser Ex.ast15) Ex.src15 {} = .ok "<p>1 &lt; 2</p>".toList := by
  decide +kernel

/-! ## C36 -/

/-- **C36, elements.** Without page completion, metadata and `lang`, no `html`, `head` or `body` element
is added to a document without an `html` element. -/
theorem C36_no_page (cfg : OutputConfig) (h : Build.fromAst src ast e = (some doc, e'))
    (hc : cfg.completePage.getD false = false) (hm : cfg.metadata = none) (hl : cfg.lang = none)
    (hn : ∀ t ∈ forestOf src (applySpecialTags cfg doc).nodes, NoneNamed "html".toList t) :
    List.Forall₂ (NotIntroduced ["html".toList, "head".toList, "body".toList])
      (forestOf src (applySpecialTags cfg doc).nodes) (forestOf src (transformDocument doc src cfg).nodes) := by
  rw [C20_document cfg h hm hl]
  have ht : toInfer cfg src doc = (applySpecialTags cfg doc).nodes := by
    unfold toInfer; rw [hc]; rfl
  rw [ht]
  exact inferForest_forall₂ _ _ _ _ _ fun t ht fi la => inferTree_pageParts t (hn t ht) _ _ _ _ _ (by simp)

set_option maxRecDepth 20000 in
example : convert (Ex.parser Ex.ast9) Ex.src9 {} =
    .ok "<table><thead><tr><th>a</th></tr></thead> <tr><td>b</td></tr></table>".toList := by decide +kernel

end
end Mty
