import Verif.Proofs.Items
import Verif.Proofs.Tidy
import Verif.Proofs.Verbatim
import Verif.Props.Document
import Verif.Props.Multiline
import Verif.Props.Output
import Verif.Props.Transform

/-!
# C30, C31, C33, C34, C35: what the output consists of

The specification is in `Spec/Pieces.lean`.
-/

set_option autoImplicit false

namespace Mty
open Spec

section
variable {parse : Parser} {src : Str} {ast : Ast.Document} {doc : Document} {e e' : Errors} {cfg : OutputConfig} {out : Str}

/-- What a successful conversion has read and built. -/
theorem convert_built (h : convert parse src cfg = .ok out) :
    ∃ ast doc, parse src = .ok ast ∧ WellFormed src ast ∧
      Build.fromAst src ast (Errors.new cfg) = (some doc, Errors.new cfg) ∧
      outputHtmlTo src (transformDocument doc src cfg) cfg = (out, true) := by
  cases hp : parse src with
  | error pe => rw [convert_parse_error hp] at h; cases h
  | ok ast =>
    obtain ⟨doc, es, hl, hw⟩ := build_cases src ast
    by_cases hn : es = []
    · subst hn
      have hb := hl.fastOk rfl (Errors.new cfg)
      exact ⟨ast, doc, rfl, hw.1 rfl, hb, convert_out hp hb h⟩
    · obtain ⟨_, _, _, _, h2⟩ := convert_bad hp hl hn cfg
      rw [h2] at h; cases h

/-- The items of the converted document. -/
abbrev convertedItems (cfg : OutputConfig) (src : Str) (doc : Document) : List OutItem :=
  documentItems cfg src (transformDocument doc src cfg)

/-! ## C30, C34, C35: pieces -/

/-- **C34, C30.** The output consists of the pieces of the items of the converted document, in order. White
space is written between them as described by `Weaves`: once for consecutive spaces, not at the
beginning and end of elements (`trimSpaces`), and for indentation. -/
theorem C34_pieces (hp : parse src = .ok ast) (hd : Build.fromAst src ast (Errors.new cfg) = (some doc, e))
    (h : convert parse src cfg = .ok out) :
    ∃ piece ws, (∀ i ∈ convertedItems cfg src doc, (∀ b s, i ≠ .gap b s) → Writes cfg.isXml src i (piece i)) ∧
      Weaves piece src cfg.indent true (convertedItems cfg src doc) out ws := by
  have ho := convert_out hp hd h
  obtain ⟨h1, h2⟩ := document_weaves (src := src) (cfg := cfg) (singles_of (C17_single cfg hd))
  rw [ho] at h1 h2
  obtain ⟨ws, h2⟩ := h2 rfl
  exact ⟨_, ws, fun i hi hg => written_item (h1.1 rfl i hi) hg, h2⟩

/-- **C34.** Spaces at the beginning and end of contents and next to other spaces are not written: removing
such a space anywhere in a document changes neither the output nor whether it fails. -/
theorem C34_tidied (doc : Document) (nodes : List Node) (h : Tidied doc.nodes nodes) :
    outputHtmlTo src doc cfg = outputHtmlTo src { doc with nodes } cfg := tidied_output h

/-- Such spaces are found in documents: here ` a` in `p`, with two spaces and a line end. -/
example : Tidied
    [.elem ⟨0, 5⟩ (EHead.new ⟨0, 5⟩ .paragraph)
      [.text ⟨0, 1⟩ (.space (.inline none)), .text ⟨1, 2⟩ (.text { slice := .provided "a".toList })]]
    [.elem ⟨0, 5⟩ (EHead.new ⟨0, 5⟩ .paragraph) [.text ⟨1, 2⟩ (.text { slice := .provided "a".toList })]] :=
  .inside (pre := []) (post := []) (.first (by simp))

/-- **C35, success.** Whether a document is converted, and the error if not, do not depend on the
indentation. -/
theorem C35_success (parse : Parser) (src : Str) (cfg : OutputConfig) (i : Option Str) (err : ConvertError) :
    convert parse src cfg = .error err ↔ convert parse src { cfg with indent := i } = .error err := by
  cases hp : parse src with
  | error pe => rw [convert_parse_error hp, convert_parse_error hp]
  | ok ast =>
    obtain ⟨doc, es, hl, hw⟩ := build_cases src ast
    by_cases hn : es = []
    · subst hn
      have hb := hl.fastOk rfl (Errors.new cfg)
      have h1 := (document_weaves (src := src) (cfg := cfg) (singles_of (C17_single cfg hb))).1
      have h2 := (document_weaves (src := src) (cfg := { cfg with indent := i })
        (singles_of (C17_single (e := Errors.new cfg) { cfg with indent := i } hb))).1
      have hi : documentItems { cfg with indent := i } src (transformDocument doc src { cfg with indent := i }) =
          documentItems cfg src (transformDocument doc src cfg) := rfl
      rw [hi] at h2
      have h3 := h1.trans h2.symm
      rw [convert_ok hp hl, convert_ok hp hl]
      rcases h4 : outputHtmlTo src (transformDocument doc src cfg) cfg with ⟨o1, b1⟩
      rcases h5 : outputHtmlTo src (transformDocument doc src { cfg with indent := i }) { cfg with indent := i } with ⟨o2, b2⟩
      rw [h4, h5] at h3
      cases b1 <;> cases b2 <;> simp_all
    · have h1 := internal_bad hp hl hn cfg false
      have h2 := internal_bad hp hl hn { cfg with indent := i } false
      have hpd : Build.parseDocument parse src (Errors.new { cfg with indent := i }) =
          Build.parseDocument parse src (Errors.new cfg) := rfl
      have key : (convertToInternal parse src cfg false).2 = (convertToInternal parse src { cfg with indent := i } false).2 := by
        obtain ⟨e1, n1, -, hs1, g1⟩ := h1
        obtain ⟨e2, n2, -, hs2, g2⟩ := h2
        cases hf : cfg.failFast.getD false with
        | false => rw [g1, g2, hs1 hf, hs2 hf]
        | true =>
          obtain ⟨x, _, _, hx⟩ := hl.fast hn (Errors.new cfg) hf
          have hb : Build.parseDocument parse src (Errors.new cfg) = (none, (Errors.new cfg).add x) := by
            simp only [Build.parseDocument, hp]; exact hx
          have hb' : Build.parseDocument parse src (Errors.new { cfg with indent := i }) = (none, (Errors.new cfg).add x) := hb
          simp only [convertToInternal, hb, hb']
      rcases h3 : convertToInternal parse src cfg false with ⟨o1, r1⟩
      rcases h4 : convertToInternal parse src { cfg with indent := i } false with ⟨o2, r2⟩
      rw [h3, h4] at key
      simp only at key
      subst key
      rw [convert_eq h3, convert_eq h4]
      cases r1 <;> simp

/-- **C35.** The outputs with different indentations (or none) consist of the same pieces in the same
order. They differ only in the white space for ends of lines and around the content of elements, which is
not written inside of inline elements (`Weaves`). -/
theorem C35_indent (hp : parse src = .ok ast) (hd : Build.fromAst src ast (Errors.new cfg) = (some doc, e))
    (i : Option Str) {out' : Str} (h : convert parse src cfg = .ok out) (h' : convert parse src { cfg with indent := i } = .ok out') :
    ∃ piece ws ws', (∀ x ∈ convertedItems cfg src doc, (∀ b s, x ≠ .gap b s) → Writes cfg.isXml src x (piece x)) ∧
      Weaves piece src cfg.indent true (convertedItems cfg src doc) out ws ∧
      Weaves piece src i true (convertedItems cfg src doc) out' ws' := by
  have ho := convert_out hp hd h
  have ho' := convert_out (cfg := { cfg with indent := i }) hp hd h'
  obtain ⟨h1, h2⟩ := document_weaves (src := src) (cfg := cfg) (singles_of (C17_single cfg hd))
  obtain ⟨-, h3⟩ := document_weaves (src := src) (cfg := { cfg with indent := i })
    (singles_of (C17_single { cfg with indent := i } hd))
  rw [ho] at h1 h2
  rw [ho'] at h3
  obtain ⟨ws, h2⟩ := h2 rfl
  obtain ⟨ws', h3⟩ := h3 rfl
  exact ⟨_, ws, ws', fun i hi hg => written_item (h1.1 rfl i hi) hg, h2, h3⟩

/-- **C35, characters.** If the indentations and the spaces of the source are white space, the outputs have
the same characters apart from white space. -/
theorem C35_characters (hp : parse src = .ok ast) (hd : Build.fromAst src ast (Errors.new cfg) = (some doc, e))
    (i : Option Str) {out' : Str} (h : convert parse src cfg = .ok out) (h' : convert parse src { cfg with indent := i } = .ok out')
    (hi : ∀ s, cfg.indent = some s → s.all isBlank = true) (hi' : ∀ s, i = some s → s.all isBlank = true)
    (hs : ∀ t, .space (.inline (some t)) ∈ nodesTexts doc.nodes → (t.asStr src).all isBlank = true) :
    out.filter (fun c => !isBlank c) = out'.filter (fun c => !isBlank c) := by
  obtain ⟨piece, ws, ws', -, h1, h2⟩ := C35_indent hp hd i h h'
  have hs' : ∀ b t, OutItem.gap b (some (.inline (some t))) ∈ convertedItems cfg src doc → (t.asStr src).all isBlank = true := by
    intro b t ht
    exact hs t (transform_spaces hd (documentItems_gap ht))
  rw [weaves_chars hi hs' h1, weaves_chars hi' hs' h2]

set_option maxRecDepth 20000 in
/-- A document with a nested list, with and without indentation. -/
example : convert (Ex.parser Ex.ast9) Ex.src9 { indent := some "  ".toList } =
    .ok ("<table>\n  <thead>\n    <tr>\n      <th>a</th>\n    </tr>\n  </thead>\n  <tr>\n    <td>b</td>\n  </tr>\n</table>\n").toList ∧
  convert (Ex.parser Ex.ast9) Ex.src9 {} =
    .ok "<table><thead><tr><th>a</th></tr></thead> <tr><td>b</td></tr></table>".toList := by decide +kernel

/-! ## C30 -/

/-- **C11, C30, content.** The texts and comments of the converted document are those of the syntax tree
(as far as it is looked at), with the same marks for resolving escapes, escaping and interpolations; in the same
order unless the page is completed. (Metadata elements turn comments into texts.) -/
theorem C11_converted (hd : Build.fromAst src ast (Errors.new cfg) = (some doc, e))
    (hm : ∀ m, cfg.metadata = some m → m.elements = false) :
    (docLeaves (transformDocument doc src cfg).nodes).Perm (astLeaves false ast) ∧
    (cfg.completePage.getD false = false → docLeaves (transformDocument doc src cfg).nodes = astLeaves false ast) := by
  rw [← C11_content_exact src ast _ _ doc hd]
  exact transform_leaves cfg hd hm

/-- **C30.** Without metadata elements: the output consists of the pieces of the items of the converted
document, and exactly the following texts are written verbatim (`Writes.verbatim`): interpolations, and in HTML also
`<[raw[...]]>` and text in `script` and `style`. All other texts are escaped (`Writes.escaped`). Missing: for metadata elements in HTML it
is false, see `C29_elements_unescaped`. -/
theorem C30_verbatim_partial (hp : parse src = .ok ast) (hd : Build.fromAst src ast (Errors.new cfg) = (some doc, e))
    (hm : ∀ m, cfg.metadata = some m → m.elements = false) (h : convert parse src cfg = .ok out) :
    ∃ piece ws, (∀ i ∈ convertedItems cfg src doc, (∀ b s, i ≠ .gap b s) → Writes cfg.isXml src i (piece i)) ∧
      Weaves piece src cfg.indent true (convertedItems cfg src doc) out ws ∧
      itemTexts (convertedItems cfg src doc) = nodesVerbatim cfg.isXml src false (transformDocument doc src cfg).nodes := by
  obtain ⟨piece, ws, h1, h2⟩ := C34_pieces hp hd h
  refine ⟨piece, ws, h1, h2, ?_⟩
  rw [documentItems_texts, nodesVerbatim_eq _ src _ _ (transform_nodeRaw cfg hd hm)]

/-- **C30, XML.** In XML, with any metadata, exactly the interpolations are written verbatim. -/
theorem C30_xml (doc : Document) (hx : cfg.xml = some true) :
    ∀ p ∈ itemTexts (convertedItems cfg src doc), p.2 = p.1.raw := by
  rw [documentItems_texts, show cfg.isXml = true by rw [OutputConfig.isXml, hx]; rfl]
  exact nodesTextModes_xml false _

set_option maxRecDepth 20000 in
/-- A document with a `script` element, in HTML and XML. -/
example : convert (Ex.parser Ex.ast22) Ex.src22 {} = .ok "<script>a<b</script>".toList ∧
    convert (Ex.parser Ex.ast22) Ex.src22 { xml := some true } = .ok "<script>a&lt;b</script>".toList := by decide +kernel

set_option maxRecDepth 20000 in
/-- Interpolations. -/
example : convert (Ex.parser Ex.ast23) Ex.src23 { xml := some true } = .ok "<p>1 {{ a<b }} &lt;</p>".toList ∧
    interpolations Ex.src23 (astLeaves false Ex.ast23) = ["{{ a<b }}".toList] := by decide +kernel

/-! ## C33 -/

/-- If all texts are valid, the items can be written exactly if the ids, classes and attributes are valid. -/
theorem items_writable (cfg : OutputConfig) (hs : ∀ n ∈ (transformDocument doc src cfg).nodes, SingleSelectors n) {strict : Prop}
    (hk : ∀ x ∈ nodesTexts (transformDocument doc src cfg).nodes, KnownText src strict x) (hstrict : strict) :
    (∀ i ∈ documentItems cfg src (transformDocument doc src cfg), Writable cfg.isXml src i) ↔
      ∀ p ∈ namedSelectors (transformDocument doc src cfg).nodes, ∃ attrs, AttrsRead cfg.isXml src p.2 attrs := by
  constructor
  · intro hw p hpm
    have : (p.1.asStr src, p.2) ∈ itemStarts (documentItems cfg src (transformDocument doc src cfg)) := by
      rw [documentItems_starts _ _ _ hs]
      exact List.mem_map.2 ⟨p, hpm, rfl⟩
    obtain ⟨i, hi, hsel⟩ := List.mem_filterMap.1 this
    cases i with
    | start n a em =>
      simp only [Option.some.injEq, Prod.mk.injEq] at hsel
      obtain ⟨-, rfl⟩ := hsel
      exact hw _ hi
    | _ => simp at hsel
  · intro ha i hi
    cases i with
    | start n a em =>
      have : (n, a) ∈ itemStarts (documentItems cfg src (transformDocument doc src cfg)) :=
        List.mem_filterMap.2 ⟨_, hi, rfl⟩
      rw [documentItems_starts _ _ _ hs] at this
      obtain ⟨p, hpm, e⟩ := List.mem_map.1 this
      obtain ⟨-, rfl⟩ := Prod.mk.inj e
      exact ha p hpm
    | text t v =>
      have : (t, v) ∈ itemTexts (documentItems cfg src (transformDocument doc src cfg)) :=
        List.mem_filterMap.2 ⟨_, hi, rfl⟩
      rw [documentItems_texts] at this
      have hm : t ∈ (nodesTextModes cfg.isXml false (transformDocument doc src cfg).nodes).map (·.1) :=
        List.mem_map.2 ⟨_, this, rfl⟩
      rw [nodesTextModes_fst] at hm
      obtain ⟨x, hx, he⟩ := List.mem_filterMap.1 hm
      cases x with
      | text t' =>
        simp only [Option.some.injEq] at he
        subst he
        have := (hk _ hx).2.1 hstrict
        have hok := C33_text_node { cfg, src, indentLevel := 0, fmtInline := false, isRaw := false } t' true 0
          fun hu => (escapeErrors_nil_iff _ _).2 (this hu)
        obtain ⟨u, hu, -⟩ := writeText_iff hok
        exact ⟨u, hu⟩
      | _ => simp at he
    | _ => trivial

/-- **C33.** If the syntax tree is well-formed, the conversion succeeds, or fails with the error `Unknown`.
It succeeds exactly if all ids (the first of each element), classes and attributes of the elements of the converted document
have valid escapes; text never makes it fail. -/
theorem C33_unknown (hp : parse src = .ok ast) (hw : WellFormed src ast)
    (hd : Build.fromAst src ast (Errors.new cfg) = (some doc, e)) :
    ((∃ out, convert parse src cfg = .ok out) ∨ convert parse src cfg = .error .unknown) ∧
    ((∃ out, convert parse src cfg = .ok out) ↔
      ∀ p ∈ namedSelectors (transformDocument doc src cfg).nodes, ∃ attrs, AttrsRead cfg.isXml src p.2 attrs) := by
  obtain ⟨doc', es, hl, hw'⟩ := build_cases src ast
  have hn := hw'.2 hw
  subst hn
  have hb := hl.fastOk rfl (Errors.new cfg)
  rw [hb] at hd
  obtain ⟨h1, h2⟩ := Prod.mk.inj hd
  cases h1
  subst h2
  have hc := convert_ok hp hl cfg
  have hs := C17_single cfg hb
  have hdw := (document_weaves (src := src) (cfg := cfg) (singles_of hs)).1
  have hk := transform_known cfg hb
  have key := items_writable cfg hs hk rfl
  rw [← key, ← hdw, hc]
  rcases outputHtmlTo src (transformDocument doc src cfg) cfg with ⟨o, b⟩
  cases b <;> simp

/-- **C33, no escapes.** In particular a well-formed document in which no id, class, attribute name or
attribute value contains a backslash is converted. -/
theorem C33_no_backslash (hp : parse src = .ok ast) (hw : WellFormed src ast)
    (hd : Build.fromAst src ast (Errors.new cfg) = (some doc, e))
    (hn : ∀ p ∈ namedSelectors (transformDocument doc src cfg).nodes,
      (∀ s ∈ idsOf p.2 ++ classesOf p.2, '\\' ∉ s.asStr src) ∧
      ∀ a ∈ attributesOf p.2, '\\' ∉ a.name.asStr src ∧ ∀ v, a.value = some v → '\\' ∉ v.asStr src) :
    ∃ out, convert parse src cfg = .ok out :=
  (C33_unknown hp hw hd).2.2 fun p hpm => attrsRead_plain (hn p hpm).1 (hn p hpm).2

set_option maxRecDepth 20000 in
/-- The error `Unknown` does occur, for an invalid escape in an attribute. -/
example : convert (Ex.parser Ex.ast3) Ex.src3 {} = .error .unknown := by decide +kernel

/-! ## C45 -/

/-- **C45.** The start tags of the named elements of the converted document are found in the output, in order and without overlap,
each with the first id, all classes and all attributes of the element. (Nothing is assumed about names.) -/
theorem C45_tags (hp : parse src = .ok ast) (hd : Build.fromAst src ast (Errors.new cfg) = (some doc, e))
    (h : convert parse src cfg = .ok out) :
    ∃ tags, List.Forall₂ (TagWritten cfg.isXml src) (namedSelectors (transformDocument doc src cfg).nodes) tags ∧ Contains tags out := by
  obtain ⟨piece, ws, hpc, hwv⟩ := C34_pieces hp hd h
  let isStart : OutItem → Bool := fun | .start .. => true | _ => false
  refine ⟨_, ?_, weaves_contains hwv isStart (fun _ _ => rfl)⟩
  have hst := documentItems_starts (cfg := cfg) (src := src) (doc := transformDocument doc src cfg) (C17_single cfg hd)
  have key : ∀ items : List OutItem, (∀ i ∈ items, (∀ b s, i ≠ .gap b s) → Writes cfg.isXml src i (piece i)) →
      ∀ sels : List (TextSlice × List SelectorItem), itemStarts items = sels.map (fun p => (p.1.asStr src, p.2)) →
      List.Forall₂ (TagWritten cfg.isXml src) sels ((items.filter isStart).map piece) := by
    intro items
    induction items with
    | nil =>
      intro _ sels hs
      cases sels with
      | nil => exact .nil
      | cons => simp [itemStarts] at hs
    | cons i is ih =>
      intro hw sels hs
      have hw' := fun j hj => hw j (List.mem_cons_of_mem _ hj)
      cases i with
      | start n items em =>
        cases sels with
        | nil => simp [itemStarts] at hs
        | cons p ps =>
          have hs' : (n, items) = (p.1.asStr src, p.2) ∧ itemStarts is = ps.map (fun p => (p.1.asStr src, p.2)) := by
            simpa [itemStarts] using hs
          refine .cons ?_ (ih hw' ps hs'.2)
          obtain ⟨rfl, rfl⟩ := Prod.mk.inj hs'.1
          have := hw _ List.mem_cons_self (fun _ _ => by simp)
          generalize piece (.start (p.1.asStr src) p.2 em) = w at this
          cases this with
          | @start _ _ _ attrs ws h1 h2 =>
            refine ⟨attrs, ws, if em then ['/'] else [], h1, h2, by cases em <;> simp, by cases em <;> simp⟩
      | doctype => exact ih hw' sels hs
      | stop => exact ih hw' sels hs
      | text => exact ih hw' sels hs
      | comment => exact ih hw' sels hs
      | gap => exact ih hw' sels hs
  exact key _ hpc _ hst

set_option maxRecDepth 20000 in
/-- Also for names that are not names of markup (`-x> a`). -/
example : convert (Ex.parser Ex.ast18) Ex.src18 { xml := some true } = .ok "<-x>a</-x>".toList ∧
    ∃ doc e, Build.fromAst Ex.src18 Ex.ast18 { failFast := false } = (some doc, e) ∧
      (namedSelectors (transformDocument doc Ex.src18 { xml := some true }).nodes).map (fun p => p.1.asStr Ex.src18) = ["-x".toList] := by
  refine ⟨by decide +kernel, _, _, rfl, by decide +kernel⟩

/-! ## C31 -/

/-- **C31.** The interpolations of the syntax tree are found unchanged in the output, without overlap and in
order (in some order if the page is completed). Missing: interpolations in the ignored end of a line
(`C11_content_lost`) are not written. -/
theorem C31_interpolations_partial (hp : parse src = .ok ast) (h : convert parse src cfg = .ok out) :
    ∃ parts, parts.Perm (interpolations src (astLeaves false ast)) ∧
      (cfg.completePage.getD false = false → parts = interpolations src (astLeaves false ast)) ∧ Contains parts out := by
  obtain ⟨ast', doc, hp', -, hb, ho⟩ := convert_built h
  rw [hp] at hp'
  cases hp'
  obtain ⟨piece, ws, hpc, hwv⟩ := C34_pieces hp hb h
  have hc := weaves_contains hwv isInterpolation (fun _ _ => rfl)
  rw [interpolation_pieces (transform_known cfg hb) hpc, transform_interpolations hb] at hc
  rw [fromAst_interpolations hb]
  exact ⟨_, toInfer_interpolations.1, toInfer_interpolations.2, hc⟩

/-- If no line has an ignored end, this holds for all interpolations. -/
theorem C31_all (hp : parse src = .ok ast) (hall : NothingIgnored ast) (h : convert parse src cfg = .ok out) :
    ∃ parts, parts.Perm (interpolations src (astLeaves true ast)) ∧
      (cfg.completePage.getD false = false → parts = interpolations src (astLeaves true ast)) ∧ Contains parts out := by
  have hl : astLeaves false ast = astLeaves true ast := by
    obtain ⟨⟨_, lines, _⟩⟩ := ast
    exact Build.linesLeaves_all lines hall
  rw [← hl]
  exact C31_interpolations_partial hp h

end
end Mty
