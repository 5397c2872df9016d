import Verif.Proofs.Alike
import Verif.Props.Source

/-!
# C94: HTML and XML say the same

The specification is in `Spec/Alike.lean`: `meant` is what markup says, however it is written in HTML or XML.
-/

set_option autoImplicit false

namespace Mty
open Spec

section
variable {parse : Parser} {src : Str} {ast : Ast.Document} {cfg : OutputConfig} {outH outX : Str}

/-- What is known of a document that can be read as markup. -/
theorem document_alike {doc : Document} {e : Errors} (hp : parse src = .ok ast) (hd : Build.fromAst src ast (Errors.new cfg) = (some doc, e))
    (hc : SafeTags false cfg.specialTags) (hm : ∀ m, cfg.metadata = some m → m.elements = false)
    (hi : ∀ i, cfg.indent = some i → Blank i) (hcl : ∀ t ∈ forestOf src doc.nodes, Clean false src false t)
    (hH : convert parse src { cfg with xml := some false } = .ok outH) (hX : convert parse src { cfg with xml := some true } = .ok outX) :
    Agree True outH outX := by
  have oH := convert_out (cfg := { cfg with xml := some false }) hp hd hH
  have oX := convert_out (cfg := { cfg with xml := some true }) hp hd hX
  have hr := transform_readable (cfg := { cfg with xml := some false }) hd hc (fun m h1 h2 => by rw [hm m h1] at h2; cases h2) hcl
  obtain ⟨w1, w2⟩ := document_weaves (src := src) (cfg := { cfg with xml := some false }) (singles_of (C17_single { cfg with xml := some false } hd))
  obtain ⟨x1, x2⟩ := document_weaves (src := src) (cfg := { cfg with xml := some true }) (singles_of (C17_single { cfg with xml := some true } hd))
  rw [oH] at w1 w2
  rw [oX] at x1 x2
  obtain ⟨_, w2⟩ := w2 rfl
  obtain ⟨_, x2⟩ := x2 rfl
  have ha : Alike src (documentItems { cfg with xml := some false } src (transformDocument doc src { cfg with xml := some false }))
      (documentItems { cfg with xml := some true } src (transformDocument doc src { cfg with xml := some true })) := by
    have ht : transformDocument doc src { cfg with xml := some true } = transformDocument doc src { cfg with xml := some false } := rfl
    rw [ht]
    unfold documentItems
    refine .append (.append ?_ ?_) (.gap (by simp) .nil)
    · dsimp only
      split
      · exact .doctype .nil
      · exact .nil
    · rw [trimSpaces_eq, trimSpaces_eq]
      exact .flatMap fun n hn => node_alike (hr n (inner_mem hn)) _
  obtain ⟨tH, tX, h1, h2, h3, h4⟩ := alike_agree hi ha w2 x2 (w1.1 rfl) (x1.1 rfl)
  exact ⟨tH, tX, h1, h2, h3, fun _ => h4 rfl⟩

/-- The same items can be written in HTML and in XML. -/
theorem output_xml {doc : Document} {e : Errors} (hd : Build.fromAst src ast (Errors.new cfg) = (some doc, e)) (x y : Option Bool) :
    (outputHtmlTo src (transformDocument doc src { cfg with xml := x }) { cfg with xml := x }).2 = true →
    (outputHtmlTo src (transformDocument doc src { cfg with xml := y }) { cfg with xml := y }).2 = true := by
  have s1 := C17_single (e := Errors.new cfg) { cfg with xml := x } hd
  have s2 := C17_single (e := Errors.new cfg) { cfg with xml := y } hd
  rw [(document_weaves (cfg := { cfg with xml := x }) (singles_of s1)).1, (document_weaves (cfg := { cfg with xml := y }) (singles_of s2)).1]
  refine writable_all _ _ ?_ ?_
  · rw [documentItems_starts _ _ _ s1, documentItems_starts _ _ _ s2]
    rfl
  · rw [documentItems_texts, documentItems_texts, nodesTextModes_fst, nodesTextModes_fst]
    rfl

/-- **C94, success.** Whether a source is converted, and the error if not, do not depend on whether the output is HTML or XML. -/
theorem C94_success (parse : Parser) (src : Str) (cfg : OutputConfig) (x : Option Bool) (err : ConvertError) :
    convert parse src cfg = .error err ↔ convert parse src { cfg with xml := x } = .error err := by
  cases hp : parse src with
  | error pe => rw [convert_parse_error hp, convert_parse_error hp]
  | ok ast =>
    obtain ⟨doc, es, hl, hw⟩ := build_cases src ast
    by_cases hn : es = []
    · subst hn
      have hb := hl.fastOk rfl (Errors.new cfg)
      have h1 := output_xml (cfg := cfg) hb cfg.xml x
      have h2 := output_xml (cfg := cfg) hb x cfg.xml
      have hc : { cfg with xml := cfg.xml } = cfg := rfl
      rw [hc] at h1 h2
      rw [convert_ok hp hl, convert_ok hp hl]
      rcases h4 : outputHtmlTo src (transformDocument doc src cfg) cfg with ⟨o1, b1⟩
      rcases h5 : outputHtmlTo src (transformDocument doc src { cfg with xml := x }) { cfg with xml := x } with ⟨o2, b2⟩
      rw [h4, h5] at h1 h2
      cases b1 <;> cases b2 <;> simp_all
    · have h1 := internal_bad hp hl hn cfg false
      have h2 := internal_bad hp hl hn { cfg with xml := x } false
      have key : (convertToInternal parse src cfg false).2 = (convertToInternal parse src { cfg with xml := x } false).2 := by
        obtain ⟨e1, n1, -, hs1, g1⟩ := h1
        obtain ⟨e2, n2, -, hs2, g2⟩ := h2
        cases hf : cfg.failFast.getD false with
        | false => rw [g1, g2, hs1 hf, hs2 hf]
        | true =>
          obtain ⟨z, _, _, hx⟩ := hl.fast hn (Errors.new cfg) hf
          have hb : Build.parseDocument parse src (Errors.new cfg) = (none, (Errors.new cfg).add z) := by
            simp only [Build.parseDocument, hp]; exact hx
          have hb' : Build.parseDocument parse src (Errors.new { cfg with xml := x }) = (none, (Errors.new cfg).add z) := hb
          simp only [convertToInternal, hb, hb']
      rcases h3 : convertToInternal parse src cfg false with ⟨o1, r1⟩
      rcases h4 : convertToInternal parse src { cfg with xml := x } false with ⟨o2, r2⟩
      rw [h3, h4] at key
      simp only at key
      subst key
      rw [convert_eq h3, convert_eq h4]
      cases r1 <;> simp

/-- **C94.** The HTML output and the XML output of a usable source say the same: read as HTML and as XML, they are the same elements
with the same attributes, texts, comments and white space, in the same order and nesting, if no void element has content. Otherwise they
are the same up to white space. If there is one of the outputs, there is the other one (C94_success). -/
theorem C94_alike {alnum : Char → Bool} (hp : parse src = .ok ast) (hg : Grammar.Conforms alnum src ast = true) (hu : Usable false src ast)
    (hc : SafeTags false cfg.specialTags) (hm : ∀ m, cfg.metadata = some m → m.elements = false)
    (hi : ∀ i, cfg.indent = some i → Blank i) (hH : convert parse src { cfg with xml := some false } = .ok outH) :
    ∃ outX html xml, convert parse src { cfg with xml := some true } = .ok outX ∧
      readMarkup false outH = some html ∧ readMarkup true outX = some xml ∧
      solid (meant html) = solid (meant xml) ∧ (VoidsEmpty xml → meant html = meant xml) := by
  have hX : ∃ outX, convert parse src { cfg with xml := some true } = .ok outX := by
    cases h : convert parse src { cfg with xml := some true } with
    | ok o => exact ⟨o, rfl⟩
    | error err =>
      have := (C94_success parse src { cfg with xml := some false } (some true) err).2 h
      rw [hH] at this
      cases this
  obtain ⟨outX, hX⟩ := hX
  obtain ⟨s, lines, t, doc, rfl, h1, h2⟩ := convert_document hp hH
  obtain ⟨tH, tX, r1, r2, r3, r4⟩ := document_alike (cfg := cfg) hp h1 hc hm hi (Usable.usable_clean hg hu h2) hH hX
  exact ⟨outX, tH, tX, hX, by rw [readMarkup, r1], by rw [readMarkup, r2], r3, r4 trivial⟩

end

/-! ## The hypotheses are met -/

/-- A source with void elements, elements without content, attributes without value and characters that are to be escaped. -/
def alikeSource : Str := "section#top> {\n  <#b#> & \"q\" <(br>)> a\n\n  img[hidden]>\n  div[hidden]>\n}\n\np> x > y".toList

set_option maxRecDepth 30000 in
/-- It is a source for which C94 speaks. -/
example : ∃ ast, RepoTests.parser alikeSource = .ok ast ∧ Grammar.Conforms Char.isAlphanum alikeSource ast = true ∧ Usable false alikeSource ast := by
  have hx : ∃ ast, Grammar.parse Char.isAlphanum alikeSource = some ast ∧ RepoTests.parser alikeSource = .ok ast ∧
      (allNodes ast).all (usableB false alikeSource) = true := by
    cases h : Grammar.parse Char.isAlphanum alikeSource with
    | none =>
      have h1 : (Grammar.parse Char.isAlphanum alikeSource).isSome = true := by decide +kernel
      rw [h] at h1; cases h1
    | some ast =>
      have h1 : (Grammar.parse Char.isAlphanum alikeSource).all (fun ast => (allNodes ast).all (usableB false alikeSource)) = true := by decide +kernel
      rw [h] at h1
      exact ⟨ast, rfl, by simp [RepoTests.parser, h], by simpa using h1⟩
  obtain ⟨ast, h1, h2, h3⟩ := hx
  exact ⟨ast, h2, Grammar.parse_conforms h1, fun n hn => usableB_sound (List.all_eq_true.1 h3 n hn)⟩

set_option maxRecDepth 30000 in
/-- Its outputs are different, but say the same. -/
example : convert RepoTests.parser alikeSource { xml := some false } =
      .ok ("<section id=\"top\"><strong>b</strong> &amp; \"q\" <br> a <img hidden> <div hidden></div></section> <p><x>y</x></p>").toList ∧
    convert RepoTests.parser alikeSource { xml := some true } =
      .ok ("<section id=\"top\"><strong>b</strong> &amp; \"q\" <br/> a <img hidden=\"\"/> <div hidden=\"\"/></section> <p><x>y</x></p>").toList := by
  decide +kernel

/-- An error that does not depend on the kind of output: an unknown escape. -/
example : (∃ err, convert RepoTests.parser "a \\q".toList {} = .error err) ∧
    ∃ err, convert RepoTests.parser "a \\q".toList { xml := some true } = .error err := by
  have h : ∃ err, convert RepoTests.parser "a \\q".toList {} = .error err := by
    cases h : convert RepoTests.parser "a \\q".toList {} with
    | ok o =>
      have h1 : (convert RepoTests.parser "a \\q".toList {}).toOption.isSome = false := by decide +kernel
      rw [h] at h1; cases h1
    | error e => exact ⟨e, rfl⟩
  obtain ⟨err, h⟩ := h
  exact ⟨⟨err, h⟩, err, (C94_success _ _ {} (some true) err).1 h⟩

set_option maxRecDepth 30000 in
/-- If a void element has content, white space can be different: after the end tag in XML, dropped in HTML. -/
theorem C94_void : convert RepoTests.parser "<(br> <[[x ]]>)> y".toList {} = .ok "<p><br>x y</p>".toList ∧
    convert RepoTests.parser "<(br> <[[x ]]>)> y".toList { xml := some true } = .ok "<p><br>x </br> y</p>".toList ∧
    (readMarkup false "<p><br>x y</p>".toList).map meant ≠ (readMarkup true "<p><br>x </br> y</p>".toList).map meant ∧
    (readMarkup false "<p><br>x y</p>".toList).map (fun t => solid (meant t)) =
      (readMarkup true "<p><br>x </br> y</p>".toList).map (fun t => solid (meant t)) := by
  decide +kernel

set_option maxRecDepth 30000 in
/-- Raw texts are markup in HTML and text in XML. -/
theorem C94_raw : convert RepoTests.parser "p> <[raw[<b>]]>".toList {} = .ok "<p><b></p>".toList ∧
    convert RepoTests.parser "p> <[raw[<b>]]>".toList { xml := some true } = .ok "<p>&lt;b&gt;</p>".toList ∧
    (readMarkup false "<p><b></p>".toList).map meant ≠ (readMarkup true "<p>&lt;b&gt;</p>".toList).map meant := by
  decide +kernel

end Mty
