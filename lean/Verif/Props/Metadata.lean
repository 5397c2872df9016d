import Verif.Proofs.Metadata
import Verif.Props.Transform
import Verif.Props.Grammar
import Verif.Props.Source
import Verif.Props.RefParser

/-!
# C57: metadata elements and positions

The specification is `Spec/Metadata.lean`, after `docs/general/metadata.md`. The attributes of elements are those of `metadataOf`
(`Spec/Transform.lean`), as in `C28_added`.
-/

set_option autoImplicit false

namespace Mty
open Spec

section
variable {src : Str} {ast : Ast.Document} {e e' : Errors} {doc : Document}

/-- **C57, elements.** With metadata elements, the document is the one without metadata in which every text is wrapped in `mty:text`,
every comment is replaced by `mty:comment`, every element without name is a `mty:element`, and all of them have the documented
attributes. Missing: `mty:raw` of a text is inverted (documented is `fun t => !t.escapeOut`), see `C57_raw`. -/
theorem C57_elements_partial (cfg : OutputConfig) (m : MetadataConfig) (hm : m.elements = true)
    (h : Build.fromAst src ast e = (some doc, e')) :
    List.Forall₂ (MetadataElements (fun t => t.escapeOut) true)
      (transformDocument doc src { cfg with metadata := none, lang := none }).nodes
      (transformDocument doc src { cfg with metadata := some m, lang := none }).nodes := by
  have hs := C17_single { cfg with metadata := none, lang := none } h
  rw [transformDocument_eq] at hs
  rw [transformDocument_eq, transformDocument_eq]
  dsimp only [_root_.id] at hs ⊢
  exact metaNodes_elements m hm _ true hs

/-- **C57, places.** Inference and `lang` move nothing: in the document that metadata is added to, texts, elements and contents are
at the places they have in the built document with special tags and page completion. Chains of selectors are nested elements; all but
the first begin with their selectors. -/
theorem C57_places (cfg : OutputConfig) (hm : cfg.metadata = none) (h : Build.fromAst src ast e = (some doc, e')) :
    placesOf (transformDocument doc src cfg).nodes = placesOf (toInfer cfg src doc) := by
  have hp := toInfer_plain cfg h
  have hs := (infer_tree src _ hp).2
  rw [transformDocument_eq, hm, ← infer_places src _ hp]
  dsimp only [_root_.id]
  cases cfg.lang with
  | none => rfl
  | some l =>
    dsimp only
    rw [placesOf_eq, placesOf_eq, List.map_map]
    exact List.map_congr_left fun n hn => langNode_place l (hs n hn)

/-- **C57, positions.** For every tree of the grammar and every configuration, all places in the document that metadata is added to are
valid ranges of the source or do not exist (then they are left out of the metadata, see `metadataOf`). So every position in the metadata
is the byte position of a character of the source or its end. -/
theorem C57_positions (alnum : Char → Bool) (cfg : OutputConfig) (hm : cfg.metadata = none)
    (hc : Grammar.Conforms alnum src ast = true) (h : Build.fromAst src ast e = (some doc, e')) :
    ∀ r ∈ placesRanges (placesOf (transformDocument doc src cfg).nodes), r.start ≤ r.stop → ValidRange src r := by
  rw [C57_places cfg hm h]
  exact toInfer_places_valid cfg ((C12_grammar alnum src ast e e' (some doc) hc h).1 doc rfl)

end

/-! ## Examples and deviations -/

set_option maxRecDepth 20000 in
/-- The hypotheses are met: a chain, a text, a comment and an inline element. The positions of all of them are those in the source. -/
example : convert RepoTests.parser "a > b.c > x <(s> y)> <! c !>".toList { metadata := some { elements := true } } = .ok
    ("<a xmlns:mty=\"tag:youngspe.github.io,2024:mintyml/metadata\" mty:start=\"0\" mty:end=\"28\" mty:content-start=\"4\"" ++
      " mty:content-end=\"28\"><b class=\"c\" mty:start=\"4\" mty:end=\"28\" mty:content-start=\"9\" mty:content-end=\"28\">" ++
      "<mty:text mty:raw=\"true\" mty:start=\"10\" mty:end=\"11\">x</mty:text> <s mty:start=\"12\" mty:end=\"20\"" ++
      " mty:content-start=\"16\" mty:content-end=\"18\"><mty:text mty:raw=\"true\" mty:start=\"17\" mty:end=\"18\">y</mty:text></s> " ++
      "<mty:comment mty:start=\"21\" mty:end=\"28\" mty:content-start=\"21\" mty:content-end=\"28\"> c </mty:comment></b></a>").toList := by
  decide +kernel

set_option maxRecDepth 20000 in
/-- **C57, deviation.** The text `1 & 2` is escaped in HTML without metadata, but `mty:raw` says that it is not. -/
theorem C57_raw : convert RepoTests.parser "1 & 2".toList {} = .ok "<p>1 &amp; 2</p>".toList ∧
    convert RepoTests.parser "1 & 2".toList { xml := some true, metadata := some { elements := true } } = .ok
    ("<p xmlns:mty=\"tag:youngspe.github.io,2024:mintyml/metadata\" mty:start=\"0\" mty:end=\"5\" mty:content-start=\"0\"" ++
      " mty:content-end=\"5\"><mty:text mty:raw=\"true\" mty:start=\"0\" mty:end=\"5\">1 &amp; 2</mty:text></p>").toList := by
  decide +kernel

set_option maxRecDepth 20000 in
/-- **C57, deviation.** An element with an arrow and a block starts at the block instead of its selector: the outer element of the chain
`a > b > { x }` starts at 8, after the start of the inner one (4). -/
theorem C57_arrow_block : convert RepoTests.parser "a > b > { x }".toList { metadata := some { elements := false } } = .ok
    ("<a xmlns:mty=\"tag:youngspe.github.io,2024:mintyml/metadata\" mty:start=\"8\" mty:end=\"13\" mty:content-start=\"4\"" ++
      " mty:content-end=\"13\"><b mty:start=\"4\" mty:end=\"13\" mty:content-start=\"10\" mty:content-end=\"12\">x</b></a>").toList := by
  decide +kernel

set_option maxRecDepth 20000 in
/-- **C57, deviation.** The content of a paragraph of several lines ends in the metadata with the first line: `mty:content-end` is 1,
the content ends at 3. -/
theorem C57_lines : convert RepoTests.parser "x\ny".toList { metadata := some { elements := false } } = .ok
    ("<p xmlns:mty=\"tag:youngspe.github.io,2024:mintyml/metadata\" mty:start=\"0\" mty:end=\"3\" mty:content-start=\"0\"" ++
      " mty:content-end=\"1\">x y</p>").toList := by
  decide +kernel

end Mty
