import Verif.Props.Source
import Verif.Props.Document
import Verif.Props.Ranges
import Verif.Props.Infer
import Verif.Props.Transform
import Verif.Props.Paragraphs
import Verif.Props.Layout
import Verif.Props.Pieces
import Verif.Props.Partial
import Verif.Props.Metadata
import Verif.Props.Parse
import Verif.Props.Structure
import Verif.Props.Page
import Verif.Props.JsClass
import Verif.Props.Plan
import Verif.Props.Selectors
import Verif.Props.Multiline
import Verif.Props.Escape

/-!
# One document for many theorems

Many theorems assume that a source is read, built and converted. Here they are applied to one document with selectors, ids,
classes, attributes, inline and special elements, code, comments and blocks, so that their hypotheses can be seen to hold for
it; and others to cases of their own, where there is none beside them.
-/

set_option autoImplicit false

namespace Mty
open Spec

/-- The document is read by the reference parser, well-formed, built and converted. -/
theorem usable_meets (cfg : OutputConfig) (h : ∃ out, convert RepoTests.parser usableSource cfg = .ok out) :
    ∃ ast doc out, RepoTests.parser usableSource = .ok ast ∧ Grammar.Conforms Char.isAlphanum usableSource ast = true ∧
      PositionsOk usableSource ast ∧ WellFormed usableSource ast ∧
      Build.fromAst usableSource ast (Errors.new cfg) = (some doc, Errors.new cfg) ∧ convert RepoTests.parser usableSource cfg = .ok out := by
  obtain ⟨out, h⟩ := h
  obtain ⟨ast, doc, h1, h2, h3, -⟩ := (C08_ok_iff _ _ _ _).1 h
  have hg : Grammar.Conforms Char.isAlphanum usableSource ast = true := by
    rw [RepoTests.parser] at h1
    split at h1
    · rename_i d hd
      cases h1
      exact C56_sound _ _ _ hd
    · cases h1
  exact ⟨ast, doc, out, h1, hg, C12_grammar_positions _ _ _ hg, h2, h3, h⟩

set_option maxRecDepth 30000 in
theorem usable_plain : ∃ out, convert RepoTests.parser usableSource {} = .ok out := by
  have : (convert RepoTests.parser usableSource {}).isOk = true := by decide +kernel
  cases h : convert RepoTests.parser usableSource {} with
  | ok out => exact ⟨out, rfl⟩
  | error e => rw [h] at this; cases this

set_option maxRecDepth 30000 in
theorem usable_page : ∃ out, convert RepoTests.parser usableSource { completePage := some true, indent := some "  ".toList } = .ok out := by
  have : (convert RepoTests.parser usableSource { completePage := some true, indent := some "  ".toList }).isOk = true := by decide +kernel
  cases h : convert RepoTests.parser usableSource { completePage := some true, indent := some "  ".toList } with
  | ok out => exact ⟨out, rfl⟩
  | error e => rw [h] at this; cases this

/-- C11_content_exact, C11_converted, C31_interpolations_partial. -/
example : ∃ ast doc, RepoTests.parser usableSource = .ok ast ∧ docLeaves doc.nodes = astLeaves false ast ∧
    docLeaves (transformDocument doc usableSource {}).nodes = astLeaves false ast := by
  obtain ⟨ast, doc, out, hp, -, -, -, hd, h⟩ := usable_meets {} usable_plain
  have := C31_interpolations_partial hp h
  exact ⟨ast, doc, hp, C11_content_exact _ _ _ _ _ hd, (C11_converted hd (by intro m h; cases h)).2 rfl⟩

/-- C12_ranges, C12_grammar, C56_covers. -/
example : ∃ ast doc, RepoTests.parser usableSource = .ok ast ∧ (∀ r ∈ docRanges doc, ValidRange usableSource r) ∧
    Covers usableSource (treeTokens ast) := by
  obtain ⟨ast, doc, out, hp, hg, hr, -, hd, h⟩ := usable_meets {} usable_plain
  have h1 := (C12_ranges _ _ _ _ _ hr hd).1 doc rfl
  have h2 := (C12_grammar _ _ _ _ _ _ hg hd).1 doc rfl
  exact ⟨ast, doc, hp, h2, C56_covers _ _ _ hg⟩

/-- C56_characters, for the last character of the document but one. -/
example : ∃ ast, RepoTests.parser usableSource = .ok ast ∧ ∃ t ∈ treeTokens ast, t.start ≤ byteLen usableSource.dropLast.dropLast ∧
    byteLen (usableSource.dropLast.dropLast ++ ['}']) ≤ t.stop := by
  obtain ⟨ast, doc, out, hp, hg, -⟩ := usable_meets {} usable_plain
  exact ⟨ast, hp, C56_characters _ _ _ hg usableSource.dropLast.dropLast ['\n'] '}' (by decide +kernel) (by simp only [White]; decide)⟩

/-- C13_layout, C13_where, C55_structure. -/
example : ∃ (s : Nat) (lines : List Ast.Line) (t : Nat) (doc : Document), RepoTests.parser usableSource = .ok ⟨.mk s lines t⟩ ∧
    Layout true false s (lines.map (srcLine usableSource)) doc.nodes ∧ (∀ n ∈ doc.nodes, ParagraphsOk False n) ∧
    ContentIs usableSource true s lines doc.nodes := by
  obtain ⟨⟨⟨s, lines, t⟩⟩, doc, out, hp, -, -, -, hd, -⟩ := usable_meets {} usable_plain
  exact ⟨s, lines, t, doc, hp, C13_layout _ _ _ _ _ _ _ hd, C13_where _ _ _ _ _ hd, C55_structure _ _ _ _ _ _ hd⟩

/-- C17_single, C18_kept, C19_texts, C20_inference, C20_document, C21_decided_partial. -/
example : ∃ doc, (∀ n ∈ (transformDocument doc usableSource {}).nodes, SingleSelectors n) ∧
    List.Forall₂ Kept (forestOf usableSource (toInfer {} usableSource doc)) (forestOf usableSource (Infer.infer usableSource (toInfer {} usableSource doc))) ∧
    nodesTexts (Infer.infer usableSource (toInfer {} usableSource doc)) = nodesTexts (toInfer {} usableSource doc) ∧
    forestOf usableSource (transformDocument doc usableSource {}).nodes =
      inferForest .section none none true (forestOf usableSource (toInfer {} usableSource doc)) ∧
    ∀ t ∈ forestOf usableSource (Infer.infer usableSource (toInfer {} usableSource doc)), Decided .section t := by
  obtain ⟨ast, doc, out, hp, -, -, -, hd, h⟩ := usable_meets {} usable_plain
  have := C20_inference {} hd
  exact ⟨doc, C17_single {} hd, C18_kept {} hd, C19_texts {} hd, C20_document {} hd rfl rfl, C21_decided_partial {} hd⟩

/-- C20_manual: a line in a list. -/
example : nameIn .list (some .line) true true false = some "li" := C20_manual .list .line "li" true true (by decide)

/-- C23_special_partial, C23_default, C24_converted. -/
example : ∃ doc head body, List.Forall₂ (SpecialTagged usableSource {} "pre".toList) doc.nodes (applySpecialTags {} doc).nodes ∧
    forestOf usableSource (transformDocument doc usableSource { completePage := some true, indent := some "  ".toList }).nodes =
      [plainTree "html" [plainTree "head" head, .leaf (.space .paragraphEnd), plainTree "body" body]] := by
  obtain ⟨ast, doc, out, hp, -, -, -, hd, h⟩ := usable_meets { completePage := some true, indent := some "  ".toList } usable_page
  have h1 := C23_special_partial {} hd
  have h2 := C23_default {} hd rfl rfl
  have hn : ∀ n ∈ (applySpecialTags { completePage := some true, indent := some "  ".toList } doc).nodes,
      isNamed usableSource ["html", "body"] n = false := by
    have : (match RepoTests.parser usableSource with
        | .ok ast => match (Build.fromAst usableSource ast (Errors.new {})).1 with
          | some doc => (applySpecialTags {} doc).nodes.all fun n => !isNamed usableSource ["html", "body"] n
          | none => false
        | .error _ => false) = true := by decide +kernel
    rw [hp] at this
    have hd' : (Build.fromAst usableSource ast (Errors.new {})).1 = some doc := congrArg Prod.fst hd
    simp only [hd', List.all_eq_true, Bool.not_eq_true'] at this
    exact this
  obtain ⟨head, body, h3, -, -⟩ := C24_converted _ hd rfl rfl rfl hn
  exact ⟨doc, head, body, h1, h3⟩

/-- C34_pieces, C58_determined, C30_verbatim_partial, C33_unknown, C35_indent. -/
example : ∃ doc out piece, convert RepoTests.parser usableSource { completePage := some true, indent := some "  ".toList } = .ok out ∧
    ∀ out' ws', Weaves piece usableSource (some "  ".toList) true
      (convertedItems { completePage := some true, indent := some "  ".toList } usableSource doc) out' ws' → out' = out := by
  obtain ⟨ast, doc, out, hp, -, -, hw, hd, h⟩ := usable_meets { completePage := some true, indent := some "  ".toList } usable_page
  have h1 := C34_pieces hp hd h
  have h2 := C30_verbatim_partial hp hd (by intro m h; cases h) h
  have h3 := (C33_unknown hp hw hd).2.1 ⟨out, h⟩
  obtain ⟨piece, -, -, h4⟩ := C58_determined hp hd h
  exact ⟨doc, out, piece, h, h4⟩

/-- C57_places, C57_elements_partial. -/
example : ∃ doc, placesOf (transformDocument doc usableSource {}).nodes = placesOf (toInfer {} usableSource doc) := by
  obtain ⟨ast, doc, out, hp, -, -, -, hd, h⟩ := usable_meets {} usable_plain
  have := C57_elements_partial {} { elements := true } rfl hd
  exact ⟨doc, C57_places {} rfl hd⟩

/-- C03_manual_accepted. -/
example : writeUnescape "a\\n\\u{e9}".toList = ("a\né".toList, true) := by
  refine C03_manual_accepted _ _ ?_
  rw [← C03_manual_exact_partial _ _ (by decide)]
  decide +kernel

/-- C32_trim, C32_total. -/
example : ∃ body, Trimmed "\n  a\n   b\n  ".toList body ∧ (trimMultiline "\n  a\n   b\n  ".toList).flatten = body := by
  obtain ⟨body, h⟩ := (C32_total "\n  a\n   b\n  ".toList).1 (by decide)
  exact ⟨body, h, C32_trim _ _ h⟩

open Cli in
/-- C39_named. -/
example : ∃ name', Renamed false "b.mty".toList name' ∧ changeExtension "a/b.mty".toList {} = "a/".toList ++ name' :=
  C39_named {} "a/".toList "b.mty".toList (.inr (by decide)) (by decide)

open Cli in
/-- C40_found: what is found in the example has no other paths than those within the depth limit. -/
example : ∃ found : List Loc, (∀ l ∈ found, l.base = ".".toList) ∧ (found.map fun l => components l.relative).Nodup ∧
    ∀ path, path ∈ (found.map fun l => components l.relative) ↔
      ∃ names, path = components [] ++ names ∧ Found (ExFs.listing false) (components (Path.join ".".toList [])) 1 names := by
  have h : searchDir (ExFs.fs false) 1 ".".toList [] [] = .ok [⟨".".toList, "a.mty".toList⟩, ⟨".".toList, "sub/b.Minty".toList⟩] := by
    decide +kernel
  obtain ⟨found, -, h1, h2, h3⟩ := C40_found (ExFs.fs false) _ (fun _ => rfl) (ExFs.listing_proper false) 1 _ _ _ _ h
  exact ⟨found, h1, h2, h3⟩

open Cli in
/-- C40_fails: there is no directory `x`. -/
example : ∃ e, searchDir (ExFs.fs false) 1 "x".toList [] [] = .error e :=
  (C40_fails (ExFs.fs false) _ (fun _ => rfl) (ExFs.listing_proper false) 1 _ _ _).2
    ⟨components (Path.join "x".toList []), "No such file or directory".toList, .here, by decide +kernel⟩

end Mty
