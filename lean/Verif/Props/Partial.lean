import Verif.Proofs.Partial
import Verif.Props.Pieces
import Verif.Props.RefParser

/-!
# C68: the partial output of `convert_forgiving`

The specification is in `Spec/Partial.lean`.
-/

set_option autoImplicit false

namespace Mty
open Spec

section
variable {parse : Parser} {src : Str} {ast : Ast.Document} {doc : Document} {e : Errors} {cfg : OutputConfig} {p : Option Str} {err : ConvertError}

/-- What `convert_forgiving` hands back if it fails. -/
theorem forgiving_failed (hp : parse src = .ok ast) (hd : Build.fromAst src ast (Errors.new cfg) = (some doc, e))
    (h : convertForgiving parse src cfg = .error (p, err)) :
    p.getD [] = (outputHtmlTo src (transformDocument doc src cfg) cfg).1 ∧
    (err = .syntax e.syntaxErrors src ∨ err = .unknown) ∧ (err = .unknown → e.syntaxErrors = []) := by
  obtain ⟨doc', es, hl, -⟩ := build_cases src ast
  have getD_of : ∀ {o : Str} {x : ConvertError}, (if o.isEmpty then Except.error (none, x) else .error (some o, x) : Except (Option Str × ConvertError) Str) =
      .error (p, err) → p.getD [] = o ∧ x = err := by
    intro o x hx
    cases o with
    | nil => simp at hx; simp [← hx.1, hx.2]
    | cons c o => simp at hx; simp [← hx.1, hx.2]
  by_cases hn : es = []
  · subst hn
    rw [hl.fastOk rfl] at hd
    obtain ⟨h1, h2⟩ := Prod.mk.inj hd
    cases h1
    subst h2
    have h3 := internal_ok hp hl cfg true
    rcases ho : outputHtmlTo src (transformDocument doc src cfg) cfg with ⟨out, ok⟩
    rw [ho] at h3
    cases ok with
    | true => rw [forgiving_eq h3] at h; cases h
    | false =>
      rw [forgiving_eq h3] at h
      obtain ⟨g1, g2⟩ := getD_of h
      exact ⟨g1, .inr g2.symm, fun _ => rfl⟩
  · cases hf : cfg.failFast.getD false with
    | true =>
      obtain ⟨x, -, -, hx⟩ := hl.fast hn (Errors.new cfg) hf
      rw [hx] at hd; cases hd
    | false =>
      rw [hl.slow _ hf] at hd
      obtain ⟨h1, h2⟩ := Prod.mk.inj hd
      cases h1
      subst h2
      obtain ⟨es', -, -, g3, g4⟩ := internal_bad hp hl hn cfg true
      cases g3 hf
      rw [forgiving_eq g4] at h
      obtain ⟨g1, g2⟩ := getD_of h
      rw [hf] at g1
      refine ⟨g1, .inl (by simp [← g2, Errors.new, Errors.add]), fun hu => ?_⟩
      rw [hu] at g2; cases g2

/-- **C68.** The output handed back with an error: the pieces of the items of the converted document, in order, up to the first item that
cannot be written (all of them if there is none), and the beginning of this item. An item cannot be written only if it is a text or a start tag
with an invalid escape sequence (`Begun`). -/
theorem C68_output (hp : parse src = .ok ast) (hd : Build.fromAst src ast (Errors.new cfg) = (some doc, e))
    (h : convertForgiving parse src cfg = .error (p, err)) :
    ∃ piece, (∀ i ∈ convertedItems cfg src doc, Writable cfg.isXml src i → (∀ b s, i ≠ .gap b s) → Writes cfg.isXml src i (piece i)) ∧
      (((∀ i ∈ convertedItems cfg src doc, Writable cfg.isXml src i) ∧
          ∃ ws, Weaves piece src cfg.indent true (convertedItems cfg src doc) (p.getD []) ws) ∨
        BreaksOff piece cfg.isXml src cfg.indent true (convertedItems cfg src doc) (p.getD [])) := by
  have hs := singles_of (C17_single cfg hd)
  obtain ⟨h1, h2⟩ := document_weaves (src := src) (cfg := cfg) hs
  refine ⟨pieceOf cfg.isXml src, fun i _ hw hg => written_item hw hg, ?_⟩
  rw [(forgiving_failed hp hd h).1]
  cases hok : (outputHtmlTo src (transformDocument doc src cfg) cfg).2 with
  | true => exact .inl ⟨h1.1 hok, h2 hok⟩
  | false => exact .inr (document_breaks hs hok)

/-- **C68, complete.** If no invalid escape sequence is reported and the ids, classes and attributes are valid, the output is complete, whatever
else is reported: all pieces of all items are written. -/
theorem C68_complete (hp : parse src = .ok ast) (hd : Build.fromAst src ast (Errors.new cfg) = (some doc, e))
    (h : convertForgiving parse src cfg = .error (p, err))
    (he : ∀ es s, err = .syntax es s → ∀ x ∈ es, x.kind ≠ .invalidEscape)
    (ha : ∀ q ∈ namedSelectors (transformDocument doc src cfg).nodes, ∃ attrs, AttrsRead cfg.isXml src q.2 attrs) :
    ∃ piece ws, (∀ i ∈ convertedItems cfg src doc, (∀ b s, i ≠ .gap b s) → Writes cfg.isXml src i (piece i)) ∧
      Weaves piece src cfg.indent true (convertedItems cfg src doc) (p.getD []) ws := by
  obtain ⟨h0, h1, h2⟩ := forgiving_failed hp hd h
  have hes : ∀ x ∈ e.syntaxErrors, x.kind ≠ .invalidEscape := by
    rcases h1 with h1 | h1
    · exact he _ _ h1
    · simp [h2 h1]
  have hk : ∀ x ∈ nodesTexts (transformDocument doc src cfg).nodes, KnownText src True x :=
    transform_known_of cfg hd (fromAst_texts_esc hd fun es h2 _ x hx => hes x (by rw [h2]; exact List.mem_append_right _ hx))
  have hw := (items_writable cfg (C17_single cfg hd) hk trivial).2 ha
  obtain ⟨g1, g2⟩ := document_weaves (src := src) (cfg := cfg) (singles_of (C17_single cfg hd))
  obtain ⟨ws, g3⟩ := g2 (g1.2 hw)
  rw [← h0] at g3
  exact ⟨_, ws, fun i hi hg => written_item (hw i hi) hg, g3⟩

/-- **C68, nothing.** If the source cannot be parsed, or with `fail_fast` if there is any syntax error, there is no output. -/
theorem C68_nothing (h : convertForgiving parse src cfg = .error (p, err))
    (hn : (∃ pe, parse src = .error pe) ∨ (cfg.failFast = some true ∧ ∃ es s, err = .syntax es s)) : p = none := by
  rcases hn with ⟨pe, hpe⟩ | ⟨hf, es, s, rfl⟩
  · rw [forgiving_eq (internal_parse_error hpe cfg true)] at h
    simp at h
    exact h.1.symm
  · cases hp : parse src with
    | error pe =>
      rw [forgiving_eq (internal_parse_error hp cfg true)] at h
      simp at h
      exact h.1.symm
    | ok ast =>
      obtain ⟨doc, es', hl, -⟩ := build_cases src ast
      by_cases hn : es' = []
      · subst hn
        have h3 := internal_ok hp hl cfg true
        rcases ho : outputHtmlTo src (transformDocument doc src cfg) cfg with ⟨out, ok⟩
        rw [ho] at h3
        cases ok with
        | true => rw [forgiving_eq h3] at h; cases h
        | false =>
          rw [forgiving_eq h3] at h
          cases out <;> simp at h
      · obtain ⟨x, -, -, -, g4⟩ := internal_bad hp hl hn cfg true
        rw [forgiving_eq g4] at h
        simp [hf] at h
        exact h.1.symm

end

set_option maxRecDepth 20000 in
/-- An unclosed block and an invalid escape (`ul { a`, `x\\q`): what precedes the escape is written. -/
example : Ex.parser Ex.ast2 Ex.src2 = .ok Ex.ast2 ∧
    (Build.fromAst Ex.src2 Ex.ast2 (Errors.new {})).1.isSome = true ∧
    convertForgiving (Ex.parser Ex.ast2) Ex.src2 {} = .error (some "<ul><li>a x".toList,
      .syntax [⟨⟨3, 4⟩, .unclosed .block⟩, ⟨⟨8, 10⟩, .invalidEscape⟩] Ex.src2) := by
  refine ⟨rfl, ?_, ?_⟩
  · decide +kernel
  · decide +kernel

set_option maxRecDepth 20000 in
/-- An attribute with an invalid escape is found when the start tag is written. -/
example : convertForgiving (Ex.parser Ex.ast3) Ex.src3 {} = .error (some "<p x=\"".toList, .unknown) := by decide +kernel

set_option maxRecDepth 20000 in
/-- Blocks that are not closed: the output is complete, all elements are closed. -/
example : convertForgiving RepoTests.parser "div { em> a\np { b".toList {} =
    .error (some "<div><em>a</em> <p>b</p></div>".toList,
      .syntax [⟨⟨4, 5⟩, .unclosed .block⟩, ⟨⟨14, 15⟩, .unclosed .block⟩] "div { em> a\np { b".toList) := by decide +kernel

set_option maxRecDepth 20000 in
/-- With `fail_fast` there is no output. -/
example : convertForgiving RepoTests.parser "div { em> a\np { b".toList { failFast := some true } =
    .error (none, .syntax [⟨⟨4, 5⟩, .unclosed .block⟩] "div { em> a\np { b".toList) := by decide +kernel

end Mty
