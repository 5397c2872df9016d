import Verif.Props.Pieces
import Verif.Props.RefParser

/-!
# C58: the white space of the output

The specification is in `Spec/Pieces.lean`: `Margin`, `nodeItems`, `TextStop`, `Weaves`.
-/

set_option autoImplicit false

namespace Mty
open Spec

section
variable {parse : Parser} {src : Str} {ast : Ast.Document} {doc : Document} {e : Errors} {cfg : OutputConfig} {out : Str}

/-- **C58.** The white space of the output is determined by the items of the converted document and the indentation: there are ways to write
the items (`piece`) such that the output, and no other string, consists of the pieces with white space as described by `Weaves`: a space is
written as it is in the source, or as a line break and the indentation of the enclosing elements (`Margin`); the content of elements that are
not written inline begins and ends with a line break and that indentation; unless white space has just been written. -/
theorem C58_determined (hp : parse src = .ok ast) (hd : Build.fromAst src ast (Errors.new cfg) = (some doc, e))
    (h : convert parse src cfg = .ok out) :
    ∃ piece, (∀ i ∈ convertedItems cfg src doc, (∀ b s, i ≠ .gap b s) → Writes cfg.isXml src i (piece i)) ∧
      (∃ ws, Weaves piece src cfg.indent true (convertedItems cfg src doc) out ws) ∧
      ∀ out' ws', Weaves piece src cfg.indent true (convertedItems cfg src doc) out' ws' → out' = out := by
  obtain ⟨piece, ws, h1, h2⟩ := C34_pieces hp hd h
  exact ⟨piece, h1, ⟨ws, h2⟩, fun _ _ h3 => (weaves_unique h3 h2).1⟩

/-- **C58, without indentation.** Without an indentation the only white space between the pieces is what is written for spaces of the
document: no item for the beginning or end of a content writes anything, and a line break is one blank. -/
theorem C58_unindented {piece : OutItem → Str} {items : List OutItem} {ws ws' : Bool}
    (h : Weaves piece src none ws items out ws') :
    Weaves piece src none ws (items.filter fun i => match i with | .gap _ none => false | _ => true) out ws' ∧
      ∀ l s w, SpaceText none src l s w → w = [' '] ∨ ∃ t, s = .inline (some t) ∧ w = t.asStr src := by
  constructor
  · induction h with
    | nil => exact .nil
    | doctype _ ih => exact .doctype ih
    | start _ ih => exact .start ih
    | stop _ ih => exact .stop ih
    | comment _ ih => exact .comment ih
    | text h1 h2 _ ih => exact .text h1 h2 ih
    | dropped _ ih => exact .dropped ih
    | space h1 _ ih => exact .space h1 ih
    | noBreak _ _ ih => exact ih
    | break_ h => cases h
  · intro l s w h
    cases h with
    | written => exact .inr ⟨_, rfl, rfl⟩
    | blank => exact .inl rfl
    | unbroken => exact .inl rfl
    | broken _ h => cases h

/-- **C58, inline.** Where the enclosing element is written inline, the indentation is not used: every end of a line is one blank and nothing
is written at the beginning and the end of the content. -/
theorem C58_inline {piece : OutItem → Str} {indent : Option Str} {l : Margin} {s : Option Space} {ws ws' : Bool} (hl : l.inline = true)
    (h : Weaves piece src indent ws [.gap l s] out ws') :
    out = [] ∨ out = [' '] ∨ ∃ t, s = some (.inline (some t)) ∧ out = t.asStr src := by
  cases h with
  | dropped h => cases h; exact .inl rfl
  | space h h' =>
    cases h'
    rw [List.append_nil]
    cases h with
    | written => exact .inr (.inr ⟨_, rfl, rfl⟩)
    | blank => exact .inr (.inl rfl)
    | unbroken => exact .inr (.inl rfl)
    | broken _ _ h => rw [hl] at h; cases h
  | noBreak _ h => cases h; exact .inl rfl
  | break_ _ h => rw [hl] at h; cases h

end

/-! ## Cases -/

set_option maxRecDepth 20000 in
/-- Nested elements: `html` adds no level, and inline elements are not broken. -/
example : convert RepoTests.parser "html> {\n body> {\n  section> {\n   p> a <(em> b)> c\n  }\n }\n}".toList { indent := some "  ".toList } =
    .ok "<html>\n<body>\n  <section>\n    <p>a <em>b</em> c</p>\n  </section>\n</body>\n</html>\n".toList := by decide +kernel

set_option maxRecDepth 20000 in
/-- A blank at the end of a text in the source is white space (no line break before the end tag); an escaped one is not. -/
example : convert RepoTests.parser "div> {\n\"\"\"\n a \n\"\"\"\n}".toList { indent := some "  ".toList } = .ok "<div>\n   a </div>\n".toList ∧
    convert RepoTests.parser "div> {\n a\\x20\n}".toList { indent := some "  ".toList } = .ok "<div>\n  a \n</div>\n".toList := by
  decide +kernel

set_option maxRecDepth 20000 in
/-- **C58, observation.** The indentation does not spare the elements in which white space is significant: it adds a line break and blanks
to the content of `pre` and `textarea`. -/
theorem C58_preformatted : convert RepoTests.parser "pre> {\n a\n}".toList {} = .ok "<pre>a</pre>".toList ∧
    convert RepoTests.parser "pre> {\n a\n}".toList { indent := some "  ".toList } = .ok "<pre>\n  a\n</pre>\n".toList ∧
    convert RepoTests.parser "textarea> {\n a\n}".toList { indent := some "  ".toList } =
      .ok "<textarea>\n  a\n</textarea>\n".toList := by decide +kernel

/-- All kinds of texts at which it matters: a text that ends with a blank, one that does not, a block, and a block without content. -/
example (src : Str) (ws : Bool) : TextStop src { slice := .provided "a ".toList } ws true ∧
    TextStop src { slice := .provided "a\\x20".toList } ws false ∧
    TextStop src { slice := .provided "\n a \n".toList, multiline := true } ws true ∧
    TextStop src { slice := .provided "\n\n ".toList, multiline := true } ws true := by
  refine ⟨.plain (by decide) (.inl rfl), .plain (by decide) (.inl rfl), ?_, .plain (by decide) (.inr (.inr ⟨[], [' '], by decide, by decide, .inl rfl⟩))⟩
  have hb : Trimmed "\n a \n".toList " a ".toList :=
    .mk (first := []) (last := []) (pre := []) (lines := []) (l := " a ".toList) (by decide) (by decide) (by decide)
      ⟨by simp, [], rfl, by simp⟩ (.none _ fun l' h => by have := congrArg List.getLast? h; simp at this) (.strip _) .nil
  refine TextStop.block (body := " a ".toList) (by decide) rfl ?_ hb
  intro h
  have : trimMultiline "\n a \n".toList = [] := trimMultiline_hollow.2 h
  exact absurd this (by decide)

end Mty
