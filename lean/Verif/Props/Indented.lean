import Verif.Proofs.MarginsIndent
import Verif.Props.Margins

/-!
# C88: a source can be indented as a whole, with the blocks of code and text in it

Specification: `Spec/Margins.lean`. The property as a whole is not true of the code: quoted values of attributes that go over the end of a line
(`C88_attribute_value`) and the lines of a block that are less indented than its closing delimiter (`C88_less_indented`) get the indentation
too.
-/

set_option autoImplicit false

namespace Mty
open Spec

/-- **C88, partial.** A source and the same source with every line further in by the same spaces and tabs have the same output, and so do the
blocks of code and text in it. If the one is rejected then the other is, for the same kind of reason.

Missing: sources in which another text, a comment, a name or a value goes over the end of a line, or a line in a block of text is less
indented than the closing delimiter, for which it is false; blocks of which the last line is empty or ends in a carriage return; a backslash
at the end of a line. The output is without metadata, which has byte positions. -/
theorem C88_indented_partial (alnum : Char → Bool) (hn : ∀ c ∈ [' ', '\t', '\r', '\n'], alnum c = false)
    (parse : Parser) (hp : ∀ src d, Grammar.parse alnum src = some d → parse src = .ok d)
    (src indent : Str) (hi : ∀ c ∈ indent, c = ' ' ∨ c = '\t') (hslash : NoSlashBreak src)
    (d : Ast.Document) (h : Grammar.parse alnum src = some d) (hd : Indentable src d)
    (cfg : OutputConfig) (hm : cfg.metadata = none) :
    (∀ out, convert parse src cfg = .ok out ↔ convert parse (indentedBy indent src) cfg = .ok out) ∧
    ((∃ es, convert parse src cfg = .error (.syntax es src)) ↔
      ∃ es, convert parse (indentedBy indent src) cfg = .error (.syntax es (indentedBy indent src))) ∧
    (convert parse src cfg = .error .unknown ↔ convert parse (indentedBy indent src) cfg = .error .unknown) := by
  have hmm := Grammar.only_margins hi src
  obtain ⟨d', hd'⟩ := (margins_accepted hn hslash hmm).1 ⟨d, h⟩
  obtain ⟨⟨a, ls, b⟩⟩ := d
  exact (margins_outputB hn hp hslash hmm (Grammar.block_indented hi) h hd hm).trans (spaces_output hp hi hd' hm)

/-! ## A case: two blocks of code, one of them in an element, and one of text with an escape -/

namespace Ex
open LineEnds

def indented1 : Str := "a\n```\nb\n  c\n\nd\n```\nx {\n  ```\n    e\n  f\n  ```\n}\n\"\"\"\ng\\t<h\n\"\"\"\n".toList
def indented2 : Str :=
  "    a\n    ```\n    b\n      c\n    \n    d\n    ```\n    x {\n      ```\n        e\n      f\n      ```\n    }\n    \"\"\"\n    g\\t<h\n    \"\"\"\n    ".toList

theorem indented_eq : indentedBy "    ".toList indented1 = indented2 := by decide +kernel

theorem indented_slash : NoSlashBreak indented1 := slashOk_sound _ (by decide +kernel)

/-- The blocks in it. -/
def blocks1 : List Str := ["\nb\n  c\n\nd\n".toList, "\n    e\n  f\n  ".toList, "\ng\\t<h\n".toList]

theorem blocks_flush : ∀ b ∈ blocks1, Flush b := by
  intro b hb
  simp only [blocks1, List.mem_cons, List.not_mem_nil, or_false] at hb
  rcases hb with rfl | rfl | rfl
  · exact ⟨[], ["b".toList, "  c".toList, []], "d".toList, by decide +kernel, by decide +kernel, by decide +kernel, by decide +kernel,
      by decide +kernel⟩
  · exact ⟨"  ".toList, ["  e".toList], "f".toList, by decide +kernel, by decide +kernel, by decide +kernel, by decide +kernel,
      by decide +kernel⟩
  · exact ⟨[], [], "g\\t<h".toList, by decide +kernel, by decide +kernel, by decide +kernel, by decide +kernel, by decide +kernel⟩

mutual
  theorem typeWithin_mono {src : Str} {B B' : Str → Prop} (hB : ∀ b, B b → B' b) : ∀ ty : Ast.NodeType, typeWithin src B ty → typeWithin src B' ty
    | .multiline _ _ _, h => by rw [typeWithin] at h ⊢; exact hB _ h
    | .text _, h => by rw [typeWithin] at h ⊢; exact h
    | .selector _, h => by rw [typeWithin] at h ⊢; exact h
    | .line _, _ => by rw [typeWithin]; trivial
    | .block _ (.mk _ ls _) _, h => by rw [typeWithin] at h ⊢; exact linesWithin_mono hB ls h
    | .inline _ ns _, h => by rw [typeWithin] at h ⊢; exact nodesWithin_mono hB ns h
    | .special _ _ (.mk _ ls _) _, h => by rw [typeWithin] at h ⊢; exact linesWithin_mono hB ls h
    | .code _, h => by rw [typeWithin] at h ⊢; exact h
  theorem nodesWithin_mono {src : Str} {B B' : Str → Prop} (hB : ∀ b, B b → B' b) : ∀ ns : List Ast.Node, nodesWithin src B ns → nodesWithin src B' ns
    | [], _ => by rw [nodesWithin]; trivial
    | .mk _ _ _ ty :: ns, h => by rw [nodesWithin] at h ⊢; exact ⟨typeWithin_mono hB ty h.1, nodesWithin_mono hB ns h.2⟩
  theorem linesWithin_mono {src : Str} {B B' : Str → Prop} (hB : ∀ b, B b → B' b) : ∀ ls : List Ast.Line, linesWithin src B ls → linesWithin src B' ls
    | [], _ => by rw [linesWithin]; trivial
    | .mk _ ns _ :: ls, h => by rw [linesWithin] at h ⊢; exact ⟨nodesWithin_mono hB ns h.1, linesWithin_mono hB ls h.2⟩
end

theorem indented_ok : ∃ d, Grammar.parse Char.isAlphanum indented1 = some d ∧ Indentable indented1 d := by
  have h : (match Grammar.parse Char.isAlphanum indented1 with
      | some ⟨.mk _ ls _⟩ => @decide _ (decLines (B := fun b => b ∈ blocks1) indented1 ls)
      | none => false) = true := by decide +kernel
  revert h
  generalize Grammar.parse Char.isAlphanum indented1 = o
  intro h
  match o, h with
  | some ⟨.mk _ ls _⟩, h => exact ⟨_, rfl, linesWithin_mono blocks_flush _ (@of_decide_eq_true _ (decLines indented1 ls) h)⟩

set_option maxRecDepth 20000 in
theorem indented_out : convert RepoTests.parser indented1 {} = .ok
    "<p>a</p> <pre><code>b&NewLine;  c&NewLine;&NewLine;d</code></pre> <x><pre><code>  e&NewLine;f</code></pre></x> <p>g&Tab;&lt;h</p>".toList := by
  decide +kernel

/-- All hypotheses are met, and so the indented source has the same output. -/
example : convert RepoTests.parser indented2 {} = .ok
    "<p>a</p> <pre><code>b&NewLine;  c&NewLine;&NewLine;d</code></pre> <x><pre><code>  e&NewLine;f</code></pre></x> <p>g&Tab;&lt;h</p>".toList := by
  obtain ⟨d, h1, h2⟩ := indented_ok
  rw [← indented_eq]
  exact ((C88_indented_partial Char.isAlphanum (by decide) RepoTests.parser (fun src d h => by rw [RepoTests.parser, h])
    indented1 "    ".toList (by decide) indented_slash d h1 h2 {} rfl).1 _).1 indented_out

end Ex

/-! ## What is changed by an indentation -/

set_option maxRecDepth 20000 in
/-- **C88 is false for values of attributes** that go over the end of a line. -/
theorem C88_attribute_value :
    convert RepoTests.parser "x[u=\"a\nb\"]> c".toList {} = .ok "<x u=\"a&NewLine;b\">c</x>".toList ∧
    convert RepoTests.parser (indentedBy " ".toList "x[u=\"a\nb\"]> c".toList) {} = .ok "<x u=\"a&NewLine; b\">c</x>".toList := by
  decide +kernel

set_option maxRecDepth 20000 in
/-- **C88 is false for lines of a block that are less indented than its closing delimiter.** -/
theorem C88_less_indented :
    convert RepoTests.parser "x {\n  ```\na\n  b\n  ```\n}".toList {} = .ok "<x><pre><code>a&NewLine;b</code></pre></x>".toList ∧
    convert RepoTests.parser (indentedBy " ".toList "x {\n  ```\na\n  b\n  ```\n}".toList) {} =
      .ok "<x><pre><code> a&NewLine;b</code></pre></x>".toList := by
  decide +kernel

end Mty
