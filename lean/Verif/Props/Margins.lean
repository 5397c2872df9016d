import Verif.Props.LineEnds
import Verif.Props.Blank

/-!
# C87: the margins of lines do not matter

Specification: `Spec/Margins.lean`. The property as a whole is not true of the code: block verbatim texts, code blocks, and other texts that go
over the end of a line keep white space at the beginning or end of a line (`C87_attribute_value`, `C87_code_block`). It is true of every
source in which no text, comment, name or value goes over the end of a line.
-/

set_option autoImplicit false

namespace Mty
open Spec

theorem spaces_before {w : Str} (hw : ∀ c ∈ w, c = ' ' ∨ c = '\t') : BlankBefore w := ⟨[], w, rfl, by simp, .inl rfl, hw⟩

theorem spaces_accepted {alnum : Char → Bool} {w : Str} (hw : ∀ c ∈ w, c = ' ' ∨ c = '\t') (x : Str) :
    (∃ d, Grammar.parse alnum (w ++ x) = some d) ↔ ∃ d, Grammar.parse alnum x = some d := by
  have := (C78_before alnum w x (spaces_before hw)).1
  rw [← Option.isSome_iff_exists, ← Option.isSome_iff_exists, this]

theorem spaces_output {alnum : Char → Bool} {parse : Parser} (hp : ∀ src d, Grammar.parse alnum src = some d → parse src = .ok d)
    {w : Str} (hw : ∀ c ∈ w, c = ' ' ∨ c = '\t') {x : Str} {d : Ast.Document} (h : Grammar.parse alnum x = some d)
    {cfg : OutputConfig} (hm : cfg.metadata = none) : SameOutcome parse cfg x (w ++ x) := by
  obtain ⟨he, hw'⟩ := blank_before (spaces_before hw)
  have hk := Grammar.More.parse_before (alnum := alnum) (s := x) he hw'
  obtain ⟨⟨a, L, b⟩⟩ := d
  rw [h, Option.map_some, Grammar.mvContent] at hk
  have q := Grammar.conforms_positions (Grammar.parse_conforms h)
  have hs := Grammar.sameLines_mv (pre := w) (post := []) cfg.specialTags _ q.2
  rw [List.append_nil] at hs
  have q1 := C12_grammar_positions _ _ _ (Grammar.parse_conforms h)
  have q2 := C12_grammar_positions _ _ _ (Grammar.parse_conforms hk)
  exact ⟨fun out => C59_same (hp _ _ h) (hp _ _ hk) q1 q2 (.mk hs) hm out, C59_errors (hp _ _ h) (hp _ _ hk) q1 q2 (.mk hs) hm⟩

/-- **C87, grammar.** Two sources that differ only in the margins of their lines are both accepted by the grammar or both rejected, whatever
texts go over the end of a line.

`alnum` (which characters are alphanumeric) is any function that is false for spaces, tabs and line ends. -/
theorem C87_accepted (alnum : Char → Bool) (hn : ∀ c ∈ [' ', '\t', '\r', '\n'], alnum c = false) (s1 s2 : Str)
    (hs : trimmedLines s1 = trimmedLines s2) (hslash : NoSlashBreak (trimmedLines s1)) :
    (∃ d, Grammar.parse alnum s1 = some d) ↔ ∃ d, Grammar.parse alnum s2 = some d := by
  have key : ∀ s, NoSlashBreak (trimmedLines s) →
      ((∃ d, Grammar.parse alnum s = some d) ↔ ∃ d, Grammar.parse alnum (trimmedLines s) = some d) := by
    intro s hs
    obtain ⟨w, x, e, hw, hm⟩ := Grammar.margins_trimmed s
    rw [margins_accepted hn hs hm, ← spaces_accepted hw x, ← e]
  rw [key s1 hslash, key s2 (hs ▸ hslash), hs]

/-- **C87, partial.** Two sources that differ only in the margins of their lines have the same output. If the one is rejected then the other
is, for the same kind of reason. The condition is on the source without any margins.

Missing: sources with a text, comment, name or value that goes over the end of a line, for which it is false; and a backslash at the end of
a line. The output is without metadata, which has byte positions. -/
theorem C87_output_partial (alnum : Char → Bool) (hn : ∀ c ∈ [' ', '\t', '\r', '\n'], alnum c = false)
    (parse : Parser) (hp : ∀ src d, Grammar.parse alnum src = some d → parse src = .ok d)
    (s1 s2 : Str) (hs : trimmedLines s1 = trimmedLines s2) (hslash : NoSlashBreak (trimmedLines s1))
    (d : Ast.Document) (h : Grammar.parse alnum (trimmedLines s1) = some d) (hw : WithinLines (trimmedLines s1) d)
    (cfg : OutputConfig) (hm : cfg.metadata = none) :
    (∀ out, convert parse s1 cfg = .ok out ↔ convert parse s2 cfg = .ok out) ∧
    ((∃ es, convert parse s1 cfg = .error (.syntax es s1)) ↔ ∃ es, convert parse s2 cfg = .error (.syntax es s2)) ∧
    (convert parse s1 cfg = .error .unknown ↔ convert parse s2 cfg = .error .unknown) := by
  have key : ∀ s, trimmedLines s1 = trimmedLines s → SameOutcome parse cfg (trimmedLines s1) s := by
    intro s he
    obtain ⟨w, x, e, hx, hmm⟩ := Grammar.margins_trimmed s
    rw [← he] at hmm
    obtain ⟨d', hd'⟩ := (margins_accepted hn hslash hmm).1 ⟨d, h⟩
    rw [e]
    exact (margins_output hn hp hslash hmm h hw hm).trans (spaces_output hp hx hd' hm)
  exact (key s1 rfl).symm.trans (key s2 hs)

/-! ## A case: the source of C86, without margins, and with another indentation, spaces at the ends of lines, and one carriage return -/

namespace Ex
open LineEnds

def margins1 : Str := "a\nb <#c#> {{ d }}\n\nx.k[u=\"v\"] {\ny <[[z]]>\n<! w !>\n}\n".toList
def margins2 : Str := "  a \n\tb <#c#> {{ d }}\r\n   \n  x.k[u=\"v\"] {\n      y <[[z]]>\t \n   <! w !>\n    }\n ".toList

theorem margins_eq : trimmedLines margins2 = margins1 ∧ trimmedLines margins1 = margins1 ∧ trimmedLines lines1 = margins1 := by decide +kernel

theorem margins_slash : NoSlashBreak margins1 := slashOk_sound _ (by decide +kernel)

theorem margins_within : ∃ d, Grammar.parse Char.isAlphanum margins1 = some d ∧ WithinLines margins1 d := by
  have h : (match Grammar.parse Char.isAlphanum margins1 with
      | some d => decide (WithinLines margins1 d)
      | none => false) = true := by decide +kernel
  revert h
  generalize Grammar.parse Char.isAlphanum margins1 = o
  intro h
  cases o with
  | none => cases h
  | some d => exact ⟨d, rfl, of_decide_eq_true h⟩

example : ∃ d, Grammar.parse Char.isAlphanum margins2 = some d :=
  (C87_accepted Char.isAlphanum (by decide) margins1 margins2 (margins_eq.2.1.trans margins_eq.1.symm)
    (margins_eq.2.1 ▸ margins_slash)).1 (margins_within.imp fun _ h => h.1)

/-- All hypotheses are met, and so the second source has the output of the first one of C86. -/
example : convert RepoTests.parser margins2 {} =
    .ok "<p>a b <strong>c</strong> {{ d }}</p> <x class=\"k\" u=\"v\"><p>y z <!-- w --></p></x>".toList := by
  obtain ⟨d, h1, h2⟩ := margins_within
  rw [← margins_eq.2.2] at h1 h2
  exact ((C87_output_partial Char.isAlphanum (by decide) RepoTests.parser (fun src d h => by rw [RepoTests.parser, h])
    lines1 margins2 (margins_eq.2.2.trans margins_eq.1.symm) (margins_eq.2.2 ▸ margins_slash) d h1 h2 {} rfl).1 _).1 lines_out

end Ex

/-! ## The code keeps margins inside texts -/

set_option maxRecDepth 20000 in
/-- **C87 is false for values of attributes** that go over the end of a line. -/
theorem C87_attribute_value :
    trimmedLines "x[u=\"a\n  b\"]> c".toList = "x[u=\"a\nb\"]> c".toList ∧
    convert RepoTests.parser "x[u=\"a\nb\"]> c".toList {} = .ok "<x u=\"a&NewLine;b\">c</x>".toList ∧
    convert RepoTests.parser "x[u=\"a\n  b\"]> c".toList {} = .ok "<x u=\"a&NewLine;  b\">c</x>".toList := by
  decide +kernel

set_option maxRecDepth 20000 in
/-- **C87 is false for code blocks**, where it is meant to be: the indentation of code is kept. -/
theorem C87_code_block :
    trimmedLines "```\na\n  b\n```".toList = "```\na\nb\n```".toList ∧
    convert RepoTests.parser "```\na\nb\n```".toList {} = .ok "<pre><code>a&NewLine;b</code></pre>".toList ∧
    convert RepoTests.parser "```\na\n  b\n```".toList {} = .ok "<pre><code>a&NewLine;  b</code></pre>".toList := by
  decide +kernel

end Mty
