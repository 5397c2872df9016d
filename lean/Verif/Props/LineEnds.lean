import Verif.Proofs.MarginsTrim
import Verif.Props.Same
import Verif.Props.PartsErrors

/-!
# C86: the kind of line ends does not matter

Specification: `Spec/LineEnds.lean`. The property as a whole is not true of the code: block verbatim texts, code blocks and other texts that
go over the end of a line keep the carriage return (`C86_code_block`, `C86_attribute_value`). It is true of every source in which no text,
comment, name or value goes over the end of a line.
-/

set_option autoImplicit false

namespace Mty
open Spec

/-- What it means that two sources have the same outcome: the same output, or both have errors, or both are not accepted by the grammar. -/
def SameOutcome (parse : Parser) (cfg : OutputConfig) (s1 s2 : Str) : Prop :=
  (∀ out, convert parse s1 cfg = .ok out ↔ convert parse s2 cfg = .ok out) ∧
  ((∃ es, convert parse s1 cfg = .error (.syntax es s1)) ↔ ∃ es, convert parse s2 cfg = .error (.syntax es s2)) ∧
  (convert parse s1 cfg = .error .unknown ↔ convert parse s2 cfg = .error .unknown)

theorem SameOutcome.trans {parse : Parser} {cfg : OutputConfig} {s1 s2 s3 : Str} (h : SameOutcome parse cfg s1 s2) (h' : SameOutcome parse cfg s2 s3) :
    SameOutcome parse cfg s1 s3 :=
  ⟨fun out => (h.1 out).trans (h'.1 out), h.2.1.trans h'.2.1, h.2.2.trans h'.2.2⟩

theorem SameOutcome.symm {parse : Parser} {cfg : OutputConfig} {s1 s2 : Str} (h : SameOutcome parse cfg s1 s2) : SameOutcome parse cfg s2 s1 :=
  ⟨fun out => (h.1 out).symm, h.2.1.symm, h.2.2.symm⟩

theorem margins_accepted {Q : Str → Str → Prop} {alnum : Char → Bool} (hn : ∀ c ∈ [' ', '\t', '\r', '\n'], alnum c = false) {src src' : Str}
    (hslash : NoSlashBreak src) (hm : Margins Q src src') :
    (∃ d, Grammar.parse alnum src = some d) ↔ ∃ d, Grammar.parse alnum src' = some d := by
  rcases Grammar.parse_margins alnum hslash hn hm with ⟨h1, h2⟩ | ⟨a, ls, b, a', ls', b', h1, h2, -⟩
  · rw [h1, h2]
  · rw [h1, h2]; simp

theorem margins_outputB {Q : Str → Str → Prop} {alnum : Char → Bool} (hn : ∀ c ∈ [' ', '\t', '\r', '\n'], alnum c = false) {parse : Parser}
    (hp : ∀ src d, Grammar.parse alnum src = some d → parse src = .ok d) {src src' : Str} (hslash : NoSlashBreak src)
    (hmm : Margins Q src src') {B : Str → Prop}
    (hB : ∀ r r', Grammar.Sb Q src src' r r' → B (r.slice src) → SameBlock (r.slice src) (r'.slice src'))
    {a b : Nat} {ls : List Ast.Line} (h : Grammar.parse alnum src = some ⟨.mk a ls b⟩) (hw : linesWithin src B ls)
    {cfg : OutputConfig} (hm : cfg.metadata = none) : SameOutcome parse cfg src src' := by
  rcases Grammar.parse_margins alnum hslash hn hmm with ⟨h1, -⟩ | ⟨a, ls, b, a', ls', b', h1, h2, hrel⟩
  · rw [h] at h1; cases h1
  · rw [h] at h1
    cases h1
    have q1 := Grammar.conforms_positions (Grammar.parse_conforms h)
    have q2 := Grammar.conforms_positions (Grammar.parse_conforms h2)
    have hs : Same cfg.specialTags src src' ⟨.mk a ls b⟩ ⟨.mk a' ls' b'⟩ := .mk (Grammar.lines_same _ hB _ _ hrel q1.2 hw)
    exact ⟨fun out => C59_same (hp _ _ h) (hp _ _ h2) q1 q2 hs hm out, C59_errors (hp _ _ h) (hp _ _ h2) q1 q2 hs hm⟩

theorem margins_output {Q : Str → Str → Prop} {alnum : Char → Bool} (hn : ∀ c ∈ [' ', '\t', '\r', '\n'], alnum c = false) {parse : Parser}
    (hp : ∀ src d, Grammar.parse alnum src = some d → parse src = .ok d) {src src' : Str} (hslash : NoSlashBreak src)
    (hmm : Margins Q src src') {d : Ast.Document} (h : Grammar.parse alnum src = some d) (hw : WithinLines src d)
    {cfg : OutputConfig} (hm : cfg.metadata = none) : SameOutcome parse cfg src src' := by
  obtain ⟨⟨a, ls, b⟩⟩ := d
  exact margins_outputB hn hp hslash hmm (fun _ _ _ h => h.elim) h hw hm

/-- **C86, grammar.** The grammar accepts a source exactly if it accepts the source with the other kind of line ends, whatever texts go over
the end of a line.

`alnum` (which characters are alphanumeric) is any function that is false for spaces, tabs and line ends. -/
theorem C86_accepted (alnum : Char → Bool) (hn : ∀ c ∈ [' ', '\t', '\r', '\n'], alnum c = false) (src : Str) (hslash : NoSlashBreak src) :
    (∃ d, Grammar.parse alnum src = some d) ↔ ∃ d, Grammar.parse alnum (crlf src) = some d :=
  margins_accepted hn hslash (Grammar.margins_crlf src)

/-- **C86, partial.** A source and the same source with the other kind of line ends have the same output. If the one is rejected then the
other is, for the same kind of reason.

Missing: sources with a text, comment, name or value that goes over the end of a line, for which it is false; and a backslash at the end of
a line, with which there is an error in either case. The output is without metadata, which has byte positions. -/
theorem C86_output_partial (alnum : Char → Bool) (hn : ∀ c ∈ [' ', '\t', '\r', '\n'], alnum c = false)
    (parse : Parser) (hp : ∀ src d, Grammar.parse alnum src = some d → parse src = .ok d)
    (src : Str) (hslash : NoSlashBreak src) (d : Ast.Document) (h : Grammar.parse alnum src = some d) (hw : WithinLines src d)
    (cfg : OutputConfig) (hm : cfg.metadata = none) :
    (∀ out, convert parse src cfg = .ok out ↔ convert parse (crlf src) cfg = .ok out) ∧
    ((∃ es, convert parse src cfg = .error (.syntax es src)) ↔ ∃ es, convert parse (crlf src) cfg = .error (.syntax es (crlf src))) ∧
    (convert parse src cfg = .error .unknown ↔ convert parse (crlf src) cfg = .error .unknown) :=
  margins_output hn hp hslash (Grammar.margins_crlf src) h hw hm

/-! ## A case: paragraphs over several lines, blocks, selectors, formatting, a verbatim text, a comment and an interpolation -/

namespace LineEnds

/-- No line ends in a backslash, as a check. -/
def slashOk : Str → Bool
  | '\\' :: '\n' :: _ => false
  | _ :: s => slashOk s
  | [] => true

theorem slashOk_sound : ∀ s : Str, slashOk s = true → NoSlashBreak s := by
  intro s h a b e
  subst e
  induction a with
  | nil => simp [slashOk] at h
  | cons x a ih =>
    refine ih ?_
    rw [List.cons_append] at h
    revert h
    generalize a ++ '\\' :: '\n' :: b = t
    intro h
    unfold slashOk at h
    split at h
    · cases h
    · rename_i e; cases e; exact h
    · rename_i e; cases e

instance (src : Str) (r : Range) : Decidable (OneLine src r) := inferInstanceAs (Decidable (¬ _))

instance (src : Str) (t : Ast.InlineText) : Decidable (textWithin src t) := by
  cases t <;> exact inferInstanceAs (Decidable (OneLine _ _))

instance (src : Str) (s : Ast.Selector) : Decidable (selectorWithin src s) :=
  have : Decidable (∀ n, writtenName src s = some n → '\n' ∉ n) :=
    match h : writtenName src s with
    | none => .isTrue (by simp)
    | some n => if hn : '\n' ∉ n then .isTrue (by rintro m ⟨⟩; exact hn) else .isFalse fun hf => hn (hf n rfl)
  inferInstanceAs (Decidable (_ ∧ _))

variable {B : Str → Prop} [DecidablePred B]

mutual
  def decType (src : Str) : ∀ ty : Ast.NodeType, Decidable (typeWithin src B ty)
    | .multiline _ a b => decidable_of_iff (B (Range.slice ⟨a, b⟩ src)) (by rw [typeWithin])
    | .text t => decidable_of_iff (textWithin src t) (by rw [typeWithin])
    | .selector s => decidable_of_iff (selectorWithin src s) (by rw [typeWithin])
    | .line _ => .isTrue (by simp [typeWithin])
    | .block _ (.mk _ ls _) _ => have := decLines src ls; decidable_of_iff (linesWithin src B ls) (by rw [typeWithin])
    | .inline _ ns _ => have := decNodes src ns; decidable_of_iff (nodesWithin src B ns) (by rw [typeWithin])
    | .special _ _ (.mk _ ls _) _ => have := decLines src ls; decidable_of_iff (linesWithin src B ls) (by rw [typeWithin])
    | .code r => decidable_of_iff (OneLine src ⟨r.start + 2, r.stop - 2⟩) (by rw [typeWithin])
  def decNodes (src : Str) : ∀ ns : List Ast.Node, Decidable (nodesWithin src B ns)
    | [] => .isTrue (by simp [nodesWithin])
    | .mk _ _ _ ty :: ns =>
      have := decType src ty
      have := decNodes src ns
      decidable_of_iff (typeWithin src B ty ∧ nodesWithin src B ns) (by rw [nodesWithin])
  def decLines (src : Str) : ∀ ls : List Ast.Line, Decidable (linesWithin src B ls)
    | [] => .isTrue (by simp [linesWithin])
    | .mk _ ns _ :: ls =>
      have := decNodes src ns
      have := decLines src ls
      decidable_of_iff (nodesWithin src B ns ∧ linesWithin src B ls) (by rw [linesWithin])
end

instance (src : Str) (d : Ast.Document) : Decidable (WithinLines src d) :=
  match d with
  | ⟨.mk _ ls _⟩ => decLines src ls

end LineEnds

namespace Ex
open LineEnds

def lines1 : Str := "a\nb <#c#> {{ d }}\n\nx.k[u=\"v\"] {\n  y <[[z]]>\n  <! w !>\n}\n".toList
def lines2 : Str := "a\r\nb <#c#> {{ d }}\r\n\r\nx.k[u=\"v\"] {\r\n  y <[[z]]>\r\n  <! w !>\r\n}\r\n".toList

theorem lines_crlf : crlf lines1 = lines2 := by decide +kernel

theorem lines_slash : NoSlashBreak lines1 := slashOk_sound _ (by decide +kernel)

theorem lines_within : ∃ d, Grammar.parse Char.isAlphanum lines1 = some d ∧ WithinLines lines1 d := by
  have h : (match Grammar.parse Char.isAlphanum lines1 with
      | some d => decide (WithinLines lines1 d)
      | none => false) = true := by decide +kernel
  revert h
  generalize Grammar.parse Char.isAlphanum lines1 = o
  intro h
  cases o with
  | none => cases h
  | some d => exact ⟨d, rfl, of_decide_eq_true h⟩

example : ∃ d, Grammar.parse Char.isAlphanum (crlf lines1) = some d :=
  (C86_accepted Char.isAlphanum (by decide) lines1 lines_slash).1 (lines_within.imp fun _ h => h.1)

set_option maxRecDepth 20000 in
theorem lines_out : convert RepoTests.parser lines1 {} =
    .ok "<p>a b <strong>c</strong> {{ d }}</p> <x class=\"k\" u=\"v\"><p>y z <!-- w --></p></x>".toList := by decide +kernel

/-- All hypotheses are met, and so the second source has the output of the first one. -/
example : convert RepoTests.parser lines2 {} =
    .ok "<p>a b <strong>c</strong> {{ d }}</p> <x class=\"k\" u=\"v\"><p>y z <!-- w --></p></x>".toList := by
  obtain ⟨d, h1, h2⟩ := lines_within
  rw [← lines_crlf]
  exact ((C86_output_partial Char.isAlphanum (by decide) RepoTests.parser (fun src d h => by rw [RepoTests.parser, h])
    lines1 lines_slash d h1 h2 {} rfl).1 _).1 lines_out

end Ex

/-! ## The code keeps carriage returns -/

set_option maxRecDepth 20000 in
/-- **C86 is false for code blocks.** With carriage returns in the source there are carriage returns in the output. -/
theorem C86_code_block :
    convert RepoTests.parser "```\na\nb\n```".toList {} = .ok "<pre><code>a&NewLine;b</code></pre>".toList ∧
    convert RepoTests.parser (crlf "```\na\nb\n```".toList) {} = .ok "<pre><code>a&#13;&NewLine;b</code></pre>".toList := by
  decide +kernel

set_option maxRecDepth 20000 in
/-- **C86 is false for values of attributes** that go over the end of a line. -/
theorem C86_attribute_value :
    convert RepoTests.parser "x[u=\"a\nb\"]> c".toList {} = .ok "<x u=\"a&NewLine;b\">c</x>".toList ∧
    convert RepoTests.parser (crlf "x[u=\"a\nb\"]> c".toList) {} = .ok "<x u=\"a&#13;&NewLine;b\">c</x>".toList := by
  decide +kernel

end Mty
