import Verif.Proofs.PartsBlank
import Verif.Props.PartsErrors

/-!
# C78: white space around a source makes no difference

Specification: `Spec/Parts.lean`.
-/

set_option autoImplicit false

namespace Mty
open Spec

theorem blank_before {pre : Str} (h : BlankBefore pre) : Grammar.EndsLine pre ∧ ∀ c ∈ pre, isWhitespace c = true := by
  obtain ⟨lines, indent, rfl, h1, h2, h3⟩ := h
  refine ⟨?_, fun c hc => ?_⟩
  · intro c hc
    rw [List.reverse_append, List.dropWhile_append_of_pos] at hc
    · rcases h2 with rfl | h2
      · simp at hc
      · obtain ⟨p, rfl⟩ := List.getLast?_eq_some_iff.1 h2
        simpa using hc.symm
    · intro d hd
      have := h3 d (by simpa using hd)
      simp only [Bool.or_eq_true, decide_eq_true_eq]
      exact this.symm
  · rcases List.mem_append.1 hc with hc | hc
    · exact (Grammar.white_iff c).2 (h1 c hc)
    · rcases h3 c hc with rfl | rfl <;> decide

/-- **C78, before the source.** Blank lines before a source and an indentation of its first line make no difference: the grammar accepts
the one exactly if it accepts the other, the outputs are the same, and the errors are the same, with positions that are moved by the length
of what is before the source. -/
theorem C78_before (alnum : Char → Bool) (pre s : Str) (hpre : BlankBefore pre) :
    (Grammar.parse alnum (pre ++ s)).isSome = (Grammar.parse alnum s).isSome ∧
    ∀ (parse : Parser) (_ : ∀ src d, Grammar.parse alnum src = some d → parse src = .ok d) (d : Ast.Document)
      (_ : Grammar.parse alnum s = some d) (cfg : OutputConfig),
      (cfg.metadata = none → ∀ out, convert parse (pre ++ s) cfg = .ok out ↔ convert parse s cfg = .ok out) ∧
      (cfg.failFast.getD false = false →
        reported (convert parse (pre ++ s) cfg) = (reported (convert parse s cfg)).map (movedBy (byteLen pre))) ∧
      (reported (convert parse (pre ++ s) cfg)).head? = (reported (convert parse s cfg)).head?.map (movedBy (byteLen pre)) := by
  obtain ⟨he, hw⟩ := blank_before hpre
  have hk := Grammar.More.parse_before (alnum := alnum) (s := s) he hw
  refine ⟨by rw [hk]; simp, fun parse hp d h cfg => ?_⟩
  obtain ⟨⟨a, L, b⟩⟩ := d
  rw [h, Option.map_some, Grammar.mvContent] at hk
  have q := Grammar.conforms_positions (Grammar.parse_conforms h)
  refine ⟨fun hm out => ?_, ?_⟩
  · have hs := Grammar.sameLines_mv (pre := pre) (post := []) cfg.specialTags _ q.2
    rw [List.append_nil] at hs
    exact (C59_same (hp _ _ h) (hp _ _ hk) (C12_grammar_positions _ _ _ (Grammar.parse_conforms h))
      (C12_grammar_positions _ _ _ (Grammar.parse_conforms hk)) (.mk hs) hm out).symm
  · obtain ⟨d1, d2, es, l1, l2⟩ := Build.around_logs (pre := pre) (post := []) (a := byteLen pre + a) (b := byteLen pre + b) (B := []) q.2
      (by simp [Grammar.More.Blanks'])
    rw [List.append_nil, List.append_nil] at l2
    have k1 := reported_logs (hp _ _ h) l1 cfg
    have k2 := reported_logs (hp _ _ hk) l2 cfg
    refine ⟨fun hf => ?_, ?_⟩
    · rw [k1.1 hf, k2.1 hf]
    · rw [k1.2, k2.2, List.head?_map]

/-- **C78.** White space before and after a source makes no difference, if everything that is opened in the source is closed in it: the
output is the same (without a complete page and metadata), and so are the errors, with positions that are moved by the length of what is
before the source. -/
theorem C78_around (alnum : Char → Bool) (hn : alnum '\n' = false) (hl : alnum '<' = false) (hb : alnum '{' = false)
    (parse : Parser) (hp : ∀ src d, Grammar.parse alnum src = some d → parse src = .ok d)
    (s : Str) (d : Ast.Document) (h : Grammar.parse alnum s = some d)
    (hs : ∃ c ∈ s, ¬ White c) (hslash : s.getLast? ≠ some '\\') (hclosed : Closed s d)
    (pre post : Str) (hpre : BlankBefore pre) (hpost : BlankAfter post) (cfg : OutputConfig) :
    (cfg.metadata = none → cfg.completePage.getD false = false →
      ∀ out, convert parse (pre ++ s ++ post) cfg = .ok out ↔ convert parse s cfg = .ok out) ∧
    (cfg.failFast.getD false = false →
      reported (convert parse (pre ++ s ++ post) cfg) = (reported (convert parse s cfg)).map (movedBy (byteLen pre))) ∧
    (reported (convert parse (pre ++ s ++ post) cfg)).head? = (reported (convert parse s cfg)).head?.map (movedBy (byteLen pre)) := by
  rcases hpost with rfl | ⟨w, rfl, hw⟩
  · rw [List.append_nil]
    have := (C78_before alnum pre s hpre).2 parse hp d h cfg
    exact ⟨fun hm _ => this.1 hm, this.2⟩
  · obtain ⟨⟨a, L, b⟩⟩ := d
    obtain ⟨c, m, wc⟩ := hs
    obtain ⟨B, b', hB, h'⟩ := Grammar.More.parse_after ⟨hn, hl, hb⟩ (w := w) h
      (Grammar.More.nonBlank_iff.2 ⟨c, m, by rw [← Grammar.white_iff] at wc; simpa using wc⟩) hslash hclosed
      fun c hc => (Grammar.white_iff c).2 (hw c hc)
    have hx := (C78_before alnum pre _ hpre).2 parse hp _ h' cfg
    have q := Grammar.conforms_positions (Grammar.parse_conforms h)
    rw [← List.append_assoc] at hx
    refine ⟨fun hm hpg out => ?_, ?_⟩
    · rw [hx.1 hm out]
      have e1 := Grammar.sameLines_mv (pre := []) (post := '\n' :: w) cfg.specialTags _ q.2
      rw [show byteLen [] = 0 from rfl, Grammar.mvLines_zero] at e1
      rcases Parts.blanks_convert (hp _ _ h) (hp _ _ h') (Grammar.parse_conforms h) (Grammar.parse_conforms h') e1 hB hm hpg with
        ⟨r, k1, k2⟩ | ⟨e, e', k1, k2⟩
      · rw [k1, k2]
      · rw [k1, k2]; simp
    · obtain ⟨d1, d2, es, l1, l2⟩ := Build.around_logs (pre := []) (post := '\n' :: w) (a := a) (b := b') q.2 hB
      rw [show byteLen [] = 0 from rfl, Grammar.mvLines_zero, List.nil_append] at l2
      have hz : es.map (Build.mvE 0) = es := by
        rw [show Build.mvE 0 = id by funext ⟨r, _⟩; simp [Build.mvE, movedBy], List.map_id]
      rw [hz] at l2
      have k1 := reported_logs (hp _ _ h) l1 cfg
      have k2 := reported_logs (hp _ _ h') l2 cfg
      refine ⟨fun hf => ?_, ?_⟩
      · rw [hx.2.1 hf, k1.1 hf, k2.1 hf]
      · rw [hx.2.2, k1.2, k2.2]

/-! ## A case with blank lines and an indentation before the source, and blank lines after it -/

namespace Ex

def blankBefore : Str := " \n\t\n  \t".toList
def blankAfter : Str := "\n \r\n\n  ".toList

end Ex

/-- The white space meets the conditions. -/
example : BlankBefore Ex.blankBefore ∧ BlankAfter Ex.blankAfter :=
  ⟨⟨" \n\t\n".toList, "  \t".toList, by decide +kernel, by unfold White; decide +kernel, .inr (by decide +kernel), by decide +kernel⟩,
    .inr ⟨" \r\n\n  ".toList, by decide +kernel, by unfold White; decide +kernel⟩⟩

set_option maxRecDepth 20000 in
/-- The source of C76 meets them too (see there), and has this output. -/
example : convert RepoTests.parser (Ex.blankBefore ++ Ex.part1 ++ Ex.blankAfter) {} = .ok
    "<h1>A</h1> <p>b <strong>c</strong> {{ d }}</p> <x k=\"v\"><p>y</p></x>".toList ∧
    convert RepoTests.parser Ex.part1 {} = .ok
    "<h1>A</h1> <p>b <strong>c</strong> {{ d }}</p> <x k=\"v\"><p>y</p></x>".toList := by
  decide +kernel

set_option maxRecDepth 20000 in
/-- With errors: everything is 7 bytes further on than in C77. -/
example : reported (convert RepoTests.parser (Ex.blankBefore ++ Ex.wrong1 ++ Ex.blankAfter) {}) =
    [⟨⟨12, 14⟩, .invalidEscape⟩, ⟨⟨18, 23⟩, .misplacedItem (.mustNotPrecede .element [.text])⟩] := by decide +kernel

end Mty
