import Verif.Proofs.PartsErrors
import Verif.Props.Parts

/-!
# C77: the errors of texts that are separated by blank lines

Specification: `Spec/Parts.lean`.
-/

set_option autoImplicit false

namespace Mty
open Spec

/-- The errors of a conversion: those of building the document, without `fail_fast`, and otherwise the first ones. -/
theorem reported_logs {parse : Parser} {src : Str} {ast : Ast.Document} {doc : Document} {es : List SyntaxError} (h : parse src = .ok ast)
    (hl : Logs (Build.fromAst src ast) doc es) (cfg : OutputConfig) :
    (cfg.failFast.getD false = false → reported (convert parse src cfg) = es) ∧ (reported (convert parse src cfg)).head? = es.head? := by
  by_cases hn : es = []
  · subst hn
    have : reported (convert parse src cfg) = [] := by
      rw [convert_ok h hl]
      split <;> rfl
    exact ⟨fun _ => this, by rw [this]⟩
  · obtain ⟨es', h1, h2, h3, h4⟩ := convert_bad h hl hn cfg
    rw [h4]
    refine ⟨h3, ?_⟩
    obtain ⟨x, rfl⟩ := h2
    obtain ⟨e, es'', rfl⟩ := List.exists_cons_of_ne_nil h1
    rfl

/-- **C77.** For two sources that the grammar accepts: if everything that is opened in the first one is closed in it and the second one does
not begin with white space, then the errors reported for the first source, a blank line and the second source are those of the first source
and those of the second one, in this order, where the positions of the latter are moved by the length of what is before the second source.
(The first source may have any errors other than those for unclosed delimiters.) -/
theorem C77_errors (alnum : Char → Bool) (hn : alnum '\n' = false) (hl : alnum '<' = false) (hb : alnum '{' = false)
    (parse : Parser) (hp : ∀ src d, Grammar.parse alnum src = some d → parse src = .ok d)
    (s1 s2 : Str) (d1 d2 : Ast.Document) (h1 : Grammar.parse alnum s1 = some d1) (h2 : Grammar.parse alnum s2 = some d2)
    (hs1 : ∃ c ∈ s1, ¬ White c) (hslash : s1.getLast? ≠ some '\\') (hclosed : Closed s1 d1)
    (hs2 : ∃ c, s2.head? = some c ∧ ¬ White c) (cfg : OutputConfig) :
    (cfg.failFast.getD false = false →
      reported (convert parse (s1 ++ "\n\n".toList ++ s2) cfg) =
        reported (convert parse s1 cfg) ++ (reported (convert parse s2 cfg)).map (movedBy (byteLen (s1 ++ "\n\n".toList)))) ∧
    (reported (convert parse (s1 ++ "\n\n".toList ++ s2) cfg)).head? =
      ((reported (convert parse s1 cfg)).head?.or ((reported (convert parse s2 cfg)).head?.map (movedBy (byteLen (s1 ++ "\n\n".toList))))) := by
  obtain ⟨⟨a1, L1, b1⟩⟩ := d1
  obtain ⟨⟨a2, L2, b2⟩⟩ := d2
  have hw : ∀ c, ¬ White c → isWhitespace c = false := fun c h => by
    rw [← Grammar.white_iff] at h
    simpa using h
  obtain ⟨c1, m1, w1⟩ := hs1
  obtain ⟨c2, m2, w2⟩ := hs2
  obtain ⟨a, x, y, b, h⟩ := Grammar.More.parse_parts ⟨hn, hl, hb⟩ h1 h2 (Grammar.More.nonBlank_iff.2 ⟨c1, m1, hw c1 w1⟩) hslash hclosed
    ⟨c2, m2, hw c2 w2⟩
  have q1 := Grammar.conforms_positions (Grammar.parse_conforms h1)
  have q2 := Grammar.conforms_positions (Grammar.parse_conforms h2)
  obtain ⟨r1, r2, r, es1, es2, l1, l2, l⟩ := Build.parts_logs (a := a) (x := x) (y := y) (b := b) q1.2 q2.2
  have k1 := reported_logs (hp _ _ h1) l1 cfg
  have k2 := reported_logs (hp _ _ h2) l2 cfg
  have k := reported_logs (hp _ _ h) l cfg
  have e : s1 ++ "\n\n".toList ++ s2 = s1 ++ '\n' :: '\n' :: s2 := by
    rw [show "\n\n".toList = ['\n', '\n'] by decide]
    simp
  rw [e, show "\n\n".toList = ['\n', '\n'] by decide]
  refine ⟨fun hf => ?_, ?_⟩
  · rw [k.1 hf, k1.1 hf, k2.1 hf]
  · rw [k.2, k1.2, k2.2, List.head?_append, List.head?_map]

/-- **C77, any number of texts.** -/
theorem C77_all (alnum : Char → Bool) (hn : alnum '\n' = false) (hl : alnum '<' = false) (hb : alnum '{' = false)
    (parse : Parser) (hp : ∀ src d, Grammar.parse alnum src = some d → parse src = .ok d) (cfg : OutputConfig)
    (hf : cfg.failFast.getD false = false) :
    ∀ ts : List Str, ts ≠ [] → (∀ t ∈ ts, StandsAlone alnum t) →
      reported (convert parse (withBlankLines ts) cfg) = inTurn (fun t => reported (convert parse t cfg)) ts
  | [], h, _ => absurd rfl h
  | [t], _, _ => by
    rw [inTurn, inTurn, withBlankLines]
    simp
  | t :: t' :: ts, _, h => by
    have ih := C77_all alnum hn hl hb parse hp cfg hf (t' :: ts) (by simp) fun x hx => h x (List.mem_cons_of_mem t hx)
    obtain ⟨⟨d1, h1, hc, _⟩, hs, ⟨c, m1, w1⟩⟩ := h t (by simp)
    obtain ⟨⟨d2, h2, _⟩, h3⟩ := parts_begin ⟨hn, hl, hb⟩ t' ts fun x hx => h x (List.mem_cons_of_mem t hx)
    have := (C77_errors alnum hn hl hb parse hp t (withBlankLines (t' :: ts)) d1 d2 h1 h2 ⟨c, List.mem_of_mem_head? m1, w1⟩ hs hc h3 cfg).1 hf
    rw [withBlankLines]
    · rw [this, ih]; rfl
    · simp

/-! ## A case with an invalid escape, a misplaced block, an invalid selector and an unclosed block -/

namespace Ex

def wrong1 : Str := "p> a \\q é\n{ x } y".toList
def wrong2 : Str := "ul. { > b \\w c".toList

end Ex

set_option maxRecDepth 20000 in
/-- The first text meets the conditions, and the second one is accepted by the grammar and begins with a visible character. -/
example : StandsAlone Char.isAlphanum Ex.wrong1 ∧ (Grammar.parse Char.isAlphanum Ex.wrong2).isSome ∧
    ∃ c, Ex.wrong2.head? = some c ∧ ¬ White c :=
  ⟨Ex.alone_stands (by decide +kernel), by decide +kernel, 'u', by decide +kernel, by unfold White; decide⟩

set_option maxRecDepth 20000 in
example : reported (convert RepoTests.parser Ex.wrong1 {}) =
    [⟨⟨5, 7⟩, .invalidEscape⟩, ⟨⟨11, 16⟩, .misplacedItem (.mustNotPrecede .element [.text])⟩] := by decide +kernel

set_option maxRecDepth 20000 in
example : reported (convert RepoTests.parser Ex.wrong2 {}) =
    [⟨⟨2, 3⟩, .invalidItem .selector⟩, ⟨⟨4, 5⟩, .unclosed .block⟩, ⟨⟨10, 12⟩, .invalidEscape⟩] := by decide +kernel

set_option maxRecDepth 20000 in
/-- The second text begins 20 bytes after the first one. -/
example : reported (convert RepoTests.parser (Ex.wrong1 ++ "\n\n".toList ++ Ex.wrong2) {}) =
    [⟨⟨5, 7⟩, .invalidEscape⟩, ⟨⟨11, 16⟩, .misplacedItem (.mustNotPrecede .element [.text])⟩,
      ⟨⟨22, 23⟩, .invalidItem .selector⟩, ⟨⟨24, 25⟩, .unclosed .block⟩, ⟨⟨30, 32⟩, .invalidEscape⟩] := by decide +kernel

set_option maxRecDepth 20000 in
/-- Three texts, two of which are wrong. -/
example : (∀ t ∈ [Ex.wrong1, Ex.part1, Ex.wrong1], StandsAlone Char.isAlphanum t) ∧
    reported (convert RepoTests.parser (withBlankLines [Ex.wrong1, Ex.part1, Ex.wrong1]) {}) =
      [⟨⟨5, 7⟩, .invalidEscape⟩, ⟨⟨11, 16⟩, .misplacedItem (.mustNotPrecede .element [.text])⟩,
        ⟨⟨66, 68⟩, .invalidEscape⟩, ⟨⟨72, 77⟩, .misplacedItem (.mustNotPrecede .element [.text])⟩] := by
  refine ⟨fun t ht => ?_, by decide +kernel⟩
  have : ([Ex.wrong1, Ex.part1, Ex.wrong1].all Ex.alone) = true := by decide +kernel
  exact Ex.alone_stands (List.all_eq_true.1 this t ht)

set_option maxRecDepth 20000 in
/-- **C77, what is needed.** An error for a delimiter that is not closed in the first text is not reported if the second text closes it. -/
theorem C77_closed_needed : ∃ s1 s2 : Str, reported (convert RepoTests.parser s1 {}) = [⟨⟨2, 3⟩, .unclosed .block⟩] ∧
    reported (convert RepoTests.parser (s1 ++ "\n\n".toList ++ s2) {}) = [] :=
  ⟨"x { a".toList, "b }".toList, by decide +kernel, by decide +kernel⟩

end Mty
