import Verif.Proofs.PartsSource
import Verif.Props.RefParser

/-!
# C76: parts of a source that are separated by a blank line are converted independently

Specification: `Spec/Parts.lean`.
-/

set_option autoImplicit false

namespace Mty
open Spec

/-- **C76.** For two sources that the grammar accepts: if everything that is opened in the first one is closed in it, and the second one
begins with something visible, then the first source, a blank line and the second source are converted to the first output and the second
output, with white space between them, and to an error if there is one in either of them.

`alnum` (which characters are alphanumeric) is any function that is false for a line feed, `<` and `{`. The output is that of a document
without a complete page and without metadata. -/
theorem C76_parts (alnum : Char → Bool) (hn : alnum '\n' = false) (hl : alnum '<' = false) (hb : alnum '{' = false)
    (parse : Parser) (hp : ∀ src d, Grammar.parse alnum src = some d → parse src = .ok d)
    (s1 s2 : Str) (d1 d2 : Ast.Document) (h1 : Grammar.parse alnum s1 = some d1) (h2 : Grammar.parse alnum s2 = some d2)
    (hs1 : ∃ c ∈ s1, ¬ White c) (hslash : s1.getLast? ≠ some '\\') (hclosed : Closed s1 d1)
    (hs2 : ∃ c, s2.head? = some c ∧ ¬ White c) (hvisible : BeginsVisibly d2)
    (cfg : OutputConfig) (hm : cfg.metadata = none) (hpage : cfg.completePage.getD false = false) :
    (∀ out1 out2, convert parse s1 cfg = .ok out1 → convert parse s2 cfg = .ok out2 →
      ∃ out, convert parse (s1 ++ "\n\n".toList ++ s2) cfg = .ok out ∧ JoinedBy cfg out1 out2 out) ∧
    (∀ out, convert parse (s1 ++ "\n\n".toList ++ s2) cfg = .ok out →
      ∃ out1 out2, convert parse s1 cfg = .ok out1 ∧ convert parse s2 cfg = .ok out2 ∧ JoinedBy cfg out1 out2 out) := by
  obtain ⟨⟨a1, L1, b1⟩⟩ := d1
  obtain ⟨⟨a2, L2, b2⟩⟩ := d2
  cases L2 with
  | nil => exact hvisible.elim
  | cons l L2 =>
    obtain ⟨u, ns, v⟩ := l
    have hw : ∀ c, ¬ White c → isWhitespace c = false := fun c h => by
      rw [← Grammar.white_iff] at h
      simpa using h
    obtain ⟨c1, m1, w1⟩ := hs1
    obtain ⟨c2, m2, w2⟩ := hs2
    have := Grammar.More.parts_source ⟨hn, hl, hb⟩ hp (cfg := cfg) h1 h2 (Grammar.More.nonBlank_iff.2 ⟨c1, m1, hw c1 w1⟩) hslash hclosed
      ⟨c2, m2, hw c2 w2⟩ hvisible hm hpage
    have e : s1 ++ "\n\n".toList ++ s2 = s1 ++ '\n' :: '\n' :: s2 := by
      rw [show "\n\n".toList = ['\n', '\n'] by decide]
      simp
    rw [e]
    refine ⟨this.1, fun out h => ?_⟩
    obtain ⟨out1, out2, k1, k2⟩ := this.2 out h
    obtain ⟨out', k3, k4⟩ := this.1 out1 out2 k1 k2
    rw [h] at k3
    cases k3
    exact ⟨out1, out2, k1, k2, k4⟩

/-- A text that can be followed and preceded by others. -/
def StandsAlone (alnum : Char → Bool) (t : Str) : Prop :=
  (∃ d, Grammar.parse alnum t = some d ∧ Closed t d ∧ BeginsVisibly d) ∧ t.getLast? ≠ some '\\' ∧ ∃ c, t.head? = some c ∧ ¬ White c

theorem parts_begin {alnum : Char → Bool} (hal : Grammar.More.PlainMarks alnum) : ∀ (t : Str) (ts : List Str),
    (∀ t' ∈ t :: ts, StandsAlone alnum t') → (∃ d, Grammar.parse alnum (withBlankLines (t :: ts)) = some d ∧ BeginsVisibly d) ∧
      ∃ c, (withBlankLines (t :: ts)).head? = some c ∧ ¬ White c
  | t, [], h => by
    obtain ⟨⟨d, h1, _, h2⟩, _, h3⟩ := h t (by simp)
    exact ⟨⟨d, h1, h2⟩, h3⟩
  | t, t' :: ts, h => by
    obtain ⟨⟨⟨⟨a1, L1, b1⟩⟩, h1, hc, hv⟩, hs, ⟨c, m1, w1⟩⟩ := h t (by simp)
    obtain ⟨⟨⟨⟨a2, L2, b2⟩⟩, h2, _⟩, ⟨c2, m2, w2⟩⟩ := parts_begin hal t' ts fun x hx => h x (List.mem_cons_of_mem t hx)
    have hw : ∀ c, ¬ White c → isWhitespace c = false := fun c h => by
      rw [← Grammar.white_iff] at h
      simpa using h
    have hmem : c ∈ t := List.mem_of_mem_head? m1
    obtain ⟨a, x, y, b, e⟩ := Grammar.More.parse_parts hal h1 h2 (Grammar.More.nonBlank_iff.2 ⟨c, hmem, hw c w1⟩) hs hc ⟨c2, m2, hw c2 w2⟩
    rw [withBlankLines, show "\n\n".toList = ['\n', '\n'] by decide]
    · rw [show t ++ ['\n', '\n'] ++ withBlankLines (t' :: ts) = t ++ '\n' :: '\n' :: withBlankLines (t' :: ts) by simp]
      refine ⟨⟨_, e, ?_⟩, c, ?_, w1⟩
      · cases L1 with
        | nil => exact hv.elim
        | cons l L1 => cases l; exact hv
      · rw [List.head?_append, m1]; rfl
    · simp

/-- **C76, any number of parts.** The outputs for the texts of a document follow each other in the output, and there is an error exactly if
there is one in one of the texts. -/
theorem C76_all (alnum : Char → Bool) (hn : alnum '\n' = false) (hl : alnum '<' = false) (hb : alnum '{' = false)
    (parse : Parser) (hp : ∀ src d, Grammar.parse alnum src = some d → parse src = .ok d)
    (cfg : OutputConfig) (hm : cfg.metadata = none) (hpage : cfg.completePage.getD false = false) :
    ∀ ts : List Str, ts ≠ [] → (∀ t ∈ ts, StandsAlone alnum t) →
    (∀ outs, List.Forall₂ (fun t o => convert parse t cfg = .ok o) ts outs →
      ∃ out, convert parse (withBlankLines ts) cfg = .ok out ∧ JoinedAll cfg outs out) ∧
    (∀ out, convert parse (withBlankLines ts) cfg = .ok out →
      ∃ outs, List.Forall₂ (fun t o => convert parse t cfg = .ok o) ts outs ∧ JoinedAll cfg outs out)
  | [], h, _ => absurd rfl h
  | [t], _, _ => by
    refine ⟨fun outs h => ?_, fun out h => ⟨[out], .cons h .nil, .one⟩⟩
    cases h with
    | cons h1 h2 => cases h2; exact ⟨_, h1, .one⟩
  | t :: t' :: ts, _, h => by
    have ih := C76_all alnum hn hl hb parse hp cfg hm hpage (t' :: ts) (by simp) fun x hx => h x (List.mem_cons_of_mem t hx)
    obtain ⟨⟨d1, h1, hc, _⟩, hs, ⟨c, m1, w1⟩⟩ := h t (by simp)
    obtain ⟨⟨d2, h2, hv⟩, h3⟩ := parts_begin ⟨hn, hl, hb⟩ t' ts fun x hx => h x (List.mem_cons_of_mem t hx)
    have := C76_parts alnum hn hl hb parse hp t (withBlankLines (t' :: ts)) d1 d2 h1 h2 ⟨c, List.mem_of_mem_head? m1, w1⟩ hs hc h3 hv cfg hm hpage
    rw [withBlankLines]
    · refine ⟨fun outs ho => ?_, fun out ho => ?_⟩
      · cases ho with
        | cons ho1 ho2 =>
          obtain ⟨rest, k1, k2⟩ := ih.1 _ ho2
          obtain ⟨out, k3, k4⟩ := this.1 _ _ ho1 k1
          exact ⟨out, k3, .cons k2 k4⟩
      · obtain ⟨out1, out2, k1, k2, k3⟩ := this.2 out ho
        obtain ⟨outs, k4, k5⟩ := ih.2 out2 k2
        exact ⟨out1 :: outs, .cons k1 k4, .cons k5 k3⟩
    · simp

/-! ## A case with elements, formatting, an interpolation, a block, a comment and several lines -/

namespace Ex

def part1 : Str := "h1> A\n\n> b <#c#> {{ d }}\nx[k=v] {\n  y\n}".toList
def part2 : Str := "p.a> <! c !> t\n> x\n\n```\nz\n```".toList
def part3 : Str := "ul { > b }".toList

/-- `StandsAlone`, as a test. -/
def alone (t : Str) : Bool :=
  (match Grammar.parse Char.isAlphanum t with
    | some ⟨.mk _ (.mk u ns v :: ls) _⟩ => closedLines t (.mk u ns v :: ls) && ns.any fun n => nodeShape n == .inl || nodeShape n == .block
    | _ => false) && (t.getLast? != some '\\') && match t.head? with
    | some c => !isWhitespace c
    | none => false

theorem alone_stands {t : Str} (h : alone t = true) : StandsAlone Char.isAlphanum t := by
  rw [alone, Bool.and_eq_true, Bool.and_eq_true] at h
  obtain ⟨⟨h1, h2⟩, h3⟩ := h
  refine ⟨?_, by simpa using h2, ?_⟩
  · split at h1
    · rename_i a u ns v ls b e
      rw [Bool.and_eq_true, List.any_eq_true] at h1
      obtain ⟨h1, n, hn, hs⟩ := h1
      refine ⟨_, e, h1, .inl ⟨n, hn, ?_⟩⟩
      rw [IsVisible]
      rw [Bool.or_eq_true, beq_iff_eq, beq_iff_eq] at hs
      rcases hs with hs | hs <;> rw [hs] <;> decide
    · cases h1
  · split at h3
    · rename_i c e
      refine ⟨c, e, ?_⟩
      rw [← Grammar.white_iff]
      simpa using h3
    · cases h3

end Ex

set_option maxRecDepth 20000 in
/-- These texts meet the conditions. -/
example : ∀ t ∈ [Ex.part1, Ex.part3, Ex.part2], StandsAlone Char.isAlphanum t := by
  intro t ht
  have : ([Ex.part1, Ex.part3, Ex.part2].all Ex.alone) = true := by decide +kernel
  exact Ex.alone_stands (List.all_eq_true.1 this t ht)

set_option maxRecDepth 20000 in
/-- Three texts. -/
example : convert RepoTests.parser (withBlankLines [Ex.part1, Ex.part3, Ex.part2]) {} = .ok
    "<h1>A</h1> <p>b <strong>c</strong> {{ d }}</p> <x k=\"v\"><p>y</p></x> <ul><li>b</li></ul> <p class=\"a\"><!-- c --> t</p> <p>x</p> <pre><code>z</code></pre>".toList := by
  decide +kernel

/-- The output for this case. -/
example : convert RepoTests.parser (Ex.part1 ++ "\n\n".toList ++ Ex.part2) {} = .ok
    "<h1>A</h1> <p>b <strong>c</strong> {{ d }}</p> <x k=\"v\"><p>y</p></x> <p class=\"a\"><!-- c --> t</p> <p>x</p> <pre><code>z</code></pre>".toList := by
  decide +kernel

/-! ## The conditions are needed -/

/-- Without indentation, what is joined begins with the first output and ends with the second one. -/
theorem joined_ends {out1 out2 out : Str} (h : JoinedBy {} out1 out2 out) : out1.isPrefixOf out = true ∧ out2.isSuffixOf out = true := by
  obtain ⟨o, e, w, rfl, h1, _, rfl⟩ := h
  rcases h1 with rfl | ⟨_, h1⟩
  · rw [List.isPrefixOf_iff_prefix, List.isSuffixOf_iff_suffix]
    exact ⟨⟨w ++ out2, by simp⟩, ⟨o ++ w, by simp⟩⟩
  · cases h1

set_option maxRecDepth 20000 in
/-- **C76, what is needed.** The quotation marks at the beginning of a line in the first part are text there, but with a second part
that has quotation marks too, they delimit a multi-line text. -/
theorem C76_fences_needed : ∃ s1 s2 out1 out2 out : Str, convert RepoTests.parser s1 {} = .ok out1 ∧ convert RepoTests.parser s2 {} = .ok out2 ∧
    convert RepoTests.parser (s1 ++ "\n\n".toList ++ s2) {} = .ok out ∧ ¬ JoinedBy {} out1 out2 out := by
  refine ⟨"\"\"\"\na".toList, "b\n\"\"\"".toList, "<p>\"\"\" a</p>".toList, "<p>b \"\"\"</p>".toList, "<p>a&NewLine;&NewLine;b</p>".toList,
    by decide +kernel, by decide +kernel, by decide +kernel, fun h => ?_⟩
  have := (joined_ends h).1
  revert this
  decide +kernel

set_option maxRecDepth 20000 in
/-- **C76, what is needed.** Two blocks at the beginning of the first part, with an interpolation in the second part, are the beginning
of that interpolation. -/
theorem C76_braces_needed : ∃ s1 s2 out1 out2 out : Str, convert RepoTests.parser s1 {} = .ok out1 ∧ convert RepoTests.parser s2 {} = .ok out2 ∧
    convert RepoTests.parser (s1 ++ "\n\n".toList ++ s2) {} = .ok out ∧ ¬ JoinedBy {} out1 out2 out := by
  refine ⟨"{{ a } }".toList, "b {{ c }}".toList, "<div><div><p>a</p></div></div>".toList, "<p>b {{ c }}</p>".toList,
    "<p>{{ a } }\n\nb {{ c }}</p>".toList, by decide +kernel, by decide +kernel, by decide +kernel, fun h => ?_⟩
  have := (joined_ends h).1
  revert this
  decide +kernel

set_option maxRecDepth 20000 in
/-- **C76, what is needed.** A comment at the beginning of the second part is followed by white space that it does not have on its own. -/
theorem C76_visible_needed : ∃ s1 s2 out1 out2 out : Str, convert RepoTests.parser s1 {} = .ok out1 ∧ convert RepoTests.parser s2 {} = .ok out2 ∧
    convert RepoTests.parser (s1 ++ "\n\n".toList ++ s2) {} = .ok out ∧ ¬ JoinedBy {} out1 out2 out := by
  refine ⟨"a".toList, "<! x !>\nb".toList, "<p>a</p>".toList, "<!-- x --><p>b</p>".toList, "<p>a</p> <!-- x --> <p>b</p>".toList,
    by decide +kernel, by decide +kernel, by decide +kernel, fun h => ?_⟩
  have := (joined_ends h).2
  revert this
  decide +kernel

set_option maxRecDepth 20000 in
/-- **C76, what is needed.** A block that is not closed in the first part is an error there, but not if the second part closes it. -/
theorem C76_closed_needed : ∃ (s1 s2 out : Str) (e1 e2 : ConvertError), convert RepoTests.parser s1 {} = .error e1 ∧
    convert RepoTests.parser s2 {} = .error e2 ∧ convert RepoTests.parser (s1 ++ "\n\n".toList ++ s2) {} = .ok out := by
  have h1 : (convert RepoTests.parser "x { a".toList {}).toOption = none := by decide +kernel
  have h2 : (convert RepoTests.parser "b }".toList {}).toOption = none := by decide +kernel
  have h3 : convert RepoTests.parser ("x { a".toList ++ "\n\n".toList ++ "b }".toList) {} = .ok "<x><p>a</p> <p>b</p></x>".toList := by decide +kernel
  revert h1 h2
  cases e1 : convert RepoTests.parser "x { a".toList {} with
  | ok o => intro h; cases h
  | error x1 =>
    cases e2 : convert RepoTests.parser "b }".toList {} with
    | ok o => intro _ h; cases h
    | error x2 => exact fun _ _ => ⟨_, _, _, x1, x2, e1, e2, h3⟩

end Mty
