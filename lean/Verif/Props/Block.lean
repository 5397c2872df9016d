import Verif.Proofs.PartsInConvert
import Verif.Spec.Block
import Verif.Props.PartsErrors
import Verif.Props.Writing
import Verif.Props.Blank

/-!
# C79: a source in a block

Specification: `Spec/Block.lean`.
-/

set_option autoImplicit false

namespace Mty
open Spec

/-- **C79.** A source in which everything that is opened is closed can be put into a block `selector { .. }`: the grammar accepts it there,
and without indentation, metadata, a language and a complete page, the output is the output of the source between the start tag that belongs to
the selector, with its name (`div` if there is none) and attributes, and the end tag. It is for elements that contain sections and
paragraphs: those of `sectionNames`, and elements with other names that are not in the manual. There is no output exactly if there is none for
the source alone. -/
theorem C79_block {alnum : Char → Bool} (hal : RightForAscii alnum) {parse : Parser} (hp : ∀ src d, Grammar.parse alnum src = some d → parse src = .ok d)
    {selector : Str} {n : Option Str} {parts : List Spec.Part} (hs : SelectorSource selector n parts) {cfg : OutputConfig}
    (hctx : contextInside (some (n.getD "div".toList)) (some .block) = .section) (hv : voidName cfg.isXml (n.getD "div".toList) = false)
    (hi : cfg.indent = none) (hm : cfg.metadata = none) (hc : cfg.completePage.getD false = false) (hl : cfg.lang = none)
    (ht : ∀ k, configuredTag cfg.specialTags k ≠ []) :
    ∃ tag, StartTagText cfg.isXml (n.getD "div".toList) (tagAttributes cfg.isXml parts) tag ∧
      ∀ (s : Str) (d : Ast.Document), Grammar.parse alnum s = some d → (∃ c ∈ s, ¬ White c) → s.getLast? ≠ some '\\' → Closed s d →
        (Grammar.parse alnum (inBlock selector s)).isSome ∧
        ∀ x, convert parse (inBlock selector s) cfg = .ok x ↔ ∃ out, convert parse s cfg = .ok out ∧ x = tag ++ out ++ endTag (n.getD "div".toList) := by
  refine ⟨Parts.opened cfg.isXml (n.getD "div".toList) parts, ⟨_, ?_, rfl⟩, ?_⟩
  · generalize tagAttributes cfg.isXml parts = l
    induction l with
    | nil => exact .nil
    | cons a l ih => exact .cons (attrText_written _ a) ih
  · intro s d h hw hsl hcl
    obtain ⟨⟨a, L, b⟩⟩ := d
    obtain ⟨c, m, wc⟩ := hw
    have hb : Grammar.More.NonBlank s := Grammar.More.nonBlank_iff.2 ⟨c, m, by rw [← Grammar.white_iff] at wc; simpa using wc⟩
    obtain ⟨a', b', x, y, i, j, sp, i', j', l, u, v, st, en, cl, sel, h', hsem⟩ := Grammar.More.parse_in hal hs h hb hsl hcl
    have q := Grammar.conforms_positions (Grammar.parse_conforms h)
    have e1 := Grammar.sameLines_mv (pre := selector ++ " {\n".toList) (post := "\n}".toList) cfg.specialTags _ q.2
    rw [← List.append_assoc] at e1
    have hst : ∀ k, specialTagName cfg.specialTags k ≠ [] := by
      intro k
      cases k with
      | codeBlockContainer =>
        have := ht .emphasis
        simp only [configuredTag, specialTagName] at this ⊢
        cases h : cfg.specialTags.emphasis <;> simp_all
      | emphasis => exact ht .emphasis
      | strong => exact ht .strong
      | underline => exact ht .underline
      | strike => exact ht .strike
      | quote => exact ht .quote
      | code => exact ht .code
    refine ⟨by rw [inBlock, h']; rfl, fun x => ?_⟩
    rcases Parts.in_convert (hp _ _ h) (hp _ _ h') (Grammar.parse_conforms h) (Grammar.parse_conforms h') e1 (hsem cfg.isXml) rfl hctx hv hi hm hc hl hst with
      ⟨r, k1, k2⟩ | ⟨es, es', k1, k2⟩
    · rw [inBlock, k1, k2]
      cases r with
      | none => simp
      | some o =>
        simp only [Except.ok.injEq]
        exact ⟨fun e => ⟨o, rfl, e.symm⟩, fun ⟨o', e1, e2⟩ => by rw [e2, ← e1]; rfl⟩
    · rw [inBlock, k1, k2]
      simp

/-- **C79, errors.** The errors of the source in a block are those of the source alone, with positions that are moved by the length of what is
before the source. Here the element is any one. -/
theorem C79_errors {alnum : Char → Bool} (hal : RightForAscii alnum) {parse : Parser} (hp : ∀ src d, Grammar.parse alnum src = some d → parse src = .ok d)
    {selector : Str} {n : Option Str} {parts : List Spec.Part} (hs : SelectorSource selector n parts) (cfg : OutputConfig)
    (s : Str) (d : Ast.Document) (h : Grammar.parse alnum s = some d) (hw : ∃ c ∈ s, ¬ White c) (hsl : s.getLast? ≠ some '\\') (hcl : Closed s d) :
    (cfg.failFast.getD false = false → reported (convert parse (inBlock selector s) cfg) =
      (reported (convert parse s cfg)).map (movedBy (byteLen (selector ++ " {\n".toList)))) ∧
    (reported (convert parse (inBlock selector s) cfg)).head? =
      (reported (convert parse s cfg)).head?.map (movedBy (byteLen (selector ++ " {\n".toList))) := by
  obtain ⟨⟨a, L, b⟩⟩ := d
  obtain ⟨c, m, wc⟩ := hw
  have hb : Grammar.More.NonBlank s := Grammar.More.nonBlank_iff.2 ⟨c, m, by rw [← Grammar.white_iff] at wc; simpa using wc⟩
  obtain ⟨a', b', x, y, i, j, sp, i', j', l, u, v, st, en, cl, sel, h', hsem⟩ := Grammar.More.parse_in hal hs h hb hsl hcl
  have q := Grammar.conforms_positions (Grammar.parse_conforms h)
  obtain ⟨d1, d2, es, l1, l2⟩ := Build.in_logs (pre := selector ++ " {\n".toList) (post := "\n}".toList) (a := a') (b := b') (x := x) (y := y) (i := i) (j := j)
    (i' := i') (j' := j') (st := st) (en := en) (u := u) (v := v) (sp := sp) (l := l) (cl := cl) q.2 (hsem false).ok
  rw [← List.append_assoc] at l2
  have k1 := reported_logs (hp _ _ h) l1 cfg
  have k2 := reported_logs (hp _ _ h') l2 cfg
  refine ⟨fun hf => ?_, ?_⟩
  · rw [inBlock, k1.1 hf, k2.1 hf]
  · rw [inBlock, k1.2, k2.2, List.head?_map]

/-! ## A case with a name, a class, an id and an attribute, and one without a name -/

namespace Ex

theorem mainWord : Word "main".toList :=
  ⟨by unfold Ascii; decide, ⟨'m', rfl, by unfold Ascii; decide, by decide⟩, 'n', rfl, by unfold Ascii; decide⟩

theorem letter {c : Char} (h : 97 ≤ c.toNat ∧ c.toNat ≤ 122) : Word [c] := by
  have ha : Ascii c := (Written.ascii c).2 (.inl h)
  refine ⟨by simpa using Or.inl ha, ⟨c, rfl, ha, fun hd => ?_⟩, c, rfl, ha⟩
  have : c.toNat ≤ 57 := hd.2
  omega

/-- `main.a#b[k=v]` is a selector. -/
theorem mainSelector : SelectorSource "main.a#b[k=v]".toList (some "main".toList)
    [.cls ['a'], .id ['b'], .attribute ['k'] (some ['v'])] := by
  have h1 : ClassesSource ".a#b".toList [.cls ['a'], .id ['b']] :=
    .cls (n := ['a']) (letter (by decide)) (.id (n := ['b']) (s := []) (letter (by decide)) .nil)
  have h2 : BracketsSource "[k=v]".toList [.attribute ['k'] (some ['v'])] :=
    .some (a := []) (s := "k=v".toList) (b := []) (by simp)
      (.one (.unquoted (n := ['k']) (v := ['v']) (letter (by decide)) (by simp) (by unfold White; decide))) (by simp)
  exact .named mainWord h1 h2

/-- The source of C76 meets the conditions. -/
theorem part1_ok : ∃ d, Grammar.parse Char.isAlphanum part1 = some d ∧ (∃ c ∈ part1, ¬ White c) ∧ part1.getLast? ≠ some '\\' ∧ Closed part1 d := by
  have h : alone part1 = true := by decide +kernel
  obtain ⟨⟨d, h1, h2, -⟩, h3, -⟩ := alone_stands h
  exact ⟨d, h1, ⟨'h', by decide +kernel, by unfold White; decide⟩, h3, h2⟩

end Ex

/-- The conditions on the element and the configuration are met by `main` and by an element without a name. -/
example : contextInside (some "main".toList) (some .block) = .section ∧ contextInside (some "div".toList) (some .block) = .section ∧
    contextInside (some "my-element".toList) (some .block) = .section ∧ voidName false "main".toList = false ∧
    ∀ k, configuredTag {} k ≠ [] :=
  ⟨by decide +kernel, by decide +kernel, by decide +kernel, by decide +kernel, fun k => by cases k <;> decide⟩

/-- So the theorem applies to this selector and source. -/
example : ∃ tag, StartTagText false "main".toList [("id".toList, some ['b']), ("class".toList, some ['a']), ("k".toList, some ['v'])] tag ∧
    ∀ x, convert RepoTests.parser (inBlock "main.a#b[k=v]".toList Ex.part1) {} = .ok x ↔
      ∃ out, convert RepoTests.parser Ex.part1 {} = .ok out ∧ x = tag ++ out ++ "</main>".toList := by
  have hp : ∀ src d, Grammar.parse Char.isAlphanum src = some d → RepoTests.parser src = .ok d := fun src d h => by rw [RepoTests.parser, h]
  obtain ⟨tag, h1, h2⟩ := C79_block Written.alnum hp Ex.mainSelector (cfg := {}) (by decide +kernel) (by decide +kernel) rfl rfl rfl rfl
    (fun k => by cases k <;> decide)
  obtain ⟨d, k1, k2, k3, k4⟩ := Ex.part1_ok
  exact ⟨tag, h1, (h2 _ d k1 k2 k3 k4).2⟩

set_option maxRecDepth 20000 in
/-- The output. -/
example : convert RepoTests.parser (inBlock "main.a#b[k=v]".toList Ex.part1) {} = .ok
    "<main id=\"b\" class=\"a\" k=\"v\"><h1>A</h1> <p>b <strong>c</strong> {{ d }}</p> <x k=\"v\"><p>y</p></x></main>".toList := by
  decide +kernel

set_option maxRecDepth 20000 in
/-- Without a name. -/
example : convert RepoTests.parser (inBlock ".note".toList Ex.part2) {} = .ok
    "<div class=\"note\"><p class=\"a\"><!-- c --> t</p> <p>x</p> <pre><code>z</code></pre></div>".toList := by
  decide +kernel

set_option maxRecDepth 20000 in
/-- With errors: everything is 8 bytes further on than in C77. -/
example : reported (convert RepoTests.parser (inBlock ".note".toList Ex.wrong1) {}) =
    [⟨⟨13, 15⟩, .invalidEscape⟩, ⟨⟨19, 24⟩, .misplacedItem (.mustNotPrecede .element [.text])⟩] := by decide +kernel

end Mty
