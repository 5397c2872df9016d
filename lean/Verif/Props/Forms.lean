import Verif.Proofs.Forms
import Verif.Proofs.Page
import Verif.Proofs.Parse
import Verif.Props.RefParser

/-!
# C95: the tags of forms that a source does not use make no difference
-/

set_option autoImplicit false

namespace Mty
open Spec Forms

theorem parser_conforms {src : Str} {ast : Ast.Document} (h : RepoTests.parser src = .ok ast) :
    Grammar.Conforms Char.isAlphanum src ast = true := by
  unfold RepoTests.parser at h
  split at h
  · cases h; exact Grammar.parse_conforms ‹_›
  · cases h

/-- The tag that the code takes is the configured one, except for the container of code blocks (see C23). -/
theorem agree_of {c c' : SpecialTagConfig} {k : SpecialKind} (h : configuredTag c k = configuredTag c' k)
    (hk : k = .codeBlockContainer → c.emphasis = c'.emphasis) : Agree c c' k := by
  unfold Agree
  cases k with
  | codeBlockContainer => rw [specialTagName, specialTagName, hk rfl]
  | _ => exact h

theorem internal_tags {parse : Parser} {src : Str} {cfg : OutputConfig} {c c' : SpecialTagConfig}
    (hu : ∀ ast, parse src = .ok ast → ∀ k, Uses ast k → configuredTag c k = configuredTag c' k)
    (hb : ∀ ast, parse src = .ok ast → Uses ast .codeBlockContainer → c.emphasis = c'.emphasis) (forgive : Bool) :
    convertToInternal parse src { cfg with specialTags := c } forgive = convertToInternal parse src { cfg with specialTags := c' } forgive := by
  unfold convertToInternal
  rw [show Errors.new { cfg with specialTags := c } = Errors.new { cfg with specialTags := c' } from rfl]
  rcases hr : Build.parseDocument parse src (Errors.new { cfg with specialTags := c' }) with ⟨_ | doc, e⟩
  · rfl
  · have ht : transformDocument doc src { cfg with specialTags := c } = transformDocument doc src { cfg with specialTags := c' } := by
      unfold Build.parseDocument at hr
      cases hp : parse src with
      | error pe =>
        rw [hp] at hr
        dsimp only [bind, BM.bind, BM.syntaxErr, BM.fail] at hr
        split at hr <;> cases hr
      | ok ast =>
        rw [hp] at hr
        have hd := nodes_special doc.nodes (fromAst_fits (c := c) (c' := c') hr (by
          rintro ⟨sp, a, b, ty⟩ hm k hk
          have hx : Uses ast k := ⟨sp, a, b, ty, hm, hk⟩
          exact agree_of (hu _ hp k hx) fun e => hb _ hp (e ▸ hx)))
        unfold transformDocument applySpecialTags
        dsimp only
        rw [hd]
    dsimp only
    rw [ht, output_tags src _ cfg c, output_tags src _ cfg c']

/-- **C95.** Two configurations that differ only in the special tags, and there only in the tags of forms that the source does not use, give
the same results: the same output, the same errors, and the same output beside the errors.

Partial: for a source with code blocks, the configured emphasis must be the same too, since the code takes it as the container of code
blocks (`C95_code_block`). -/
theorem C95_unused_partial (parse : Parser) (src : Str) (cfg : OutputConfig) (c c' : SpecialTagConfig)
    (hu : ∀ ast, parse src = .ok ast → ∀ k, Uses ast k → configuredTag c k = configuredTag c' k)
    (hb : ∀ ast, parse src = .ok ast → Uses ast .codeBlockContainer → c.emphasis = c'.emphasis) :
    SameResults parse src { cfg with specialTags := c } { cfg with specialTags := c' } := by
  have h := internal_tags (cfg := cfg) hu hb
  exact ⟨by simp only [convert, h], by simp only [convertForgiving, h], fun buf => by simp only [convertTo, h]⟩

/-- A source of which the tree has no forms. -/
example (cfg : OutputConfig) (c : SpecialTagConfig) :
    SameResults (Ex.parser Ex.ast1) Ex.src1 { cfg with specialTags := {} } { cfg with specialTags := c } := by
  have key : ∀ ast, Ex.parser Ex.ast1 Ex.src1 = .ok ast → ∀ k, ¬ Uses ast k := by
    intro ast h k
    cases h
    rintro ⟨sp, a, b, ty, hm, hk⟩
    have h : ∀ n ∈ allNodes Ex.ast1, (match n with | .mk _ _ _ ty => formsOf ty) = [] := by decide +kernel
    have := h _ hm
    dsimp only at this
    rw [this] at hk
    cases hk
  exact C95_unused_partial _ _ cfg _ _ (fun ast h k hk => absurd hk (key ast h k)) fun ast h hk => absurd hk (key ast h _)

/-- **C95, in the source.** A form is used only where the source has its mark: `</`, `<#`, `<_`, `<~`, `<"`, `` <` `` or a fence of a code
block. Without the mark of a form, its tag makes no difference.

Partial as `C95_unused_partial`. -/
theorem C95_source_partial {alnum : Char → Bool} (parse : Parser) (src : Str) (cfg : OutputConfig) (c c' : SpecialTagConfig)
    (hp : ∀ ast, parse src = .ok ast → Grammar.Conforms alnum src ast = true)
    (hu : ∀ k, Marked src k → configuredTag c k = configuredTag c' k) (hb : Marked src .codeBlockContainer → c.emphasis = c'.emphasis) :
    SameResults parse src { cfg with specialTags := c } { cfg with specialTags := c' } :=
  C95_unused_partial parse src cfg c c' (fun ast h k hk => hu k (uses_marked (hp ast h) hk)) fun ast h hk => hb (uses_marked (hp ast h) hk)

set_option maxRecDepth 20000 in
/-- `strong` is not used, emphasis and code are. -/
example : convert RepoTests.parser "a </b/> <`c`>".toList { specialTags := { strong := some "b".toList, emphasis := some "i".toList } } =
      .ok "<p>a <i>b</i> <code>c</code></p>".toList ∧
    convert RepoTests.parser "a </b/> <`c`>".toList { specialTags := { emphasis := some "i".toList, quote := some "x".toList } } =
      .ok "<p>a <i>b</i> <code>c</code></p>".toList := by
  decide +kernel

/-- They are the same by the theorem, whatever `strong` and the container are. -/
example (cfg : OutputConfig) (x y : Option Str) : SameResults RepoTests.parser "a </b/> <`c`>".toList
    { cfg with specialTags := { strong := x } } { cfg with specialTags := { codeBlockContainer := y } } := by
  have key : ∀ m : Str, (!(List.range "a </b/> <`c`>".toList.length).any fun i => m.isPrefixOf ("a </b/> <`c`>".toList.drop i)) = true → m ≠ [] →
      ¬ m <:+: "a </b/> <`c`>".toList := by
    rintro m h hm ⟨p, q, e⟩
    have hl : p.length < "a </b/> <`c`>".toList.length := by
      rw [← e]; simp only [List.length_append]; have := List.length_pos_iff.2 hm; omega
    simp only [Bool.not_eq_true', List.any_eq_false, List.mem_range] at h
    refine h p.length hl ?_
    rw [← e, List.isPrefixOf_iff_prefix, List.append_assoc, List.drop_left]
    exact List.prefix_append ..
  have h1 : ¬ Marked "a </b/> <`c`>".toList .strong := by
    rintro ⟨m, hm, h⟩
    simp only [marksOf, List.mem_singleton] at hm
    exact key m (hm ▸ by decide +kernel) (hm ▸ by decide) h
  have h2 : ¬ Marked "a </b/> <`c`>".toList .codeBlockContainer := by
    rintro ⟨m, hm, h⟩
    simp only [marksOf, List.mem_singleton] at hm
    exact key m (hm ▸ by decide +kernel) (hm ▸ by decide) h
  refine C95_source_partial (alnum := Char.isAlphanum) _ _ cfg _ _ (fun ast h => ?_) (fun k hk => ?_) fun hk => absurd hk h2
  · exact parser_conforms h
  · cases k <;> first | rfl | exact absurd hk h1 | exact absurd hk h2

/-- **C95, no forms at all.** Without `<` and `` ` `` in the source the special tags make no difference. -/
theorem C95_none {alnum : Char → Bool} (parse : Parser) (src : Str) (cfg : OutputConfig) (c c' : SpecialTagConfig)
    (hp : ∀ ast, parse src = .ok ast → Grammar.Conforms alnum src ast = true) (h1 : '<' ∉ src) (h2 : '`' ∉ src) :
    SameResults parse src { cfg with specialTags := c } { cfg with specialTags := c' } := by
  have key : ∀ k, ¬ Marked src k := by
    rintro k ⟨m, hm, a, b, rfl⟩
    simp only [List.mem_append, not_or] at h1 h2
    cases k <;> simp only [marksOf, List.mem_cons, List.not_mem_nil, or_false] at hm <;>
      (first | (rcases hm with rfl | rfl) | subst hm) <;> first | exact h1.1.2 (by decide) | exact h2.1.2 (by decide)
  exact C95_source_partial parse src cfg c c' hp (fun k hk => absurd hk (key k)) fun hk => absurd hk (key _)

set_option maxRecDepth 20000 in
example : convert RepoTests.parser "p.a { x }".toList {} = .ok "<p class=\"a\">x</p>".toList := by
  decide +kernel

example (c : SpecialTagConfig) : SameResults RepoTests.parser "p.a { x }".toList { specialTags := {} } { specialTags := c } :=
  C95_none (alnum := Char.isAlphanum) _ _ {} _ _ (fun _ => parser_conforms) (by decide +kernel) (by decide +kernel)

/-- A source with an error: the output beside it is the same too. -/
example (c : SpecialTagConfig) : convertForgiving RepoTests.parser "p.a { x".toList { specialTags := {} } =
    convertForgiving RepoTests.parser "p.a { x".toList { specialTags := c } :=
  (C95_none (alnum := Char.isAlphanum) _ _ {} _ _ (fun _ => parser_conforms) (by decide +kernel) (by decide +kernel)).2.1

set_option maxRecDepth 20000 in
example : (match convertForgiving RepoTests.parser "p.a { x".toList {} with
    | .error (some out, _) => out
    | _ => []) = "<p class=\"a\">x</p>".toList := by
  decide +kernel

set_option maxRecDepth 20000 in
/-- **C95 is false for code blocks**: the tag of emphasis makes a difference, although the source has no emphasis. -/
theorem C95_code_block :
    convert RepoTests.parser "```\nx\n```".toList {} = .ok "<pre><code>x</code></pre>".toList ∧
    convert RepoTests.parser "```\nx\n```".toList { specialTags := { emphasis := some "i".toList } } = .ok "<i><code>x</code></i>".toList := by
  decide +kernel

end Mty
