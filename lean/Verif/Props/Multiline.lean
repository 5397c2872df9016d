import Verif.Proofs.Text

/-!
# C32: trimming of multiline blocks; C33 for single text nodes

`Trimmed s body` (`Spec/Multiline.lean`) says what the manual says about a block `s`.
-/

set_option autoImplicit false

namespace Mty
open Spec

/-- **C32.** The lines the code produces for a block, put together, are the trimmed body. -/
theorem C32_trim (s body : Str) (h : Trimmed s body) : (trimMultiline s).flatten = body :=
  trimMultiline_of_trimmed h

/-- **C32.** Every block with at least two line feeds has a trimmed body (so `C32_trim` applies), and
a shorter one produces nothing. -/
theorem C32_total (s : Str) :
    (2 ≤ s.count '\n' → ∃ body, Trimmed s body) ∧ (s.count '\n' < 2 → trimMultiline s = []) :=
  ⟨trimmed_exists, trimMultiline_short⟩

/-- **C32.** What is written for a multiline text node that is not unescaped (`'''` and code blocks):
the trimmed body, literally if the text is raw and otherwise escaped (it reads back as the trimmed
body). -/
theorem C32_written_verbatim (cx : OutCx) (t : Text) (fs : Bool) (body : Str)
    (hm : t.multiline = true) (hu : t.unescapeIn = false) (hne : t.slice.isEmpty = false)
    (h : Trimmed (t.slice.asStr cx.src) body) :
    (writeText cx t fs).ok = true ∧
    (t.raw = true ∨ (cx.cfg.isXml = false ∧ (t.escapeOut = false ∨ cx.isRaw = true)) →
      (writeText cx t fs).out = body) ∧
    (¬ (t.raw = true ∨ (cx.cfg.isXml = false ∧ (t.escapeOut = false ∨ cx.isRaw = true))) →
      readText cx.cfg.isXml (writeText cx t fs).out = some body) := by
  obtain ⟨fs', e⟩ := writeText_multi (cx := cx) hne hm (u := body)
    (by simp [hu, trimMultiline_of_trimmed h]) fs
  rw [e]
  refine ⟨rfl, fun hr => ?_, fun hr => ?_⟩
  · have : rawMode cx t = true := by simpa [rawMode] using hr
    simp [this]
  · have : rawMode cx t = false := by
      rw [← Bool.not_eq_true]
      intro h'; exact hr (by simpa [rawMode] using h')
    simp only [this]
    exact readText_esc _ _

/-- **C32.** The same for a multiline text node whose escapes are resolved (`\"\"\"` blocks): the
trimmed body with its escapes resolved. -/
theorem C32_written_unescaped (cx : OutCx) (t : Text) (fs : Bool) (body u : Str)
    (hm : t.multiline = true) (hu : t.unescapeIn = true) (hne : t.slice.isEmpty = false)
    (h : Trimmed (t.slice.asStr cx.src) body) (hb : Unescapes Accepted body u) :
    (writeText cx t fs).ok = true ∧
    (t.raw = true ∨ (cx.cfg.isXml = false ∧ (t.escapeOut = false ∨ cx.isRaw = true)) →
      (writeText cx t fs).out = u) ∧
    (¬ (t.raw = true ∨ (cx.cfg.isXml = false ∧ (t.escapeOut = false ∨ cx.isRaw = true))) →
      readText cx.cfg.isXml (writeText cx t fs).out = some u) := by
  obtain ⟨fs', e⟩ := writeText_multi (cx := cx) hne hm (u := u)
    (by simp [hu, trimMultiline_of_trimmed h, hb]) fs
  rw [e]
  refine ⟨rfl, fun hr => ?_, fun hr => ?_⟩
  · have : rawMode cx t = true := by simpa [rawMode] using hr
    simp [this]
  · have : rawMode cx t = false := by
      rw [← Bool.not_eq_true]
      intro h'; exact hr (by simpa [rawMode] using h')
    simp only [this]
    exact readText_esc _ _

example : trimMultiline "\n    a\n      b\n   c\n    ".toList =
    ["a\n".toList, "  b\n".toList, "   c".toList] := by decide
example : Trimmed "\n  a\n    b\r\n  ".toList "a\n  b".toList :=
  Trimmed.mk (first := []) (last := "  ".toList) (pre := "  ".toList) (lines := ["  a".toList])
    (l := "    b\r".toList) (l₁ := "    b".toList) (l₂ := "  b".toList) (lines' := ["a".toList])
    (by decide) (by decide) (by decide)
    ⟨by decide, [], by decide, by simp⟩ (.cr "    b".toList) (.strip "  b".toList)
    (.cons (.strip "a".toList) .nil)

/-- **C33** for one text node: if no invalid escape is found in the slice of a text node (as
checked when the document is built), or the node is not unescaped, writing it never fails, in
any context; this includes the trimmed lines of a multiline block. -/
theorem C33_text_node (cx : OutCx) (t : Text) (fs : Bool) (off : Nat)
    (h : t.unescapeIn = true → escapeErrors (t.slice.asStr cx.src) off = []) :
    (writeText cx t fs).ok = true := by
  cases hne : t.slice.isEmpty with
  | true => simp [writeText, hne, Act.skip]
  | false =>
    have hv : t.unescapeIn = true → ∃ u, Unescapes Accepted (t.slice.asStr cx.src) u :=
      fun hu => (escapeErrors_nil_iff _ _).1 (h hu)
    cases hm : t.multiline with
    | false =>
      cases hu : t.unescapeIn with
      | false => rw [writeText_single hne hm (u := t.slice.asStr cx.src) (by simp [hu])]
      | true =>
        obtain ⟨u, hu'⟩ := hv hu
        rw [writeText_single hne hm (u := u) (by simp [hu, hu'])]
    | true =>
      cases hu : t.unescapeIn with
      | false =>
        obtain ⟨fs', e⟩ := writeText_multi (cx := cx) hne hm (u := _) (by simp [hu]; rfl) fs
        rw [e]
      | true =>
        obtain ⟨u, hu'⟩ := hv hu
        obtain ⟨v, hv'⟩ : ∃ v, Unescapes Accepted
            (trimMultiline (t.slice.asStr cx.src)).flatten v := by
          by_cases hc : 2 ≤ (t.slice.asStr cx.src).count '\n'
          · obtain ⟨body, hb⟩ := trimmed_exists hc
            rw [trimMultiline_of_trimmed hb]
            exact unescapes_trimmed hb hu'
          · rw [trimMultiline_short (by omega)]
            exact ⟨[], .nil⟩
        obtain ⟨fs', e⟩ := writeText_multi (cx := cx) hne hm (u := v) (by simp [hu, hv']) fs
        rw [e]

example : escapeErrors "\n  a\\n\n  ".toList 7 = [] := by decide

end Mty
