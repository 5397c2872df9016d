import Verif.Proofs.WriteNode
import Verif.Proofs.Multiline

/-!
# Reading what is written: lines between fences
-/

set_option autoImplicit false

namespace Mty.Grammar
open Spec Pat Lex

variable {al : Char → Bool}

/-! ## The lines -/

theorem lazyThen_skip {p : Pat} {y m r : Str} : ∀ (x b : Str), (∀ u v, x = u ++ v → v ≠ [] → p (b ++ u) (v ++ y) = none) →
    lazyThen p (b ++ x) y = some (m, r) → lazyThen p b (x ++ y) = some (x ++ m, r)
  | [], b, _, h => by simpa using h
  | c :: x, b, hx, h => by
    have h0 := hx [] (c :: x) rfl (by simp)
    rw [List.append_nil, List.cons_append] at h0
    rw [List.cons_append, lazyThen, h0]
    simp only
    rw [lazyThen_skip x (b ++ [c]) (fun u v e hv => by simpa using hx (c :: u) v (by simp [e]) hv) (by simpa using h)]
    rfl

/-- The end of the lines between fences. -/
def atFence (q : Char) : Pat := alt srcEnd (seq (precedes (Pat.exact [q, q, q])) followsIndent)

theorem atFence_no {q : Char} {b r : Str} (hr : r ≠ []) (h : [q, q, q].isPrefixOf r = false) : atFence q b r = none := by
  rw [atFence, alt, show srcEnd b r = none by simp [srcEnd, hr]]
  simp only
  rw [seq, show precedes (Pat.exact [q, q, q]) b r = none by simp [precedes, exact_none h]]

theorem atFence_mid {q : Char} {b r : Str} (hr : r ≠ []) {c : Char} {t : Str}
    (h : b.reverse.dropWhile (fun c => c = '\t' || c = ' ') = c :: t) (hc : c ≠ '\n') : atFence q b r = none := by
  rw [atFence, alt, show srcEnd b r = none by simp [srcEnd, hr]]
  simp only
  rw [seq]
  split
  · rfl
  · rename_i m r1 hm
    have : m = [] := by
      rw [precedes] at hm
      split at hm
      · simp at hm; exact hm.1
      · simp at hm
    subst this
    rw [List.append_nil, show followsIndent b r1 = none by simp only [followsIndent]; rw [h]; simp [hc]]

theorem atFence_yes {q : Char} {b w r : Str} (hw : Tabs w) (hb : b.getLast? = some '\n') :
    atFence q (b ++ w) (q :: q :: q :: r) = some ([], q :: q :: q :: r) := by
  rw [atFence, alt, show srcEnd (b ++ w) (q :: q :: q :: r) = none by simp [srcEnd]]
  simp only
  have e : Pat.exact [q, q, q] (b ++ w) (q :: q :: q :: r) = some ([q, q, q], r) := exact_app [q, q, q] _ r
  rw [seq, show precedes (Pat.exact [q, q, q]) (b ++ w) (q :: q :: q :: r) = some ([], q :: q :: q :: r) by simp [precedes, e]]
  simp only [List.append_nil]
  obtain ⟨b', rfl⟩ : ∃ b', b = b' ++ ['\n'] := by
    obtain ⟨b', h⟩ := List.getLast?_eq_some_iff.1 hb
    exact ⟨b', h⟩
  have e2 : (b' ++ ['\n'] ++ w).reverse.dropWhile (fun c => c = '\t' || c = ' ') = '\n' :: b'.reverse := by
    rw [List.reverse_append, List.reverse_append]
    rw [List.dropWhile_append_of_pos]
    · simp
    · intro c hc
      rcases hw c (by simpa using hc) with rfl | rfl <;> decide
  rw [show followsIndent (b' ++ ['\n'] ++ w) (q :: q :: q :: r) = some ([], q :: q :: q :: r) by simp only [followsIndent]; rw [e2]; simp]
  rfl

theorem last_drop {b : Str} {p : Char → Bool} : ∀ {u : Str}, (∃ c ∈ u, p c = false) →
    ∃ c t, (u ++ b).dropWhile p = c :: t ∧ c ∈ u
  | [], ⟨c, hc, _⟩ => by simp at hc
  | x :: u, ⟨c, hc, hp⟩ => by
    by_cases hx : p x = true
    · rcases List.mem_cons.1 hc with rfl | hc
      · rw [hp] at hx; cases hx
      · obtain ⟨d, t, e, hd⟩ := last_drop (b := b) ⟨c, hc, hp⟩
        exact ⟨d, t, by rw [List.cons_append, List.dropWhile_cons_of_pos hx, e], by simp [hd]⟩
    · exact ⟨x, u ++ b, by rw [List.cons_append, List.dropWhile_cons_of_neg hx], by simp⟩

theorem fence_line {q : Char} {b l y : Str} (hq : q ≠ '\n') (hl : FreeLine q l) :
    ∀ u v, l ++ ['\n'] = u ++ v → v ≠ [] → atFence q (b ++ u) (v ++ y) = none := by
  intro u v e hv
  obtain ⟨v', rfl⟩ : ∃ v', v = v' ++ ['\n'] := by
    have := congrArg List.getLast? e
    rw [List.getLast?_append_of_ne_nil _ hv] at this
    simp at this
    exact List.getLast?_eq_some_iff.1 this.symm
  rw [← List.append_assoc] at e
  have el : l = u ++ v' := List.append_cancel_right e
  by_cases hf : [q, q, q].isPrefixOf (v' ++ ['\n'] ++ y) = true
  · have hne : v' ++ ['\n'] ++ y ≠ [] := by simp
    have hp : ∃ x, v' = q :: q :: q :: x := by
      have hq' : ¬ '\n' = q := fun h => hq h.symm
      match v', hf with
      | [], hf => simp [List.isPrefixOf, hq] at hf
      | [c], hf => simp [List.isPrefixOf, hq] at hf
      | [c, d], hf => simp [List.isPrefixOf, hq] at hf
      | c :: d :: f :: x, hf =>
        simp [List.isPrefixOf] at hf
        obtain ⟨rfl, rfl, rfl⟩ := hf
        exact ⟨x, rfl⟩
    obtain ⟨x, rfl⟩ := hp
    have hu : ∃ c ∈ u.reverse, (fun c => decide (c = '\t') || decide (c = ' ')) c = false := by
      by_contra hno
      refine hl.2 u x (fun c hc => ?_) el
      by_contra hc'
      refine hno ⟨c, by simpa using hc, ?_⟩
      simp only [not_or] at hc'
      simp [hc'.1, hc'.2]
    obtain ⟨c, t, hd, hc⟩ := last_drop (b := b.reverse) hu
    refine atFence_mid hne (c := c) (t := t) (by rw [List.reverse_append]; exact hd) ?_
    rintro rfl
    exact hl.1 (by rw [el]; simp at hc; simp [hc])
  · exact atFence_no (by simp) (Bool.eq_false_iff.2 hf)

theorem fence_lines {q : Char} {indent r : Str} (hq : q ∉ ['\n', ' ', '\t']) (hi : Tabs indent) : ∀ (lines : List Str) (b : Str),
    (∀ x ∈ lines, FreeLine q x) → b.getLast? = some '\n' →
    lazyThen (atFence q) b (joinLines (lines ++ [indent]) ++ q :: q :: q :: r) = some (joinLines (lines ++ [indent]), q :: q :: q :: r)
  | [], b, _, hb => by
    have hend : lazyThen (atFence q) (b ++ indent) (q :: q :: q :: r) = some ([], q :: q :: q :: r) := by
      rw [lazyThen, atFence_yes hi hb]
    have := lazyThen_skip (p := atFence q) (y := q :: q :: q :: r) indent b (fun u v e hv => by
      cases v with
      | nil => exact absurd rfl hv
      | cons c v =>
        refine atFence_no (by simp) (prefix_cons ?_)
        rintro rfl
        rcases hi q (by rw [e]; simp) with rfl | rfl <;> simp at hq) hend
    simpa [joinLines] using this
  | l :: lines, b, hl, hb => by
    rw [List.cons_append, joinLines_cons (by simp)]
    have ih := fence_lines (r := r) hq hi lines (b ++ (l ++ ['\n'])) (fun x hx => hl x (by simp [hx])) (by simp)
    have := lazyThen_skip (l ++ ['\n']) b (fence_line (b := b) (y := joinLines (lines ++ [indent]) ++ q :: q :: q :: r)
      (by rintro rfl; simp at hq) (hl l (by simp))) ih
    simpa using this

theorem joinLines_two {lines : List Str} {l i : Str} : joinLines (lines ++ [l]) ++ '\n' :: i = joinLines (lines ++ [l, i]) := by
  induction lines with
  | nil => simp [joinLines]
  | cons x lines ih => rw [List.cons_append, List.cons_append, joinLines_cons (by simp), joinLines_cons (by simp), ← ih]; simp

/-! ## Nodes -/

/-- What is between the opening and the closing fence, from the end of the first line. -/
def fenceBody (lines : List Str) (l indent : Str) : Str := '\n' :: joinLines (lines ++ [l]) ++ '\n' :: indent

theorem multiline_reads {k : MultilineKind} {info indent l r b : Str} {lines : List Str} (h1 : ∀ c ∈ info, c ≠ '\n' ∧ c ≠ '`')
    (h2 : Tabs indent) (h3 : ∀ x ∈ lines ++ [l], FreeLine (fence k) x) (hr : r.head? ≠ some (fence k)) :
    multiline k ⟨b, fence k :: fence k :: fence k :: info ++ (fenceBody lines l indent ++ fence k :: fence k :: fence k :: r)⟩ =
      some (.multiline k (byteLen (b ++ (fence k :: fence k :: fence k :: info)))
          (byteLen (b ++ (fence k :: fence k :: fence k :: info) ++ fenceBody lines l indent)),
        ⟨b ++ (fence k :: fence k :: fence k :: info) ++ fenceBody lines l indent ++ [fence k, fence k, fence k], r⟩) := by
  have hq : fence k ∉ ['\n', ' ', '\t'] := by cases k <;> decide
  have e1 : multilineOpen [fence k, fence k, fence k] b (fence k :: fence k :: fence k :: info ++ (fenceBody lines l indent ++ fence k :: fence k :: fence k :: r)) =
      some (fence k :: fence k :: fence k :: info, fenceBody lines l indent ++ fence k :: fence k :: fence k :: r) := by
    have := exact_app [fence k, fence k, fence k] b (info ++ (fenceBody lines l indent ++ fence k :: fence k :: fence k :: r))
    simp only [List.cons_append, List.nil_append] at this
    rw [multilineOpen, seq]
    simp only [List.cons_append]
    rw [this]
    simp only
    rw [seq, many_chr (fun c hc => by simpa using h1 c hc) (by simp [fenceBody])]
    simp [lineEnd, fenceBody]
  have e2 : ∀ b', multilineBody [fence k, fence k, fence k] b' (fenceBody lines l indent ++ fence k :: fence k :: fence k :: r) =
      some (fenceBody lines l indent, fence k :: fence k :: fence k :: r) := by
    intro b'
    have h := fence_lines (r := r) hq h2 (lines ++ [l]) (b' ++ ['\n']) h3 (by simp)
    have e : joinLines (lines ++ [l] ++ [indent]) = joinLines (lines ++ [l]) ++ '\n' :: indent := by
      rw [joinLines_two]; simp
    rw [e] at h
    rw [multilineBody, seq, fenceBody, List.cons_append, List.cons_append]
    have hch : chr (fun _ => true) b' ('\n' :: (joinLines (lines ++ [l]) ++ '\n' :: indent ++ fence k :: fence k :: fence k :: r)) =
        some (['\n'], joinLines (lines ++ [l]) ++ '\n' :: indent ++ fence k :: fence k :: fence k :: r) := by simp [chr]
    rw [hch]
    simp only
    rw [← atFence, h]
    rfl
  have e3 : ∀ b', multilineClose (fence k) b' (fence k :: fence k :: fence k :: r) = some ([fence k, fence k, fence k], r) := by
    intro b'
    have := exact_app [fence k, fence k, fence k] b' r
    simp only [List.cons_append, List.nil_append] at this
    rw [multilineClose, seq, this]
    simp only
    have : notPrecedes (chr (· = fence k)) (b' ++ [fence k, fence k, fence k]) r = some ([], r) := by
      cases r with
      | nil => simp [notPrecedes, chr]
      | cons c r =>
        have : ¬ c = fence k := by rintro rfl; simp at hr
        simp [notPrecedes, chr, this]
    rw [this]
    rfl
  rw [multiline, token_some e1]
  simp only
  rw [token_some (e2 _)]
  simp only
  rw [token_some (e3 _)]

theorem node_multiline {k : MultilineKind} {info indent l r b : Str} {lines : List Str} (h1 : ∀ c ∈ info, c ≠ '\n' ∧ c ≠ '`')
    (h2 : Tabs indent) (h3 : ∀ x ∈ lines ++ [l], FreeLine (fence k) x) (hr : r.head? ≠ some (fence k)) (n : Nat) :
    nodeType al (n + 1) ⟨b, fence k :: fence k :: fence k :: info ++ (fenceBody lines l indent ++ fence k :: fence k :: fence k :: r)⟩ =
      some (.multiline k (byteLen (b ++ (fence k :: fence k :: fence k :: info)))
          (byteLen (b ++ (fence k :: fence k :: fence k :: info) ++ fenceBody lines l indent)),
        ⟨b ++ (fence k :: fence k :: fence k :: info) ++ fenceBody lines l indent ++ [fence k, fence k, fence k], r⟩) := by
  have hs : ∀ j : MultilineKind, fence j ≠ fence k → multiline j ⟨b, fence k :: fence k :: fence k :: info ++ (fenceBody lines l indent ++ fence k :: fence k :: fence k :: r)⟩ = none :=
    fun j hj => multiline_none (prefix_cons hj)
  have hm := multiline_reads (b := b) h1 h2 h3 hr
  rw [nodeType]
  cases k with
  | escaped => exact firstOf_take hm
  | unescaped => rw [firstOf_skip (hs .escaped (by decide))]; exact firstOf_take hm
  | code => rw [firstOf_skip (hs .escaped (by decide)), firstOf_skip (hs .unescaped (by decide))]; exact firstOf_take hm

/-! ## The text -/

theorem tabs_white {w : Str} (h : Tabs w) : ∀ c ∈ w, isWhitespace c = true := fun c hc => by
  rcases h c hc with rfl | rfl <;> decide

theorem fence_trimmed {q : Char} {indent l l₁ l₂ : Str} {lines lines' : List Str} (h2 : Tabs indent)
    (h3 : ∀ x ∈ lines ++ [l], FreeLine q x) (h4 : DropCr l l₁) (h5 : Dedent indent l₁ l₂) (h6 : List.Forall₂ (Dedent indent) lines lines') :
    Trimmed (fenceBody lines l indent) (joinLines (lines' ++ [l₂])) := by
  have e : fenceBody lines l indent = joinLines ([[]] ++ lines ++ [l, indent]) := by
    rw [fenceBody, List.cons_append, joinLines_two, List.append_assoc, List.singleton_append, joinLines_cons (by simp)]
    rfl
  rw [e]
  refine .mk (by simp) (fun h => ?_) (fun x hx => (h3 x hx).1) ⟨fun c hc => (isWhitespace_iff c).1 (tabs_white h2 c hc), [], by simp, by simp⟩ h4 h5 h6
  rcases h2 _ h with h | h <;> simp at h

theorem unescapes_weaken {s t : Str} (h : Unescapes EscSeq s t) : Unescapes Accepted s t := by
  induction h with
  | nil => exact .nil
  | plain hc _ ih => exact .plain hc ih
  | esc he _ ih => exact .esc (.inl he) ih

theorem white_unescapes {w : Str} (h : ∀ c ∈ w, isWhitespace c = true) : Unescapes Accepted w w := by
  induction w with
  | nil => exact .nil
  | cons c w ih =>
    refine .plain ?_ (ih fun d hd => h d (by simp [hd]))
    rintro rfl
    have := h '\\' (by simp)
    revert this
    decide

theorem fence_unescapes {indent l l₁ l₂ : Str} {lines lines' : List Str} (h2 : Tabs indent)
    (h4 : DropCr l l₁) (h5 : Dedent indent l₁ l₂) (h6 : List.Forall₂ (Dedent indent) lines lines')
    (h : ∃ t, Unescapes Accepted (joinLines (lines' ++ [l₂])) t) : ∃ t, Unescapes Accepted (fenceBody lines l indent) t := by
  have hall := unescapes_joinLines.1 h
  have hd : ∀ {a b}, Dedent indent a b → (∃ t, Unescapes Accepted b t) → ∃ t, Unescapes Accepted a t := by
    intro a b hd ⟨t, ht⟩
    cases hd with
    | strip => exact ⟨_, unescapes_append (white_unescapes (tabs_white h2)) ht⟩
    | keep => exact ⟨t, ht⟩
  have hl : ∃ t, Unescapes Accepted l t := by
    have h1 := hd h5 (hall l₂ (by simp))
    cases h4 with
    | cr => exact h1.imp' (· ++ ['\r']) fun t ht => unescapes_append ht (.plain (by decide) .nil)
    | none => exact h1
  have e : fenceBody lines l indent = joinLines ([] :: lines ++ [l, indent]) := by
    rw [fenceBody, List.cons_append, joinLines_two, List.cons_append, joinLines_cons (by simp)]
    rfl
  rw [e, unescapes_joinLines]
  intro x hx
  simp only [List.cons_append, List.mem_cons, List.mem_append, List.not_mem_nil, or_false] at hx
  rcases hx with rfl | hx | rfl | rfl
  · exact ⟨[], .nil⟩
  · have hm : ∀ x ∈ lines', ∃ t, Unescapes Accepted x t := fun x hx => hall x (by simp [hx])
    clear hall h hl h4 h5 e
    induction h6 with
    | nil => simp at hx
    | cons ha _ ih =>
      rcases List.mem_cons.1 hx with rfl | hx
      · exact hd ha (hm _ (by simp))
      · exact ih hx fun x hx => hm x (by simp [hx])
  · exact hl
  · exact ⟨_, white_unescapes (tabs_white h2)⟩

end Mty.Grammar
