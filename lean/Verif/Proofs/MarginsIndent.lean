import Verif.Proofs.MarginsTrim
import Verif.Proofs.Multiline

/-!
# C88: a source that is indented as a whole
-/

set_option autoImplicit false

namespace Mty.Grammar
open Spec

/-- What is done to each character. -/
def shift (w : Str) (c : Char) : Str := if c = '\n' then '\n' :: w else [c]

/-- The margin of each line. -/
def Only (w : Str) (u v : Str) : Prop := u = [] ∧ v = w

theorem margins_only {w s s' : Str} (h : Margins (Only w) s s') : s' = s.flatMap (shift w) := by
  induction h with
  | nil => rfl
  | char hc _ ih => rw [ih, List.flatMap_cons, shift, if_neg hc]; rfl
  | line _ hv _ ih => obtain ⟨_, rfl, rfl⟩ := hv; rw [ih, List.flatMap_cons]; simp [shift]

theorem only_margins {w : Str} (hw : ∀ c ∈ w, c = ' ' ∨ c = '\t') : ∀ s : Str, Margins (Only w) s (s.flatMap (shift w))
  | [] => .nil
  | c :: s => by
    have ih := only_margins hw s
    by_cases hc : c = '\n'
    · subst hc
      simpa [shift] using Margins.line (Q := Only w) (u := []) (v := w) (by simp) ⟨hw, rfl, rfl⟩ ih
    · simpa [shift, hc] using Margins.char hc ih

theorem shift_plain (w : Str) : ∀ {x : Str}, '\n' ∉ x → x.flatMap (shift w) = x
  | [], _ => rfl
  | c :: x, h => by
    have hc : c ≠ '\n' := fun e => h (by simp [e])
    rw [List.flatMap_cons, shift_plain w fun e => h (List.mem_cons_of_mem _ e), shift, if_neg hc]; rfl

theorem shift_lines (w : Str) : ∀ (ls : List Str), ls ≠ [] → (∀ x ∈ ls, '\n' ∉ x) → w ++ (joinLines ls).flatMap (shift w) = joinLines (ls.map (w ++ ·))
  | [], h, _ => absurd rfl h
  | [x], _, h => by simp [joinLines, shift_plain w (h x (by simp))]
  | x :: y :: ls, _, h => by
    have ih := shift_lines w (y :: ls) (by simp) fun z hz => h z (by simp at hz ⊢; tauto)
    rw [joinLines_cons (l := x) (by simp), List.map_cons, joinLines_cons (l := w ++ x) (by simp), ← ih, List.flatMap_append, shift_plain w (h x (by simp)),
      List.flatMap_cons]
    simp [shift]

theorem block_indented {w src src' : Str} (hw : ∀ c ∈ w, c = ' ' ∨ c = '\t') (r r' : Range) (h : Sb (Only w) src src' r r')
    (hb : Flush (r.slice src)) : SameBlock (r.slice src) (r'.slice src') := by
  obtain ⟨a, m, b, a', u, v, m', b', rfl, rfl, hm, ⟨-, rfl⟩, rfl, rfl⟩ := h
  rw [margins_only hm]
  rw [slice_mid] at hb ⊢
  rw [slice_mid]
  obtain ⟨pre, ls, l, e, h1, h2, h3, h4⟩ := hb
  rw [e]
  rw [List.cons_append, joinLines_cons (by simp), List.nil_append] at e
  cases e
  have hn : '\n' ∉ pre := fun e => by rcases h1 _ e with h | h <;> revert h <;> decide
  rw [shift_lines v _ (by simp) (by
    intro x hx hm
    rcases List.mem_append.1 hx with hx | hx
    · obtain ⟨y, hy, rfl⟩ := List.mem_map.1 hx
      rcases List.mem_append.1 hm with hm | hm
      · exact hn hm
      · exact h2 y hy hm
    · rw [List.mem_singleton] at hx
      exact hn (hx ▸ hm))]
  have := SameBlock.indented (pre' := v ++ pre) h1 (fun c hc => (List.mem_append.1 hc).elim (hw c) (h1 c)) h2 h3 h4
  rw [List.cons_append, List.cons_append, joinLines_cons (l := []) (ls := (ls ++ [l]).map (v ++ pre ++ ·) ++ [v ++ pre]) (by simp)] at this
  simpa [List.append_assoc, Function.comp_def] using this

end Mty.Grammar
