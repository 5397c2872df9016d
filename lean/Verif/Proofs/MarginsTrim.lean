import Verif.Proofs.MarginsTree

/-!
# C87: a source and the same source without margins
-/

set_option autoImplicit false

namespace Mty.Grammar
open Spec

theorem margins_ends : ∀ s : Str, Margins (fun _ v => v = []) (endsTrimmed s) s
  | [] => .nil
  | c :: s => by
    have ih := margins_ends s
    rw [endsTrimmed]
    split
    · rename_i h
      obtain ⟨h1, h2⟩ := h
      cases he : endsTrimmed s with
      | nil => rw [he] at h2; cases h2
      | cons d t =>
        rw [he] at h2 ih
        obtain rfl : d = '\n' := by simpa using h2
        replace ih := ih.nl
        obtain ⟨u, v, x, rfl, hu, hv, hx⟩ := ih
        exact Margins.line (u := c :: u) (v := v) (by rintro a (_ | ⟨_, ha⟩); exacts [h1, hu a ha]) hv hx
    · by_cases hc : c = '\n'
      · subst hc; exact Margins.line (u := []) (v := []) (by simp) (by simp) ih
      · exact .char hc ih

theorem margins_starts {p t : Str} (h : Margins (fun _ v => v = []) p t) :
    Margins (fun _ _ => True) (startsTrimmed false p) t ∧
    ∃ w x, t = w ++ x ∧ (∀ c ∈ w, c = ' ' ∨ c = '\t') ∧ Margins (fun _ _ => True) (startsTrimmed true p) x := by
  induction h with
  | nil => exact ⟨.nil, [], [], rfl, by simp, .nil⟩
  | char hc _h ih =>
    rename_i c s s'
    obtain ⟨ih1, w, x, rfl, hw, ih2⟩ := ih
    have h1 : Margins (fun _ _ => True) (c :: startsTrimmed false s) (c :: (w ++ x)) := .char hc ih1
    refine ⟨by simpa [startsTrimmed, hc] using h1, ?_⟩
    by_cases hi : c = ' ' ∨ c = '\t'
    · exact ⟨c :: w, x, rfl, by rintro a (_ | ⟨_, ha⟩); exacts [hi, hw a ha], by simpa [startsTrimmed, hi] using ih2⟩
    · exact ⟨[], c :: (w ++ x), rfl, by simp, by simpa [startsTrimmed, hi, hc] using h1⟩
  | line hu hv _h ih =>
    rename_i u v s s'
    obtain ⟨-, rfl⟩ := hv
    obtain ⟨-, w, x, rfl, hw, ih2⟩ := ih
    have h1 : Margins (fun _ _ => True) ('\n' :: startsTrimmed true s) (u ++ '\n' :: (w ++ x)) := .line hu ⟨hw, trivial⟩ ih2
    exact ⟨by simpa [startsTrimmed] using h1, [], _, rfl, by simp, by simpa [startsTrimmed] using h1⟩

/-- A source is an indentation and the source without margins with some margins. -/
theorem margins_trimmed (s : Str) : ∃ w x, s = w ++ x ∧ (∀ c ∈ w, c = ' ' ∨ c = '\t') ∧ Margins (fun _ _ => True) (trimmedLines s) x :=
  (margins_starts (margins_ends s)).2

theorem margins_crlf : ∀ s : Str, Margins (fun _ _ => True) s (crlf s)
  | [] => .nil
  | c :: s => by
    rw [crlf]
    split
    · rename_i h
      subst h
      exact Margins.line (u := ['\r']) (v := []) (by simp) (by simp) (margins_crlf s)
    · rename_i h
      exact .char h (margins_crlf s)

end Mty.Grammar
