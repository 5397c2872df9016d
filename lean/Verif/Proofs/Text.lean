import Verif.Proofs.Multiline
import Verif.Model.Output

/-! # Lemmas about writing text nodes -/

namespace Mty
open Spec

theorem writeLines_ok {w : Str → Str × Bool} {ls os : List Str}
    (h : List.Forall₂ (fun l o => w l = (o, true)) ls os) (fs : Bool) :
    writeLines w ls fs = ⟨os.flatten, fs, true⟩ := by
  induction h with
  | nil => rfl
  | cons h _ ih => simp [writeLines, Act.seq, Act.writeR, h, ih]

/-- Whether a text node is written without escaping. -/
def rawMode (cx : OutCx) (t : Text) : Bool :=
  t.raw || (!cx.cfg.isXml && (!t.escapeOut || cx.isRaw))

theorem textWriter_plain {cx : OutCx} {t : Text} (hu : t.unescapeIn = false) (b : Bool) (v : Str) :
    textWriter cx t b v = (if b then v else escWriteStr cx.cfg.isXml false v, true) := by
  cases b <;> simp [textWriter, hu, writeEscape]

theorem textWriter_unescape {cx : OutCx} {t : Text} (hu : t.unescapeIn = true) (b : Bool) {v u : Str}
    (h : Unescapes Accepted v u) :
    textWriter cx t b v = (if b then u else escWriteStr cx.cfg.isXml false u, true) := by
  cases b <;> simp [textWriter, hu, writeEscapeUnescape_ok h, writeUnescape_ok h]

theorem escWriteStr_append (xml quote : Bool) (a b : Str) :
    escWriteStr xml quote (a ++ b) = escWriteStr xml quote a ++ escWriteStr xml quote b := by
  simp [escWriteStr_eq]

theorem escWriteStr_flatten (xml quote : Bool) (ls : List Str) :
    escWriteStr xml quote ls.flatten = (ls.map (escWriteStr xml quote)).flatten := by
  induction ls with
  | nil => simp [escWriteStr_eq]
  | cons l ls ih => simp [escWriteStr_append, ih]

theorem if_flatten (b : Bool) (xml : Bool) (ts : List Str) :
    (ts.map fun u => if b then u else escWriteStr xml false u).flatten =
      if b then ts.flatten else escWriteStr xml false ts.flatten := by
  cases b <;> simp [escWriteStr_flatten]

theorem forall2_same {α β : Type} (f : α → β) (R : α → β → Prop) (l : List α) (h : ∀ x ∈ l, R x (f x)) :
    List.Forall₂ R l (l.map f) := by
  induction l with
  | nil => exact .nil
  | cons x l ih => exact .cons (h x (by simp)) (ih fun y hy => h y (by simp [hy]))

/-- Lines of a multiline text with valid escapes (or without escapes). -/
theorem writeLines_text {cx : OutCx} {t : Text} {b : Bool} {s : Str} {u : Str}
    (h : if t.unescapeIn then Unescapes Accepted (trimMultiline s).flatten u
      else u = (trimMultiline s).flatten) (fs : Bool) :
    writeLines (textWriter cx t b) (trimMultiline s) fs =
      ⟨if b then u else escWriteStr cx.cfg.isXml false u, fs, true⟩ := by
  cases hu : t.unescapeIn with
  | false =>
    simp [hu] at h; subst h
    rw [writeLines_ok (os := (trimMultiline s).map fun v =>
      if b then v else escWriteStr cx.cfg.isXml false v), if_flatten]
    exact forall2_same _ _ _ fun x _ => textWriter_plain hu b x
  | true =>
    simp [hu] at h
    obtain ⟨ts, h1, rfl⟩ : ∃ ts, List.Forall₂ (Unescapes Accepted) (trimMultiline s) ts ∧
        ts.flatten = u := by
      simp only [trimMultiline] at h ⊢
      cases h1 : splitOnce '\n' s with
      | none => simp [h1] at h ⊢; cases h; rfl
      | some p =>
        obtain ⟨first, s'⟩ := p
        cases h2 : rsplitOnce '\n' s' with
        | none => simp [h1, h2] at h ⊢; cases h; rfl
        | some q =>
          obtain ⟨mid, last⟩ := q
          simp only [h1, h2] at h ⊢
          exact unescapes_pieces (whiteSpace_prefix_no_newline (indentation_exists last)
            (rsplitOnce_some h2).2) h
    rw [writeLines_ok (os := ts.map fun v =>
      if b then v else escWriteStr cx.cfg.isXml false v), if_flatten]
    rw [List.forall₂_map_right_iff]
    exact h1.imp fun a c hac => textWriter_unescape hu b hac

/-- Single text (not multiline). -/
theorem writeText_single {cx : OutCx} {t : Text} (hne : t.slice.isEmpty = false)
    (hm : t.multiline = false) {u : Str}
    (h : if t.unescapeIn then Unescapes Accepted (t.slice.asStr cx.src) u
      else u = t.slice.asStr cx.src) (fs : Bool) :
    writeText cx t fs = ⟨if rawMode cx t then u else escWriteStr cx.cfg.isXml false u,
      endsWithBlank (t.slice.asStr cx.src), true⟩ := by
  have : textWriter cx t (rawMode cx t) (t.slice.asStr cx.src) =
      (if rawMode cx t then u else escWriteStr cx.cfg.isXml false u, true) := by
    cases hu : t.unescapeIn with
    | false => simp [hu] at h; subst h; exact textWriter_plain hu _ _
    | true => simp [hu] at h; exact textWriter_unescape hu _ h
  simp only [writeText, hne, hm]
  simp [Act.seq, Act.writeR, Act.setFs]
  rw [show (t.raw || (!cx.cfg.isXml && (!t.escapeOut || cx.isRaw))) = rawMode cx t from rfl, this]
  simp

theorem writeText_multi {cx : OutCx} {t : Text} (hne : t.slice.isEmpty = false)
    (hm : t.multiline = true) {u : Str}
    (h : if t.unescapeIn then Unescapes Accepted (trimMultiline (t.slice.asStr cx.src)).flatten u
      else u = (trimMultiline (t.slice.asStr cx.src)).flatten) (fs : Bool) :
    ∃ fs', writeText cx t fs =
      ⟨if rawMode cx t then u else escWriteStr cx.cfg.isXml false u, fs', true⟩ := by
  simp only [writeText, hne, hm]
  simp [Act.seq, Act.setFs]
  rw [show (t.raw || (!cx.cfg.isXml && (!t.escapeOut || cx.isRaw))) = rawMode cx t from rfl,
    writeLines_text h]
  simp

end Mty
