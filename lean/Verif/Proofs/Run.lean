import Verif.Model.Errors

/-!
# What a building computation does

`Run m R`: the computation `m` yields a value `a` and logs the errors `es` with `R a es`; with
fail-fast it stops after a non-empty initial part of `es` if there are any errors.
-/

namespace Mty

/-- `e` with further syntax errors. -/
def Errors.add (e : Errors) (es : List SyntaxError) : Errors :=
  { e with syntaxErrors := e.syntaxErrors ++ es }

@[simp] theorem Errors.add_nil (e : Errors) : e.add [] = e := by simp [Errors.add]

@[simp] theorem Errors.add_add (e : Errors) (a b : List SyntaxError) :
    (e.add a).add b = e.add (a ++ b) := by simp [Errors.add]

@[simp] theorem Errors.add_failFast (e : Errors) (a : List SyntaxError) :
    (e.add a).failFast = e.failFast := rfl

structure Logs {α : Type} (m : BM α) (a : α) (es : List SyntaxError) : Prop where
  slow : ∀ e : Errors, e.failFast = false → m e = (some a, e.add es)
  fastOk : es = [] → ∀ e : Errors, m e = (some a, e)
  fast : es ≠ [] → ∀ e : Errors, e.failFast = true →
    ∃ es', es' ≠ [] ∧ es' <+: es ∧ m e = (none, e.add es')

theorem Logs.pure {α : Type} (a : α) : Logs (BM.pure a) a [] :=
  ⟨fun e _ => by simp [BM.pure], fun _ e => rfl, fun h => absurd rfl h⟩

theorem Logs.bind {α β : Type} {m : BM α} {f : α → BM β} {a : α} {b : β}
    {es es' : List SyntaxError} (h : Logs m a es) (h' : Logs (f a) b es') :
    Logs (BM.bind m f) b (es ++ es') := by
  refine ⟨fun e he => ?_, fun hn e => ?_, fun hn e he => ?_⟩
  · have := h'.slow (e.add es) (by simpa using he)
    simp [BM.bind, h.slow e he, this]
  · have ⟨h1, h2⟩ := List.append_eq_nil_iff.1 hn
    simp [BM.bind, h.fastOk h1 e, h'.fastOk h2 e]
  · by_cases h1 : es = []
    · subst h1
      obtain ⟨x, hx, hp, hm⟩ := h'.fast (by simpa using hn) e he
      exact ⟨x, hx, by simpa using hp, by simp [BM.bind, h.fastOk rfl e, hm]⟩
    · obtain ⟨x, hx, hp, hm⟩ := h.fast h1 e he
      exact ⟨x, hx, hp.trans (List.prefix_append _ _), by simp [BM.bind, hm]⟩

theorem Logs.syntaxErr (es : List SyntaxError) : Logs (BM.syntaxErr es) () es := by
  refine ⟨fun e he => ?_, fun hn e => ?_, fun hn e he => ⟨es, hn, List.prefix_refl _, ?_⟩⟩
  · simp [BM.syntaxErr, he, Errors.add]
  · subst hn; simp [BM.syntaxErr]
  · have : 0 < es.length := List.length_pos_iff.2 hn
    simp [BM.syntaxErr, he, Errors.add, this]

/-- The value and the log are unique. -/
theorem Logs.unique {α : Type} {m : BM α} {a a' : α} {es es' : List SyntaxError}
    (h : Logs m a es) (h' : Logs m a' es') : a = a' ∧ es = es' := by
  have e1 := h.slow { failFast := false } rfl
  have e2 := h'.slow { failFast := false } rfl
  rw [e1] at e2
  simp [Errors.add] at e2
  exact e2

def Run {α : Type} (m : BM α) (R : α → List SyntaxError → Prop) : Prop :=
  ∃ a es, Logs m a es ∧ R a es

namespace Run

variable {α β : Type} {m : BM α} {f : α → BM β}

theorem mono {R S : α → List SyntaxError → Prop} (h : Run m R) (hs : ∀ a es, R a es → S a es) :
    Run m S := by
  obtain ⟨a, es, hl, hr⟩ := h; exact ⟨a, es, hl, hs _ _ hr⟩

theorem pure {a : α} {R : α → List SyntaxError → Prop} (h : R a []) : Run (BM.pure a) R :=
  ⟨a, [], Logs.pure a, h⟩

theorem bind {R : β → List SyntaxError → Prop}
    (h : Run m fun a es => Run (f a) fun b es' => R b (es ++ es')) : Run (BM.bind m f) R := by
  obtain ⟨a, es, hl, b, es', hl', hr⟩ := h
  exact ⟨b, es ++ es', hl.bind hl', hr⟩

theorem syntaxErr {es : List SyntaxError} {R : Unit → List SyntaxError → Prop} (h : R () es) :
    Run (BM.syntaxErr es) R := ⟨(), es, Logs.syntaxErr es, h⟩

theorem and {R S : α → List SyntaxError → Prop} (h : Run m R) (h' : Run m S) :
    Run m fun a es => R a es ∧ S a es := by
  obtain ⟨a, es, hl, hr⟩ := h
  obtain ⟨a', es', hl', hr'⟩ := h'
  obtain ⟨rfl, rfl⟩ := hl.unique hl'
  exact ⟨a, es, hl, hr, hr'⟩

/-- `pure`/`bind` as they appear in `do` blocks. -/
theorem pure' {a : α} {R : α → List SyntaxError → Prop} (h : R a []) :
    Run (Pure.pure a : BM α) R := Run.pure h

theorem bind' {R : β → List SyntaxError → Prop}
    (h : Run m fun a es => Run (f a) fun b es' => R b (es ++ es')) : Run (m >>= f) R :=
  Run.bind h

end Run

/-- Whatever the case of `fail_fast`, a document that is built has the property of the run. -/
theorem Run.document {α : Type} {m : BM α} {R : α → List SyntaxError → Prop} (h : Run m R)
    {e e' : Errors} {a : α} (hm : m e = (some a, e')) :
    ∃ es, R a es ∧ e'.syntaxErrors = e.syntaxErrors ++ es := by
  obtain ⟨a', es, hl, h1⟩ := h
  cases hf : e.failFast with
  | false => rw [hl.slow e hf] at hm; cases hm; exact ⟨es, h1, rfl⟩
  | true =>
    by_cases hn : es = []
    · rw [hl.fastOk hn e] at hm; cases hm; exact ⟨es, h1, by simp [hn]⟩
    · obtain ⟨_, _, _, h'⟩ := hl.fast hn e hf
      rw [h'] at hm; cases hm

end Mty
