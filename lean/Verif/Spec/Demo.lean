import Verif.Model.Demo

/-! # Specification for the demonstration page: what can happen, and when it has come to rest -/

set_option autoImplicit false

namespace Mty.Demo.Spec
open Demo

/-- The page goes from one state to another by events each of which satisfies `ok` in the state in which it happens. -/
inductive Steps (env : Env) (ok : State → Event → Prop) : State → State → Prop
  | refl (s : State) : Steps env ok s s
  | tail {s t u : State} {e : Event} : Steps env ok s t → ok t e → step env t e = some u → Steps env ok s u

/-- Any event. -/
def Any (_ : State) (_ : Event) : Prop := True

/-- The states of a page that has been loaded: for some example, some list of examples and some stored texts, and after
any events. -/
def Reachable (env : Env) (s : State) : Prop :=
  ∃ name examples storage now, Steps env Any (init examples (new name storage now)) s

/-- Nothing more happens by itself: every text sent has been answered, no timer is running, and the editor has reported
its last change. -/
structure Settled (s : State) : Prop where
  answered : s.requests = []
  timers : s.timers = 0
  reported : s.inputEvent = false

/-- The events that happen by themselves, without the user, the network or the clock. -/
inductive Internal : Event → Prop
  | input : Internal .input
  | respond : Internal .respond
  | timeout : Internal .timeout

/-- The events while the user only writes: no example is chosen, reset or downloaded. -/
inductive Writing : Event → Prop
  | edit (text : Str) : Writing (.edit text)
  | input : Writing .input
  | respond : Writing .respond
  | timeout : Writing .timeout
  | clock (now : Int) : Writing (.clock now)

/-- The places of the errors of a result in the text `doc`. -/
def errorPlaces (env : Env) (doc : Str) (r : Js.Result) : List ((Nat × Nat) × (Nat × Nat)) :=
  match r.error with
  | some (.mintyml _ (some l)) => l.map fun e => (env.place doc e.1, env.place doc e.2.1)
  | _ => []

/-- The number of internal events in a sequence of events that leads from one state to another, with time passing in between. -/
inductive Quiet (env : Env) : State → Nat → State → Prop
  | refl (s : State) : Quiet env s 0 s
  | tail {s t u : State} {n : Nat} {e : Event} : Quiet env s n t → Internal e → step env t e = some u → Quiet env s (n + 1) u
  | clock {s t : State} {n : Nat} (now : Int) : Quiet env s n t → Quiet env s n { t with now := now }

/-- The texts of the annotations: what was expected, or the message. -/
def errorText : Nat × Nat × Str × Option Str × Option (List Str) → Str
  | (_, _, _, _, some expected) => "Expected ".toList ++ " | ".toList.intercalate expected
  | (_, _, message, _, none) => message

/-- The annotations for the errors of a result in the text `doc`. -/
def errorNotes (env : Env) (doc : Str) (r : Js.Result) : List ((Nat × Nat) × Str) :=
  match r.error with
  | some (.mintyml _ (some l)) => l.map fun e => (env.place doc e.1, errorText e)
  | _ => []

/-- The converter answers within three seconds: when anything happens, no text was sent three seconds ago or earlier
without an answer since. -/
def InTime (s : State) (_ : Event) : Prop := ∀ t, s.sent = some t → s.now - t < 3000

/-- An example is chosen or reset only when no download is pending, and no download fails. -/
def OneDownload (s : State) (e : Event) : Prop :=
  ((∃ m, e = .select m) ∨ e = .reset → s.fetches = []) ∧ ∀ i, e ≠ .failed i

/-- When the last text sent is answered, the editor still holds it. -/
def Unchanged (s : State) (e : Event) : Prop := e = .respond → ∀ x, s.requests = [x] → s.editor = x

/-- No example is chosen or reset. -/
def NoLoading (_ : State) (e : Event) : Prop := (∀ m, e ≠ .select m) ∧ e ≠ .reset

/-- The user does not write. -/
def NoEdit (_ : State) (e : Event) : Prop := ∀ x, e ≠ .edit x

/-- An example is chosen, or after the event another example than `n` is the current one. -/
def Away (env : Env) (n : Str) (s : State) (e : Event) : Prop :=
  (∃ m, e = .select m) ∨ ∀ t, step env s e = some t → t.exampleName ≠ n

end Mty.Demo.Spec
