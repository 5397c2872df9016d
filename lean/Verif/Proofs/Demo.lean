import Verif.Spec.Demo

/-! # Invariants of the demonstration page -/

set_option autoImplicit false

namespace Mty.Demo
open Spec

variable {env : Env} {s t u : State}

/-- The output pane and the markers are those of a text. -/
def Shown (env : Env) (s : State) (t : Str) : Prop :=
  (∀ o, (env.conv t).output = some o → s.output = o) ∧ ∃ doc, s.markers = errorPlaces env doc (env.conv t)

/-- The invariant between the handlers, apart from what `update` establishes. -/
structure Pre (env : Env) (s : State) : Prop where
  dirty : s.dirty = true → s.requests ≠ [] ∨ s.timers ≠ 0
  sent : s.sent ≠ none → s.requests ≠ []
  last : s.requests ≠ [] → s.requests.getLast? = s.lastInput
  shown : s.requests = [] → ∀ t, s.lastInput = some t → Shown env s t

/-- The invariant between the handlers. -/
structure Inv (env : Env) (s : State) : Prop extends Pre env s where
  worker : s.worker = true
  seen : s.lastInput = some s.editor ∨ s.dirty = true ∨ s.inputEvent = true

/-- What `send` does. -/
theorem send_cases (s : State) : (s.lastInput = some s.editor ∧ send s = s) ∨
    (s.lastInput ≠ some s.editor ∧ ∃ st sr, send s = { s with
        lastInput := some s.editor
        sent := some s.now
        star := st
        storage := sr
        requests := s.requests ++ [s.editor] } ∧
      ((s.isLoadingExample = true ∧ st = s.star ∧ sr = s.storage) ∨
       (s.isLoadingExample = false ∧ sr = put s.storage s.exampleName (some s.editor) ∧
        st = match s.star s.exampleName with
          | some _ => put s.star s.exampleName (some true)
          | none => s.star))) := by
  unfold send
  split
  · next h => exact .inl ⟨h.symm, rfl⟩
  · next h =>
    refine .inr ⟨fun hh => h hh.symm, ?_⟩
    unfold storeModified
    by_cases hl : s.isLoadingExample = true
    · simp only [hl, if_true]
      exact ⟨_, _, rfl, .inl ⟨trivial, rfl, rfl⟩⟩
    · simp only [Bool.not_eq_true] at hl
      simp only [hl, Bool.false_eq_true, if_false]
      exact ⟨_, _, rfl, .inr ⟨trivial, rfl, rfl⟩⟩

/-- What `update` does. -/
theorem update_cases (s : State) : ((s.dirty = true ∨ s.worker = false) ∧ update s = s) ∨
    (s.dirty = false ∧ s.worker = true ∧ (∃ t, s.sent = some t ∧ s.now - t < 3000) ∧ update s = { s with dirty := true }) ∨
    (s.dirty = false ∧ s.worker = true ∧ (∀ t, s.sent = some t → 3000 ≤ s.now - t) ∧ update s = send s) := by
  unfold update
  by_cases hd : s.dirty = true
  · exact .inl ⟨.inl hd, by simp [hd]⟩
  · simp only [Bool.not_eq_true] at hd
    by_cases hw : s.worker = true
    · cases hs : s.sent with
      | none => exact .inr (.inr ⟨hd, hw, by simp, by simp [hd, hw]⟩)
      | some t =>
        by_cases hn : s.now - t < 3000
        · refine .inr (.inl ⟨hd, hw, ⟨t, rfl, hn⟩, ?_⟩)
          simp [hd, hw, POST_SEND_DELAY, hn]
        · refine .inr (.inr ⟨hd, hw, fun t' ht' => ?_, ?_⟩)
          · cases ht'; omega
          · simp [hd, hw, POST_SEND_DELAY, hn]
    · simp only [Bool.not_eq_true] at hw
      exact .inl ⟨.inr hw, by simp [hd, hw]⟩

/-- What `update` does not change. -/
theorem update_frame (s : State) : (update s).editor = s.editor ∧ (update s).inputEvent = s.inputEvent ∧
    (update s).worker = s.worker ∧ (update s).isLoadingExample = s.isLoadingExample ∧ (update s).exampleName = s.exampleName ∧
    (update s).url = s.url ∧ (update s).selected = s.selected ∧ (update s).timers = s.timers ∧ (update s).fetches = s.fetches ∧
    (update s).now = s.now ∧ (update s).output = s.output ∧ (update s).markers = s.markers ∧
    (update s).annotations = s.annotations := by
  rcases update_cases s with ⟨_, h⟩ | ⟨_, _, _, h⟩ | ⟨_, _, _, h⟩
  · rw [h]; simp
  · rw [h]; simp
  · rw [h]
    rcases send_cases s with ⟨_, h⟩ | ⟨_, st, sr, h, _⟩ <;> rw [h] <;> simp

theorem update_pre (h : Pre env s) : Pre env (update s) := by
  rcases update_cases s with ⟨_, e⟩ | ⟨_, _, ⟨t, ht, _⟩, e⟩ | ⟨hd, _, _, e⟩
  · rw [e]; exact h
  · rw [e]
    exact ⟨fun _ => .inl (h.sent (by rw [ht]; simp)), h.sent, h.last, h.shown⟩
  · rw [e]
    rcases send_cases s with ⟨_, e⟩ | ⟨_, st, sr, e, _⟩ <;> rw [e]
    · exact h
    · exact ⟨fun _ => .inl (by simp), fun _ => by simp, fun _ => by simp, fun hh => by simp at hh⟩

theorem update_seen (hw : s.worker = true) : (update s).lastInput = some s.editor ∨ (update s).dirty = true := by
  rcases update_cases s with ⟨h | h, e⟩ | ⟨_, _, _, e⟩ | ⟨hd, _, _, e⟩
  · rw [e]; exact .inr h
  · rw [h] at hw; cases hw
  · rw [e]; exact .inr rfl
  · rw [e]
    rcases send_cases s with ⟨h, e⟩ | ⟨_, st, sr, e, _⟩ <;> rw [e]
    · exact .inl h
    · exact .inl rfl

theorem update_inv (h : Pre env s) (hw : s.worker = true) : Inv env (update s) := by
  obtain ⟨he, _, hw', _⟩ := update_frame s
  refine ⟨update_pre h, hw'.trans hw, ?_⟩
  rw [he]
  rcases update_seen hw with h | h
  · exact .inl h
  · exact .inr (.inl h)

theorem finishLoad_pre (name text : Str) (h : Pre env s) : Pre env (finishLoad name text s) :=
  update_pre ⟨h.dirty, h.sent, h.last, h.shown⟩

theorem finishLoad_inv (name text : Str) (h : Inv env s) : Inv env (finishLoad name text s) :=
  update_inv ⟨h.dirty, h.sent, h.last, h.shown⟩ h.worker

theorem loadExample_pre (name : Str) (h : Pre env s) : Pre env (loadExample name s) := by
  unfold loadExample
  simp only
  split
  · exact finishLoad_pre _ _ ⟨h.dirty, h.sent, h.last, h.shown⟩
  · exact ⟨h.dirty, h.sent, h.last, h.shown⟩

theorem loadExample_inv (name : Str) (h : Inv env s) : Inv env (loadExample name s) := by
  unfold loadExample
  simp only
  split
  · exact finishLoad_inv _ _ ⟨⟨h.dirty, h.sent, h.last, h.shown⟩, h.worker, h.seen⟩
  · exact ⟨⟨h.dirty, h.sent, h.last, h.shown⟩, h.worker, h.seen⟩

theorem init_inv (examples : List Str) (name : Str) (storage : Str → Option Str) (now : Int) :
    Inv env (init examples (new name storage now)) := by
  have h : Pre env (new name storage now) := ⟨by simp [new], by simp [new], by simp [new], by simp [new]⟩
  have h' := loadExample_pre name h
  exact update_inv ⟨h'.dirty, h'.sent, h'.last, h'.shown⟩ rfl

/-- What the handler of an answer does. -/
theorem onmessage_eq (env : Env) (r : Js.Result) (s : State) : ∃ anns, onmessage env r s = { s with
    markers := errorPlaces env s.editor r
    annotations := anns
    output := r.output.getD s.output
    sent := none
    timers := if s.dirty then s.timers + 1 else s.timers
    isLoadingExample := if s.dirty then s.isLoadingExample else false } := by
  obtain ⟨ok, o, e⟩ := r
  unfold onmessage errorPlaces
  cases o <;> cases hd : s.dirty <;> (rcases e with _ | ⟨m, _ | l⟩ | v) <;>
    simp [showOutput, showErrors, syntaxErrors, marker, hd] <;> exact ⟨_, rfl⟩

theorem respond_inv {text : Str} {rest : List Str} (h : Inv env s) (hr : s.requests = text :: rest) :
    Inv env (onmessage env (env.conv text) { s with requests := rest }) := by
  obtain ⟨anns, e⟩ := onmessage_eq env (env.conv text) { s with requests := rest }
  rw [e]
  have hl := h.last (by rw [hr]; simp)
  refine ⟨⟨fun hd => .inr ?_, by simp, fun hn => ?_, fun hn t ht => ?_⟩, h.worker, h.seen⟩
  · simp only at hd
    simp [hd]
  · simp only at hn
    rw [hr] at hl
    rw [← hl]
    cases rest with
    | nil => exact absurd rfl hn
    | cons a b => simp [List.getLast?_cons_cons]
  · simp only at hn
    subst hn
    rw [hr] at hl
    simp only at ht
    rw [ht] at hl
    simp only [List.getLast?_singleton, Option.some.injEq] at hl
    subst hl
    refine ⟨fun o ho => ?_, _, rfl⟩
    simp [ho]

theorem step_inv {e : Event} (h : Inv env s) (hs : step env s e = some t) : Inv env t := by
  cases e with
  | edit text =>
    cases hs
    exact ⟨⟨h.dirty, h.sent, h.last, h.shown⟩, h.worker, .inr (.inr rfl)⟩
  | input =>
    simp only [step] at hs
    split at hs
    · cases hs
      exact update_inv ⟨h.dirty, h.sent, h.last, h.shown⟩ h.worker
    · cases hs
  | respond =>
    simp only [step] at hs
    split at hs
    · next text rest hr => cases hs; exact respond_inv h hr
    · cases hs
  | timeout =>
    simp only [step] at hs
    split at hs
    · cases hs
    · cases hs
      exact update_inv ⟨by simp, h.sent, h.last, h.shown⟩ h.worker
  | clock now =>
    cases hs
    exact ⟨⟨h.dirty, h.sent, h.last, h.shown⟩, h.worker, h.seen⟩
  | select name =>
    cases hs
    exact loadExample_inv _ ⟨⟨h.dirty, h.sent, h.last, h.shown⟩, h.worker, h.seen⟩
  | reset =>
    cases hs
    exact loadExample_inv _ ⟨⟨h.dirty, h.sent, h.last, h.shown⟩, h.worker, h.seen⟩
  | fetched i text =>
    simp only [step] at hs
    split at hs
    · cases hs
      exact finishLoad_inv _ _ ⟨⟨h.dirty, h.sent, h.last, h.shown⟩, h.worker, h.seen⟩
    · cases hs
  | failed i =>
    simp only [step] at hs
    split at hs
    · cases hs
      exact ⟨⟨h.dirty, h.sent, h.last, h.shown⟩, h.worker, h.seen⟩
    · cases hs

theorem steps_inv {ok : State → Event → Prop} (h : Steps env ok s t) (hs : Inv env s) : Inv env t := by
  induction h with
  | refl => exact hs
  | tail _ _ e ih => exact step_inv ih e

theorem reachable_inv (h : Reachable env s) : Inv env s := by
  obtain ⟨name, examples, storage, now, h⟩ := h
  exact steps_inv h (init_inv _ _ _ _)

/-! ## Coming to rest -/

/-- What is left to do. -/
def measure (s : State) : Nat :=
  2 * s.requests.length + (if s.lastInput = some s.editor then 0 else 2) + s.timers + (if s.inputEvent then 1 else 0)

theorem update_measure (s : State) : measure (update s) ≤ measure s := by
  rcases update_cases s with ⟨_, e⟩ | ⟨_, _, _, e⟩ | ⟨hd, _, _, e⟩
  · rw [e]; exact Nat.le_refl _
  · rw [e]; exact Nat.le_refl _
  · rw [e]
    rcases send_cases s with ⟨_, e⟩ | ⟨h, st, sr, e, _⟩ <;> rw [e]
    · exact Nat.le_refl _
    · simp only [measure, List.length_append, List.length_cons, List.length_nil, if_true, h, if_false]
      omega

theorem internal_measure {e : Event} (hi : Internal e) (hs : step env s e = some t) : measure t < measure s := by
  cases hi with
  | input =>
    simp only [step] at hs
    split at hs
    · next h =>
      cases hs
      refine Nat.lt_of_le_of_lt (update_measure _) ?_
      simp [measure, h]
    · cases hs
  | respond =>
    simp only [step] at hs
    split at hs
    · next text rest hr =>
      cases hs
      obtain ⟨anns, e⟩ := onmessage_eq env (env.conv text) { s with requests := rest }
      rw [e]
      simp only [measure, hr, List.length_cons]
      have : (if s.dirty = true then s.timers + 1 else s.timers) ≤ s.timers + 1 := by split <;> omega
      omega
    · cases hs
  | timeout =>
    simp only [step] at hs
    split at hs
    · cases hs
    · next h =>
      cases hs
      refine Nat.lt_of_le_of_lt (update_measure _) ?_
      simp only [measure]
      omega

theorem quiet_measure {n : Nat} (h : Quiet env s n t) : measure t + n ≤ measure s := by
  induction h with
  | refl => exact Nat.le_refl _
  | tail _ hi hs ih => have := internal_measure hi hs; omega
  | clock now _ ih => exact ih

/-! ## What is stored -/

/-- What `update` does to the stored texts and the stars. -/
theorem update_storage (s : State) : ((update s).storage = s.storage ∧ (update s).star = s.star ∧
      ((update s).lastInput = s.lastInput ∨ s.isLoadingExample = true)) ∨
    (s.isLoadingExample = false ∧ (update s).storage = put s.storage s.exampleName (some s.editor) ∧
      (update s).lastInput = some s.editor ∧
      (update s).star = match s.star s.exampleName with
        | some _ => put s.star s.exampleName (some true)
        | none => s.star) := by
  rcases update_cases s with ⟨_, e⟩ | ⟨_, _, _, e⟩ | ⟨hd, _, _, e⟩
  · rw [e]; exact .inl ⟨rfl, rfl, .inl rfl⟩
  · rw [e]; exact .inl ⟨rfl, rfl, .inl rfl⟩
  · rw [e]
    rcases send_cases s with ⟨_, e⟩ | ⟨_, st, sr, e, ⟨h1, h2, h3⟩ | ⟨h1, h2, h3⟩⟩ <;> rw [e]
    · exact .inl ⟨rfl, rfl, .inl rfl⟩
    · exact .inl ⟨h3, h2, .inr h1⟩
    · exact .inr ⟨h1, h2, rfl, h3⟩

/-- The stars mark the examples with a stored text. -/
def Starred (s : State) : Prop := ∀ n b, s.star n = some b → b = (s.storage n).isSome

theorem update_starred (h : Starred s) : Starred (update s) := by
  rcases update_storage s with ⟨h1, h2, _⟩ | ⟨_, h1, _, h2⟩
  · intro n b hb
    rw [h1]; rw [h2] at hb
    exact h n b hb
  · intro n b hb
    rw [h1]; rw [h2] at hb
    by_cases hn : n = s.exampleName
    · subst hn
      cases hc : s.star s.exampleName with
      | none => rw [hc] at hb; simp only at hb; rw [hc] at hb; cases hb
      | some c => rw [hc] at hb; simp [put] at hb ⊢; exact hb
    · have : s.star n = some b := by
        cases hc : s.star s.exampleName with
        | none => rw [hc] at hb; exact hb
        | some c => rw [hc] at hb; simpa [put, hn] using hb
      simp only [put, hn, if_false]
      exact h n b this

theorem loadExample_storage (name : Str) (s : State) : (loadExample name s).storage = s.storage ∧
    (loadExample name s).star = s.star ∧ (loadExample name s).isLoadingExample = true ∧ (loadExample name s).url = name ∧
    (loadExample name s).selected = s.selected ∧ (loadExample name s).worker = s.worker := by
  unfold loadExample
  simp only
  split
  · next text _ =>
    unfold finishLoad
    obtain ⟨f1, f2, f3, f4, f5, f6, f7, f8, f9⟩ := update_frame
      { s with url := name, isLoadingExample := true, annotations := [], exampleName := name, editor := text, inputEvent := true }
    rcases update_storage { s with url := name, isLoadingExample := true, annotations := [], exampleName := name, editor := text, inputEvent := true }
      with ⟨h1, h2, _⟩ | ⟨h, _⟩
    · exact ⟨h1, h2, f4, f6, f7, f3⟩
    · simp at h
  · exact ⟨rfl, rfl, rfl, rfl, rfl, rfl⟩

theorem step_starred {e : Event} (h : Starred s) (hs : step env s e = some t) : Starred t := by
  cases e with
  | edit text => cases hs; exact h
  | input =>
    simp only [step] at hs
    split at hs
    · cases hs; exact update_starred h
    · cases hs
  | respond =>
    simp only [step] at hs
    split at hs
    · next text rest hr =>
      cases hs
      obtain ⟨anns, e⟩ := onmessage_eq env (env.conv text) { s with requests := rest }
      rw [e]
      exact h
    · cases hs
  | timeout =>
    simp only [step] at hs
    split at hs
    · cases hs
    · cases hs
      exact update_starred h
  | clock now => cases hs; exact h
  | select name =>
    cases hs
    obtain ⟨h1, h2, _⟩ := loadExample_storage name { s with selected := name }
    intro n b hb
    rw [onExampleSelect] at hb ⊢
    rw [h1]; rw [h2] at hb
    exact h n b hb
  | reset =>
    cases hs
    intro n b hb
    simp only [onResetClick] at hb ⊢
    obtain ⟨h1, h2, _⟩ := loadExample_storage (clearModified { s with isLoadingExample := true }).exampleName
      (clearModified { s with isLoadingExample := true })
    rw [h1]; rw [h2] at hb
    simp only [clearModified] at hb ⊢
    by_cases hn : n = s.exampleName
    · subst hn
      cases hc : s.star s.exampleName with
      | none => rw [hc] at hb; simp only at hb; rw [hc] at hb; cases hb
      | some c => rw [hc] at hb; simp [put] at hb ⊢; exact hb
    · have : s.star n = some b := by
        cases hc : s.star s.exampleName with
        | none => rw [hc] at hb; exact hb
        | some c => rw [hc] at hb; simpa [put, hn] using hb
      simp only [put, hn, if_false]
      exact h n b this
  | fetched i text =>
    simp only [step] at hs
    split at hs
    · cases hs; exact update_starred h
    · cases hs
  | failed i =>
    simp only [step] at hs
    split at hs
    · cases hs; exact h
    · cases hs

theorem init_storage (examples : List Str) (name : Str) (storage : Str → Option Str) (now : Int) :
    (init examples (new name storage now)).storage = storage := by
  unfold init
  simp only
  obtain ⟨h1, h2, h3, h4, h5, h6⟩ := loadExample_storage name (new name storage now)
  rcases update_storage { (updateExampleNames examples (loadExample name (new name storage now))) with worker := true } with ⟨h, _⟩ | ⟨h, _⟩
  · exact h.trans h1
  · exact absurd (h.symm.trans h3) (by simp)

theorem init_starred (examples : List Str) (name : Str) (storage : Str → Option Str) (now : Int) :
    Starred (init examples (new name storage now)) := by
  refine update_starred ?_
  obtain ⟨h1, h2, h3, h4, h5, h6⟩ := loadExample_storage name (new name storage now)
  intro n b hb
  simp only [updateExampleNames] at hb ⊢
  split at hb
  · exact (Option.some.inj hb).symm
  · have h2' : (loadExample (new name storage now).exampleName (new name storage now)).star n = none := by
      show (loadExample name (new name storage now)).star n = none
      rw [h2]; rfl
    rw [h2'] at hb
    cases hb

/-- How one event changes the stored texts. -/
theorem step_storage {e : Event} (hs : step env s e = some t) (n : Str) : t.storage n = s.storage n ∨
    (t.storage n = some t.editor ∧ t.exampleName = n ∧ s.isLoadingExample = false ∧ ∀ m, e ≠ .select m) ∨
    (e = .reset ∧ s.exampleName = n ∧ t.storage n = none) := by
  have upd : ∀ u : State, t = update u → u.storage = s.storage → u.isLoadingExample = s.isLoadingExample → (∀ m, e ≠ .select m) →
      t.storage n = s.storage n ∨
      (t.storage n = some t.editor ∧ t.exampleName = n ∧ s.isLoadingExample = false ∧ ∀ m, e ≠ .select m) ∨
      (e = .reset ∧ s.exampleName = n ∧ t.storage n = none) := by
    intro u hu hst hl hm
    obtain ⟨f1, f2, f3, f4, f5, _⟩ := update_frame u
    rw [hu, f1, f5]
    rcases update_storage u with ⟨h, _⟩ | ⟨hl', h, _⟩
    · rw [h, hst]; exact .inl rfl
    · rw [h]
      by_cases hn : n = u.exampleName
      · subst hn
        exact .inr (.inl ⟨by simp [put], rfl, hl ▸ hl', hm⟩)
      · refine .inl ?_
        simp only [put, hn, if_false, hst]
  cases e with
  | edit text => cases hs; exact .inl rfl
  | input =>
    simp only [step] at hs
    split at hs
    · cases hs; exact upd _ rfl rfl rfl (by simp)
    · cases hs
  | respond =>
    simp only [step] at hs
    split at hs
    · next text rest hr =>
      cases hs
      obtain ⟨anns, e⟩ := onmessage_eq env (env.conv text) { s with requests := rest }
      rw [e]
      exact .inl rfl
    · cases hs
  | timeout =>
    simp only [step] at hs
    split at hs
    · cases hs
    · cases hs; exact upd _ rfl rfl rfl (by simp)
  | clock now => cases hs; exact .inl rfl
  | select name =>
    cases hs
    obtain ⟨h1, h2, _⟩ := loadExample_storage name { s with selected := name }
    exact .inl (by rw [onExampleSelect, h1])
  | reset =>
    cases hs
    obtain ⟨h1, h2, _⟩ := loadExample_storage (clearModified { s with isLoadingExample := true }).exampleName
      (clearModified { s with isLoadingExample := true })
    by_cases hn : n = s.exampleName
    · subst hn
      refine .inr (.inr ⟨rfl, rfl, ?_⟩)
      rw [onResetClick, h1]
      simp [clearModified, put]
    · refine .inl ?_
      rw [onResetClick, h1]
      simp [clearModified, put, hn]
  | fetched i text =>
    simp only [step] at hs
    split at hs
    · cases hs; exact upd _ rfl rfl rfl (by simp)
    · cases hs
  | failed i =>
    simp only [step] at hs
    split at hs
    · cases hs; exact .inl rfl
    · cases hs

/-- While the user writes. -/
structure Wrote (s t : State) : Prop where
  notLoading : t.isLoadingExample = false
  name : t.exampleName = s.exampleName
  others : ∀ n, n ≠ s.exampleName → t.storage n = s.storage n
  stored : t.storage s.exampleName = t.lastInput ∨ (t.lastInput = s.lastInput ∧ t.storage = s.storage)

theorem update_wrote (h : Wrote s t) : Wrote s (update t) := by
  obtain ⟨f1, f2, f3, f4, f5, _⟩ := update_frame t
  rcases update_storage t with ⟨h1, _, h2 | h2⟩ | ⟨_, h1, h2, _⟩
  · exact ⟨f4.trans h.notLoading, f5.trans h.name, by rw [h1]; exact h.others, by rw [h1, h2]; exact h.stored⟩
  · rw [h.notLoading] at h2; cases h2
  · refine ⟨f4.trans h.notLoading, f5.trans h.name, fun n hn => ?_, .inl ?_⟩
    · rw [h1]
      simp only [put, h.name, hn, if_false]
      exact h.others n hn
    · rw [h1, h2]
      simp [put, h.name]

theorem step_wrote {e : Event} (hw : Writing e) (h : Wrote s t) (hs : step env t e = some u) : Wrote s u := by
  cases hw with
  | edit text => cases hs; exact ⟨h.notLoading, h.name, h.others, h.stored⟩
  | input =>
    simp only [step] at hs
    split at hs
    · cases hs; exact update_wrote ⟨h.notLoading, h.name, h.others, h.stored⟩
    · cases hs
  | respond =>
    simp only [step] at hs
    split at hs
    · next text rest hr =>
      cases hs
      obtain ⟨anns, e⟩ := onmessage_eq env (env.conv text) { t with requests := rest }
      rw [e]
      refine ⟨?_, h.name, h.others, h.stored⟩
      have := h.notLoading
      simp only [this, ite_self]
    · cases hs
  | timeout =>
    simp only [step] at hs
    split at hs
    · cases hs
    · cases hs; exact update_wrote ⟨h.notLoading, h.name, h.others, h.stored⟩
  | clock now => cases hs; exact ⟨h.notLoading, h.name, h.others, h.stored⟩

theorem settled_seen (h : Inv env s) (hs : Settled s) : s.dirty = false ∧ s.lastInput = some s.editor := by
  have hd : s.dirty = false := by
    cases hd : s.dirty with
    | false => rfl
    | true =>
      rcases h.dirty hd with h | h
      · exact absurd hs.answered h
      · exact absurd hs.timers h
  refine ⟨hd, ?_⟩
  rcases h.seen with h | h | h
  · exact h
  · rw [hd] at h; cases h
  · rw [hs.reported] at h; cases h

/-- The events as far as the conversions are concerned. -/
theorem step_core {e : Event} (hs : step env s e = some t) :
    (∃ u, t = update u ∧ u.requests = s.requests ∧ u.sent = s.sent ∧ u.now = s.now ∧ u.lastInput = s.lastInput ∧
      u.markers = s.markers ∧ (NoLoading s e → u.annotations = s.annotations)) ∨
    (∃ text rest, e = .respond ∧ s.requests = text :: rest ∧ t = onmessage env (env.conv text) { s with requests := rest }) ∨
    (t.requests = s.requests ∧ t.sent = s.sent ∧ t.lastInput = s.lastInput ∧ t.markers = s.markers ∧
      (NoLoading s e → t.annotations = s.annotations)) := by
  cases e with
  | edit text => cases hs; exact .inr (.inr ⟨rfl, rfl, rfl, rfl, fun _ => rfl⟩)
  | input =>
    simp only [step] at hs
    split at hs
    · cases hs; exact .inl ⟨_, rfl, rfl, rfl, rfl, rfl, rfl, fun _ => rfl⟩
    · cases hs
  | respond =>
    simp only [step] at hs
    split at hs
    · next text rest hr => cases hs; exact .inr (.inl ⟨_, _, rfl, hr, rfl⟩)
    · cases hs
  | timeout =>
    simp only [step] at hs
    split at hs
    · cases hs
    · cases hs; exact .inl ⟨_, rfl, rfl, rfl, rfl, rfl, rfl, fun _ => rfl⟩
  | clock now => cases hs; exact .inr (.inr ⟨rfl, rfl, rfl, rfl, fun _ => rfl⟩)
  | select name =>
    cases hs
    unfold onExampleSelect loadExample
    simp only
    split
    · exact .inl ⟨_, rfl, rfl, rfl, rfl, rfl, rfl, fun h => absurd rfl (h.1 name)⟩
    · exact .inr (.inr ⟨rfl, rfl, rfl, rfl, fun h => absurd rfl (h.1 name)⟩)
  | reset =>
    cases hs
    unfold onResetClick loadExample
    simp only
    split
    · exact .inl ⟨_, rfl, rfl, rfl, rfl, rfl, rfl, fun h => absurd rfl h.2⟩
    · exact .inr (.inr ⟨rfl, rfl, rfl, rfl, fun h => absurd rfl h.2⟩)
  | fetched i text =>
    simp only [step] at hs
    split at hs
    · cases hs; exact .inl ⟨_, rfl, rfl, rfl, rfl, rfl, rfl, fun _ => rfl⟩
    · cases hs
  | failed i =>
    simp only [step] at hs
    split at hs
    · cases hs; exact .inr (.inr ⟨rfl, rfl, rfl, rfl, fun _ => rfl⟩)
    · cases hs

/-- If nothing is with the worker after `update`, nothing was before, and nothing was sent. -/
theorem update_idle (h : (update s).requests = []) : s.requests = [] ∧ (update s).lastInput = s.lastInput := by
  rcases update_cases s with ⟨_, e⟩ | ⟨_, _, _, e⟩ | ⟨_, _, _, e⟩
  · rw [e] at h ⊢; exact ⟨h, rfl⟩
  · rw [e] at h ⊢; exact ⟨h, rfl⟩
  · rw [e] at h ⊢
    rcases send_cases s with ⟨_, e⟩ | ⟨_, st, sr, e, _⟩ <;> rw [e] at h ⊢
    · exact ⟨h, rfl⟩
    · simp at h

/-- The first text is sent at once. -/
theorem init_sends (examples : List Str) (name : Str) (storage : Str → Option Str) (now : Int) :
    (init examples (new name storage now)).requests ≠ [] := by
  have hl : (loadExample name (new name storage now)).lastInput = none ∧ (loadExample name (new name storage now)).sent = none ∧
      (loadExample name (new name storage now)).dirty = false := by
    unfold loadExample
    simp only
    split
    · unfold finishLoad
      rcases update_cases { new name storage now with
        url := name, isLoadingExample := true, annotations := [], exampleName := name, editor := _, inputEvent := true }
        with ⟨_, e⟩ | ⟨_, h, _⟩ | ⟨_, h, _⟩
      · rw [e]; exact ⟨rfl, rfl, rfl⟩
      · cases h
      · cases h
    · exact ⟨rfl, rfl, rfl⟩
  intro h
  unfold init at h
  obtain ⟨_, h2⟩ := update_idle h
  rcases update_seen (s := { updateExampleNames examples (loadExample (new name storage now).exampleName (new name storage now)) with worker := true })
    rfl with h3 | h3
  · rw [h2] at h3
    have : (loadExample name (new name storage now)).lastInput = some _ := h3
    rw [hl.1] at this
    cases this
  · rcases update_cases { updateExampleNames examples (loadExample (new name storage now).exampleName (new name storage now)) with worker := true }
      with ⟨h4 | h4, _⟩ | ⟨_, _, ⟨t, h4, _⟩, _⟩ | ⟨h4, _, _, e⟩
    · have : (loadExample name (new name storage now)).dirty = true := h4
      rw [hl.2.2] at this; cases this
    · cases h4
    · have : (loadExample name (new name storage now)).sent = some t := h4
      rw [hl.2.1] at this; cases this
    · rw [e] at h3
      rcases send_cases { updateExampleNames examples (loadExample (new name storage now).exampleName (new name storage now)) with worker := true }
        with ⟨_, e⟩ | ⟨_, st, sr, e, _⟩ <;> rw [e] at h3 <;> exact absurd (h4.symm.trans h3) (by simp)

/-- The notes after an answer. -/
theorem onmessage_notes (env : Env) (r : Js.Result) (s : State) : (onmessage env r s).annotations =
    match r.error with
    | some e => (syntaxErrors e).map (annotation (env.place s.editor))
    | none => if r.output = none then s.annotations else [] := by
  obtain ⟨ok, o, e⟩ := r
  unfold onmessage
  cases o <;> cases hd : s.dirty <;> cases e <;> simp [showOutput, showErrors, hd]

/-! ## Sequences of events -/

/-- The state after a sequence of events. -/
def run (env : Env) (s : State) : List Event → Option State
  | [] => some s
  | e :: es => match step env s e with
    | some t => run env t es
    | none => none

theorem Steps.head {ok : State → Event → Prop} {e : Event} (h1 : ok s e) (h2 : step env s e = some t) (h : Steps env ok t u) :
    Steps env ok s u := by
  induction h with
  | refl => exact .tail (.refl _) h1 h2
  | tail _ h3 h4 ih => exact .tail ih h3 h4

theorem Steps.trans {ok : State → Event → Prop} (h1 : Steps env ok s t) (h : Steps env ok t u) : Steps env ok s u := by
  induction h with
  | refl => exact h1
  | tail _ h3 h4 ih => exact .tail ih h3 h4

theorem run_steps {ok : State → Event → Prop} {es : List Event} (hok : ∀ e ∈ es, ∀ u, ok u e) (h : run env s es = some t) :
    Steps env ok s t := by
  induction es generalizing s with
  | nil => cases h; exact .refl _
  | cons e es ih =>
    simp only [run] at h
    split at h
    · next u hu => exact Steps.head (hok e (by simp) s) hu (ih (fun x hx => hok x (by simp [hx])) h)
    · cases h

end Mty.Demo
