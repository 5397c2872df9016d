import Verif.Proofs.Demo
import Verif.Props.JsClass
import Verif.Props.RefParser

/-! # C62 to C66: the demonstration page -/

set_option autoImplicit false

namespace Mty
open Demo Demo.Spec

/-! ## C62: the output is that of the text in the editor -/

/-- **C62.** Whatever the user does, whatever the order of the answers, timers and downloads and whatever the clock
shows: once the page has come to rest, the output pane holds the conversion of the text in the editor (if the conversion
has an output), and there is one mark for every error of that text. -/
theorem C62_settled {env : Env} {s : State} (h : Reachable env s) (hs : Settled s) :
    (∀ o, (env.conv s.editor).output = some o → s.output = o) ∧
    ∃ doc, s.markers = errorPlaces env doc (env.conv s.editor) :=
  (reachable_inv h).shown hs.answered _ (settled_seen (reachable_inv h) hs).2

/-- **C62.** The page comes to rest by itself: as long as it has not, an internal event is possible, and only a bounded
number of them can happen, however much time passes in between. -/
theorem C62_settles {env : Env} {s : State} (h : Reachable env s) :
    (∀ n t, Quiet env s n t → n ≤ 2 * s.requests.length + s.timers + 3) ∧
    (∀ n t, Quiet env s n t → ¬ Settled t → ∃ e u, Internal e ∧ step env t e = some u) := by
  refine ⟨fun n t hq => ?_, fun n t hq hn => ?_⟩
  · have h1 := quiet_measure hq
    have h2 : Demo.measure s ≤ 2 * s.requests.length + s.timers + 3 := by
      unfold Demo.measure
      have : (if s.lastInput = some s.editor then 0 else 2) ≤ 2 := by split <;> omega
      have : (if s.inputEvent = true then 1 else 0) ≤ 1 := by split <;> omega
      omega
    omega
  · by_cases h1 : t.requests = []
    · by_cases h2 : t.timers = 0
      · cases h3 : t.inputEvent with
        | false => exact absurd ⟨h1, h2, h3⟩ hn
        | true => exact ⟨.input, _, .input, by simp only [step, h3, if_true]; rfl⟩
      · exact ⟨.timeout, _, .timeout, by simp only [step, h2, if_false]; rfl⟩
    · cases h3 : t.requests with
      | nil => exact absurd h3 h1
      | cons a b => exact ⟨.respond, _, .respond, by simp only [step, h3]; rfl⟩

/-- The configuration of the demonstration page: two spaces of indentation, and a complete page. -/
def demoConfig : OutputConfig := { indent := some "  ".toList, completePage := some true }

theorem workerConv_eq (parse : Parser) (debug : Str → Str) (src : Str) : workerConv parse debug src =
    match convertForgiving parse src demoConfig with
    | .ok out => ⟨true, some out, none⟩
    | .error (out, e) => ⟨false, out, some (Js.toError (Wasm.toJsError debug e))⟩ := by
  have hc : Wasm.configOf none 2 (some true) .null .null none = .ok demoConfig := rfl
  show Js.Converter.convertForgiving _ parse debug src = _
  simp only [Js.Converter.convertForgiving, Wasm.convert, Wasm.convertInner, Js.Converter.new, Option.getD, Js.orNull, hc]
  cases convertForgiving parse src demoConfig with
  | ok out => rfl
  | error e => obtain ⟨p, e⟩ := e; rfl

/-- **C62.** Once the page has come to rest, the output pane holds what the conversion of the text in the editor gives,
with two spaces of indentation and as a complete page, and no error is marked; if the conversion fails with syntax errors, these
are marked. -/
theorem C62_converted {parse : Parser} {debug : Str → Str} {place : Str → Nat → Nat × Nat} {s : State}
    (h : Reachable ⟨workerConv parse debug, place⟩ s) (hs : Settled s) :
    (∀ out, convert parse s.editor demoConfig = .ok out → s.output = out ∧ s.markers = []) ∧
    (∀ errors src, convert parse s.editor demoConfig = .error (.syntax errors src) →
      ∃ doc, s.markers = errors.map fun e => (place doc e.range.start, place doc e.range.stop)) := by
  obtain ⟨h1, doc, h2⟩ := C62_settled h hs
  have hw := workerConv_eq parse debug s.editor
  refine ⟨fun out ho => ?_, fun errors src he => ?_⟩
  · have hf := ((C07_convert_forgiving parse s.editor demoConfig).1 out).mp ho
    rw [hf] at hw
    simp only [hw] at h1 h2
    exact ⟨h1 _ rfl, h2⟩
  · obtain ⟨p, hf⟩ := ((C07_convert_forgiving parse s.editor demoConfig).2 _).mp he
    rw [hf] at hw
    simp only [hw] at h2
    refine ⟨doc, ?_⟩
    rw [h2]
    simp only [errorPlaces, Wasm.toJsError, Js.toError, List.map_map]
    rfl

/-- Rows and columns as an editor counts them, for ASCII text. -/
def Demo.exPlace (doc : Str) (n : Nat) : Nat × Nat :=
  ((doc.take n).filter (· == '\n') |>.length, (doc.take n).reverse.takeWhile (· != '\n') |>.length)

/-- The page with the reference parser: an example is opened, the empty text is converted, the example arrives, and the
user changes it twice while the worker is busy. -/
def Demo.exEnv : Env := ⟨workerConv RepoTests.parser id, exPlace⟩

/-- The events of the example. -/
def Demo.exEvents : List Event :=
  [.respond, .fetched 0 "a".toList, .clock 10, .input, .edit "ab".toList, .input, .edit "p>".toList, .respond, .clock 200,
    .timeout, .input, .respond, .timeout]

/-- The page of the example. -/
def Demo.exPage : State := init ["x".toList, "y".toList] (new "x".toList (fun _ => none) 0)

set_option maxRecDepth 20000 in
example : ∃ s, run exEnv exPage exEvents = some s ∧ Reachable exEnv s ∧ Settled s ∧ s.editor = "p>".toList ∧
    s.output ≠ [] ∧ s.storage "x".toList = some "p>".toList := by
  have h : ((run exEnv exPage exEvents).map fun s => (decide (s.requests = [] ∧ s.timers = 0 ∧ s.inputEvent = false ∧
    s.editor = "p>".toList ∧ s.output ≠ [] ∧ s.storage "x".toList = some "p>".toList))) = some true := by decide +kernel
  obtain ⟨s, h1, h2⟩ := Option.map_eq_some_iff.mp h
  obtain ⟨a, b, c, d, e, f⟩ := of_decide_eq_true h2
  exact ⟨s, h1, ⟨_, _, _, _, run_steps (fun _ _ _ => trivial) h1⟩, ⟨a, b, c⟩, d, e, f⟩

/-! ## C63: what is stored -/

/-- **C63.** An example has a star in the selection box exactly if a text is stored for it. -/
theorem C63_star {env : Env} {s : State} (h : Reachable env s) (n : Str) (b : Bool) (hb : s.star n = some b) :
    b = true ↔ ∃ text, s.storage n = some text := by
  obtain ⟨name, examples, storage, now, h⟩ := h
  have hst : Starred s := by
    clear hb
    induction h with
    | refl => exact init_starred _ _ _ _
    | tail _ _ e ih => exact step_starred ih e
  rw [hst n b hb, Option.isSome_iff_exists]

/-- **C63.** A text is stored for an example only if it was stored before the page was opened, or was in the editor
while that example was the current one. -/
theorem C63_own {env : Env} {examples : List Str} {name : Str} {storage : Str → Option Str} {now : Int} {s : State}
    (h : Steps env Any (init examples (new name storage now)) s) (n text : Str) (hs : s.storage n = some text) :
    storage n = some text ∨
    ∃ t, Steps env Any (init examples (new name storage now)) t ∧ Steps env Any t s ∧ t.exampleName = n ∧ t.editor = text := by
  induction h with
  | refl => rw [init_storage] at hs; exact .inl hs
  | @tail t u e h1 h2 h3 ih =>
    have all := Steps.tail h1 h2 h3
    rcases step_storage h3 n with e | ⟨e, hn, _⟩ | ⟨_, _, e⟩
    · rw [e] at hs
      rcases ih hs with h | ⟨v, h4, h5, h6⟩
      · exact .inl h
      · exact .inr ⟨v, h4, .tail h5 h2 h3, h6⟩
    · rw [e] at hs
      exact .inr ⟨u, all, .refl _, hn, Option.some.inj hs⟩
    · rw [e] at hs; cases hs

/-- **C63.** A stored text disappears only when the example is reset while it is the current one. -/
theorem C63_kept {env : Env} {s t : State} {e : Event} (h : step env s e = some t) (n : Str) (h1 : s.storage n ≠ none)
    (h2 : t.storage n = none) : e = .reset ∧ s.exampleName = n := by
  rcases step_storage h n with e | ⟨e, _⟩ | ⟨e, hn, _⟩
  · rw [e] at h2; exact absurd h2 h1
  · rw [h2] at e; cases e
  · exact ⟨e, hn⟩

/-- **C63, the part that holds.** If the page has come to rest and has finished loading the example, and from then on
the user only writes, then as soon as the page has come to rest again the text in the editor is the one stored for the example
(or the text is the same as before and nothing has been stored); nothing stored for other examples changes. -/
theorem C63_stored_partial {env : Env} {s t : State} (h : Reachable env s) (hs : Settled s) (hl : s.isLoadingExample = false)
    (hw : Steps env (fun _ e => Writing e) s t) (ht : Settled t) :
    t.exampleName = s.exampleName ∧ (∀ n, n ≠ s.exampleName → t.storage n = s.storage n) ∧
    (t.storage s.exampleName = some t.editor ∨ (t.editor = s.editor ∧ t.storage = s.storage)) := by
  have hinv := reachable_inv h
  have hls := (settled_seen hinv hs).2
  have hlt := (settled_seen (steps_inv hw hinv) ht).2
  have wrote : Wrote s t := by
    clear ht hlt
    induction hw with
    | refl => exact ⟨hl, rfl, fun _ _ => rfl, .inr ⟨rfl, rfl⟩⟩
    | tail _ hw' e ih => exact step_wrote hw' ih e
  refine ⟨wrote.name, wrote.others, ?_⟩
  rcases wrote.stored with h | ⟨h1, h2⟩
  · exact .inl (h.trans hlt)
  · rw [hlt, hls] at h1
    exact .inr ⟨Option.some.inj h1, h2⟩

/-- **C63.** A stored text is shown again when its example is chosen again, whatever has been done with other examples
in between. -/
theorem C63_returns {env : Env} {s t u : State} {n text : Str} (hs : s.storage n = some text) (h : Steps env (Away env n) s t)
    (hu : step env t (.select n) = some u) : u.editor = text ∧ u.exampleName = n ∧ u.storage n = some text := by
  have ht : t.storage n = some text := by
    clear hu
    induction h with
    | refl => exact hs
    | @tail t u e _ ok he ih =>
      rcases step_storage he n with h | ⟨_, h1, _, h2⟩ | ⟨h1, h2, h3⟩
      · rw [h, ih]
      · rcases ok with ⟨m, hm⟩ | ok
        · exact absurd hm (h2 m)
        · exact absurd h1 (ok _ he)
      · rcases ok with ⟨m, hm⟩ | ok
        · rw [hm] at h1; cases h1
        · refine absurd ?_ (ok _ he)
          subst h1
          cases he
          simp only [onResetClick, loadExample]
          have : (clearModified { t with isLoadingExample := true }).storage (clearModified { t with isLoadingExample := true }).exampleName = none := by
            simp [clearModified, put]
          rw [this]
          exact h2
  cases hu
  obtain ⟨h1, _⟩ := loadExample_storage n { t with selected := n }
  refine ⟨?_, ?_, ?_⟩
  · simp only [onExampleSelect, loadExample, ht, finishLoad]
    exact (update_frame _).1
  · simp only [onExampleSelect, loadExample, ht, finishLoad]
    exact (update_frame _).2.2.2.2.1
  · rw [onExampleSelect, h1, ht]

/-- An example for the theorems: the page comes to rest with the example loaded; the user writes; it comes to rest
again; the user chooses the other example and then the first again. -/
def Demo.exFirst : List Event := [.respond, .fetched 0 "a".toList, .respond, .input]

/-- What the user does next. -/
def Demo.exWrite : List Event := [.edit "ab".toList, .input, .edit "abc".toList, .input, .respond, .timeout, .respond]

/-- The other example. -/
def Demo.exOther : List Event := [.select "y".toList, .fetched 0 "other".toList, .input, .respond, .timeout]

/-- A property of the state after a sequence of events, by computation. -/
def Demo.After (env : Env) (s : State) (es : List Event) (p : State → Bool) : Bool :=
  match run env s es with
  | some t => p t
  | none => false

theorem Demo.after_run {env : Env} {s : State} {es : List Event} {p : State → Bool} (h : After env s es p = true) :
    ∃ t, run env s es = some t ∧ p t = true := by
  unfold After at h
  split at h
  · next t ht => exact ⟨t, ht, h⟩
  · cases h

/-- The same, if every event is allowed. -/
def Demo.AfterIf (env : Env) (ok : State → Event → Bool) (s : State) : List Event → (State → Bool) → Bool
  | [], p => p s
  | e :: es, p => ok s e && match step env s e with
    | some t => AfterIf env ok t es p
    | none => false

theorem Demo.afterIf_steps {env : Env} {okb : State → Event → Bool} {ok : State → Event → Prop} (hok : ∀ s e, okb s e = true → ok s e)
    {s : State} {es : List Event} {p : State → Bool} (h : AfterIf env okb s es p = true) : ∃ t, Steps env ok s t ∧ p t = true := by
  induction es generalizing s with
  | nil => exact ⟨s, .refl _, h⟩
  | cons e es ih =>
    simp only [AfterIf, Bool.and_eq_true] at h
    obtain ⟨h1, h2⟩ := h
    split at h2
    · next t ht =>
      obtain ⟨u, hu, hp⟩ := ih h2
      exact ⟨u, Steps.head (hok _ _ h1) ht hu, hp⟩
    · cases h2

/-- Whether nothing more happens by itself. -/
def Demo.settled (s : State) : Bool := s.requests.isEmpty && s.timers == 0 && !s.inputEvent

theorem Demo.settled_spec {s : State} (h : settled s = true) : Settled s := by
  simp only [settled, Bool.and_eq_true, List.isEmpty_iff, beq_iff_eq, Bool.not_eq_true'] at h
  exact ⟨h.1.1, h.1.2, h.2⟩

theorem Demo.exPage_run {es : List Event} {s : State} (h : run exEnv exPage es = some s) : Reachable exEnv s :=
  ⟨_, _, _, _, run_steps (fun _ _ _ => trivial) h⟩

set_option maxRecDepth 20000 in
/-- A case for `C63_stored_partial` and `C63_returns`. -/
example : ∃ s t u v, Reachable exEnv s ∧ Settled s ∧ s.isLoadingExample = false ∧ s.exampleName = "x".toList ∧
    Steps exEnv (fun _ e => Writing e) s t ∧ Settled t ∧ t.editor = "abc".toList ∧ t.storage "x".toList = some "abc".toList ∧
    run exEnv t exOther = some u ∧ Settled u ∧ u.editor = "other".toList ∧ step exEnv u (.select "x".toList) = some v ∧
    v.editor = "abc".toList := by
  have h : After exEnv exPage exFirst (fun s => settled s && !s.isLoadingExample && s.exampleName = "x".toList &&
      After exEnv s exWrite (fun t => settled t && t.editor = "abc".toList && t.storage "x".toList = some "abc".toList &&
        After exEnv t exOther (fun u => settled u && u.editor = "other".toList &&
          After exEnv u [.select "x".toList] (fun v => v.editor = "abc".toList)))) = true := by decide +kernel
  obtain ⟨s, hs, h⟩ := after_run h
  simp only [Bool.and_eq_true, decide_eq_true_eq, Bool.not_eq_true'] at h
  obtain ⟨⟨⟨h1, h2⟩, h3⟩, h⟩ := h
  obtain ⟨t, ht, h⟩ := after_run h
  simp only [Bool.and_eq_true, decide_eq_true_eq] at h
  obtain ⟨⟨⟨h4, h5⟩, h6⟩, h⟩ := h
  obtain ⟨u, hu, h⟩ := after_run h
  simp only [Bool.and_eq_true, decide_eq_true_eq] at h
  obtain ⟨⟨h7, h8⟩, h⟩ := h
  obtain ⟨v, hv, h⟩ := after_run h
  simp only [decide_eq_true_eq] at h
  refine ⟨s, t, u, v, exPage_run hs, settled_spec h1, h2, h3, run_steps ?_ ht, settled_spec h4, h5, h6, hu, settled_spec h7, h8, hv, h⟩
  intro e he
  simp only [exWrite, List.mem_cons, List.mem_nil_iff, or_false] at he
  rcases he with rfl | rfl | rfl | rfl | rfl | rfl | rfl <;> intro _ <;> constructor

set_option maxRecDepth 20000 in
/-- **C63 fails.** The first text written after an example has been loaded is not stored: the editor reports the loaded text
while the worker is still converting it, and then the page goes on believing that it is loading. -/
theorem C63_not_stored : ∃ s t, Reachable exEnv s ∧ Settled s ∧ s.fetches = [] ∧ Steps exEnv (fun _ e => Writing e) s t ∧
    Settled t ∧ t.editor ≠ s.editor ∧ t.exampleName = s.exampleName ∧ t.storage t.exampleName = none := by
  have h : After exEnv exPage (exFirst ++ exOther) (fun s => settled s && s.fetches = [] &&
      After exEnv s [.edit "new".toList, .input, .respond] (fun t => settled t && t.editor ≠ s.editor &&
        t.exampleName = s.exampleName && t.storage t.exampleName = none)) = true := by decide +kernel
  obtain ⟨s, hs, h⟩ := after_run h
  simp only [Bool.and_eq_true, decide_eq_true_eq] at h
  obtain ⟨⟨h1, h2⟩, h⟩ := h
  obtain ⟨t, ht, h⟩ := after_run h
  simp only [Bool.and_eq_true, decide_eq_true_eq] at h
  obtain ⟨⟨⟨h4, h5⟩, h6⟩, h7⟩ := h
  refine ⟨s, t, exPage_run hs, settled_spec h1, h2, run_steps ?_ ht, settled_spec h4, h5, h6, h7⟩
  intro e he
  simp only [List.mem_cons, List.mem_nil_iff, or_false] at he
  rcases he with rfl | rfl | rfl <;> intro _ <;> constructor

set_option maxRecDepth 20000 in
/-- **C63 fails.** What the user writes while the worker is busy is lost when another example is chosen before the
worker has answered: it is not stored, and when the example is chosen again an older text is shown. -/
theorem C63_lost : ∃ s t u, Reachable exEnv s ∧ Settled s ∧ s.isLoadingExample = false ∧
    Steps exEnv (fun _ e => Writing e) s t ∧ t.exampleName = "x".toList ∧ t.editor = "abc".toList ∧
    Steps exEnv (Away exEnv "x".toList) t u ∧ u.exampleName = "x".toList ∧ u.editor = "ab".toList := by
  have h : After exEnv exPage exFirst (fun s => settled s && !s.isLoadingExample &&
      After exEnv s [.edit "ab".toList, .input, .edit "abc".toList, .input] (fun t => t.exampleName = "x".toList &&
        t.editor = "abc".toList &&
        After exEnv t [.select "y".toList, .select "x".toList] (fun u => u.exampleName = "x".toList && u.editor = "ab".toList)))
      = true := by decide +kernel
  obtain ⟨s, hs, h⟩ := after_run h
  simp only [Bool.and_eq_true, Bool.not_eq_true'] at h
  obtain ⟨⟨h1, h2⟩, h⟩ := h
  obtain ⟨t, ht, h⟩ := after_run h
  simp only [Bool.and_eq_true, decide_eq_true_eq] at h
  obtain ⟨⟨h4, h5⟩, h⟩ := h
  obtain ⟨u, hu, h⟩ := after_run h
  simp only [Bool.and_eq_true, decide_eq_true_eq] at h
  refine ⟨s, t, u, exPage_run hs, settled_spec h1, h2, run_steps ?_ ht, h4, h5, run_steps ?_ hu, h.1, h.2⟩
  · intro e he
    simp only [List.mem_cons, List.mem_nil_iff, or_false] at he
    rcases he with rfl | rfl | rfl | rfl <;> intro _ <;> constructor
  · intro e he
    simp only [List.mem_cons, List.mem_nil_iff, or_false] at he
    rcases he with rfl | rfl <;> intro _ <;> exact .inl ⟨_, rfl⟩

set_option maxRecDepth 20000 in
/-- **C63 fails.** An example that the user has not changed is stored as changed when the worker has converted the empty
text before the example arrives. -/
theorem C63_unmodified : ∃ s, Steps exEnv NoEdit exPage s ∧ s.storage "x".toList = some "a".toList ∧
    s.star "x".toList = some true := by
  have h : After exEnv exPage exFirst (fun s => s.storage "x".toList = some "a".toList && s.star "x".toList = some true) = true := by
    decide +kernel
  obtain ⟨s, hs, h⟩ := after_run h
  simp only [Bool.and_eq_true, decide_eq_true_eq] at h
  refine ⟨s, run_steps ?_ hs, h.1, h.2⟩
  intro e he
  simp only [exFirst, List.mem_cons, List.mem_nil_iff, or_false] at he
  rcases he with rfl | rfl | rfl | rfl <;> intro _ _ h <;> cases h

/-! ## C64: the example shown is the one chosen -/

/-- **C64, the part that holds.** If examples are chosen or reset only when no download is pending, and no download fails, then
whenever no download is pending the current example is the one named in the URL and in the selection box. -/
theorem C64_shown_partial {env : Env} {examples : List Str} {name : Str} {storage : Str → Option Str} {now : Int} {s : State}
    (h : Steps env OneDownload (init examples (new name storage now)) s) (hf : s.fetches = []) :
    s.exampleName = s.url ∧ s.exampleName = s.selected := by
  suffices (s.fetches = [] → s.exampleName = s.url) ∧ s.url = s.selected ∧ (s.fetches = [] ∨ s.fetches = [s.url]) by
    exact ⟨this.1 hf, (this.1 hf).trans this.2.1⟩
  clear hf
  have load : ∀ (n : Str) (u : State), u.selected = n → u.fetches = [] →
      ((loadExample n u).fetches = [] → (loadExample n u).exampleName = (loadExample n u).url) ∧
      (loadExample n u).url = (loadExample n u).selected ∧
      ((loadExample n u).fetches = [] ∨ (loadExample n u).fetches = [(loadExample n u).url]) := by
    intro n u hsel hf
    unfold loadExample
    simp only
    split
    · next text _ =>
      unfold finishLoad
      obtain ⟨_, _, _, _, f5, f6, f7, _, f9, _⟩ := update_frame
        { u with url := n, isLoadingExample := true, annotations := [], exampleName := n, editor := text, inputEvent := true }
      rw [f5, f6, f7, f9]
      exact ⟨fun _ => rfl, hsel.symm, .inl hf⟩
    · exact ⟨fun h => by simp at h, hsel.symm, .inr (by simp [hf])⟩
  induction h with
  | refl =>
    obtain ⟨h1, h2, h3⟩ := load name (new name storage now) rfl rfl
    unfold init
    simp only
    obtain ⟨_, _, _, _, f5, f6, f7, _, f9, _⟩ := update_frame
      { updateExampleNames examples (loadExample (new name storage now).exampleName (new name storage now)) with worker := true }
    rw [f5, f6, f7, f9]
    refine ⟨h1, ?_, h3⟩
    show (loadExample name (new name storage now)).url = (loadExample name (new name storage now)).exampleName
    unfold loadExample
    simp only
    split
    · unfold finishLoad
      rw [(update_frame _).2.2.2.2.2.1, (update_frame _).2.2.2.2.1]
    · rfl
  | @tail t u e _ ok he ih =>
    obtain ⟨i1, i2, i3⟩ := ih
    cases e with
    | edit text => cases he; exact ⟨i1, i2, i3⟩
    | input =>
      simp only [step] at he
      split at he
      · cases he
        obtain ⟨_, _, _, _, f5, f6, f7, _, f9, _⟩ := update_frame { t with inputEvent := false }
        rw [f5, f6, f7, f9]
        exact ⟨i1, i2, i3⟩
      · cases he
    | respond =>
      simp only [step] at he
      split at he
      · next text rest hr =>
        cases he
        obtain ⟨anns, e⟩ := onmessage_eq env (env.conv text) { t with requests := rest }
        rw [e]
        exact ⟨i1, i2, i3⟩
      · cases he
    | timeout =>
      simp only [step] at he
      split at he
      · cases he
      · cases he
        obtain ⟨_, _, _, _, f5, f6, f7, _, f9, _⟩ := update_frame { t with timers := t.timers - 1, dirty := false }
        rw [onTimeout, f5, f6, f7, f9]
        exact ⟨i1, i2, i3⟩
    | clock now => cases he; exact ⟨i1, i2, i3⟩
    | select n =>
      cases he
      exact load n { t with selected := n } rfl (ok.1 (.inl ⟨n, rfl⟩))
    | reset =>
      cases he
      have hf := ok.1 (.inr rfl)
      exact load t.exampleName (clearModified { t with isLoadingExample := true }) (i2.symm.trans (i1 hf).symm) hf
    | fetched i text =>
      simp only [step] at he
      split at he
      · next n hn =>
        cases he
        unfold finishLoad
        obtain ⟨_, _, _, _, f5, f6, f7, _, f9, _⟩ := update_frame
          { t with fetches := t.fetches.eraseIdx i, exampleName := n, editor := text, inputEvent := true }
        rw [f5, f6, f7, f9]
        rcases i3 with h | h
        · rw [h] at hn; simp at hn
        · rw [h] at hn ⊢
          cases i with
          | zero =>
            simp only [List.getElem?_cons_zero, Option.some.injEq] at hn
            subst hn
            exact ⟨fun _ => rfl, i2, .inl rfl⟩
          | succ i => simp at hn
      · cases he
    | failed i => exact absurd rfl (ok.2 i)

set_option maxRecDepth 20000 in
/-- A case for `C64_shown_partial`: a stored and a downloaded example are chosen. -/
example : ∃ s, Steps exEnv OneDownload exPage s ∧ s.fetches = [] ∧ s.exampleName = "y".toList := by
  have h : After exEnv exPage [.fetched 0 "a".toList] (fun s => s.fetches = [] && After exEnv s [.select "y".toList, .fetched 0 "b".toList]
      (fun t => t.fetches = [] && t.exampleName = "y".toList)) = true := by decide +kernel
  obtain ⟨s, hs, h⟩ := after_run h
  simp only [Bool.and_eq_true, decide_eq_true_eq] at h
  obtain ⟨h1, h⟩ := h
  obtain ⟨t, ht, h⟩ := after_run h
  simp only [Bool.and_eq_true, decide_eq_true_eq] at h
  refine ⟨t, ?_, h.1, h.2⟩
  refine Steps.trans (run_steps ?_ hs) ?_
  · intro e he
    simp only [List.mem_singleton] at he
    subst he
    intro _
    exact ⟨fun h => (by rcases h with ⟨_, h⟩ | h <;> cases h), by simp⟩
  · simp only [run] at ht
    split at ht
    · next u hu =>
      refine Steps.head ⟨fun _ => h1, by simp⟩ hu ?_
      split at ht
      · next v hv =>
        cases ht
        exact Steps.head ⟨fun h => (by rcases h with ⟨_, h⟩ | h <;> cases h), by simp⟩ hv (.refl _)
      · cases ht
    · cases ht

set_option maxRecDepth 20000 in
/-- **C64 fails.** When another example is chosen before the download of the first has finished, and the downloads
finish in the other order, the example shown is the first one, although the URL and the selection box name the second. -/
theorem C64_wrong_example : ∃ s, Reachable exEnv s ∧ Settled s ∧ s.fetches = [] ∧ s.url = "y".toList ∧
    s.selected = "y".toList ∧ s.exampleName = "x".toList ∧ s.editor = "first".toList := by
  have h : After exEnv exPage [.select "y".toList, .fetched 1 "second".toList, .fetched 0 "first".toList, .input, .respond, .timeout, .respond]
    (fun s => settled s && s.fetches = [] && s.url = "y".toList && s.selected = "y".toList && s.exampleName = "x".toList &&
      s.editor = "first".toList) = true := by decide +kernel
  obtain ⟨s, hs, h⟩ := after_run h
  simp only [Bool.and_eq_true, decide_eq_true_eq] at h
  obtain ⟨⟨⟨⟨⟨h1, h2⟩, h3⟩, h4⟩, h5⟩, h6⟩ := h
  exact ⟨s, exPage_run hs, settled_spec h1, h2, h3, h4, h5, h6⟩

/-! ## C65: one conversion at a time -/

/-- **C65.** As long as the converter answers within three seconds, at most one text is being converted at any time. -/
theorem C65_one {env : Env} {examples : List Str} {name : Str} {storage : Str → Option Str} {now : Int} {s : State}
    (h : Steps env InTime (init examples (new name storage now)) s) : s.requests.length ≤ 1 := by
  have upd : ∀ u : State, (∀ t, u.sent = some t → u.now - t < 3000) → u.requests.length ≤ 1 → (u.requests ≠ [] → u.sent ≠ none) →
      (update u).requests.length ≤ 1 ∧ ((update u).requests ≠ [] → (update u).sent ≠ none) := by
    intro u h1 h2 h3
    rcases update_cases u with ⟨_, e⟩ | ⟨_, _, _, e⟩ | ⟨_, _, h4, e⟩
    · rw [e]; exact ⟨h2, h3⟩
    · rw [e]; exact ⟨h2, h3⟩
    · rw [e]
      have hs : u.sent = none := by
        cases hs : u.sent with
        | none => rfl
        | some t => have := h1 t hs; have := h4 t hs; omega
      have hr : u.requests = [] := Classical.byContradiction fun hr => h3 hr hs
      rcases send_cases u with ⟨_, e⟩ | ⟨_, st, sr, e, _⟩ <;> rw [e]
      · exact ⟨h2, h3⟩
      · exact ⟨by simp [hr], fun _ => by simp⟩
  suffices s.requests.length ≤ 1 ∧ (s.requests ≠ [] → s.sent ≠ none) from this.1
  induction h with
  | refl =>
    have : (loadExample name (new name storage now)).requests = [] ∧ (loadExample name (new name storage now)).sent = none := by
      unfold loadExample
      simp only
      split
      · unfold finishLoad
        rcases update_cases { new name storage now with url := name, isLoadingExample := true, annotations := [], exampleName := name,
                                                        editor := _, inputEvent := true } with ⟨_, e⟩ | ⟨_, h, _⟩ | ⟨_, h, _⟩
        · rw [e]; exact ⟨rfl, rfl⟩
        · cases h
        · cases h
      · exact ⟨rfl, rfl⟩
    refine upd { updateExampleNames examples (loadExample (new name storage now).exampleName (new name storage now)) with worker := true } ?_ ?_ ?_
    · intro t ht
      have ht' : (loadExample name (new name storage now)).sent = some t := ht
      rw [this.2] at ht'
      cases ht'
    · show (loadExample name (new name storage now)).requests.length ≤ 1
      rw [this.1]; exact Nat.zero_le _
    · intro h
      exact absurd this.1 h
  | @tail t u e _ ok he ih =>
    rcases step_core he with ⟨v, h, h1, h2, h3, _⟩ | ⟨text, rest, _, h1, h⟩ | ⟨h1, h2, _⟩
    · rw [h]
      exact upd v (by rw [h2, h3]; exact ok) (by rw [h1]; exact ih.1) (by rw [h1, h2]; exact ih.2)
    · obtain ⟨anns, e⟩ := onmessage_eq env (env.conv text) { t with requests := rest }
      rw [h, e]
      have h4 := ih.1
      rw [h1] at h4
      have : rest = [] := by
        cases rest with
        | nil => rfl
        | cons a b => simp at h4
      subst this
      exact ⟨by simp, by simp⟩
    · rw [h1, h2]; exact ih

set_option maxRecDepth 20000 in
/-- A case for `C65_one`: a text is sent, and then another while the first has not been answered. -/
example : ∃ s, Steps exEnv InTime exPage s ∧ s.requests = ["a".toList] ∧ s.dirty = true := by
  have h : AfterIf exEnv (fun s _ => match s.sent with | some t => decide (s.now - t < 3000) | none => true) exPage
    [.respond, .edit "a".toList, .input, .edit "b".toList, .clock 1000, .input] (fun s => s.requests = ["a".toList] && s.dirty) = true := by
    decide +kernel
  obtain ⟨s, hs, h⟩ := afterIf_steps (ok := InTime) (fun s _ h => by
    intro t ht
    simp only [ht, decide_eq_true_eq] at h
    exact h) h
  simp only [Bool.and_eq_true, decide_eq_true_eq] at h
  exact ⟨s, hs, h.1, h.2⟩

set_option maxRecDepth 20000 in
/-- Without this, more than one text can be with the worker. -/
example : ∃ s, Reachable exEnv s ∧ s.requests.length = 2 := by
  have h : After exEnv exPage [.edit "a".toList, .clock 3000, .input] (fun s => s.requests.length = 2) = true := by decide +kernel
  obtain ⟨s, hs, h⟩ := after_run h
  exact ⟨s, exPage_run hs, of_decide_eq_true h⟩

/-! ## C66: the errors marked are those of the text in the editor, at their places -/

/-- **C66, the part that holds.** If the editor still holds the text when its conversion is answered, then once the page has come to rest
the errors of the text in the editor are marked at their places in it; and if also no example was chosen or reset, the notes
beside the text are those of its errors. -/
theorem C66_marks_partial {env : Env} {examples : List Str} {name : Str} {storage : Str → Option Str} {now : Int} {s : State}
    (h : Steps env Unchanged (init examples (new name storage now)) s) (hs : Settled s) :
    s.markers = errorPlaces env s.editor (env.conv s.editor) := by
  have hinv := steps_inv h (init_inv _ _ _ _)
  have hl := (settled_seen hinv hs).2
  suffices s.requests = [] → ∀ x, s.lastInput = some x → s.markers = errorPlaces env x (env.conv x) from this hs.answered _ hl
  clear hl hs hinv
  induction h with
  | refl => intro h1; exact absurd h1 (init_sends _ _ _ _)
  | @tail t u e hst ok he ih =>
    have hinv := steps_inv hst (init_inv _ _ _ _)
    rcases step_core he with ⟨v, h, h1, h2, h3, h4, h5, _⟩ | ⟨text, rest, e, h1, h⟩ | ⟨h1, h2, h3, h4, _⟩
    · intro hr x hx
      rw [h] at hr hx ⊢
      obtain ⟨hr', hl⟩ := update_idle hr
      rw [(update_frame v).2.2.2.2.2.2.2.2.2.2.2.1, h5]
      exact ih (h1.symm.trans hr') x (by rw [← h4, ← hl]; exact hx)
    · obtain ⟨anns, e'⟩ := onmessage_eq env (env.conv text) { t with requests := rest }
      intro hr x hx
      rw [h, e'] at hr hx ⊢
      simp only at hr hx ⊢
      subst hr
      have hl := hinv.last (by rw [h1]; simp)
      rw [h1, hx] at hl
      simp only [List.getLast?_singleton, Option.some.injEq] at hl
      subst hl
      rw [ok e _ h1]
    · rw [h1, h3, h4]; exact ih

theorem errorNotes_eq (env : Env) (doc : Str) (e : Js.Error) (b : Bool) (o : Option Str) :
    (syntaxErrors e).map (annotation (env.place doc)) = errorNotes env doc ⟨b, o, some e⟩ := by
  have hn : ∀ x, annotation (env.place doc) x = (env.place doc x.1, errorText x) := by
    rintro ⟨a, b, c, d, _ | l⟩
    · rfl
    · exact congrArg (fun z => (env.place doc a, "Expected ".toList ++ z)) (joinWith_intercalate _ l)
  rcases e with ⟨m, _ | l⟩ | v
  · rfl
  · simp only [syntaxErrors, errorNotes]
    exact List.map_congr_left fun x _ => hn x
  · rfl

/-- **C66, the part that holds.** If moreover no example is chosen or reset, the notes beside the text are those of its errors. -/
theorem C66_notes_partial {parse : Parser} {debug : Str → Str} {place : Str → Nat → Nat × Nat} {examples : List Str} {name : Str}
    {storage : Str → Option Str} {now : Int} {s : State}
    (h : Steps ⟨workerConv parse debug, place⟩ (fun s e => Unchanged s e ∧ NoLoading s e) (init examples (new name storage now)) s)
    (hs : Settled s) :
    s.annotations = errorNotes ⟨workerConv parse debug, place⟩ s.editor (workerConv parse debug s.editor) := by
  have hinv := steps_inv h (init_inv _ _ _ _)
  have hl := (settled_seen hinv hs).2
  suffices s.requests = [] → ∀ x, s.lastInput = some x →
      s.annotations = errorNotes ⟨workerConv parse debug, place⟩ x (workerConv parse debug x) from this hs.answered _ hl
  clear hl hs hinv
  induction h with
  | refl => intro h1; exact absurd h1 (init_sends _ _ _ _)
  | @tail t u e hst ok he ih =>
    have hinv := steps_inv hst (init_inv _ _ _ _)
    rcases step_core he with ⟨v, h, h1, h2, h3, h4, _, h5⟩ | ⟨text, rest, e, h1, h⟩ | ⟨h1, h2, h3, _, h4⟩
    · intro hr x hx
      rw [h] at hr hx ⊢
      obtain ⟨hr', hl⟩ := update_idle hr
      rw [(update_frame v).2.2.2.2.2.2.2.2.2.2.2.2, h5 ok.2]
      exact ih (h1.symm.trans hr') x (by rw [← h4, ← hl]; exact hx)
    · obtain ⟨_, e'⟩ := onmessage_eq ⟨workerConv parse debug, place⟩ (workerConv parse debug text) { t with requests := rest }
      intro hr x hx
      rw [h] at hr hx ⊢
      have hr' : rest = [] := by rw [e'] at hr; exact hr
      have hx' : t.lastInput = some x := by rw [e'] at hx; exact hx
      subst hr'
      have hl := hinv.last (by rw [h1]; simp)
      rw [h1, hx'] at hl
      simp only [List.getLast?_singleton, Option.some.injEq] at hl
      subst hl
      have hed := ok.1 e _ h1
      rw [onmessage_notes]
      simp only
      rw [hed, workerConv_eq]
      cases convertForgiving parse text demoConfig with
      | ok out => rfl
      | error p => obtain ⟨o, e⟩ := p; exact errorNotes_eq ⟨workerConv parse debug, place⟩ text (Js.toError (Wasm.toJsError debug e)) false o
    · rw [h1, h3, h4 ok.2]; exact ih

set_option maxRecDepth 20000 in
/-- A case for `C66_marks_partial` and `C66_notes_partial`: the text has an error in its second line. -/
example : ∃ s, Steps exEnv (fun s e => Unchanged s e ∧ NoLoading s e) exPage s ∧ Settled s ∧ s.editor = "a\nb {".toList ∧
    s.markers = [((1, 2), (1, 3))] ∧ s.annotations = [((1, 2), "Unclosed delimiter {".toList)] := by
  have h : AfterIf exEnv (fun s e => match e with
      | .respond => match s.requests with
        | [x] => decide (s.editor = x)
        | _ => true
      | .select _ => false
      | .reset => false
      | _ => true) exPage [.respond, .edit "a\nb {".toList, .input, .respond] (fun s => settled s && s.editor = "a\nb {".toList &&
      s.markers = [((1, 2), (1, 3))] && s.annotations = [((1, 2), "Unclosed delimiter {".toList)]) = true := by
    decide +kernel
  obtain ⟨s, hs, h⟩ := afterIf_steps (ok := fun s e => Unchanged s e ∧ NoLoading s e) (fun s e h => by
    refine ⟨?_, ?_, ?_⟩
    · rintro rfl x hx
      simp only [hx, decide_eq_true_eq] at h
      exact h
    · rintro m rfl; simp at h
    · rintro rfl; simp at h) h
  simp only [Bool.and_eq_true, decide_eq_true_eq] at h
  exact ⟨s, hs, settled_spec h.1.1.1, h.1.1.2, h.1.2, h.2⟩

set_option maxRecDepth 20000 in
/-- **C66 fails.** If the text is changed while it is being converted, and changed back before the page has noticed, the errors
stay marked at the places they had in the other text. -/
theorem C66_wrong_place : ∃ s, Reachable exEnv s ∧ Settled s ∧ s.editor = "a {".toList ∧ s.markers = [((2, 0), (2, 1))] ∧
    errorPlaces exEnv s.editor (exEnv.conv s.editor) = [((0, 2), (0, 3))] := by
  have h : After exEnv exPage [.respond, .edit "a {".toList, .input, .edit "\n\na {".toList, .input, .respond, .edit "a {".toList,
      .input, .timeout] (fun s => settled s && s.editor = "a {".toList && s.markers = [((2, 0), (2, 1))] &&
      errorPlaces exEnv s.editor (exEnv.conv s.editor) = [((0, 2), (0, 3))]) = true := by
    decide +kernel
  obtain ⟨s, hs, h⟩ := after_run h
  simp only [Bool.and_eq_true, decide_eq_true_eq] at h
  exact ⟨s, exPage_run hs, settled_spec h.1.1.1, h.1.1.2, h.1.2, h.2⟩

set_option maxRecDepth 20000 in
/-- **C66 fails.** When an example is chosen whose text is the one already in the editor, its notes disappear and do not come back. -/
theorem C66_notes_lost : ∃ s, Reachable exEnv s ∧ Settled s ∧ s.editor = "a {".toList ∧ s.annotations = [] ∧
    errorNotes exEnv s.editor (exEnv.conv s.editor) ≠ [] := by
  have h : After exEnv exPage [.respond, .edit "a {".toList, .input, .respond, .select "x".toList, .input] (fun s => settled s &&
      s.editor = "a {".toList && s.annotations = [] && errorNotes exEnv s.editor (exEnv.conv s.editor) ≠ []) = true := by
    decide +kernel
  obtain ⟨s, hs, h⟩ := after_run h
  simp only [Bool.and_eq_true, decide_eq_true_eq] at h
  exact ⟨s, exPage_run hs, settled_spec h.1.1.1, h.1.1.2, h.1.2, h.2⟩

end Mty
