import Verif.Spec.Schedule
import Verif.Props.Cli

/-! # Runs of the command line without disturbances -/

set_option autoImplicit false

namespace Mty
open Spec Cli

theorem convertSource_output (parse : Parser) (o : ConvertOptions) (src : Str) : (convertSource parse o src).1 = outputFor parse o src := by
  have hf : o.forgiving.getD false = true ↔ o.forgiving = some true := by cases o.forgiving <;> simp
  unfold convertSource outputFor
  by_cases h : o.forgiving = some true
  · rw [if_pos (hf.2 h), if_pos h]
    rcases convertForgiving parse src o.asConfig with ⟨out, e⟩ | out <;> rfl
  · rw [if_neg (fun x => h (hf.1 x)), if_neg h]
    cases convert parse src o.asConfig <;> rfl

/-- The errors of a source. -/
def sourceErrors (parse : Parser) (o : ConvertOptions) (src : Str) : List ConvertError :=
  match convert parse src o.asConfig with
  | .error e => [e]
  | .ok _ => []

theorem convertSource_errors (parse : Parser) (o : ConvertOptions) (src : Str) :
    (convertSource parse o src).2.toList = sourceErrors parse o src := by
  unfold sourceErrors
  rcases convertSource_cases parse o src with ⟨out, hc, hs⟩ | ⟨e, out, hc, hs, -⟩ <;> rw [hc, hs] <;> rfl

/-- The events and the result of a conversion that has read its source. -/
theorem convertOne_read (parse : Parser) (o : ConvertOptions) (t : Task) (resp : IoResp) {src : Str} (h : resp.read = .ok src) :
    convertOne parse o t resp =
      match outputFor parse o src with
      | none => (.read t.src (.ok src) :: (sourceErrors parse o src).map (.report t.src), convertResult o false)
      | some out => (.read t.src (.ok src) :: (sourceErrors parse o src).map (.report t.src) ++ (ioWrite t.dest out resp).1,
          match (ioWrite t.dest out resp).2 with
          | .error m => .error { source := some t.src, message := m }
          | .ok () => convertResult o (sourceErrors parse o src).isEmpty) := by
  rw [convertOne, h, ← convertSource_output, ← convertSource_errors]
  rcases hs : convertSource parse o src with ⟨out, err⟩
  cases out <;> cases err <;> simp [hs] <;> rfl

theorem writeEv_no_report {dest : StreamName} {ev : Ev} (h : WriteEv dest ev) (s : StreamName) (e : ConvertError) : ev ≠ .report s e := by
  rintro rfl
  cases dest with
  | stdio => obtain ⟨_, h⟩ := h; cases h
  | file p => rcases h with ⟨_, _, h⟩ | h | h | ⟨_, _, h⟩ <;> cases h

theorem written_no_report {v : Str} {dest : StreamName} {evs : List Ev} (h : Written v dest evs) (s : StreamName) (e : ConvertError) :
    .report s e ∉ evs := by
  intro hm
  cases h with
  | stdout hc => obtain ⟨_, _, h⟩ := chunks_mem hc _ hm; cases h
  | file hd hc =>
    simp only [List.mem_append, List.mem_cons] at hm
    rcases hm with hm | hm | hm | hm
    · obtain ⟨_, h⟩ := hd _ hm; cases h
    · cases hm
    · cases hm
    · obtain ⟨_, _, h⟩ := chunks_mem hc _ hm; cases h

theorem split_reports {r r' evs evs' : List Ev} {s : StreamName} (h : r ++ evs = r' ++ evs') (hr : ∀ ev ∈ r, ∃ e, ev = .report s e)
    (hr' : ∀ ev ∈ r', ∃ e, ev = .report s e) (he : ∀ x e, Ev.report x e ∉ evs) (he' : ∀ x e, Ev.report x e ∉ evs') : evs = evs' := by
  induction r generalizing r' with
  | nil =>
    cases r' with
    | nil => exact h
    | cons y r' =>
      obtain ⟨e, rfl⟩ := hr' y (List.mem_cons_self ..)
      rw [List.nil_append] at h
      exact absurd (h ▸ List.mem_append_left _ (List.mem_cons_self ..)) (he s e)
  | cons x r ih =>
    obtain ⟨e, rfl⟩ := hr x (List.mem_cons_self ..)
    cases r' with
    | nil =>
      rw [List.nil_append] at h
      exact absurd (h ▸ List.mem_append_left _ (List.mem_cons_self ..)) (he' s e)
    | cons y r' =>
      exact ih (List.cons.inj h).2 (fun ev hev => hr ev (List.mem_cons_of_mem _ hev)) fun ev hev => hr' ev (List.mem_cons_of_mem _ hev)

section
variable {parse : Parser} {o : ConvertOptions} {tasks : List Task} {resps : List (Option IoResp)} {trace : List (Nat × Ev)}
  {result : Except CliError Bool} {ident : Str → Nat} {w w' : World}

/-- What one conversion of an undisturbed run does. -/
theorem undisturbed_task (h : TasksRun parse o tasks resps trace result) (hu : Undisturbed parse o tasks trace) {i : Nat} {t : Task}
    (ht : tasks[i]? = some t) : ∃ resp src evs, resps[i]? = some (some resp) ∧
      eventsOf i trace = .read t.src (.ok src) :: (sourceErrors parse o src).map (.report t.src) ++ evs ∧
      (match outputFor parse o src with
        | none => evs = []
        | some out => Written out t.dest evs) ∧
      (convertOne parse o t resp).2 = convertResult o (sourceErrors parse o src).isEmpty := by
  obtain ⟨src, rest, h1, h2⟩ := hu i t ht
  have hi : i < tasks.length := (List.getElem?_eq_some_iff.mp ht).1
  obtain ⟨r, hri⟩ : ∃ r, resps[i]? = some r := ⟨resps[i]'(by rw [h.1]; exact hi), List.getElem?_eq_getElem _⟩
  cases r with
  | none => rw [run_not_started h hri] at h1; cases h1
  | some resp =>
    have h3 := run_started h ht hri
    have hread : resp.read = .ok src := by
      rw [h1] at h3
      cases hr : resp.read with
      | error m =>
        rw [convertOne, hr] at h3
        simp at h3
      | ok x =>
        rw [convertOne_read parse o t resp hr] at h3
        cases hx : outputFor parse o x <;> rw [hx] at h3 <;> simp at h3 <;> rw [h3.1]
    rw [convertOne_read parse o t resp hread] at h3
    refine ⟨resp, src, ?_⟩
    rw [convertOne_read parse o t resp hread]
    have hrep : ∀ ev ∈ (sourceErrors parse o src).map (Ev.report t.src), ∃ e, ev = .report t.src e := by
      intro ev hev
      obtain ⟨e, -, rfl⟩ := List.mem_map.1 hev
      exact ⟨e, rfl⟩
    cases hx : outputFor parse o src with
    | none =>
      rw [hx] at h3
      refine ⟨[], hri, by simpa using h3, rfl, ?_⟩
      have : (sourceErrors parse o src).isEmpty = false := by
        unfold sourceErrors
        cases hc : convert parse src o.asConfig with
        | error e => rfl
        | ok out =>
          have := (C07_convert_forgiving parse src o.asConfig).1 out
          simp [outputFor, hc, this.1 hc] at hx
      rw [this]
    | some out =>
      rw [hx] at h3
      obtain ⟨reports, evs, g1, g2, g3⟩ := h2 out hx
      obtain ⟨w1, w2⟩ := ioWrite_cases t.dest out resp
      have e1 : evs = (ioWrite t.dest out resp).1 := by
        rw [h1, g1] at h3
        refine split_reports (List.cons.inj h3).2 g2 hrep (fun x e => written_no_report g3 x e) fun x e hm => ?_
        exact writeEv_no_report (w1 _ hm) x e rfl
      refine ⟨_, hri, h3, ?_, ?_⟩
      · rw [← e1]; exact g3
      · rcases w2 with ⟨w2, w3⟩ | ⟨-, -, w4⟩
        · dsimp only; rw [w2]
        · rw [e1] at g3; exact absurd g3 w4

/-- The events of the other conversions do not matter for a file. -/
theorem other_events (h : TasksRun parse o tasks resps trace result) {f i : Nat}
    (hd : ∀ j t d, tasks[j]? = some t → j ≠ i → t.dest = .file d → ident d ≠ f) :
    ∀ j ev, (j, ev) ∈ trace → j ≠ i → ∀ c, fileStep ident f c ev = c := by
  intro j ev hm hj c
  obtain ⟨t', resp, h1, h2, h3⟩ := run_mem h hm
  rcases convertOne_mem _ _ _ _ ev h3 with ⟨r, rfl⟩ | ⟨e, rfl⟩ | hw
  · rfl
  · rfl
  · exact writeEv_other hw (fun q hq => hd j t' q h1 hj hq) c

theorem happens_unchanged {f : Nat} (hw : Happens ident w trace w') (h : ∀ j ev, (j, ev) ∈ trace → ∀ c, fileStep ident f c ev = c) :
    w'.files f = w.files f := by
  rw [happens_file hw]
  refine fold_nothing _ _ fun ev hev c => ?_
  obtain ⟨⟨j, ev⟩, hm, rfl⟩ := List.mem_map.1 hev
  exact h j ev hm c

/-- A file that is not changed is read as it is. -/
theorem happens_read {s c : Str} {i : Nat} (hw : Happens ident w trace w')
    (h : ∀ j ev, (j, ev) ∈ trace → ∀ c, fileStep ident (ident s) c ev = c) (hm : (i, .read (.file s) (.ok c)) ∈ trace) :
    w.files (ident s) = some c := by
  induction hw with
  | nil => cases hm
  | @cons w w' j ev rest hr hw ih =>
    rcases List.mem_cons.1 hm with e | hm
    · obtain ⟨-, rfl⟩ := Prod.mk.inj e
      exact hr s c rfl
    · rw [← ih (fun j ev hm => h j ev (List.mem_cons_of_mem _ hm)) hm]
      have h1 : Happens ident w [(j, ev)] (w.apply ident ev) := .cons hr .nil
      rw [happens_file h1]
      exact (h j ev (List.mem_cons_self ..) _).symm

theorem apart_sources (ha : Apart ident tasks) (h : TasksRun parse o tasks resps trace result) {t : Task} {s : Str} (ht : t ∈ tasks)
    (hs : t.src = .file s) : ∀ j ev, (j, ev) ∈ trace → ∀ c, fileStep ident (ident s) c ev = c := by
  intro j ev hm c
  refine other_events h (i := tasks.length) (f := ident s) (fun j t' d hj _ hd => ?_) j ev hm ?_ c
  · exact ha.2.1 t' (List.mem_of_getElem? hj) t ht d s hd hs
  · obtain ⟨t', resp, h1, -⟩ := run_mem h hm
    have := (List.getElem?_eq_some_iff.mp h1).1
    omega

/-- The source a conversion has read. -/
theorem undisturbed_source (ha : Apart ident tasks) (h : TasksRun parse o tasks resps trace result) (hw : Happens ident w trace w')
    {i : Nat} {t : Task} {c : Str} (ht : tasks[i]? = some t) (hr : (i, .read t.src (.ok c)) ∈ trace) :
    ∃ s, t.src = .file s ∧ w.files (ident s) = some c := by
  have hmem := List.mem_of_getElem? ht
  obtain ⟨s, hs⟩ := ha.1 t hmem
  rw [hs] at hr
  exact ⟨s, hs, happens_read hw (apart_sources ha h hmem hs) hr⟩

theorem undisturbed_after (ha : Apart ident tasks) (h : TasksRun parse o tasks resps trace result) (hu : Undisturbed parse o tasks trace)
    (hw : Happens ident w trace w') (f : Nat) : After parse o ident tasks w f (w'.files f) := by
  by_cases hd : ∃ (i : Nat) (t : Cli.Task) (d : Str), tasks[i]? = some t ∧ t.dest = .file d ∧ ident d = f
  · obtain ⟨i, t, d, ht, hd, rfl⟩ := hd
    obtain ⟨resp, c, evs, h1, h2, h3, -⟩ := undisturbed_task h hu ht
    obtain ⟨s, hs, hc⟩ := undisturbed_source (c := c) ha h hw ht (mem_eventsOf.2 (by rw [h2]; simp))
    have := After.dest (parse := parse) (o := o) (List.mem_of_getElem? ht) hs hd rfl hc
    convert this using 1
    rw [happens_file hw, fold_events (i := i) _ _ (other_events h fun j t' d' hj hji hd' => (ha.2.2 j i t' t d' d hj ht hji hd' hd)), h2,
      List.cons_append, List.foldl_cons, List.foldl_append]
    rw [fold_nothing (List.map _ _) _ (by
      intro ev hev c
      obtain ⟨e, -, rfl⟩ := List.mem_map.1 hev
      rfl)]
    cases hx : outputFor parse o c with
    | none =>
      rw [hx] at h3
      rw [h3]; rfl
    | some out =>
      rw [hx] at h3
      rw [hd] at h3
      exact fold_written h3 _
  · have hno : ∀ t ∈ tasks, ∀ d, t.dest = .file d → ident d ≠ f := by
      intro t ht d hd' he
      obtain ⟨i, hi⟩ := List.mem_iff_getElem?.1 ht
      exact hd ⟨i, t, d, hi, hd', he⟩
    have hun : w'.files f = w.files f := by
      refine happens_unchanged hw fun j ev hm c => other_events h (i := tasks.length) (fun j t d hj _ hd' => ?_) j ev hm ?_ c
      · exact hno t (List.mem_of_getElem? hj) d hd'
      · obtain ⟨t', resp, h1, -⟩ := run_mem h hm
        have := (List.getElem?_eq_some_iff.mp h1).1
        omega
    rw [hun]
    exact .other hno

theorem after_unique (ha : Apart ident tasks) {f : Nat} {x y : Option Str} (hx : After parse o ident tasks w f x)
    (hy : After parse o ident tasks w f y) : x = y := by
  cases hx with
  | other h =>
    cases hy with
    | other => rfl
    | dest h1 h2 h3 h4 => exact absurd h4 (h _ h1 _ h3)
  | @dest t s d c h1 h2 h3 h4 h5 =>
    cases hy with
    | other h => exact absurd h4 (h _ h1 _ h3)
    | @dest t' s' d' c' g1 g2 g3 g4 g5 =>
      have : t = t' := by
        obtain ⟨i, hi⟩ := List.mem_iff_getElem?.1 h1
        obtain ⟨j, hj⟩ := List.mem_iff_getElem?.1 g1
        by_cases hij : i = j
        · subst hij; rw [hi] at hj; exact Option.some.inj hj
        · exact absurd (h4.trans g4.symm) (ha.2.2 i j t t' d d' hi hj hij h3 g3)
      subst this
      rw [h2] at g2
      cases g2
      rw [h5] at g5
      cases g5
      rfl

/-- The errors of the source of a conversion. -/
def taskErrors (parse : Parser) (o : ConvertOptions) (ident : Str → Nat) (w : World) (t : Cli.Task) : List (StreamName × ConvertError) :=
  errorsFor parse o ident [t] w

theorem errorsFor_eq (parse : Parser) (o : ConvertOptions) (ident : Str → Nat) (tasks : List Cli.Task) (w : World) :
    errorsFor parse o ident tasks w = (tasks.map (taskErrors parse o ident w)).flatten := by
  induction tasks with
  | nil => rfl
  | cons t ts ih =>
    rw [List.map_cons, List.flatten_cons, ← ih]
    have : errorsFor parse o ident (t :: ts) w = errorsFor parse o ident ([t] ++ ts) w := rfl
    rw [this, errorsFor, List.filterMap_append]
    rfl

theorem taskErrors_eq {t : Cli.Task} {s c : Str} (hs : t.src = .file s) (hc : w.files (ident s) = some c) :
    taskErrors parse o ident w t = (sourceErrors parse o c).map fun e => (t.src, e) := by
  unfold taskErrors errorsFor sourceErrors
  rw [List.filterMap_cons, hs]
  dsimp only
  rw [hc]
  dsimp only
  cases convert parse c o.asConfig <;> rfl

theorem filterMap_flatten' {α β : Type} (f : α → Option β) (ls : List (List α)) :
    ls.flatten.filterMap f = (ls.map (List.filterMap f)).flatten := by
  induction ls with
  | nil => rfl
  | cons l ls ih => simp [ih]

/-- The reports of one conversion. -/
theorem reports_local {i : Nat} {t : Cli.Task} {c : Str} {es : List ConvertError} {evs : List Ev} (he : ∀ x e, Ev.report x e ∉ evs) :
    reportsOf ((Ev.read t.src (.ok c) :: es.map (Ev.report t.src) ++ evs).map fun ev => (i, ev)) = es.map fun e => (t.src, e) := by
  have h1 : reportsOf (evs.map fun ev => (i, ev)) = [] := by
    unfold reportsOf
    rw [List.filterMap_eq_nil_iff]
    intro p hp
    obtain ⟨ev, hev, rfl⟩ := List.mem_map.1 hp
    cases ev with
    | report x e => exact absurd hev (he x e)
    | _ => rfl
  have h2 : reportsOf ((es.map (Ev.report t.src)).map fun ev => (i, ev)) = es.map fun e => (t.src, e) := by
    induction es with
    | nil => rfl
    | cons e es ih => simpa [reportsOf] using ih
  rw [List.cons_append, List.map_cons, List.map_append, reportsOf, List.filterMap_cons, List.filterMap_append]
  show _ = _
  simp only [reportsOf] at h1 h2
  rw [h1, h2, List.append_nil]

theorem undisturbed_reports (ha : Apart ident tasks) (h : TasksRun parse o tasks resps trace result) (hu : Undisturbed parse o tasks trace)
    (hw : Happens ident w trace w') : (reportsOf trace).Perm (errorsFor parse o ident tasks w) := by
  have hp := (run_interleaving h).perm
  rw [errorsFor_eq]
  refine (List.Perm.filterMap _ hp).trans ?_
  rw [filterMap_flatten']
  refine .of_eq (congrArg List.flatten ?_)
  refine List.ext_getElem? fun i => ?_
  rw [List.map_map, List.getElem?_map, List.getElem?_map, List.getElem?_zipIdx, Nat.zero_add]
  cases ht : tasks[i]? with
  | none =>
    have : (tasks.zip resps)[i]? = none := by
      rw [List.getElem?_eq_none_iff] at ht ⊢
      rw [List.length_zip]; omega
    rw [this]; rfl
  | some t =>
    obtain ⟨resp, c, evs, h1, h2, h3, -⟩ := undisturbed_task h hu ht
    have hz : (tasks.zip resps)[i]? = some (t, some resp) := List.getElem?_zip_eq_some.mpr ⟨ht, h1⟩
    rw [hz]
    obtain ⟨s, hs, hc⟩ := undisturbed_source (c := c) ha h hw ht (mem_eventsOf.2 (by rw [h2]; simp))
    simp only [Option.map_some, Function.comp_apply, localEvents, Option.some.injEq]
    rw [taskErrors_eq hs hc, ← run_started h ht h1, h2]
    refine reports_local (fun x e hm => ?_)
    cases hx : outputFor parse o c with
    | none => rw [hx] at h3; rw [h3] at hm; cases hm
    | some out => rw [hx] at h3; exact written_no_report h3 x e hm

theorem undisturbed_exit (ha : Apart ident tasks) (h : TasksRun parse o tasks resps trace result) (hu : Undisturbed parse o tasks trace)
    (hw : Happens ident w trace w') : result = .ok true ↔ errorsFor parse o ident tasks w = [] := by
  rw [errorsFor_eq, List.flatten_eq_nil_iff]
  constructor
  · rintro rfl l hl
    obtain ⟨t, ht, rfl⟩ := List.mem_map.1 hl
    obtain ⟨i, hi⟩ := List.mem_iff_getElem?.1 ht
    obtain ⟨resp, c, evs, h1, h2, h3, h4⟩ := undisturbed_task h hu hi
    obtain ⟨s, hs, hc⟩ := undisturbed_source (c := c) ha h hw hi (mem_eventsOf.2 (by rw [h2]; simp))
    obtain ⟨resp', g1, g2⟩ := run_success h hi
    rw [h1] at g1; cases g1
    rw [taskErrors_eq hs hc]
    rw [g2] at h4
    cases hx : sourceErrors parse o c with
    | nil => rfl
    | cons e es =>
      rw [hx, convertResult] at h4
      split at h4 <;> simp at h4
  · intro hall
    by_contra hne
    obtain ⟨i, t, resp, h1, h2, h3⟩ := run_failure h hne
    obtain ⟨resp', c, evs, g1, g2, g3, g4⟩ := undisturbed_task h hu h1
    rw [h2] at g1; cases g1
    obtain ⟨s, hs, hc⟩ := undisturbed_source (c := c) ha h hw h1 (mem_eventsOf.2 (by rw [g2]; simp))
    have := hall _ (List.mem_map.2 ⟨t, List.mem_of_getElem? h1, rfl⟩)
    rw [taskErrors_eq hs hc, List.map_eq_nil_iff] at this
    rw [this] at g4
    rw [g4] at h3
    rw [← h3] at hne
    exact hne rfl

/-! ## Runs that do one conversion after the other -/

theorem interleaving_serial {α : Type} (pre ls : List (List α)) (h : ∀ l ∈ pre, l = []) : Interleaving (pre ++ ls) ls.flatten := by
  induction ls generalizing pre with
  | nil => simpa using Interleaving.nil h
  | cons l ls ih =>
    induction l with
    | nil =>
      have := ih (pre ++ [[]]) (by
        intro l hl
        rcases List.mem_append.1 hl with hl | hl
        · exact h l hl
        · simpa using hl)
      simpa using this
    | cons a l ihl => exact .next ihl

theorem happens_of {f : Str → Nat} (h : ∀ j s c, (j, .read (.file s) (.ok c)) ∈ trace →
      w.files (f s) = some c ∧ ∀ j ev, (j, ev) ∈ trace → ∀ c, fileStep f (f s) c ev = c) : ∃ w', Happens f w trace w' := by
  induction trace generalizing w with
  | nil => exact ⟨w, .nil⟩
  | cons x rest ih =>
    obtain ⟨i, ev⟩ := x
    obtain ⟨w', hw⟩ := @ih (w.apply f ev) (by
      intro j s c hm
      obtain ⟨h1, h2⟩ := h j s c (List.mem_cons_of_mem _ hm)
      refine ⟨?_, fun j ev hm => h2 j ev (List.mem_cons_of_mem _ hm)⟩
      have h3 : Happens f w [(i, ev)] (w.apply f ev) ∨ (w.apply f ev).files = w.files := by
        cases ev with
        | read s r => exact .inr rfl
        | _ => exact .inl (.cons (by intro p c h; cases h) .nil)
      rcases h3 with h3 | h3
      · rw [happens_file h3]
        show fileStep f (f s) _ ev = _
        rw [h2 i ev (List.mem_cons_self ..), h1]
      · rw [h3, h1])
    refine ⟨w', .cons (fun p c he => ?_) hw⟩
    subst he
    exact (h i p c (List.mem_cons_self ..)).1

theorem tryReduce_exists (rs : List (Except CliError Bool)) : ∃ r, TryReduce (rs.map some) r := by
  by_cases h : ∃ e, Except.error e ∈ rs
  · obtain ⟨e, he⟩ := h
    exact ⟨.error e, .error (List.mem_map.2 ⟨_, he, rfl⟩)⟩
  · have : ∃ bs : List Bool, rs = bs.map .ok := by
      induction rs with
      | nil => exact ⟨[], rfl⟩
      | cons r rs ih =>
        obtain ⟨bs, hbs⟩ := ih (fun ⟨e, he⟩ => h ⟨e, List.mem_cons_of_mem _ he⟩)
        cases r with
        | error e => exact absurd ⟨e, List.mem_cons_self ..⟩ h
        | ok b => exact ⟨b :: bs, by rw [hbs]; rfl⟩
    obtain ⟨bs, rfl⟩ := this
    refine ⟨.ok (bs.all id), ?_⟩
    rw [List.map_map]
    exact .ok bs

theorem ioWrite_default (dest : StreamName) (v : Str) (r : Except Str Str) :
    (ioWrite dest v { read := r }).2 = .ok () ∧ Written v dest (ioWrite dest v { read := r }).1 := by
  rcases (ioWrite_cases dest v { read := r }).2 with h | ⟨⟨m, h⟩, -⟩
  · exact h
  · exfalso
    have hw : ∀ emit : Nat → Str → Ev, (writeAll emit 0 v []).2 = .ok () := by
      intro emit
      cases v <;> rfl
    cases dest with
    | stdio => rw [ioWrite, hw] at h; cases h
    | file p =>
      rw [ioWrite] at h
      cases hp : Path.parent p with
      | none => rw [hp] at h; dsimp only [openAndWrite] at h; rw [hw] at h; cases h
      | some d => rw [hp] at h; dsimp only [openAndWrite] at h; rw [hw] at h; cases h

theorem undisturbed_exists (ha : Apart ident tasks)
    (hs : ∀ t ∈ tasks, ∀ s, t.src = .file s → ∃ c, w.files (ident s) = some c) :
    ∃ resps trace result w', TasksRun parse o tasks resps trace result ∧ Undisturbed parse o tasks trace ∧ Happens ident w trace w' := by
  classical
  let content : Cli.Task → Str := fun t => match t.src with
    | .file s => (w.files (ident s)).getD []
    | .stdio => []
  let resps : List (Option IoResp) := tasks.map fun t => some { read := .ok (content t) }
  have hresp : ∀ (i : Nat) (t : Cli.Task), tasks[i]? = some t → resps[i]? = some (some { read := .ok (content t) }) := by
    intro i t ht
    show (tasks.map _)[i]? = _
    rw [List.getElem?_map, ht]
    rfl
  have hzip : ((tasks.zip resps).map fun p => p.2.map fun resp => (convertOne parse o p.1 resp).2) =
      (tasks.map fun t => (convertOne parse o t { read := .ok (content t) }).2).map some := by
    refine List.ext_getElem? fun i => ?_
    rw [List.getElem?_map, List.getElem?_map, List.getElem?_map]
    cases ht : tasks[i]? with
    | none =>
      have : (tasks.zip resps)[i]? = none := by
        rw [List.getElem?_eq_none_iff] at ht ⊢
        rw [List.length_zip]; omega
      rw [this]; rfl
    | some t =>
      have hz : (tasks.zip resps)[i]? = some (t, some { read := .ok (content t) }) :=
        List.getElem?_zip_eq_some.mpr ⟨ht, hresp i t ht⟩
      rw [hz]
      rfl
  obtain ⟨result, hres⟩ := tryReduce_exists (tasks.map fun t => (convertOne parse o t { read := .ok (content t) }).2)
  have hrun : TasksRun parse o tasks resps _ result :=
    ⟨List.length_map .., interleaving_serial [] _ (by intro l hl; cases hl), hzip ▸ hres⟩
  generalize List.flatten _ = trace at hrun
  have hu : Undisturbed parse o tasks trace := by
    intro i t ht
    have h1 := run_started hrun ht (hresp i t ht)
    rw [convertOne_read (src := content t) parse o t _ rfl] at h1
    cases hx : outputFor parse o (content t) with
    | none =>
      rw [hx] at h1
      exact ⟨_, _, h1, fun out hout => by rw [hx] at hout; cases hout⟩
    | some out =>
      rw [hx] at h1
      refine ⟨_, _, h1, fun out' hout => ?_⟩
      rw [hx] at hout
      cases hout
      refine ⟨_, _, rfl, fun ev hev => ?_, (ioWrite_default t.dest out _).2⟩
      obtain ⟨e, -, rfl⟩ := List.mem_map.1 hev
      exact ⟨e, rfl⟩
  obtain ⟨w', hw⟩ : ∃ w', Happens ident w trace w' := by
    refine happens_of fun j s c hm => ?_
    obtain ⟨t, resp, h1, h2, h3⟩ := run_mem hrun hm
    rw [hresp j t h1] at h2
    cases h2
    have hmem := List.mem_of_getElem? h1
    obtain ⟨h4, h5⟩ : StreamName.file s = t.src ∧ c = content t := by
      rw [convertOne_read (src := content t) parse o t _ rfl] at h3
      have hhead : Ev.read (.file s) (.ok c) ∈ Ev.read t.src (.ok (content t)) :: (sourceErrors parse o (content t)).map (Ev.report t.src) →
          StreamName.file s = t.src ∧ c = content t := by
        intro hm
        rcases List.mem_cons.1 hm with hm | hm
        · injection hm with a b
          injection b with b
          exact ⟨a, b⟩
        · obtain ⟨e, -, he⟩ := List.mem_map.1 hm
          cases he
      cases hx : outputFor parse o (content t) with
      | none => rw [hx] at h3; exact hhead h3
      | some out =>
        rw [hx] at h3
        rcases List.mem_append.1 h3 with h3 | h3
        · exact hhead h3
        · exfalso
          have := (ioWrite_cases t.dest out { read := .ok (content t) }).1 _ h3
          cases hd : t.dest with
          | stdio => rw [hd] at this; obtain ⟨_, h⟩ := this; cases h
          | file p => rw [hd] at this; rcases this with ⟨_, _, h⟩ | h | h | ⟨_, _, h⟩ <;> cases h
    refine ⟨?_, apart_sources ha hrun hmem h4.symm⟩
    obtain ⟨c', hc'⟩ := hs t hmem s h4.symm
    rw [h5, hc']
    show some c' = some (content t)
    simp only [content]
    rw [← h4]
    dsimp only
    rw [hc']
    rfl
  exact ⟨resps, trace, result, w', hrun, hu, hw⟩

end

/-! ## Examples: deciding `Apart` -/

def fileOf : StreamName → Option Str
  | .file p => some p
  | .stdio => none

theorem fileOf_eq {s : StreamName} {p : Str} (h : s = .file p) : fileOf s = some p := by rw [h]; rfl

/-- `Apart` for concrete plans. -/
def apartCheck (ident : Str → Nat) (tasks : List Cli.Task) : Bool :=
  tasks.all (fun t => (fileOf t.src).isSome) &&
  (tasks.filterMap fun t => fileOf t.dest).all (fun d => (tasks.filterMap fun t => fileOf t.src).all fun s => ident d != ident s) &&
  decide (tasks.Pairwise fun t t' => (fileOf t.dest).map ident ≠ (fileOf t'.dest).map ident)

theorem apart_of_check {ident : Str → Nat} {tasks : List Cli.Task} (h : apartCheck ident tasks = true) : Apart ident tasks := by
  simp only [apartCheck, Bool.and_eq_true, List.all_eq_true, decide_eq_true_eq, bne_iff_ne, List.mem_filterMap] at h
  obtain ⟨⟨h1, h2⟩, h3⟩ := h
  refine ⟨fun t ht => ?_, fun t ht t' ht' d s hd hs => h2 d ⟨t, ht, fileOf_eq hd⟩ s ⟨t', ht', fileOf_eq hs⟩, ?_⟩
  · have := h1 t ht
    cases hs : t.src with
    | file s => exact ⟨s, rfl⟩
    | stdio => rw [hs] at this; cases this
  · intro i j t t' d d' hi hj hij hd hd' he
    have key : ∀ {i j : Nat} {t t' : Cli.Task} {d d' : Str}, tasks[i]? = some t → tasks[j]? = some t' → i < j → t.dest = .file d →
        t'.dest = .file d' → ident d ≠ ident d' := by
      intro i j t t' d d' hi hj hij hd hd' he
      obtain ⟨hil, hi⟩ := List.getElem?_eq_some_iff.mp hi
      obtain ⟨hjl, hj⟩ := List.getElem?_eq_some_iff.mp hj
      have := List.pairwise_iff_getElem.1 h3 i j hil hjl hij
      rw [hi, hj, fileOf_eq hd, fileOf_eq hd'] at this
      exact this (congrArg some he)
    rcases Nat.lt_or_gt_of_ne hij with hlt | hlt
    · exact key hi hj hlt hd hd' he
    · exact key hj hi hlt hd' hd he.symm

end Mty
