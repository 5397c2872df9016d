import Verif.Proofs.Stopped
import Verif.Props.Schedule

/-!
# C70: stopped runs of the command line

A run is stopped (killed, power failure, or an error of the operating system) after some of its events. `Happens ident w done w'`: the
events `done` did happen. The pieces in which an output is written are arbitrary, so a stop within a write is covered as well.
-/

set_option autoImplicit false

namespace Mty
open Spec Cli

section
variable {parse : Parser} {fmt : Fmt} {fs : Fs} {a : ConvertArgs} {mode : ErrorMode} {p : Plan} {ident : Str → Nat} {w w' : World}
  {done rest : List (Nat × Ev)} {stderr : Str} {exit : Bool}

/-- **C70.** When a run is stopped, each file is as before or, if it is the destination for a source that has an output, contains a
beginning of this output. In particular no source has been changed. -/
theorem C70_stopped (hp : plan fs a = .ok p) (hap : Apart ident (p.tasks a.options)) (h : MainRun parse fmt fs a mode (done ++ rest) stderr exit)
    (hw : Happens ident w done w') :
    (∀ f, WhenStopped parse a.options ident (p.tasks a.options) w f (w'.files f)) ∧
    ∀ t ∈ p.tasks a.options, ∀ s, t.src = .file s → w'.files (ident s) = w.files (ident s) := by
  rcases main_cases h with ⟨e, hp', -⟩ | ⟨p', resps, result, hp', hr, -, -⟩
  · rw [hp] at hp'; cases hp'
  · rw [hp] at hp'; cases hp'
    exact ⟨fun f => stopped_file hap hr hw f, fun t ht s hs => stopped_source hap hr hw ht hs⟩

/-- **C70.** The same after any number of stopped runs. -/
theorem C70_stopped_runs {tasks : List Cli.Task} (hap : Apart ident tasks) (h : StoppedRuns parse fmt a mode ident tasks w w') :
    (∀ f, WhenStopped parse a.options ident tasks w f (w'.files f)) ∧
    ∀ t ∈ tasks, ∀ s, t.src = .file s → w'.files (ident s) = w.files (ident s) := by
  induction h with
  | none => exact ⟨fun _ => .untouched, fun _ _ _ _ => rfl⟩
  | again _ hp ht hm hw ih =>
    obtain ⟨i1, i2⟩ := ih
    subst ht
    obtain ⟨s1, s2⟩ := C70_stopped hp hap hm hw
    exact ⟨fun f => stopped_trans i2 (i1 f) (s1 f), fun t ht s hs => (s2 t ht s hs).trans (i2 t ht s hs)⟩

/-- **C70.** Repeating the command after any number of stopped runs gives what it would have given at first: if the last run is undisturbed,
the files, the exit status and the errors reported are those of an undisturbed run that starts from the original files `w`. -/
theorem C70_again (hp : plan fs a = .ok p) (hap : Apart ident (p.tasks a.options))
    (hs : StoppedRuns parse fmt a mode ident (p.tasks a.options) w w')
    {trace : List (Nat × Ev)} {w'' : World} (h : MainRun parse fmt fs a mode trace stderr exit)
    (hu : Undisturbed parse a.options (p.tasks a.options) trace) (hw : Happens ident w' trace w'') :
    (∀ f, After parse a.options ident (p.tasks a.options) w f (w''.files f)) ∧
    (exit = true ↔ errorsFor parse a.options ident (p.tasks a.options) w = []) ∧
    (reportsOf trace).Perm (errorsFor parse a.options ident (p.tasks a.options) w) ∧
    ∀ {trace0 : List (Nat × Ev)} {stderr0 : Str} {exit0 : Bool} {w0 : World} {fs0 : Fs} {p0 : Plan}, plan fs0 a = .ok p0 →
      p0.tasks a.options = p.tasks a.options → MainRun parse fmt fs0 a mode trace0 stderr0 exit0 →
      Undisturbed parse a.options (p0.tasks a.options) trace0 → Happens ident w trace0 w0 →
      w''.files = w0.files ∧ exit = exit0 ∧ (reportsOf trace).Perm (reportsOf trace0) := by
  obtain ⟨s1, s2⟩ := C70_stopped_runs hap hs
  obtain ⟨a1, a2, a3⟩ := C69_outcome hp hap h hu hw
  rw [errorsFor_congr s2] at a2 a3
  have b1 := fun f => stopped_after hap s2 (s1 f) (a1 f)
  refine ⟨b1, a2, a3, ?_⟩
  intro trace0 stderr0 exit0 w0 fs0 p0 hp0 ht h0 hu0 hw0
  obtain ⟨c1, c2, c3⟩ := C69_outcome hp0 (ht ▸ hap) h0 hu0 hw0
  rw [ht] at c1 c2 c3
  refine ⟨funext fun f => after_unique hap (b1 f) (c1 f), ?_, a3.trans c3.symm⟩
  rw [Bool.eq_iff_iff, a2, c2]

end

/-! ## Examples -/

namespace ExStopped
open ExSchedule

/-- `a.html` has been written by an earlier run. -/
def w : World := world [("a.mty".toList, "x".toList), ("b.mty".toList, "y".toList), ("a.html".toList, "<p>old</p>".toList)]

/-- The first events of a run that was stopped: `a.html` was made empty, and some of `b.html` was written. -/
def done : List (Nat × Ev) :=
  [(0, .read (.file "a.mty".toList) (.ok "x".toList)), (1, .read (.file "b.mty".toList) (.ok "y".toList)), (1, .createDirs []),
    (1, .open_ "b.html".toList), (0, .createDirs []), (0, .open_ "a.html".toList), (1, .truncate "b.html".toList),
    (1, .write "b.html".toList 0 "<p>".toList), (0, .truncate "a.html".toList)]

def rest : List (Nat × Ev) := [(0, .write "a.html".toList 0 "<p>x</p>".toList), (1, .write "b.html".toList 3 "y</p>".toList)]

def resps : List (Option IoResp) := [some { read := .ok "x".toList }, some { read := .ok "y".toList, writes := [.ok 3] }]

set_option maxRecDepth 20000 in
theorem run : MainRun RepoTests.parser ExRun.fmt (fs two) (args two) .default (done ++ rest)
    (reporterRun ExRun.fmt (.mode .default :: reported (done ++ rest) ++ finalEvents (.ok true))) true := by
  refine .ran (p := planFor two) (resps := resps) (result := .ok true) plan_two ⟨rfl, ?_, ?_⟩
  · have : ((tasks two).zip resps).zipIdx.map (localEvents RepoTests.parser o) =
        [(done ++ rest).filter (·.1 = 0), (done ++ rest).filter (·.1 = 1)] := by decide +kernel
    show Interleaving (((tasks two).zip resps).zipIdx.map (localEvents RepoTests.parser o)) (done ++ rest)
    rw [this]
    show Interleaving [[_, _, _, _, _], [_, _, _, _, _, _]] [_, _, _, _, _, _, _, _, _, _, _]
    exact ExRun.first (ExRun.second (ExRun.second (ExRun.second (ExRun.first (ExRun.first (ExRun.second (ExRun.second (ExRun.first
      (ExRun.first (ExRun.second (.nil (by decide +kernel))))))))))))
  · have : ((tasks two).zip resps).map
        (fun p => p.2.map fun resp => (convertOne RepoTests.parser o p.1 resp).2) = [true, true].map fun b => some (.ok b) := by decide +kernel
    show TryReduce (((tasks two).zip resps).map (fun p => p.2.map fun resp => (convertOne RepoTests.parser o p.1 resp).2)) _
    rw [this]
    exact .ok [true, true]

/-- The files when the run was stopped. -/
def w1 : World := done.foldl (fun w p => w.apply ident p.2) w

set_option maxRecDepth 20000 in
theorem happens : Happens ident w done w1 := by
  refine .cons ?_ (.cons ?_ (.cons ?_ (.cons ?_ (.cons ?_ (.cons ?_ (.cons ?_ (.cons ?_ (.cons ?_ .nil))))))))
  · rintro p c ⟨⟩; decide +kernel
  · rintro p c ⟨⟩; decide +kernel
  all_goals intro p c h; cases h

end ExStopped

open ExSchedule ExStopped in
set_option maxRecDepth 20000 in
/-- C70 does not say that the old output survives: the program first makes the destination empty and then writes. In this run `a.html`
had the output of an earlier version and `b.html` did not exist; at the stop `a.html` is empty and `b.html` contains `<p>`. Neither is
the old or the complete new output. -/
theorem C70_not_atomic : ∃ w w' : World, ∃ done rest : List (Nat × Ev), ∃ stderr : Str,
    MainRun RepoTests.parser ExRun.fmt (fs two) (args two) .default (done ++ rest) stderr true ∧ Happens ident w done w' ∧
    w.files (ident "a.html".toList) = some "<p>old</p>".toList ∧ w'.files (ident "a.html".toList) = some [] ∧
    w.files (ident "b.html".toList) = none ∧ w'.files (ident "b.html".toList) = some "<p>".toList ∧
    outputFor RepoTests.parser o "x".toList = some "<p>x</p>".toList ∧ outputFor RepoTests.parser o "y".toList = some "<p>y</p>".toList :=
  ⟨w, w1, done, rest, _, run, happens, by decide +kernel, by decide +kernel, by decide +kernel, by decide +kernel, by decide +kernel,
    by decide +kernel⟩

open ExSchedule ExStopped in
set_option maxRecDepth 20000 in
/-- C70: after this stop an undisturbed run gives both outputs and succeeds. -/
example {trace : List (Nat × Ev)} {stderr : Str} {exit : Bool} {w2 : World}
    (h : MainRun RepoTests.parser ExRun.fmt (fs two) (args two) .default trace stderr exit)
    (hu : Undisturbed RepoTests.parser o (tasks two) trace) (hw : Happens ident w1 trace w2) :
    w2.files (ident "a.html".toList) = some "<p>x</p>".toList ∧ w2.files (ident "b.html".toList) = some "<p>y</p>".toList ∧ exit = true := by
  have hs : StoppedRuns RepoTests.parser ExRun.fmt (args two) .default ident (tasks two) ExStopped.w w1 :=
    .again (p := planFor two) .none plan_two rfl run happens
  obtain ⟨h1, h2, -, -⟩ := C70_again plan_two apart_two hs h hu hw
  refine ⟨?_, ?_, ?_⟩
  · refine after_unique apart_two (h1 _) ?_
    have := After.dest (parse := RepoTests.parser) (o := o) (ident := ident) (tasks := tasks two) (w := ExStopped.w)
      (t := ⟨.file "a.mty".toList, .file "a.html".toList⟩) (c := "x".toList) (by decide +kernel) rfl rfl rfl (by decide +kernel)
    have e : (outputFor RepoTests.parser o "x".toList).or (ExStopped.w.files (ident "a.html".toList)) = some "<p>x</p>".toList := by
      decide +kernel
    rwa [e] at this
  · refine after_unique apart_two (h1 _) ?_
    have := After.dest (parse := RepoTests.parser) (o := o) (ident := ident) (tasks := tasks two) (w := ExStopped.w)
      (t := ⟨.file "b.mty".toList, .file "b.html".toList⟩) (c := "y".toList) (by decide +kernel) rfl rfl rfl (by decide +kernel)
    have e : (outputFor RepoTests.parser o "y".toList).or (ExStopped.w.files (ident "b.html".toList)) = some "<p>y</p>".toList := by
      decide +kernel
    rwa [e] at this
  · exact h2.2 (by
      have : (errorsFor RepoTests.parser o ident (tasks two) ExStopped.w).length = 0 := by decide +kernel
      exact List.length_eq_zero_iff.1 this)

open ExSchedule ExStopped in
set_option maxRecDepth 20000 in
/-- C70: such a last run exists. -/
example : ∃ trace stderr exit w2, MainRun RepoTests.parser ExRun.fmt (fs two) (args two) .default trace stderr exit ∧
    Undisturbed RepoTests.parser o (tasks two) trace ∧ Happens ident w1 trace w2 := by
  refine C69_possible _ _ _ plan_two apart_two fun t ht s hs => ?_
  have : ∀ t ∈ tasks two, ((fileOf t.src).bind fun s => w1.files (ident s)).isSome = true := by decide +kernel
  have := this t ht
  rw [fileOf_eq hs] at this
  exact Option.isSome_iff_exists.1 this

end Mty
