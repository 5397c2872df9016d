import Verif.Proofs.Schedule
import Verif.Props.RefParser

/-!
# C69: parallel conversions do not depend on the order

`Apart`: the conversions of the plan read files only, write no file that is read, and write different files (paths that denote the
same file count as the same, `ident`). `Undisturbed`: the operating system let every conversion read its source and write its output.
`Happens ident w trace w'`: what happens to the files when the events happen in this order, each read finding the contents of that time.
-/

set_option autoImplicit false

namespace Mty
open Spec Cli

section
variable {parse : Parser} {fmt : Fmt} {fs : Fs} {a : ConvertArgs} {mode : ErrorMode} {p : Plan} {ident : Str → Nat} {w w' : World}
  {trace : List (Nat × Ev)} {stderr : Str} {exit : Bool}

/-- **C69.** The outcome in terms of the files as they were before: each destination contains the output for its source (if there is one),
every other file is as before; the exit status is success exactly if no source has an error; the errors reported are those of the sources,
each once. -/
theorem C69_outcome (hp : plan fs a = .ok p) (hap : Apart ident (p.tasks a.options)) (h : MainRun parse fmt fs a mode trace stderr exit)
    (hu : Undisturbed parse a.options (p.tasks a.options) trace) (hw : Happens ident w trace w') :
    (∀ f, After parse a.options ident (p.tasks a.options) w f (w'.files f)) ∧
    (exit = true ↔ errorsFor parse a.options ident (p.tasks a.options) w = []) ∧
    (reportsOf trace).Perm (errorsFor parse a.options ident (p.tasks a.options) w) := by
  rcases main_cases h with ⟨e, hp', -⟩ | ⟨p', resps, result, hp', hr, -, he⟩
  · rw [hp] at hp'; cases hp'
  · rw [hp] at hp'; cases hp'
    exact ⟨fun f => undisturbed_after hap hr hu hw f, he.trans (undisturbed_exit hap hr hu hw), undisturbed_reports hap hr hu hw⟩

/-- **C69.** Two runs with the same arguments from the same files end with the same files and the same exit status, and report the same
errors, whatever the order in which the conversions read and write, and whatever the pieces in which the outputs are written. -/
theorem C69_schedule (hp : plan fs a = .ok p) (hap : Apart ident (p.tasks a.options)) (h : MainRun parse fmt fs a mode trace stderr exit)
    (hu : Undisturbed parse a.options (p.tasks a.options) trace) (hw : Happens ident w trace w')
    {trace' : List (Nat × Ev)} {stderr' : Str} {exit' : Bool} {w'' : World} (h' : MainRun parse fmt fs a mode trace' stderr' exit')
    (hu' : Undisturbed parse a.options (p.tasks a.options) trace') (hw' : Happens ident w trace' w'') :
    w'.files = w''.files ∧ exit = exit' ∧ (reportsOf trace).Perm (reportsOf trace') := by
  obtain ⟨a1, a2, a3⟩ := C69_outcome hp hap h hu hw
  obtain ⟨b1, b2, b3⟩ := C69_outcome hp hap h' hu' hw'
  refine ⟨funext fun f => after_unique hap (a1 f) (b1 f), ?_, a3.trans b3.symm⟩
  rw [Bool.eq_iff_iff, a2, b2]

/-- **C69.** Such runs exist whenever the sources do. -/
theorem C69_possible (parse : Parser) (fmt : Fmt) (mode : ErrorMode) (hp : plan fs a = .ok p)
    (hap : Apart ident (p.tasks a.options))
    (hs : ∀ t ∈ p.tasks a.options, ∀ s, t.src = .file s → ∃ c, w.files (ident s) = some c) :
    ∃ trace stderr exit w', MainRun parse fmt fs a mode trace stderr exit ∧
      Undisturbed parse a.options (p.tasks a.options) trace ∧ Happens ident w trace w' := by
  obtain ⟨resps, trace, result, w', h1, h2, h3⟩ := undisturbed_exists (parse := parse) (o := a.options) hap hs
  exact ⟨trace, _, _, w', .ran hp h1, h2, h3⟩

end

/-! ## Examples -/

namespace ExSchedule

/-- Paths are numbered by their characters. -/
def ident (p : Str) : Nat := p.foldl (fun n c => n * 1114112 + c.toNat + 1) 0

def world (l : List (Str × Str)) : World := ⟨fun f => (l.find? fun p => ident p.1 = f).map (·.2)⟩

def o : ConvertOptions := { fragment := true }

/-- The files `names`, given as arguments. -/
def fs (names : List Str) : Fs := ⟨fun p => .ok (if p ∈ names then some ⟨true, false⟩ else none), fun _ => .error "Not a directory".toList⟩

def args (names : List Str) : ConvertArgs := { srcFiles := some names, options := o }

def two : List Str := ["a.mty".toList, "b.mty".toList]

def same : List Str := ["a.mty".toList, "a.minty".toList]

def planFor (names : List Str) : Plan := .many (names.map fun n => ⟨[], n⟩) none

def tasks (names : List Str) : List Task := (planFor names).tasks o

def w (names : List Str) : World := world (names.zip ["x".toList, "> y \\q".toList])

theorem plan_two : plan (fs two) (args two) = .ok (planFor two) := by decide +kernel

theorem plan_same : plan (fs same) (args same) = .ok (planFor same) := by decide +kernel

theorem apart_two : Apart ident (tasks two) := apart_of_check (by decide +kernel)

end ExSchedule

open ExSchedule in
set_option maxRecDepth 20000 in
/-- C69: `a.mty` contains `x` and `b.mty` an invalid escape. After any undisturbed run `a.html` contains the output, `b.html` does not
exist, the exit status is failure, and there is one report. -/
example {trace : List (Nat × Ev)} {stderr : Str} {exit : Bool} {w' : World}
    (h : MainRun RepoTests.parser ExRun.fmt (fs two) (args two) .default trace stderr exit)
    (hu : Undisturbed RepoTests.parser o (tasks two) trace) (hw : Happens ident (w two) trace w') :
    w'.files (ident "a.html".toList) = some "<p>x</p>".toList ∧ w'.files (ident "b.html".toList) = none ∧ exit = false ∧
      (reportsOf trace).length = 1 := by
  obtain ⟨h1, h2, h3⟩ := C69_outcome plan_two apart_two h hu hw
  refine ⟨?_, ?_, ?_, ?_⟩
  · refine after_unique apart_two (h1 _) ?_
    have := After.dest (parse := RepoTests.parser) (o := o) (ident := ident) (tasks := tasks two) (w := w two)
      (t := ⟨.file "a.mty".toList, .file "a.html".toList⟩) (c := "x".toList) (by decide +kernel) rfl rfl rfl (by decide +kernel)
    have e : (outputFor RepoTests.parser o "x".toList).or ((w two).files (ident "a.html".toList)) = some "<p>x</p>".toList := by
      decide +kernel
    rwa [e] at this
  · refine after_unique apart_two (h1 _) ?_
    have := After.dest (parse := RepoTests.parser) (o := o) (ident := ident) (tasks := tasks two) (w := w two)
      (t := ⟨.file "b.mty".toList, .file "b.html".toList⟩) (c := "> y \\q".toList) (by decide +kernel) rfl rfl rfl (by decide +kernel)
    have e : (outputFor RepoTests.parser o "> y \\q".toList).or ((w two).files (ident "b.html".toList)) = none := by
      decide +kernel
    rwa [e] at this
  · have : (errorsFor RepoTests.parser o ident (tasks two) (w two)).length = 1 := by decide +kernel
    cases exit with
    | false => rfl
    | true =>
      have hn : errorsFor RepoTests.parser o ident (tasks two) (w two) = [] := h2.1 rfl
      rw [hn] at this
      cases this
  · rw [h3.length_eq]
    decide +kernel

open ExSchedule in
set_option maxRecDepth 20000 in
/-- C69: such a run exists. -/
example : ∃ trace stderr exit w', MainRun RepoTests.parser ExRun.fmt (fs two) (args two) .default trace stderr exit ∧
    Undisturbed RepoTests.parser o (tasks two) trace ∧ Happens ident (w two) trace w' := by
  refine C69_possible _ _ _ plan_two apart_two fun t ht s hs => ?_
  have : ∀ t ∈ tasks two, ((fileOf t.src).bind fun s => (w two).files (ident s)).isSome = true := by decide +kernel
  have := this t ht
  rw [fileOf_eq hs] at this
  exact Option.isSome_iff_exists.1 this

namespace ExSchedule

/-- The events of the conversion of `a.mty` (containing `x`) or `a.minty` (containing `y`). -/
def evs (i : Nat) : List (Nat × Ev) :=
  match i with
  | 0 => [(0, .read (.file "a.mty".toList) (.ok "x".toList)), (0, .createDirs []), (0, .open_ "a.html".toList), (0, .truncate "a.html".toList),
      (0, .write "a.html".toList 0 "<p>x</p>".toList)]
  | _ => [(1, .read (.file "a.minty".toList) (.ok "y".toList)), (1, .createDirs []), (1, .open_ "a.html".toList), (1, .truncate "a.html".toList),
      (1, .write "a.html".toList 0 "<p>y</p>".toList)]

def w2 : World := world (same.zip ["x".toList, "y".toList])

set_option maxRecDepth 20000 in
theorem run_same {trace : List (Nat × Ev)} (h : Interleaving [evs 0, evs 1] trace) :
    MainRun RepoTests.parser ExRun.fmt (fs same) (args same) .default trace
      (reporterRun ExRun.fmt (.mode .default :: reported trace ++ finalEvents (.ok true))) true := by
  refine .ran (p := planFor same) (resps := [some { read := .ok "x".toList }, some { read := .ok "y".toList }]) (result := .ok true) plan_same
    ⟨rfl, ?_, ?_⟩
  · have : ((tasks same).zip [some { read := .ok "x".toList }, some { read := .ok "y".toList }]).zipIdx.map
        (localEvents RepoTests.parser o) = [evs 0, evs 1] := by decide +kernel
    show Interleaving (((tasks same).zip [some { read := .ok "x".toList }, some { read := .ok "y".toList }]).zipIdx.map
        (localEvents RepoTests.parser o)) trace
    rw [this]
    exact h
  · have : ((tasks same).zip [some { read := .ok "x".toList }, some { read := .ok "y".toList }]).map
        (fun p => p.2.map fun resp => (convertOne RepoTests.parser o p.1 resp).2) = [true, true].map fun b => some (.ok b) := by decide +kernel
    show TryReduce (((tasks same).zip [some { read := .ok "x".toList }, some { read := .ok "y".toList }]).map
        (fun p => p.2.map fun resp => (convertOne RepoTests.parser o p.1 resp).2)) _
    rw [this]
    exact .ok [true, true]

theorem first_then_second : Interleaving [evs 0, evs 1] (evs 0 ++ evs 1) := by
  have := interleaving_serial [] [evs 0, evs 1] (by intro l hl; cases hl)
  simpa using this

theorem second_then_first : Interleaving [evs 0, evs 1] (evs 1 ++ evs 0) :=
  ExRun.second (ExRun.second (ExRun.second (ExRun.second (ExRun.second
    (ExRun.first (ExRun.first (ExRun.first (ExRun.first (ExRun.first (.nil (by decide +kernel)))))))))))

theorem happens_same {trace : List (Nat × Ev)} (h : Interleaving [evs 0, evs 1] trace) : ∃ w', Happens ident w2 trace w' := by
  refine happens_of fun j s c hm => ?_
  have hmem : ∀ j ev, (j, ev) ∈ trace → (j, ev) ∈ evs 0 ++ evs 1 := by
    intro j ev hm
    rw [h.mem] at hm
    simpa using hm
  have hr : ∀ x ∈ evs 0 ++ evs 1, ∀ s c, x.2 = .read (.file s) (.ok c) → w2.files (ident s) = some c ∧
      ∀ y ∈ evs 0 ++ evs 1, ∀ c, fileStep ident (ident s) c y.2 = c := by
    intro x hx s c he
    have hs : (s = "a.mty".toList ∧ c = "x".toList) ∨ (s = "a.minty".toList ∧ c = "y".toList) := by
      simp only [evs, List.cons_append, List.nil_append, List.mem_cons, List.not_mem_nil, or_false] at hx
      rcases hx with rfl | rfl | rfl | rfl | rfl | rfl | rfl | rfl | rfl | rfl <;> cases he
      · exact .inl ⟨rfl, rfl⟩
      · exact .inr ⟨rfl, rfl⟩
    have hn : ∀ s : Str, ident "a.html".toList ≠ ident s → ∀ y ∈ evs 0 ++ evs 1, ∀ c, fileStep ident (ident s) c y.2 = c := by
      intro s hne y hy c
      simp only [evs, List.cons_append, List.nil_append, List.mem_cons, List.not_mem_nil, or_false] at hy
      rcases hy with rfl | rfl | rfl | rfl | rfl | rfl | rfl | rfl | rfl | rfl <;>
        first | rfl | exact if_neg fun h => hne h.symm
    rcases hs with ⟨rfl, rfl⟩ | ⟨rfl, rfl⟩
    · exact ⟨by decide +kernel, hn _ (by decide +kernel)⟩
    · exact ⟨by decide +kernel, hn _ (by decide +kernel)⟩
  obtain ⟨h1, h2⟩ := hr _ (hmem j _ hm) s c rfl
  exact ⟨h1, fun j ev hm => h2 _ (hmem j ev hm)⟩

end ExSchedule

open ExSchedule in
set_option maxRecDepth 20000 in
/-- **C69** needs different destinations: `a.mty` and `a.minty` are both converted to `a.html`, successfully, and what it contains
afterwards depends on which of the two conversions was later. -/
theorem C69_same_destination : ∃ trace trace' stderr stderr' w' w'',
    MainRun RepoTests.parser ExRun.fmt (fs same) (args same) .default trace stderr true ∧ Happens ident w2 trace w' ∧
    MainRun RepoTests.parser ExRun.fmt (fs same) (args same) .default trace' stderr' true ∧ Happens ident w2 trace' w'' ∧
    w'.files (ident "a.html".toList) = some "<p>y</p>".toList ∧ w''.files (ident "a.html".toList) = some "<p>x</p>".toList := by
  obtain ⟨w', hw'⟩ := happens_same first_then_second
  obtain ⟨w'', hw''⟩ := happens_same second_then_first
  refine ⟨_, _, _, _, w', w'', run_same first_then_second, hw', run_same second_then_first, hw'', ?_, ?_⟩
  · rw [happens_file hw']
    decide +kernel
  · rw [happens_file hw'']
    decide +kernel

end Mty
