import Verif.Props.Messages
import Verif.Props.Schedule

/-! # C72: an error in one source does not keep the others from being converted -/

set_option autoImplicit false

namespace Mty
open Cli Spec

variable {parse : Parser} {o : ConvertOptions}

/-- A conversion that is not stopped by the operating system reads its source and writes the output, if there is one. -/
theorem convertOne_done {t : Cli.Task} {resp : IoResp} {b : Bool} (h : (convertOne parse o t resp).2 = .ok b) :
    ∃ src rest, (convertOne parse o t resp).1 = .read t.src (.ok src) :: rest ∧
      ∀ out, outputFor parse o src = some out → ∃ reports evs, rest = reports ++ evs ∧ (∀ ev ∈ reports, ∃ e, ev = .report t.src e) ∧
        Written out t.dest evs := by
  cases hr : resp.read with
  | error m => rw [convertOne, hr] at h; cases h
  | ok src =>
    have he := convertOne_read parse o t resp hr
    cases ho : outputFor parse o src with
    | none =>
      rw [ho] at he
      rw [he]
      exact ⟨src, _, rfl, by intro out h'; rw [ho] at h'; cases h'⟩
    | some out =>
      rw [ho] at he
      rw [he] at h ⊢
      refine ⟨src, _, rfl, fun out' ho' => ?_⟩
      have : out' = out := by rw [ho] at ho'; exact (Option.some.inj ho').symm
      subst this
      refine ⟨_, _, rfl, ?_, ?_⟩
      · intro ev hev
        obtain ⟨e, _, rfl⟩ := List.mem_map.mp hev
        exact ⟨e, rfl⟩
      · rcases (ioWrite_cases t.dest out' resp).2 with ⟨_, hw⟩ | ⟨⟨m, hm⟩, _⟩
        · exact hw
        · simp only [hm] at h; cases h

/-- Without `--fail-fast`, only the operating system can stop a conversion. -/
theorem convertOne_error (hf : o.failFast ≠ some .true) {t : Cli.Task} {resp : IoResp} {e : CliError}
    (h : (convertOne parse o t resp).2 = .error e) : e.source = some t.src ∧ e.category = none := by
  have res : ∀ b, convertResult o b = .ok b := by
    intro b
    rw [convertResult, if_neg]
    cases ho : o.failFast with
    | none => simp
    | some f => cases f <;> simp_all
  cases hr : resp.read with
  | error m => rw [convertOne, hr] at h; cases h; exact ⟨rfl, rfl⟩
  | ok src =>
    rw [convertOne_read parse o t resp hr] at h
    cases ho : outputFor parse o src with
    | none => rw [ho] at h; simp only [res] at h; cases h
    | some out =>
      rw [ho] at h
      cases hw : (ioWrite t.dest out resp).2 with
      | error m => simp only [hw] at h; cases h; exact ⟨rfl, rfl⟩
      | ok u => simp only [hw, res] at h; cases h

theorem run_ok {tasks : List Cli.Task} {resps : List (Option IoResp)} {trace : List (Nat × Ev)} {b : Bool}
    (h : TasksRun parse o tasks resps trace (.ok b)) {i : Nat} {t : Cli.Task} (ht : tasks[i]? = some t) :
    ∃ resp b', resps[i]? = some (some resp) ∧ (convertOne parse o t resp).2 = .ok b' := by
  obtain ⟨hlen, _, hr⟩ := h
  have hi : i < tasks.length := (List.getElem?_eq_some_iff.mp ht).1
  obtain ⟨r, hri⟩ : ∃ r, resps[i]? = some r := ⟨resps[i]'(by omega), List.getElem?_eq_getElem _⟩
  have hz : (tasks.zip resps)[i]? = some (t, r) := List.getElem?_zip_eq_some.mpr ⟨ht, hri⟩
  generalize hrs : ((tasks.zip resps).map fun p => p.2.map fun resp => (convertOne parse o p.1 resp).2) = rs at hr
  generalize hb : (Except.ok b : Except CliError Bool) = res at hr
  cases hr with
  | error _ => cases hb
  | ok bs =>
    have h1 := congrArg (·[i]?) hrs
    simp only [List.getElem?_map, hz, Option.map_some] at h1
    cases hbi : bs[i]? with
    | none => rw [hbi] at h1; simp at h1
    | some b' =>
      rw [hbi] at h1
      simp only [Option.map_some, Option.some.injEq] at h1
      cases r with
      | none => simp at h1
      | some resp => exact ⟨resp, b', hri, by simpa using h1⟩

variable {fmt : Fmt} {fs : Fs} {a : ConvertArgs} {trace : List (Nat × Ev)} {stderr : Str} {exit : Bool} {p : Plan}

theorem writeError_internal (fmt : Fmt) (name : StreamName) (m : Str) :
    writeError fmt .default ⟨.internal, some name, none, none, some m⟩ =
      "Internal error: ".toList ++ sourceLabel name ++ ": ".toList ++ m ++ "\n".toList := by
  have h0 : writeError fmt .default ⟨.internal, some name, none, none, some m⟩ =
      "Internal".toList ++ " error: ".toList ++ (match name with
        | .file s => s ++ ": ".toList
        | .stdio => "<stdin>: ".toList) ++ [] ++ m ++ ['\n'] := by
    cases name <;> rfl
  refine h0.trans ?_
  have glue : ∀ (se s e : Str), se = s ++ e → ∀ (f c x m nl : Str), x = f ++ c → s ++ e ++ x ++ [] ++ m ++ nl = se ++ f ++ c ++ m ++ nl := by
    rintro _ s e rfl f c _ m nl rfl
    simp
  cases name with
  | file f => exact glue _ _ _ (by decide +kernel) _ _ _ _ _ rfl
  | stdio => exact glue _ _ _ (by decide +kernel) _ _ _ _ _ (by decide +kernel)

/-- **C72.** Unless `--fail-fast` is given, every source is read and, if there is an output for it, the output is written completely,
whatever errors other sources have; or the operating system did not let a conversion read or write, the exit status is failure, and the last line
printed names the source of this conversion. -/
theorem C72_all (hf : a.options.failFast ≠ some .true) (hp : plan fs a = .ok p)
    (h : MainRun parse fmt fs a .default trace stderr exit) :
    Undisturbed parse a.options (p.tasks a.options) trace ∨
    (exit = false ∧ ∃ (j : Nat) (t : Cli.Task) (m : Str), (p.tasks a.options)[j]? = some t ∧ eventsOf j trace ≠ [] ∧
      ("Internal error: ".toList ++ sourceLabel t.src ++ ": ".toList ++ m ++ "\n".toList) <:+ stderr) := by
  rcases main_cases h with ⟨e, hp', -⟩ | ⟨p', resps, result, hp', hr, hs, he⟩
  · rw [hp] at hp'; cases hp'
  rw [hp] at hp'; cases hp'
  cases result with
  | ok b =>
    left
    intro i t ht
    obtain ⟨resp, b', h1, h2⟩ := run_ok hr ht
    rw [run_started hr ht h1]
    exact convertOne_done h2
  | error e =>
    right
    refine ⟨by simpa using he, ?_⟩
    obtain ⟨j, t, resp, h1, h2, h3⟩ := run_failure hr (by simp)
    obtain ⟨k1, k2⟩ := convertOne_error hf h3
    refine ⟨j, t, e.message, h1, ?_, ?_⟩
    · rw [run_started hr h1 h2]
      rcases convertOne_cases parse a.options t resp with ⟨m, _, h⟩ | ⟨src, out, evs, _, hc, hw, _, h⟩ |
        ⟨src, out, evs, m, _, _, _, _, _, h⟩ | ⟨src, e, evs, r, _, _, _, _, h, hne, _⟩ <;> rw [h] <;> simp
    · rw [hs, main_prints, ← writeError_internal fmt]
      obtain ⟨c, s, m⟩ := e
      simp only at k1 k2
      subst k1 k2
      rw [List.filterMap_append, List.map_append, List.flatten_append]
      refine List.suffix_append_of_suffix ?_
      simp only [otherError, eventData, List.filterMap_cons, List.filterMap_nil, List.map_cons, List.map_nil, List.flatten_cons,
        List.flatten_nil, ErrorEventData.report, otherEntry, Option.getD_none, List.nil_append, List.append_nil]
      exact List.suffix_refl _

set_option maxRecDepth 20000 in
/-- `b.mty` has errors, and `a.mty` is converted. -/
example : Undisturbed ExRun.parse ExRun.args.options (ExRun.plan1.tasks ExRun.args.options) ExRun.trace := by
  rcases C72_all (by decide) (p := ExRun.plan1) (by decide +kernel) ExRun.mixed with h | ⟨-, j, t, m, -, -, u, h⟩
  · exact h
  · have hi : "Internal error: ".toList <:+: ("Syntax error: b.mty: at position 3..<4: Unclosed delimiter {\n".toList ++
        "Syntax error: b.mty: at position 8..<10: Invalid escape sequence \\q.\n".toList) :=
      ⟨u, sourceLabel t.src ++ ": ".toList ++ m ++ "\n".toList, Eq.trans (by simp only [List.append_assoc]) h⟩
    exact absurd hi (by decide +kernel)

/-- `a.mty` cannot be read, and `b.mty` has not been read yet. -/
theorem ExRun.unread : MainRun ExRun.parse ExRun.fmt ExRun.fs ExRun.args .default
    [(0, .read (.file "a.mty".toList) (.error "Permission denied".toList))]
    "Internal error: a.mty: Permission denied\n".toList false := by
  have h : MainRun ExRun.parse ExRun.fmt ExRun.fs ExRun.args .default
      [(0, .read (.file "a.mty".toList) (.error "Permission denied".toList))]
      (reporterRun ExRun.fmt (.mode .default :: reported [(0, .read (.file "a.mty".toList) (.error "Permission denied".toList))] ++
        finalEvents (.error { source := some (.file "a.mty".toList), message := "Permission denied".toList }))) false := by
    refine .ran (p := ExRun.plan1) (resps := [some { read := .error "Permission denied".toList }, none])
      (result := .error { source := some (.file "a.mty".toList), message := "Permission denied".toList }) (by decide +kernel)
      ⟨by decide +kernel, ?_, .error (by decide +kernel)⟩
    show Interleaving (((ExRun.plan1.tasks ExRun.args.options).zip
      [some { read := .error "Permission denied".toList }, none]).zipIdx.map (localEvents ExRun.parse ExRun.args.options)) _
    have : ((ExRun.plan1.tasks ExRun.args.options).zip
        [some { read := .error "Permission denied".toList }, none]).zipIdx.map (localEvents ExRun.parse ExRun.args.options) =
        [[(0, .read (.file "a.mty".toList) (.error "Permission denied".toList))], []] := by decide +kernel
    rw [this]
    exact ExRun.first (.nil (by decide))
  have : reporterRun ExRun.fmt (.mode .default :: reported [(0, .read (.file "a.mty".toList) (.error "Permission denied".toList))] ++
      finalEvents (.error { source := some (.file "a.mty".toList), message := "Permission denied".toList })) =
      "Internal error: a.mty: Permission denied\n".toList := by decide +kernel
  rwa [this] at h

example : ∃ (j : Nat) (t : Cli.Task) (m : Str), (ExRun.plan1.tasks ExRun.args.options)[j]? = some t ∧
    ("Internal error: ".toList ++ sourceLabel t.src ++ ": ".toList ++ m ++ "\n".toList) <:+
      "Internal error: a.mty: Permission denied\n".toList := by
  rcases C72_all (by decide) (p := ExRun.plan1) (by decide +kernel) ExRun.unread with h | ⟨-, j, t, m, h1, -, h⟩
  · obtain ⟨src, rest, h, -⟩ := h 1 ⟨.file "b.mty".toList, .file "b.html".toList⟩ (by decide +kernel)
    exact absurd h (by simp [eventsOf])
  · exact ⟨j, t, m, h1, h⟩

end Mty
