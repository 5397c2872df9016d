import Verif.Proofs.CliRun
import Verif.Props.Files

/-!
# C37, C38, C41–C44: the command line

`MainRun parse fmt fs a mode trace stderr exit`: a run of the program with the arguments `a` and the error mode `mode` in
the file system `fs` does what is in `trace` (events of the conversions, numbered, in the order in which they happen), prints
`stderr`, and exits with success if `exit`. What the operating system answers and how the parallel conversions are
interleaved is arbitrary.
-/

set_option autoImplicit false

namespace Mty
open Spec Cli

section
variable {parse : Parser} {fmt : Fmt} {fs : Fs} {a : ConvertArgs} {mode : ErrorMode}
  {trace : List (Nat × Ev)} {stderr : Str} {exit : Bool}

/-- A run is a failure of the plan or runs the conversions. -/
theorem main_cases (h : MainRun parse fmt fs a mode trace stderr exit) :
    (∃ e, plan fs a = .error e ∧ trace = [] ∧ exit = false ∧
      stderr = reporterRun fmt (.mode mode :: finalEvents (.error e))) ∨
    (∃ p resps result, plan fs a = .ok p ∧ TasksRun parse a.options (p.tasks a.options) resps trace result ∧
      stderr = reporterRun fmt (.mode mode :: reported trace ++ finalEvents result) ∧ (exit = true ↔ result = .ok true)) := by
  cases h with
  | failed h => exact .inl ⟨_, h, rfl, rfl, rfl⟩
  | @ran p resps _ result h1 h2 =>
    refine .inr ⟨p, resps, result, h1, h2, rfl, ?_⟩
    cases result with
    | error e => simp
    | ok b => simp

/-! ## C37 -/

/-- **C37.** The exit status is success if and only if the sources and destinations could be determined and each source
was read, converted without error, and the output written completely. -/
theorem C37_exit (h : MainRun parse fmt fs a mode trace stderr exit) :
    exit = true ↔ ∃ p, plan fs a = .ok p ∧ ∀ i t, (p.tasks a.options)[i]? = some t →
      ∃ src out evs, eventsOf i trace = .read t.src (.ok src) :: evs ∧
        convert parse src a.options.asConfig = .ok out ∧ Written out t.dest evs := by
  rcases main_cases h with ⟨e, hp, rfl, rfl, -⟩ | ⟨p, resps, result, hp, hr, -, he⟩
  · simp [hp]
  · rw [he, hp]
    constructor
    · rintro rfl
      refine ⟨p, rfl, fun i t ht => ?_⟩
      obtain ⟨resp, h1, h2⟩ := run_success hr ht
      have hev := run_started hr ht h1
      rcases convertOne_cases parse a.options t resp with ⟨m, _, h⟩ | ⟨src, out, evs, _, hc, hw, _, h⟩ |
        ⟨src, out, evs, m, _, _, _, _, _, h⟩ | ⟨src, e, evs, r, _, _, _, _, h, hne, _⟩
      · rw [h] at h2; cases h2
      · exact ⟨src, out, evs, by rw [hev, h], hc, hw⟩
      · rw [h] at h2; cases h2
      · rw [h] at h2; exact absurd h2 hne
    · rintro ⟨p', hp', hall⟩
      cases hp'
      by_contra hne
      obtain ⟨i, t, resp, h1, h2, h3⟩ := run_failure hr hne
      rw [← h3] at hne
      clear h3
      obtain ⟨src, out, evs, g1, g2, g3⟩ := hall i t h1
      rw [run_started hr h1 h2] at g1
      rcases convertOne_cases parse a.options t resp with ⟨m, _, h⟩ | ⟨src, out, evs, _, hc, hw, _, h⟩ |
        ⟨src', out', evs', m, _, hc, _, hw, _, h⟩ | ⟨src', e, evs, r, _, hc, _, _, h, _, _⟩
      · rw [h] at g1; simp at g1
      · rw [h] at hne; exact hne rfl
      · rw [h] at g1
        simp only [List.cons.injEq, Ev.read.injEq, true_and, Except.ok.injEq] at g1
        obtain ⟨rfl, rfl⟩ := g1
        rw [hc] at g2; cases g2
        exact hw g3
      · rw [h] at g1
        simp only [List.cons.injEq, Ev.read.injEq, true_and, Except.ok.injEq] at g1
        obtain ⟨rfl, _⟩ := g1
        rw [hc] at g2; cases g2

/-- **C37.** After success each destination file (unless several outputs go to the same file) contains exactly the
converted source, and the source was the contents of the source file during the run. -/
theorem C37_files (h : MainRun parse fmt fs a mode trace stderr true) {ident : Str → Nat} {w w' : World}
    (hw : Happens ident w trace w') :
    ∃ p, plan fs a = .ok p ∧ ∀ i t dest, (p.tasks a.options)[i]? = some t → t.dest = .file dest →
      (∀ j t' dest', (p.tasks a.options)[j]? = some t' → j ≠ i → t'.dest = .file dest' → ident dest' ≠ ident dest) →
      ∃ src out, (i, .read t.src (.ok src)) ∈ trace ∧ convert parse src a.options.asConfig = .ok out ∧
        w'.files (ident dest) = some out := by
  obtain ⟨p, hp, hall⟩ := (C37_exit h).mp rfl
  refine ⟨p, hp, fun i t dest ht hd hu => ?_⟩
  obtain ⟨src, out, evs, h1, h2, h3⟩ := hall i t ht
  refine ⟨src, out, mem_eventsOf.mpr (by rw [h1]; simp), h2, ?_⟩
  rcases main_cases h with ⟨e, hp', _, h, -⟩ | ⟨p', resps, result, hp', hr, -, he⟩
  · cases h
  rw [hp] at hp'; cases hp'
  rw [happens_file hw, fold_events (i := i), h1]
  · rw [List.foldl_cons]
    rw [hd] at h3
    exact fold_written h3 _
  · intro j ev hm hj c
    obtain ⟨t', resp, h1, h2, h3⟩ := run_mem hr hm
    rcases convertOne_mem _ _ _ _ ev h3 with ⟨r, rfl⟩ | ⟨e, rfl⟩ | hw
    · rfl
    · rfl
    · exact writeEv_other hw (fun q hq => hu j t' q h1 hj hq) c

/-! ## C38 -/

/-- **C38.** Without `--forgiving`, a conversion whose source has an error reads the source and reports the error, and
does nothing else: in particular it does not create, truncate or write any file. -/
theorem C38_failed (h : MainRun parse fmt fs a mode trace stderr exit) (hf : a.options.forgiving.getD false = false)
    {i : Nat} {s : StreamName} {src : Str} {e : ConvertError} (hr : (i, .read s (.ok src)) ∈ trace)
    (hc : convert parse src a.options.asConfig = .error e) :
    eventsOf i trace = [.read s (.ok src), .report s e] := by
  rcases main_cases h with ⟨e, hp', rfl, -, -⟩ | ⟨p', resps, result, hp', hrun, -, he⟩
  · cases hr
  obtain ⟨t, resp, h1, h2, h3⟩ := run_mem hrun hr
  rw [run_started hrun h1 h2]
  have read_not : ∀ dest, ¬WriteEv dest (.read s (.ok src)) := by
    intro dest hw
    cases dest with
    | stdio => obtain ⟨_, hw⟩ := hw; cases hw
    | file p => rcases hw with ⟨_, _, hw⟩ | hw | hw | ⟨_, _, hw⟩ <;> cases hw
  rcases convertOne_cases parse a.options t resp with ⟨m, _, h⟩ | ⟨src', out, evs, _, hc', _, hw, h⟩ |
    ⟨src', out, evs, m, _, hc', _, _, hw, h⟩ | ⟨src', e', evs, r, _, hc', hn, hw, h, _⟩
  · rw [h] at h3; simp at h3
  · rw [h] at h3
    rcases List.mem_cons.mp h3 with h3 | h3
    · cases h3; rw [hc] at hc'; cases hc'
    · exact absurd (hw _ h3) (read_not _)
  · rw [h] at h3
    rcases List.mem_cons.mp h3 with h3 | h3
    · cases h3; rw [hc] at hc'; cases hc'
    · exact absurd (hw _ h3) (read_not _)
  · rw [h] at h3 ⊢
    rcases List.mem_cons.mp h3 with h3 | h3
    · cases h3; rw [hc] at hc'; cases hc'
      rw [hn hf]
    · rcases List.mem_cons.mp h3 with h3 | h3
      · cases h3
      · exact absurd (hw _ h3) (read_not _)

/-- **C38.** Without `--forgiving`, every operation that changes files or directories is for the destination of a conversion
that has read its source before, and converted it without error. -/
theorem C38_changes (h : MainRun parse fmt fs a mode trace stderr exit) (hf : a.options.forgiving.getD false = false)
    {i : Nat} {ev : Ev} (hm : (i, ev) ∈ trace) (hch : ev.isChange = true) :
    ∃ p t dest src out rest, plan fs a = .ok p ∧ (p.tasks a.options)[i]? = some t ∧ t.dest = .file dest ∧
      eventsOf i trace = .read t.src (.ok src) :: rest ∧ ev ∈ rest ∧
      convert parse src a.options.asConfig = .ok out ∧ ChangeFor dest ev := by
  rcases main_cases h with ⟨e, hp', rfl, -, -⟩ | ⟨p, resps, result, hp, hrun, -, he⟩
  · cases hm
  obtain ⟨t, resp, h1, h2, h3⟩ := run_mem hrun hm
  have hev := run_started hrun h1 h2
  have hdest : WriteEv t.dest ev → ∃ dest, t.dest = .file dest ∧ ChangeFor dest ev := by
    intro hw
    cases hd : t.dest with
    | stdio =>
      rw [hd] at hw
      obtain ⟨x, rfl⟩ := hw
      simp [Ev.isChange] at hch
    | file q => rw [hd] at hw; exact ⟨q, rfl, hw⟩
  rcases convertOne_cases parse a.options t resp with ⟨m, _, h⟩ | ⟨src', out, evs, _, hc', _, hw, h⟩ |
    ⟨src', out, evs, m, _, hc', _, _, hw, h⟩ | ⟨src', e', evs, r, _, hc', hn, hw, h, _⟩
  · rw [h] at h3
    simp at h3; subst h3; simp [Ev.isChange] at hch
  · rw [h] at h3 hev
    rcases List.mem_cons.mp h3 with rfl | h3
    · simp [Ev.isChange] at hch
    · obtain ⟨dest, hd, hcf⟩ := hdest (hw _ h3)
      exact ⟨p, t, dest, src', out, evs, hp, h1, hd, hev, h3, hc', hcf⟩
  · rw [h] at h3 hev
    rcases List.mem_cons.mp h3 with rfl | h3
    · simp [Ev.isChange] at hch
    · obtain ⟨dest, hd, hcf⟩ := hdest (hw _ h3)
      exact ⟨p, t, dest, src', out, evs, hp, h1, hd, hev, h3, hc', hcf⟩
  · rw [h, hn hf] at h3
    simp at h3
    rcases h3 with rfl | rfl <;> simp [Ev.isChange] at hch

/-- **C38.** Without `--forgiving`, a file that has changed is the destination of a source that was converted without
error. -/
theorem C38_files (h : MainRun parse fmt fs a mode trace stderr exit) (hf : a.options.forgiving.getD false = false)
    {ident : Str → Nat} {w w' : World} (hw : Happens ident w trace w') {f : Nat} (hne : w'.files f ≠ w.files f) :
    ∃ p i t dest src out, plan fs a = .ok p ∧ (p.tasks a.options)[i]? = some t ∧ t.dest = .file dest ∧ ident dest = f ∧
      (i, .read t.src (.ok src)) ∈ trace ∧ convert parse src a.options.asConfig = .ok out := by
  rw [happens_file hw] at hne
  by_contra hcon
  refine hne (fold_nothing _ _ fun ev hev c => ?_)
  rw [List.mem_map] at hev
  obtain ⟨⟨i, ev⟩, hm, rfl⟩ := hev
  by_cases hch : ev.isChange = true
  · obtain ⟨p, t, dest, src, out, rest, h1, h2, h3, h4, h5, h6, h7⟩ := C38_changes h hf hm hch
    by_cases hd : ident dest = f
    · exact absurd ⟨p, i, t, dest, src, out, h1, h2, h3, hd, mem_eventsOf.mpr (by rw [h4]; simp), h6⟩ hcon
    · exact writeEv_other (dest := .file dest) h7 (by rintro q hq; cases hq; exact hd) c
  · cases ev <;> simp [Ev.isChange] at hch <;> rfl

/-! ## C41 -/

/-- **C41.** Whatever the events sent to the reporter, the errors are printed exactly once each and in the order received,
each in the mode in effect. -/
theorem C41_printed (fmt : Fmt) (evs : List ErrorEvent) (hc : .close ∉ evs) :
    reporterRun fmt (evs ++ [.close]) = printedEvents (fun m d => d.report fmt m) [] evs :=
  reporter_all fmt evs hc

/-- **C41.** With several senders, each event is received exactly once, and those of each sender in the order sent. -/
theorem C41_senders (senders : List (List ErrorEvent)) (evs : List ErrorEvent) (h : Interleaving senders evs) :
    evs.Perm senders.flatten ∧ ∀ s ∈ senders, s.Sublist evs := ⟨h.perm, h.sublist⟩

/-- **C41.** In silent mode nothing is printed, and hidden errors are not printed in any mode. -/
theorem C41_silent (fmt : Fmt) (d : ErrorEventData) : d.report fmt .silent = [] ∧
    (d.syntaxErrors = [] → d.semanticErrors = [] → (∀ e ∈ d.otherErrors, e.category = some .hidden) →
      ∀ m, d.report fmt m = []) := by
  constructor
  · simp [ErrorEventData.report, writeError]
  · intro h1 h2 h3 m
    rw [ErrorEventData.report, h1, h2]
    simp only [List.map_nil, List.flatten_nil, List.nil_append, List.flatten_eq_nil_iff, List.mem_map, forall_exists_index, and_imp]
    rintro _ e he rfl
    simp [writeError, otherEntry, h3 e he]

/-- **C41.** In the other modes one line (or, in the default mode, a text that ends with a line break) is printed for every error
that is not hidden. -/
theorem C41_visible (fmt : Fmt) (m : ErrorMode) (hm : m ≠ .silent) (entry : ErrorEntry) (hh : entry.category ≠ .hidden) :
    ∃ text, writeError fmt m entry = text ++ ['\n'] ∧ (m = .json → text = entry.toJson) ∧
      (m = .default → (entry.message.getD "unknown error".toList) <:+ text) := by
  rw [writeError.eq_def, if_neg hh]
  cases m with
  | silent => exact absurd rfl hm
  | json => exact ⟨_, rfl, fun _ => rfl, by simp⟩
  | default =>
    refine ⟨_, rfl, by simp, fun _ => ?_⟩
    cases entry.message <;> simp only [Option.getD_some, Option.getD_none] <;> exact List.suffix_append _ _

theorem report_text (fmt : Fmt) (mode : ErrorMode) (trace : List (Nat × Ev)) :
    (((reported trace).filterMap eventData).map (ErrorEventData.report fmt mode)).flatten =
      ((trace.flatMap fun p => entriesOf fmt.debug p.2).map (writeError fmt mode)).flatten := by
  induction trace with
  | nil => rfl
  | cons x rest ih =>
    obtain ⟨i, ev⟩ := x
    rw [List.flatMap_cons, List.map_append, List.flatten_append, ← ih]
    cases ev with
    | report s e =>
      have : reported ((i, Ev.report s e) :: rest) = conversionError s e :: reported rest := rfl
      rw [this]
      cases e with
      | «syntax» es src =>
        simp only [conversionError, List.filterMap_cons, eventData, List.map_cons, List.flatten_cons, ErrorEventData.report,
          List.map_nil, List.flatten_nil, List.append_nil, entriesOf, List.map_map]
        congr 2
      | semantic es src =>
        simp only [conversionError, List.filterMap_cons, eventData, List.map_cons, List.flatten_cons, ErrorEventData.report,
          List.map_nil, List.flatten_nil, List.append_nil, List.nil_append, entriesOf, List.map_map]
        congr 2
      | unknown => simp [conversionError, eventData, ErrorEventData.report, entriesOf]
    | _ => simp [reported, entriesOf]

/-- **C41.** The program prints, in the mode chosen, each error reported during the conversions in order, and then the error of
the command if there is one. -/
theorem C41_main (h : MainRun parse fmt fs a mode trace stderr exit) :
    ∃ last : List CliError, last.length ≤ 1 ∧ (exit = true → last = []) ∧
      stderr = (((trace.flatMap fun (p : Nat × Ev) => entriesOf fmt.debug p.2) ++
        last.map fun e : CliError => (⟨e.category.getD .internal, e.source, none, none, some e.message⟩ : ErrorEntry)).map
          (writeError fmt mode)).flatten := by
  have other : ∀ e, ErrorEventData.report fmt mode { otherErrors := [e] } =
      writeError fmt mode ⟨e.category.getD .internal, e.source, none, none, some e.message⟩ := by
    intro e
    simp [ErrorEventData.report, otherEntry]
  rcases main_cases h with ⟨e, hp', rfl, rfl, rfl⟩ | ⟨p', resps, result, hp', hr, rfl, he⟩
  · refine ⟨[e], by simp, by simp, ?_⟩
    have h1 : reporterRun fmt (.mode mode :: finalEvents (.error e)) = _ := main_prints fmt mode [] (.error e)
    rw [h1]
    simp [reported, otherError, eventData, other]
  · rw [main_prints, List.filterMap_append, List.map_append, List.flatten_append, report_text]
    cases result with
    | ok b =>
      refine ⟨[], by simp, by simp, ?_⟩
      simp
    | error e =>
      refine ⟨[e], by simp, ?_, ?_⟩
      · intro hx; rw [he] at hx; cases hx
      · simp [otherError, eventData, other]

/-! ## C42 -/

/-- The errors of the plan are not hidden. -/
theorem searchDir_error {recursion : Nat} {base rel : Str} {out : List Loc} {e : CliError}
    (h : searchDir fs recursion base rel out = .error e) : e.category = none := by
  rw [searchDir] at h
  split at h <;> cases h
  rfl

theorem forPath_error {p : Str} {e : CliError} (h : PathType.forPath fs p = .error e) : e.category = none := by
  rw [PathType.forPath] at h
  split at h <;> cases h
  rfl

theorem sourceFiles_error {recursion : Nat} {dir : Option Str} {files : List Str} {out : List Loc} {e : CliError}
    (h : sourceFiles fs recursion dir files out = .error e) : e.category ≠ some .hidden := by
  induction files generalizing out with
  | nil => cases h
  | cons f rest ih =>
    rw [sourceFiles] at h
    split at h
    · cases h; simp
    · cases h; simp [argumentError]
    · split at h
      · split at h
        · cases h
          rename_i h'
          rw [searchDir_error h']; simp
        · exact ih h
      · exact ih h

theorem planOf_error {s : SourceType} {d : DestinationType} {e : CliError} (h : planOf fs a s d = .error e) :
    e.category ≠ some .hidden := by
  have many : ∀ {b r o}, searchMany fs a b r o = .error e → e.category ≠ some .hidden := by
    intro b r o h
    rw [searchMany] at h
    split at h
    · cases h
      rename_i h'
      rw [searchDir_error h']; simp
    · cases h
  rw [planOf.eq_def] at h
  split at h
  all_goals first
    | (cases h; done)
    | (cases h; simp [argumentError]; done)
    | exact many h
    | (split at h
       · first
         | (cases h; done)
         | (cases h; simp [argumentError]; done)
         | exact many h
       · first
         | (cases h; done)
         | (cases h; simp [argumentError]; done)
         | exact many h)

theorem plan_error {e : CliError} (h : plan fs a = .error e) : e.category ≠ some .hidden := by
  rw [plan] at h
  split at h
  · rename_i h'
    cases h
    rw [srcType.eq_def] at h'
    split at h'
    · cases h'
    · split at h' <;> split at h' <;> cases h'
      · rename_i h2; rw [forPath_error h2]; simp
      · rename_i h2; exact sourceFiles_error h2
      · rename_i h2; rw [searchDir_error h2]; simp
      · rename_i h2; rw [searchDir_error h2]; simp
  · split at h
    · rename_i h'
      cases h
      rw [destType] at h'
      split at h'
      · cases h'
      · split at h'
        · split at h' <;> cases h'
          rename_i h2; rw [forPath_error h2]; simp
        · cases h'
    · exact planOf_error h

/-- **C42.** A source with an error is always sent to the reporter. -/
theorem C42_reported (h : MainRun parse fmt fs a mode trace stderr exit) {i : Nat} {s : StreamName} {src : Str} {e : ConvertError}
    (hr : (i, .read s (.ok src)) ∈ trace) (hc : convert parse src a.options.asConfig = .error e) :
    (i, .report s e) ∈ trace := by
  rcases main_cases h with ⟨e, hp', rfl, -, -⟩ | ⟨p', resps, result, hp', hrun, -, he⟩
  · cases hr
  obtain ⟨t, resp, h1, h2, h3⟩ := run_mem hrun hr
  rw [mem_eventsOf, run_started hrun h1 h2]
  have read_not : ∀ dest, ¬WriteEv dest (.read s (.ok src)) := by
    intro dest hw
    cases dest with
    | stdio => obtain ⟨_, hw⟩ := hw; cases hw
    | file p => rcases hw with ⟨_, _, hw⟩ | hw | hw | ⟨_, _, hw⟩ <;> cases hw
  rcases convertOne_cases parse a.options t resp with ⟨m, _, h⟩ | ⟨src', out, evs, _, hc', _, hw, h⟩ |
    ⟨src', out, evs, m, _, hc', _, _, hw, h⟩ | ⟨src', e', evs, r, _, hc', hn, hw, h, _⟩
  · rw [h] at h3; simp at h3
  · rw [h] at h3
    rcases List.mem_cons.mp h3 with h3 | h3
    · cases h3; rw [hc] at hc'; cases hc'
    · exact absurd (hw _ h3) (read_not _)
  · rw [h] at h3
    rcases List.mem_cons.mp h3 with h3 | h3
    · cases h3; rw [hc] at hc'; cases hc'
    · exact absurd (hw _ h3) (read_not _)
  · rw [h] at h3 ⊢
    rcases List.mem_cons.mp h3 with h3 | h3
    · cases h3; rw [hc] at hc'; cases hc'
      simp
    · rcases List.mem_cons.mp h3 with h3 | h3
      · cases h3
      · exact absurd (hw _ h3) (read_not _)

theorem writeError_ne (hm : mode ≠ .silent) {entry : ErrorEntry} (hh : entry.category ≠ .hidden) : writeError fmt mode entry ≠ [] := by
  obtain ⟨text, h, -⟩ := C41_visible fmt mode hm entry hh
  rw [h]; simp

/-- **C42** except for the error `Unknown` (missing: see `C42_silent`). If a source has an error other than `Unknown`, then
(unless the mode is silent) an error is printed that names the source and says what is wrong. -/
theorem C42_printed_partial (h : MainRun parse fmt fs a mode trace stderr exit) (hm : mode ≠ .silent)
    {i : Nat} {s : StreamName} {src : Str} {e : ConvertError} (hr : (i, .read s (.ok src)) ∈ trace)
    (hc : convert parse src a.options.asConfig = .error e) (hu : e ≠ .unknown) :
    ∃ entry : ErrorEntry, entry.category = .syntax ∧ entry.sourceName = some s ∧ entry.message.isSome ∧
      writeError fmt mode entry ≠ [] ∧ writeError fmt mode entry <:+: stderr := by
  have hrep := C42_reported h hr hc
  obtain ⟨last, -, -, rfl⟩ := C41_main h
  obtain ⟨es, hne, he⟩ : ∃ es, es ≠ [] ∧ e = .syntax es src := by
    rcases C08_error_cases parse src _ e hc with ⟨pe, _, he⟩ | ⟨_, es, _, _, hne, he⟩ | ⟨_, _, _, he⟩
    · exact ⟨_, by simp, he⟩
    · exact ⟨es, hne, he⟩
    · exact absurd he hu
  subst he
  obtain ⟨x, xs, rfl⟩ := List.exists_cons_of_ne_nil hne
  obtain ⟨pre, post, rfl⟩ := List.append_of_mem hrep
  refine ⟨⟨.syntax, some s, some (x.range.start, x.range.stop), expectedOf x.kind,
    some (SyntaxError.displayWithSrc fmt.debug src x)⟩, rfl, rfl, rfl, writeError_ne hm (by simp), ?_⟩
  simp only [List.flatMap_append, List.flatMap_cons, entriesOf, List.map_cons, List.map_append, List.flatten_append,
    List.flatten_cons, List.append_assoc, List.cons_append]
  exact ⟨_, _, by rw [List.append_assoc]⟩

/-- **C42** except for the error `Unknown` (missing: see `C42_silent`). If the exit status is failure, something is printed
unless the mode is silent. -/
theorem C42_failure_partial (h : MainRun parse fmt fs a mode trace stderr false) (hm : mode ≠ .silent)
    (hu : ∀ i s, (i, .report s .unknown) ∉ trace) : stderr ≠ [] := by
  have key : ∀ {i s src e}, (i, .read s (.ok src)) ∈ trace → convert parse src a.options.asConfig = .error e →
      stderr ≠ [] := by
    intro i s src e hr hc
    obtain ⟨entry, -, -, -, hne, pre, post, hi⟩ := C42_printed_partial h hm hr hc (by
      rintro rfl
      exact hu i s (C42_reported h hr hc))
    rw [← hi]
    simp [hne]
  have final : ∀ e : CliError, e.category ≠ some .hidden → ∀ tr : List (Nat × Ev),
      reporterRun fmt (.mode mode :: reported tr ++ finalEvents (.error e)) ≠ [] := by
    intro e he tr
    rw [main_prints]
    simp only [List.filterMap_append, List.map_append, List.flatten_append, ne_eq, List.append_eq_nil_iff, not_and]
    intro _
    simp only [otherError, List.filterMap_cons, eventData, List.filterMap_nil, List.map_cons, List.map_nil, List.flatten_cons,
      List.flatten_nil, List.append_nil, ErrorEventData.report, List.nil_append]
    refine writeError_ne hm ?_
    rw [otherEntry]
    cases hcat : e.category with
    | none => simp
    | some c => rw [hcat] at he; simpa using he
  rcases main_cases h with ⟨e, hp', rfl, -, rfl⟩ | ⟨p', resps, result, hp', hrun, hst, he⟩
  · exact final e (plan_error hp') []
  · have hne : result ≠ .ok true := fun hx => by rw [← he] at hx; cases hx
    obtain ⟨i, t, resp, h1, h2, h3⟩ := run_failure hrun hne
    have hev := run_started hrun h1 h2
    rcases convertOne_cases parse a.options t resp with ⟨m, _, h⟩ | ⟨src', out, evs, _, hc', _, hw, h⟩ |
      ⟨src', out, evs, m, _, hc', _, _, hw, h⟩ | ⟨src', e', evs, r, _, hc', hn, hw, h, _⟩
    · rw [h] at h3
      rw [hst, ← h3]
      exact final _ (by simp) _
    · rw [h] at h3; exact absurd h3.symm hne
    · rw [h] at h3
      rw [hst, ← h3]
      exact final _ (by simp) _
    · rw [h] at hev
      exact key (i := i) (s := t.src) (mem_eventsOf.mpr (by rw [hev]; simp)) hc'

/-- **C42.** If the exit status is success, nothing is printed to stderr. -/
theorem C42_success (h : MainRun parse fmt fs a mode trace stderr true) : stderr = [] := by
  obtain ⟨last, -, hl, rfl⟩ := C41_main h
  obtain ⟨p, hp, hall⟩ := (C37_exit h).mp rfl
  rw [hl rfl]
  have : (trace.flatMap fun (p : Nat × Ev) => entriesOf fmt.debug p.2) = [] := by
    rw [List.flatMap_eq_nil_iff]
    rintro ⟨i, ev⟩ hm
    rcases main_cases h with ⟨e, hp', _, h, -⟩ | ⟨p', resps, result, hp', hr, -, he⟩
    · cases h
    rw [hp] at hp'; cases hp'
    obtain ⟨t, resp, h1, h2, h3⟩ := run_mem hr hm
    obtain ⟨src, out, evs, g1, g2, g3⟩ := hall i t h1
    rw [mem_eventsOf, g1] at hm
    rcases List.mem_cons.mp hm with rfl | hm
    · rfl
    · generalize t.dest = dest at g3
      rcases g3 with g3 | ⟨hd, g3⟩
      · obtain ⟨_, _, rfl⟩ := chunks_mem g3 ev hm
        rfl
      · simp only [List.mem_append, List.mem_cons] at hm
        rcases hm with hm | rfl | rfl | hm
        · obtain ⟨_, rfl⟩ := hd ev hm; rfl
        · rfl
        · rfl
        · obtain ⟨_, _, rfl⟩ := chunks_mem g3 ev hm; rfl
  rw [this]
  rfl

end

/-! ## Example

Two files `a.mty` and `b.mty`: the first one is converted (written in two parts), the second one has errors. -/

namespace ExRun

/-- A parser that knows two sources. -/
def parse : Parser := fun s => if s = Ex.src1 then .ok Ex.ast1 else if s = Ex.src2 then .ok Ex.ast2 else .ok Ex.ast3

/-- Files `a.mty`, `b.mty`. -/
def fs : Fs := ⟨fun p => .ok (if p = "a.mty".toList ∨ p = "b.mty".toList then some ⟨true, false⟩ else none),
  fun _ => .error "Not a directory".toList⟩

def fmt : Fmt := ⟨id⟩

def args : ConvertArgs := { srcFiles := some ["a.mty".toList, "b.mty".toList], options := { fragment := true } }

/-- The answers of the operating system. -/
def resps : List (Option IoResp) :=
  [some { read := .ok Ex.src1, writes := [.ok 3] }, some { read := .ok Ex.src2 }]

/-- The second source is read while the first output is being written. -/
def trace : List (Nat × Ev) :=
  [(0, .read (.file "a.mty".toList) (.ok Ex.src1)), (0, .createDirs []), (0, .open_ "a.html".toList),
   (1, .read (.file "b.mty".toList) (.ok Ex.src2)), (0, .truncate "a.html".toList),
   (0, .write "a.html".toList 0 "<p>".toList),
   (1, .report (.file "b.mty".toList) (.syntax [⟨⟨3, 4⟩, .unclosed .block⟩, ⟨⟨8, 10⟩, .invalidEscape⟩] Ex.src2)),
   (0, .write "a.html".toList 3 "a <b>c</b></p>".toList)]

deriving instance DecidableEq for Ev

theorem first {α : Type} {a : α} {l rest : List α} {ls : List (List α)} (h : Interleaving (l :: ls) rest) :
    Interleaving ((a :: l) :: ls) (a :: rest) := .next (pre := []) h

theorem second {α : Type} {a : α} {l0 l rest : List α} {ls : List (List α)} (h : Interleaving (l0 :: l :: ls) rest) :
    Interleaving (l0 :: (a :: l) :: ls) (a :: rest) := .next (pre := [l0]) h

def plan1 : Plan := .many [⟨[], "a.mty".toList⟩, ⟨[], "b.mty".toList⟩] none

set_option maxRecDepth 20000 in
theorem mixed : MainRun parse fmt fs args .default trace
    ("Syntax error: b.mty: at position 3..<4: Unclosed delimiter {\n".toList ++
      "Syntax error: b.mty: at position 8..<10: Invalid escape sequence \\q.\n".toList) false := by
  have h : MainRun parse fmt fs args .default trace
      (reporterRun fmt (.mode .default :: reported trace ++ finalEvents (.ok false))) false := by
    refine .ran (p := plan1) (resps := resps) (result := .ok false) (by decide +kernel) ⟨by decide +kernel, ?_, ?_⟩
    · have : ((plan1.tasks args.options).zip resps).zipIdx.map (localEvents parse args.options) =
          [trace.filter (·.1 = 0), trace.filter (·.1 = 1)] := by decide +kernel
      show Interleaving (((plan1.tasks args.options).zip resps).zipIdx.map (localEvents parse args.options)) trace
      rw [this]
      exact first (first (first (second (first (first (second (first (.nil (by decide +kernel)))))))))
    · have : ((plan1.tasks args.options).zip resps).map (fun p => p.2.map fun resp => (convertOne parse args.options p.1 resp).2) =
          [true, false].map fun b => some (.ok b) := by decide +kernel
      rw [this]
      exact .ok [true, false]
  have : reporterRun fmt (.mode .default :: reported trace ++ finalEvents (.ok false)) =
      "Syntax error: b.mty: at position 3..<4: Unclosed delimiter {\n".toList ++
        "Syntax error: b.mty: at position 8..<10: Invalid escape sequence \\q.\n".toList := by decide +kernel
  rwa [this] at h

/-- The same with the first file only. -/
def args1 : ConvertArgs := { args with srcFiles := some ["a.mty".toList] }

set_option maxRecDepth 20000 in
theorem single : MainRun parse fmt fs args1 .default (trace.filter (·.1 = 0)) [] true := by
  have h : MainRun parse fmt fs args1 .default (trace.filter (·.1 = 0))
      (reporterRun fmt (.mode .default :: reported (trace.filter (·.1 = 0)) ++ finalEvents (.ok true))) true := by
    refine .ran (p := .many [⟨[], "a.mty".toList⟩] none) (resps := [some { read := .ok Ex.src1, writes := [.ok 3] }])
      (result := .ok true) (by decide +kernel) ⟨by decide +kernel, ?_, ?_⟩
    · have : (((Plan.many [⟨[], "a.mty".toList⟩] none).tasks args1.options).zip
          [some { read := .ok Ex.src1, writes := [.ok 3] }]).zipIdx.map (localEvents parse args1.options) =
          [trace.filter (·.1 = 0)] := by decide +kernel
      show Interleaving ((((Plan.many [⟨[], "a.mty".toList⟩] none).tasks args1.options).zip
          [some { read := .ok Ex.src1, writes := [.ok 3] }]).zipIdx.map (localEvents parse args1.options)) _
      rw [this]
      exact first (first (first (first (first (first (.nil (by decide +kernel)))))))
    · have : (((Plan.many [⟨[], "a.mty".toList⟩] none).tasks args1.options).zip
          [some { read := .ok Ex.src1, writes := [.ok 3] }]).map
          (fun p => p.2.map fun resp => (convertOne parse args1.options p.1 resp).2) =
          [true].map fun b => some (.ok b) := by decide +kernel
      rw [this]
      exact .ok [true]
  have : reporterRun fmt (.mode .default :: reported (trace.filter (·.1 = 0)) ++ finalEvents (.ok true)) = [] := by decide +kernel
  rwa [this] at h

/-- Paths denote different files. -/
def ident (p : Str) : Nat := p.foldl (fun n c => n * 1114112 + c.toNat) 0

/-- The files before. -/
def before : World := ⟨fun f => if f = ident "a.mty".toList then some Ex.src1 else if f = ident "b.mty".toList then some Ex.src2
  else if f = ident "a.html".toList then some "an old version".toList else none⟩

set_option maxRecDepth 20000 in
theorem happens : ∃ w', Happens ident before trace w' ∧ w'.files (ident "a.html".toList) = some "<p>a <b>c</b></p>".toList ∧
    w'.files (ident "b.html".toList) = none := by
  refine ⟨_, .cons ?_ (.cons ?_ (.cons ?_ (.cons ?_ (.cons ?_ (.cons ?_ (.cons ?_ (.cons ?_ .nil))))))), by decide +kernel,
    by decide +kernel⟩
  all_goals intro p c h
  all_goals first
    | (cases h; done)
    | (cases h; decide +kernel)

set_option maxRecDepth 20000 in
theorem happensSingle : ∃ w', Happens ident before (trace.filter (·.1 = 0)) w' := by
  refine ⟨_, .cons ?_ (.cons ?_ (.cons ?_ (.cons ?_ (.cons ?_ (.cons ?_ .nil)))))⟩
  all_goals intro p c h
  all_goals first
    | (cases h; done)
    | (cases h; decide +kernel)

end ExRun

/-- C37_exit. -/
example : ∃ p, plan ExRun.fs ExRun.args1 = .ok p ∧ ∀ i t, (p.tasks ExRun.args1.options)[i]? = some t →
    ∃ src out evs, eventsOf i (ExRun.trace.filter (·.1 = 0)) = .read t.src (.ok src) :: evs ∧
      convert ExRun.parse src ExRun.args1.options.asConfig = .ok out ∧ Written out t.dest evs :=
  (C37_exit ExRun.single).1 rfl

/-- C37_files. -/
example : ∃ w' src out, Happens ExRun.ident ExRun.before (ExRun.trace.filter (·.1 = 0)) w' ∧
    convert ExRun.parse src ExRun.args1.options.asConfig = .ok out ∧ w'.files (ExRun.ident "a.html".toList) = some out := by
  obtain ⟨w', hw⟩ := ExRun.happensSingle
  obtain ⟨p, hp, h⟩ := C37_files ExRun.single hw
  have : p = .many [⟨[], "a.mty".toList⟩] none := by
    have h' : plan ExRun.fs ExRun.args1 = .ok (.many [⟨[], "a.mty".toList⟩] none) := by decide +kernel
    rw [hp] at h'; exact Except.ok.inj h'
  subst this
  obtain ⟨src, out, -, h2, h3⟩ := h 0 _ "a.html".toList rfl (by decide +kernel) (by
    intro j t' dest' hj hne _
    cases j with
    | zero => exact absurd rfl hne
    | succ j => cases hj)
  exact ⟨w', src, out, hw, h2, h3⟩

/-- C38_changes, for the operation that makes `a.html` empty. -/
example : ∃ p t dest src out rest, plan ExRun.fs ExRun.args = .ok p ∧ (p.tasks ExRun.args.options)[0]? = some t ∧ t.dest = .file dest ∧
    eventsOf 0 ExRun.trace = .read t.src (.ok src) :: rest ∧ .truncate "a.html".toList ∈ rest ∧
    convert ExRun.parse src ExRun.args.options.asConfig = .ok out ∧ ChangeFor dest (.truncate "a.html".toList) :=
  C38_changes ExRun.mixed rfl (by decide +kernel) rfl

/-- C38_files, for `a.html`. -/
example : ∃ p i t dest src out, plan ExRun.fs ExRun.args = .ok p ∧ (p.tasks ExRun.args.options)[i]? = some t ∧ t.dest = .file dest ∧
    ExRun.ident dest = ExRun.ident "a.html".toList ∧ (i, .read t.src (.ok src)) ∈ ExRun.trace ∧
    convert ExRun.parse src ExRun.args.options.asConfig = .ok out := by
  obtain ⟨w', hw, h, -⟩ := ExRun.happens
  refine C38_files ExRun.mixed rfl hw (f := ExRun.ident "a.html".toList) ?_
  have : ExRun.before.files (ExRun.ident "a.html".toList) = some "an old version".toList := by decide +kernel
  rw [h, this]
  decide +kernel

/-- C41_printed: the mode is chosen after the first error. -/
example : reporterRun ExRun.fmt ([.error { otherErrors := [⟨none, none, "first".toList⟩] }, .mode .json,
      .error { otherErrors := [⟨none, none, "second".toList⟩] }] ++ [.close]) =
    "{\"category\":\"internal\",\"message\":\"first\"}\n{\"category\":\"internal\",\"message\":\"second\"}\n".toList := by
  rw [C41_printed _ _ (by decide)]
  decide +kernel

/-- C41_senders: the two conversions of the example as senders. -/
example : ExRun.trace.Perm [ExRun.trace.filter (·.1 = 0), ExRun.trace.filter (·.1 = 1)].flatten ∧
    ∀ s ∈ [ExRun.trace.filter (·.1 = 0), ExRun.trace.filter (·.1 = 1)], s.Sublist ExRun.trace := by
  have h : Interleaving [ExRun.trace.filter (·.1 = 0), ExRun.trace.filter (·.1 = 1)] ExRun.trace := by
    show Interleaving [[(0, _), (0, _), (0, _), (0, _), (0, _), (0, _)], [(1, _), (1, _)]] [(0, _), _, _, _, _, _, _, _]
    exact ExRun.first (ExRun.first (ExRun.first (ExRun.second (ExRun.first (ExRun.first (ExRun.second (ExRun.first (.nil (by decide +kernel)))))))))
  exact ⟨h.perm, h.sublist⟩

/-- C41_visible. -/
example : ∃ text, writeError ExRun.fmt .json ⟨.internal, none, none, none, some "no such file".toList⟩ = text ++ ['\n'] ∧
    (ErrorMode.json = .json → text = ErrorEntry.toJson ⟨.internal, none, none, none, some "no such file".toList⟩) ∧ (ErrorMode.json = .default → "no such file".toList <:+ text) :=
  C41_visible ExRun.fmt .json (by decide) ⟨.internal, none, none, none, some "no such file".toList⟩ (by decide)

/-- C42_reported, C42_printed_partial, for `b.mty`; C42_failure_partial. -/
example : (1, .report (.file "b.mty".toList) (.syntax [⟨⟨3, 4⟩, .unclosed .block⟩, ⟨⟨8, 10⟩, .invalidEscape⟩] Ex.src2)) ∈ ExRun.trace :=
  C42_reported ExRun.mixed (s := .file "b.mty".toList) (src := Ex.src2) (by decide +kernel) (by decide +kernel)

set_option maxRecDepth 20000 in
example : ∃ entry : ErrorEntry, entry.category = .syntax ∧ entry.sourceName = some (.file "b.mty".toList) ∧ entry.message.isSome ∧
    writeError ExRun.fmt .default entry ≠ [] ∧ writeError ExRun.fmt .default entry <:+:
      ("Syntax error: b.mty: at position 3..<4: Unclosed delimiter {\n".toList ++
      "Syntax error: b.mty: at position 8..<10: Invalid escape sequence \\q.\n".toList) :=
  C42_printed_partial ExRun.mixed (by decide) (i := 1) (s := .file "b.mty".toList) (src := Ex.src2)
    (e := .syntax [⟨⟨3, 4⟩, .unclosed .block⟩, ⟨⟨8, 10⟩, .invalidEscape⟩] Ex.src2) (by decide +kernel) (by decide +kernel) (by simp)

set_option maxRecDepth 20000 in
example : ("Syntax error: b.mty: at position 3..<4: Unclosed delimiter {\n".toList ++
    "Syntax error: b.mty: at position 8..<10: Invalid escape sequence \\q.\n".toList) ≠ [] :=
  C42_failure_partial ExRun.mixed (by decide) (by simp [ExRun.trace])

/-- C42_success. -/
example : ([] : Str) = [] := C42_success ExRun.single

/-- C37, C38, C41, C42: both sources are read; the first one is converted, and its events are the only changes; `b.html`
is not created. -/
example : (∃ stderr, MainRun ExRun.parse ExRun.fmt ExRun.fs ExRun.args .default ExRun.trace stderr false) ∧
    eventsOf 1 ExRun.trace = [.read (.file "b.mty".toList) (.ok Ex.src2),
      .report (.file "b.mty".toList) (.syntax [⟨⟨3, 4⟩, .unclosed .block⟩, ⟨⟨8, 10⟩, .invalidEscape⟩] Ex.src2)] :=
  ⟨⟨_, ExRun.mixed⟩, C38_failed ExRun.mixed rfl (by decide +kernel) (by decide +kernel)⟩

/-- **C42** does not hold for all errors: this conversion fails (the source has an invalid escape in an attribute), the
exit status is failure, and nothing is printed. -/
theorem C42_silent : ∃ args trace, MainRun ExRun.parse ExRun.fmt ExRun.fs args .default trace [] false ∧
    (0, .read (.file "a.mty".toList) (.ok Ex.src3)) ∈ trace := by
  have h : MainRun ExRun.parse ExRun.fmt ExRun.fs ExRun.args1 .default
      [(0, .read (.file "a.mty".toList) (.ok Ex.src3)), (0, .report (.file "a.mty".toList) .unknown)]
      (reporterRun ExRun.fmt (.mode .default :: reported [(0, .read (.file "a.mty".toList) (.ok Ex.src3)),
        (0, .report (.file "a.mty".toList) .unknown)] ++ finalEvents (.ok false))) false := by
    refine .ran (p := .many [⟨[], "a.mty".toList⟩] none) (resps := [some { read := .ok Ex.src3 }])
      (result := .ok false) (by decide +kernel) ⟨by decide +kernel, ?_, ?_⟩
    · have : (((Plan.many [⟨[], "a.mty".toList⟩] none).tasks ExRun.args1.options).zip
          [some { read := .ok Ex.src3 }]).zipIdx.map (localEvents ExRun.parse ExRun.args1.options) =
          [[(0, .read (.file "a.mty".toList) (.ok Ex.src3)), (0, .report (.file "a.mty".toList) .unknown)]] := by decide +kernel
      show Interleaving ((((Plan.many [⟨[], "a.mty".toList⟩] none).tasks ExRun.args1.options).zip
          [some { read := .ok Ex.src3 }]).zipIdx.map (localEvents ExRun.parse ExRun.args1.options)) _
      rw [this]
      exact ExRun.first (ExRun.first (.nil (by decide +kernel)))
    · have : (((Plan.many [⟨[], "a.mty".toList⟩] none).tasks ExRun.args1.options).zip
          [some { read := .ok Ex.src3 }]).map
          (fun p => p.2.map fun resp => (convertOne ExRun.parse ExRun.args1.options p.1 resp).2) =
          [false].map fun b => some (.ok b) := by decide +kernel
      rw [this]
      exact .ok [false]
  have hr : reporterRun ExRun.fmt (.mode .default :: reported [(0, .read (.file "a.mty".toList) (.ok Ex.src3)),
        (0, .report (.file "a.mty".toList) .unknown)] ++ finalEvents (.ok false)) = [] := by decide +kernel
  rw [hr] at h
  exact ⟨_, _, h, by simp⟩

/-! ## C43 -/

theorem setSpecialTag_fold (l : List (SpecialTag × Str)) (t : SpecialTagConfig) :
    l.foldl setSpecialTag t = {
      emphasis := (lastGiven .emphasis l).or t.emphasis
      strong := (lastGiven .strong l).or t.strong
      underline := (lastGiven .underline l).or t.underline
      strike := (lastGiven .strike l).or t.strike
      quote := (lastGiven .quote l).or t.quote
      code := (lastGiven .code l).or t.code
      codeBlockContainer := (lastGiven .codeBlockContainer l).or t.codeBlockContainer } := by
  induction l generalizing t with
  | nil => simp [lastGiven]
  | cons kv l ih =>
    have hcons : ∀ k, lastGiven k (kv :: l) = (lastGiven k l).or (if kv.1 = k then some kv.2 else none) := by
      intro k
      rw [lastGiven, List.filter_cons]
      by_cases hk : kv.1 = k
      · simp only [hk, decide_true, if_true, List.map_cons]
        rw [lastGiven, List.getLast?_cons]
        cases (List.map (·.2) (List.filter (fun x => decide (x.1 = k)) l)).getLast? <;> simp
      · simp [hk, lastGiven]
    rw [List.foldl_cons, ih]
    simp only [hcons]
    obtain ⟨k, v⟩ := kv
    cases k <;> simp [setSpecialTag]

/-- **C43.** Each option has the effect stated on the configuration of the conversion. Metadata is requested with
`--metadata`, or with `--metadata-elements` unless `--metadata=false`. -/
theorem C43_options (o : ConvertOptions) :
    (o.asConfig.xml = some o.xml) ∧
    (o.asConfig.completePage = some (match o.completePage with
      | some c => c
      | none => !o.fragment)) ∧
    (o.pretty = false → o.asConfig.indent = none) ∧
    (o.pretty = true → ∃ s : Str, o.asConfig.indent = some s ∧ s.length = o.indent ∧ ∀ c ∈ s, c = ' ') ∧
    (o.asConfig.specialTags = {
      emphasis := lastGiven .emphasis o.specialTag
      strong := lastGiven .strong o.specialTag
      underline := lastGiven .underline o.specialTag
      strike := lastGiven .strike o.specialTag
      quote := lastGiven .quote o.specialTag
      code := lastGiven .code o.specialTag
      codeBlockContainer := lastGiven .codeBlockContainer o.specialTag }) ∧
    (o.asConfig.metadata.isSome = true ↔ o.metadata = some true ∨ (o.metadata = none ∧ o.metadataElements.isSome = true)) ∧
    (∀ m, o.asConfig.metadata = some m → (m.elements = true ↔ o.metadataElements = some true)) ∧
    (o.asConfig.failFast.getD false = true ↔ o.failFast = some .true ∨ o.failFast = some .file) ∧
    o.asConfig.lang = none := by
  refine ⟨rfl, ?_, ?_, ?_, ?_, ?_, ?_, ?_, rfl⟩
  · simp only [ConvertOptions.asConfig]
    cases o.completePage <;> rfl
  · intro h; simp [ConvertOptions.asConfig, h]
  · intro h
    refine ⟨List.replicate o.indent ' ', by simp [ConvertOptions.asConfig, h], by simp, ?_⟩
    intro c hc
    exact List.eq_of_mem_replicate hc
  · simp only [ConvertOptions.asConfig]
    rw [setSpecialTag_fold]
    simp
  · simp only [ConvertOptions.asConfig]
    rcases o.metadata with _ | _ | _ <;> rcases o.metadataElements with _ | _ | _ <;> simp
  · simp only [ConvertOptions.asConfig]
    rcases o.metadata with _ | _ | _ <;> rcases o.metadataElements with _ | _ | _ <;> simp
  · simp only [ConvertOptions.asConfig]
    rcases o.failFast with _ | _ | _ | _ <;> simp

example : ConvertOptions.asConfig {
      pretty := true
      indent := 4
      specialTag := [(.code, "kbd".toList), (.strong, "b".toList), (.code, "tt".toList)]
      metadataElements := some false
      failFast := some .file } = {
      xml := some false
      completePage := some true
      indent := some "    ".toList
      specialTags := { strong := some "b".toList, code := some "tt".toList }
      metadata := some { elements := false }
      failFast := some true } := by decide +kernel

/-! ## C44 -/

theorem conjunctionLoop_rest (c : Str) (n : Nat) (a : Str) (l : List Str) :
    conjunctionLoop c (n + 2) (a :: l) = ", ".toList ++ sentenceList.commaList c (a :: l) := by
  induction l generalizing n a with
  | nil => simp [conjunctionLoop, sentenceList.commaList]
  | cons b l ih =>
    rw [conjunctionLoop.eq_def]
    simp only
    rw [ih, sentenceList.commaList.eq_def c (a :: b :: l)]
    simp

/-- **C44** for lists of one or of at least three items (missing: two items, see `C44_two_items`). -/
theorem C44_sentence_partial (l : List Str) (conjunction : Str) (h0 : l ≠ []) (h2 : l.length ≠ 2) :
    displayConjunctionList l conjunction = sentenceList conjunction l := by
  match l with
  | [] => exact absurd rfl h0
  | [a] => simp [displayConjunctionList, conjunctionLoop, sentenceList]
  | [a, b] => simp at h2
  | a :: b :: c :: l =>
    have h := conjunctionLoop_rest conjunction 0 c l
    rw [displayConjunctionList.eq_def]
    simp only
    rw [conjunctionLoop.eq_def]
    simp only
    rw [conjunctionLoop.eq_def]
    simp only [Nat.zero_add]
    rw [h, sentenceList.eq_def]
    simp only
    rw [sentenceList.commaList.eq_def conjunction (b :: c :: l)]
    simp

example : displayConjunctionList ["text".toList, "element".toList, "space".toList] "or".toList =
    "text, element, or space".toList := by decide +kernel

/-- **C44** does not hold for two items: there is no space before the conjunction. -/
theorem C44_two_items : displayConjunctionList ["text".toList, "element".toList] "or".toList = "textor element".toList ∧
    sentenceList "or".toList ["text".toList, "element".toList] = "text or element".toList := by decide +kernel

/-- **C44.** What is printed for two items. -/
theorem C44_two (a b conjunction : Str) : displayConjunctionList [a, b] conjunction = a ++ conjunction ++ ' ' :: b := by
  simp [displayConjunctionList, conjunctionLoop]

end Mty
