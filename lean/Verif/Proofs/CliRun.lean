import Verif.Spec.CliRun
import Verif.Props.Convert

/-! # Runs of the command line -/

set_option autoImplicit false

namespace Mty.Cli
open Spec

/-! ## Interleavings -/

section
variable {α : Type}

theorem Interleaving.mem {ls : List (List α)} {l : List α} (h : Interleaving ls l) (a : α) :
    a ∈ l ↔ ∃ x ∈ ls, a ∈ x := by
  induction h with
  | nil h =>
    simp only [List.not_mem_nil, false_iff, not_exists, not_and]
    intro x hx; rw [h x hx]; simp
  | @next pre post b l rest _ ih =>
    simp only [List.mem_cons, ih, List.mem_append, or_and_right, exists_or, exists_eq_left]
    constructor
    · rintro (h | h | h | h)
      · exact .inr (.inl (.inl h))
      · exact .inl h
      · exact .inr (.inl (.inr h))
      · exact .inr (.inr h)
    · rintro (h | (h | h) | h)
      · exact .inr (.inl h)
      · exact .inl h
      · exact .inr (.inr (.inl h))
      · exact .inr (.inr (.inr h))

theorem Interleaving.perm {ls : List (List α)} {l : List α} (h : Interleaving ls l) : l.Perm ls.flatten := by
  induction h with
  | nil h =>
    have : ∀ ls : List (List α), (∀ l ∈ ls, l = []) → ls.flatten = [] := by
      intro ls
      induction ls with
      | nil => simp
      | cons x xs ih => intro h; simp [h x (by simp), ih fun l hl => h l (by simp [hl])]
    rw [this _ h]
  | @next pre post b l rest _ ih =>
    simp only [List.flatten_append, List.flatten_cons] at ih ⊢
    refine (ih.cons b).trans ?_
    rw [List.cons_append]
    exact List.perm_middle.symm

theorem Interleaving.sublist {ls : List (List α)} {l : List α} (h : Interleaving ls l) : ∀ x ∈ ls, x.Sublist l := by
  induction h with
  | nil h => intro x hx; rw [h x hx]
  | @next pre post b l rest _ ih =>
    intro x hx
    rw [List.mem_append, List.mem_cons] at hx
    rcases hx with hx | rfl | hx
    · exact (ih x (by simp [hx])).cons b
    · exact (ih l (by simp)).cons_cons b
    · exact (ih x (by simp [hx])).cons b

theorem Interleaving.filter {ls : List (List α)} {l : List α} (h : Interleaving ls l) (tag : α → Nat) (i : Nat)
    (ht : ∀ j x, ls[j]? = some x → ∀ a ∈ x, tag a = j) :
    l.filter (fun a => tag a = i) = (ls[i]?).getD [] := by
  induction h with
  | nil h =>
    rcases hi : (_ : List (List α))[i]? with _ | x
    · simp
    · rw [h x (List.mem_of_getElem? hi)]; simp
  | @next pre post b l rest _ ih =>
    have hb : tag b = pre.length := ht pre.length (b :: l) (by simp) b (by simp)
    have ih := ih (by
      intro j x hx a ha
      by_cases hj : j = pre.length
      · subst hj
        rw [List.getElem?_append_right (Nat.le_refl _)] at hx
        simp at hx; subst hx
        exact ht pre.length (b :: l) (by simp) a (by simp [ha])
      · refine ht j x ?_ a ha
        rw [← hx]
        by_cases hlt : j < pre.length
        · rw [List.getElem?_append_left hlt, List.getElem?_append_left hlt]
        · obtain ⟨k, rfl⟩ : ∃ k, j = pre.length + (k + 1) := ⟨j - pre.length - 1, by omega⟩
          rw [List.getElem?_append_right (by omega), List.getElem?_append_right (by omega)]
          simp)
    rw [List.filter_cons, ih, hb]
    by_cases hi : i = pre.length
    · subst hi
      simp
    · rw [if_neg (by simpa using fun e => hi e.symm)]
      by_cases hlt : i < pre.length
      · rw [List.getElem?_append_left hlt, List.getElem?_append_left hlt]
      · obtain ⟨k, rfl⟩ : ∃ k, i = pre.length + (k + 1) := ⟨i - pre.length - 1, by omega⟩
        rw [List.getElem?_append_right (by omega), List.getElem?_append_right (by omega)]
        simp

end

/-! ## One conversion -/

theorem writeAll_ok (emit : Nat → Str → Ev) (pos : Nat) (v : Str) (answers : List (Except Str Nat)) :
    (∃ evs, writeAll emit pos v answers = (evs, .ok ()) ∧ Chunks emit pos v evs) ∨
    (∃ evs m, writeAll emit pos v answers = (evs, .error m) ∧ (∀ ev ∈ evs, ∃ p c, ev = emit p c) ∧
      ((∃ m, .error m ∈ answers) ∨ .ok 0 ∈ answers)) := by
  induction answers generalizing pos v with
  | nil =>
    cases v with
    | nil => exact .inl ⟨[], by rw [writeAll], .done⟩
    | cons c v =>
      left
      refine ⟨_, by rw [writeAll]; simp, ?_⟩
      have := Chunks.chunk (emit := emit) (pos := pos) (c := c :: v) (v := []) (by simp) .done
      simpa using this
  | cons a answers ih =>
    cases v with
    | nil => exact .inl ⟨[], by rw [writeAll], .done⟩
    | cons c v =>
      cases a with
      | error m => exact .inr ⟨[], m, by rw [writeAll], by simp, .inl ⟨m, by simp⟩⟩
      | ok n =>
        rw [writeAll]
        by_cases hn : n = 0
        · rw [if_pos hn]
          exact .inr ⟨[], _, rfl, by simp, .inr (by simp [hn])⟩
        · rw [if_neg hn]
          rcases ih (pos + ((c :: v).take n).length) ((c :: v).drop n) with ⟨evs, h1, h2⟩ | ⟨evs, m, h1, h2, h3⟩
          · left
            rw [h1]
            refine ⟨_, rfl, ?_⟩
            conv => arg 3; rw [← List.take_append_drop n (c :: v)]
            refine .chunk ?_ h2
            cases n with
            | zero => exact absurd rfl hn
            | succ n => simp
          · right
            rw [h1]
            refine ⟨_, m, rfl, ?_, ?_⟩
            · intro ev hev
              rcases List.mem_cons.mp hev with rfl | hev
              · exact ⟨_, _, rfl⟩
              · exact h2 ev hev
            · rcases h3 with ⟨m, h3⟩ | h3
              · exact .inl ⟨m, by simp [h3]⟩
              · exact .inr (by simp [h3])

theorem chunks_mem {emit : Nat → Str → Ev} {pos : Nat} {v : Str} {evs : List Ev} (h : Chunks emit pos v evs) :
    ∀ ev ∈ evs, ∃ p c, ev = emit p c := by
  induction h with
  | done => simp
  | chunk _ _ ih =>
    intro ev hev
    rcases List.mem_cons.mp hev with rfl | hev
    · exact ⟨_, _, rfl⟩
    · exact ih ev hev

/-- Not everything is written if writing fails. -/
theorem writeAll_error (emit : Nat → Str → Ev) (inj : ∀ p c p' c', emit p c = emit p' c' → c = c') (pos : Nat) (v : Str)
    (answers : List (Except Str Nat)) {evs : List Ev} {m : Str} (h : writeAll emit pos v answers = (evs, .error m)) :
    ¬Chunks emit pos v evs := by
  induction answers generalizing pos v evs with
  | nil => cases v <;> simp [writeAll] at h
  | cons a answers ih =>
    cases v with
    | nil => simp [writeAll] at h
    | cons c v =>
      cases a with
      | error m' =>
        rw [writeAll] at h
        simp only [Prod.mk.injEq] at h
        obtain ⟨rfl, _⟩ := h
        intro hc; generalize hv : c :: v = w at hc; cases hc; cases hv
      | ok n =>
        rw [writeAll] at h
        by_cases hn : n = 0
        · rw [if_pos hn] at h
          simp only [Prod.mk.injEq] at h
          obtain ⟨rfl, _⟩ := h
          intro hc; generalize hv : c :: v = w at hc; cases hc; cases hv
        · rw [if_neg hn] at h
          rcases hw : writeAll emit (pos + ((c :: v).take n).length) ((c :: v).drop n) answers with ⟨evs', r⟩
          rw [hw] at h
          simp only [Prod.mk.injEq] at h
          obtain ⟨rfl, rfl⟩ := h
          intro hc
          generalize hv : c :: v = w at hc hw
          generalize he : emit pos (w.take n) = ev at hc
          cases hc with
          | @chunk _ c' v' _ _ hc =>
            have := inj _ _ _ _ he
            have hd : (c' ++ v').drop n = v' := by
              have h2 := List.take_append_drop n (c' ++ v')
              rw [this] at h2
              exact List.append_cancel_left h2
            rw [this, hd] at hw
            exact ih _ _ hw hc

/-- Events of a write. -/
def WriteEv (dest : StreamName) (ev : Ev) : Prop :=
  match dest with
  | .stdio => ∃ s, ev = .print s
  | .file p => ChangeFor p ev

theorem dirs_unique {p : Str} {dirs dirs' evs evs' : List Ev} (hd : ∀ ev ∈ dirs, ∃ d, ev = .createDirs d)
    (hd' : ∀ ev ∈ dirs', ∃ d, ev = .createDirs d)
    (h : dirs ++ .open_ p :: .truncate p :: evs = dirs' ++ .open_ p :: .truncate p :: evs') : evs' = evs := by
  induction dirs generalizing dirs' with
  | nil =>
    cases dirs' with
    | nil => simpa using h.symm
    | cons x xs =>
      obtain ⟨d, rfl⟩ := hd' x (by simp)
      simp at h
  | cons y ys ih =>
    cases dirs' with
    | nil =>
      obtain ⟨d, rfl⟩ := hd y (by simp)
      simp at h
    | cons x xs =>
      simp only [List.cons_append, List.cons.injEq] at h
      exact ih (fun ev hev => hd ev (by simp [hev])) (fun ev hev => hd' ev (by simp [hev])) h.2

theorem ioWrite_cases (dest : StreamName) (value : Str) (resp : IoResp) :
    (∀ ev ∈ (ioWrite dest value resp).1, WriteEv dest ev) ∧
    (((ioWrite dest value resp).2 = .ok () ∧ Written value dest (ioWrite dest value resp).1) ∨
     ((∃ m, (ioWrite dest value resp).2 = .error m) ∧ WriteFails resp ∧ ¬Written value dest (ioWrite dest value resp).1)) := by
  cases dest with
  | stdio =>
    rw [ioWrite]
    rcases writeAll_ok (fun _ s => .print s) 0 value resp.writes with ⟨evs, h1, h2⟩ | ⟨evs, m, h1, h2, h3⟩
    · rw [h1]
      refine ⟨fun ev hev => ?_, .inl ⟨rfl, .stdout h2⟩⟩
      obtain ⟨_, c, rfl⟩ := chunks_mem h2 ev hev
      exact ⟨c, rfl⟩
    · rw [h1]
      refine ⟨fun ev hev => ?_, .inr ⟨⟨m, rfl⟩, ?_⟩⟩
      · obtain ⟨_, c, rfl⟩ := h2 ev hev
        exact ⟨c, rfl⟩
      · refine ⟨?_, fun hw => ?_⟩
        · rcases h3 with h3 | h3
          · exact .inr (.inr (.inr (.inl h3)))
          · exact .inr (.inr (.inr (.inr h3)))
        · cases hw with
          | stdout hc => exact writeAll_error _ (by intro p c p' c' h; injection h) _ _ _ h1 hc
  | file p =>
    have hopen : (∀ ev ∈ (openAndWrite p value resp).1, ChangeFor p ev) ∧
        (((openAndWrite p value resp).2 = .ok () ∧ ∃ evs, (openAndWrite p value resp).1 = .open_ p :: .truncate p :: evs ∧
            Chunks (.write p) 0 value evs) ∨
         ((∃ m, (openAndWrite p value resp).2 = .error m) ∧ WriteFails resp ∧
          ∀ dirs : List Ev, (∀ ev ∈ dirs, ∃ d, ev = .createDirs d) → ∀ evs, Chunks (.write p) 0 value evs →
            ∀ dirs' : List Ev, (∀ ev ∈ dirs', ∃ d, ev = .createDirs d) →
            dirs' ++ (openAndWrite p value resp).1 ≠ dirs ++ .open_ p :: .truncate p :: evs)) := by
      rw [openAndWrite]
      cases ho : resp.open_ with
      | some m =>
        refine ⟨by simp, .inr ⟨⟨m, rfl⟩, .inr (.inl (by simp [ho])), ?_⟩⟩
        intro dirs _ evs _ dirs' hd' h
        have : Ev.open_ p ∈ dirs' := by
          have h2 : Ev.open_ p ∈ dirs ++ .open_ p :: .truncate p :: evs := by simp
          rw [← h] at h2
          simpa using h2
        obtain ⟨d, hd⟩ := hd' _ this
        cases hd
      | none =>
        cases ht : resp.truncate with
        | some m =>
          refine ⟨by simp [ChangeFor], .inr ⟨⟨m, rfl⟩, .inr (.inr (.inl (by simp [ht]))), ?_⟩⟩
          intro dirs _ evs _ dirs' hd' h
          have : Ev.truncate p ∈ dirs' := by
            have h2 : Ev.truncate p ∈ dirs ++ .open_ p :: .truncate p :: evs := by simp
            rw [← h] at h2
            simpa using h2
          obtain ⟨d, hd⟩ := hd' _ this
          cases hd
        | none =>
          simp only
          rcases writeAll_ok (.write p) 0 value resp.writes with ⟨evs, h1, h2⟩ | ⟨evs, m, h1, h2, h3⟩
          · rw [h1]
            refine ⟨fun ev hev => ?_, .inl ⟨rfl, evs, rfl, h2⟩⟩
            rcases List.mem_cons.mp hev with rfl | hev
            · exact .inr (.inl rfl)
            · rcases List.mem_cons.mp hev with rfl | hev
              · exact .inr (.inr (.inl rfl))
              · obtain ⟨pos, c, rfl⟩ := chunks_mem h2 ev hev
                exact .inr (.inr (.inr ⟨pos, c, rfl⟩))
          · rw [h1]
            refine ⟨fun ev hev => ?_, .inr ⟨⟨m, rfl⟩, ?_⟩⟩
            · rcases List.mem_cons.mp hev with rfl | hev
              · exact .inr (.inl rfl)
              · rcases List.mem_cons.mp hev with rfl | hev
                · exact .inr (.inr (.inl rfl))
                · obtain ⟨pos, c, rfl⟩ := h2 ev hev
                  exact .inr (.inr (.inr ⟨pos, c, rfl⟩))
            · refine ⟨?_, ?_⟩
              · rcases h3 with h3 | h3
                · exact .inr (.inr (.inr (.inl h3)))
                · exact .inr (.inr (.inr (.inr h3)))
              · intro dirs hd evs' hc dirs' hd' h
                have : evs' = evs := dirs_unique hd' hd h
                exact writeAll_error _ (by intro p c p' c' h; injection h) _ _ _ h1 (this ▸ hc)
    rw [ioWrite]
    dsimp only [WriteEv]
    cases hp : Path.parent p with
    | none =>
      simp only
      refine ⟨hopen.1, ?_⟩
      rcases hopen.2 with ⟨h1, evs, h2, h3⟩ | h
      · refine .inl ⟨h1, ?_⟩
        rw [h2]
        exact .file (dirs := []) (by simp) h3
      · refine .inr ⟨h.1, h.2.1, fun hw => ?_⟩
        generalize he : (openAndWrite p value resp).1 = l at hw
        cases hw with
        | @file _ dirs evs hd hc => exact h.2.2 dirs hd evs hc [] (by simp) (by simpa using he)
    | some d =>
      simp only
      cases hc : resp.createDirs with
      | some m =>
        refine ⟨?_, .inr ⟨⟨m, rfl⟩, .inl (by simp [hc]), fun hw => ?_⟩⟩
        rotate_left
        · generalize he : [Ev.createDirs d] = l at hw
          cases hw with
          | @file _ dirs evs hd hc =>
            have h2 : Ev.open_ p ∈ dirs ++ .open_ p :: .truncate p :: evs := by simp
            rw [show dirs ++ .open_ p :: .truncate p :: evs = [Ev.createDirs d] from he.symm] at h2
            simp at h2
        intro ev hev
        simp at hev; subst hev
        exact .inl ⟨d, hp, rfl⟩
      | none =>
        simp only
        refine ⟨?_, ?_⟩
        · intro ev hev
          rcases List.mem_cons.mp hev with rfl | hev
          · exact .inl ⟨d, hp, rfl⟩
          · exact hopen.1 ev hev
        · rcases hopen.2 with ⟨h1, evs, h2, h3⟩ | h
          · refine .inl ⟨h1, ?_⟩
            rw [h2]
            exact .file (dirs := [.createDirs d]) (by simp) h3
          · refine .inr ⟨h.1, h.2.1, fun hw => ?_⟩
            generalize he : Ev.createDirs d :: (openAndWrite p value resp).1 = l at hw
            cases hw with
            | @file _ dirs evs hd hc => exact h.2.2 dirs hd evs hc [.createDirs d] (by simp) (by simpa using he)

section
variable (parse : Parser) (o : ConvertOptions)

theorem convertSource_cases (src : Str) :
    (∃ out, convert parse src o.asConfig = .ok out ∧ convertSource parse o src = (some out, none)) ∨
    (∃ e out, convert parse src o.asConfig = .error e ∧ convertSource parse o src = (out, some e) ∧
      (o.forgiving.getD false = false → out = none)) := by
  rw [convertSource]
  obtain ⟨h1, h2⟩ := C07_convert_forgiving parse src o.asConfig
  cases hc : convert parse src o.asConfig with
  | ok out =>
    left
    rw [(h1 out).mp hc]
    exact ⟨out, rfl, by simp⟩
  | error e =>
    right
    obtain ⟨p, hp⟩ := (h2 e).mp hc
    rw [hp]
    cases hf : o.forgiving.getD false with
    | true => exact ⟨e, p, rfl, by simp, by simp⟩
    | false => exact ⟨e, none, rfl, by simp, by simp⟩

/-- What one conversion does. -/
theorem convertOne_cases (t : Task) (resp : IoResp) :
    -- reading fails
    (∃ m, resp.read = .error m ∧ convertOne parse o t resp =
        ([.read t.src (.error m)], .error { source := some t.src, message := m })) ∨
    -- converted and written
    (∃ src out evs, resp.read = .ok src ∧ convert parse src o.asConfig = .ok out ∧ Written out t.dest evs ∧
      (∀ ev ∈ evs, WriteEv t.dest ev) ∧ convertOne parse o t resp = (.read t.src (.ok src) :: evs, .ok true)) ∨
    -- converted, writing fails
    (∃ src out evs m, resp.read = .ok src ∧ convert parse src o.asConfig = .ok out ∧ WriteFails resp ∧ ¬Written out t.dest evs ∧
      (∀ ev ∈ evs, WriteEv t.dest ev) ∧
      convertOne parse o t resp = (.read t.src (.ok src) :: evs, .error { source := some t.src, message := m })) ∨
    -- conversion fails
    (∃ src e evs r, resp.read = .ok src ∧ convert parse src o.asConfig = .error e ∧
      (o.forgiving.getD false = false → evs = []) ∧ (∀ ev ∈ evs, WriteEv t.dest ev) ∧
      convertOne parse o t resp = (.read t.src (.ok src) :: .report t.src e :: evs, r) ∧ r ≠ .ok true ∧
      (∀ e', r = .error e' → e'.category = some .hidden ∨ e'.source = some t.src ∧ e'.category = none)) := by
  cases hr : resp.read with
  | error m => exact .inl ⟨m, rfl, by rw [convertOne, hr]⟩
  | ok src =>
    right
    rcases convertSource_cases parse o src with ⟨out, hc, hs⟩ | ⟨e, out, hc, hs, hf⟩
    · obtain ⟨hw1, hw2⟩ := ioWrite_cases t.dest out resp
      rcases hw2 with ⟨hw2, hw3⟩ | ⟨⟨m, hw2⟩, hw3, hw4⟩
      · left
        refine ⟨src, out, _, rfl, hc, hw3, hw1, ?_⟩
        rw [convertOne, hr]
        simp only [hs, Option.isNone_none, Option.isSome_some, Bool.and_self]
        rw [hw2]
        simp [convertResult]
      · right; left
        refine ⟨src, out, _, m, rfl, hc, hw3, hw4, hw1, ?_⟩
        rw [convertOne, hr]
        simp only [hs]
        rw [hw2]
        simp
    · right; right
      have hres : ∀ r, r = convertResult o false → r ≠ .ok true ∧
          (∀ e', r = .error e' → e'.category = some .hidden ∨ e'.source = some t.src ∧ e'.category = none) := by
        rintro r rfl
        rw [convertResult]
        split
        · exact ⟨by simp, by rintro e' h; cases h; exact .inl rfl⟩
        · exact ⟨by simp, by simp⟩
      cases out with
      | none =>
        obtain ⟨h1, h2⟩ := hres _ rfl
        refine ⟨src, e, [], _, rfl, hc, fun _ => rfl, by simp, ?_, h1, h2⟩
        rw [convertOne, hr]
        simp only [hs, Option.isNone_some, Bool.false_and]
      | some out =>
        obtain ⟨hw1, hw2⟩ := ioWrite_cases t.dest out resp
        rcases hw2 with ⟨hw2, hw3⟩ | ⟨⟨m, hw2⟩, hw3⟩
        · obtain ⟨h1, h2⟩ := hres _ rfl
          refine ⟨src, e, (ioWrite t.dest out resp).1, convertResult o false, rfl, hc, ?_, hw1, ?_, h1, h2⟩
          · intro h; cases hf h
          · rw [convertOne, hr]
            simp only [hs, Option.isNone_some, Bool.false_and]
            rw [hw2]
            simp
        · refine ⟨src, e, (ioWrite t.dest out resp).1, .error { source := some t.src, message := m }, rfl, hc, ?_, hw1, ?_, by simp, ?_⟩
          · intro h; cases hf h
          · rw [convertOne, hr]
            simp only [hs, Option.isNone_some, Bool.false_and]
            rw [hw2]
            simp
          · rintro e' h; cases h; exact .inr ⟨rfl, rfl⟩

/-! ## All conversions -/

variable {parse o} {tasks : List Task} {resps : List (Option IoResp)} {trace : List (Nat × Ev)} {result : Except CliError Bool}

/-- The events of the conversion with a number. -/
def localEvents (parse : Parser) (o : ConvertOptions) (p : (Task × Option IoResp) × Nat) : List (Nat × Ev) :=
  match p.1.2 with
  | none => []
  | some resp => (convertOne parse o p.1.1 resp).1.map fun ev => (p.2, ev)

theorem run_interleaving (h : TasksRun parse o tasks resps trace result) :
    Interleaving ((tasks.zip resps).zipIdx.map (localEvents parse o)) trace := h.2.1

theorem run_filter (h : TasksRun parse o tasks resps trace result) (i : Nat) :
    trace.filter (fun a => a.1 = i) =
      (((tasks.zip resps).zipIdx.map (localEvents parse o))[i]?).getD [] := by
  refine (run_interleaving h).filter (·.1) i ?_
  intro j x hx a ha
  rw [List.getElem?_map, List.getElem?_zipIdx] at hx
  cases hz : (tasks.zip resps)[j]? with
  | none => rw [hz] at hx; simp at hx
  | some p =>
    rw [hz] at hx
    simp only [Option.map_some, Option.some.injEq, Nat.zero_add] at hx
    subst hx
    rw [localEvents] at ha
    cases hp : p.2 with
    | none => simp only [hp] at ha; simp at ha
    | some resp =>
      simp only [hp, List.mem_map] at ha
      obtain ⟨ev, _, rfl⟩ := ha
      rfl

theorem run_started (h : TasksRun parse o tasks resps trace result) {i : Nat} {t : Task} {resp : IoResp}
    (ht : tasks[i]? = some t) (hr : resps[i]? = some (some resp)) :
    eventsOf i trace = (convertOne parse o t resp).1 := by
  have hz : (tasks.zip resps)[i]? = some (t, some resp) := List.getElem?_zip_eq_some.mpr ⟨ht, hr⟩
  rw [eventsOf, run_filter h, List.getElem?_map, List.getElem?_zipIdx, hz]
  simp [localEvents, Function.comp_def]

theorem run_not_started (h : TasksRun parse o tasks resps trace result) {i : Nat}
    (hr : resps[i]? = some none) : eventsOf i trace = [] := by
  rw [eventsOf, run_filter h, List.getElem?_map, List.getElem?_zipIdx]
  cases hz : (tasks.zip resps)[i]? with
  | none => simp
  | some p =>
    have := (List.getElem?_zip_eq_some.mp hz).2
    rw [hr] at this
    simp [localEvents, ← Option.some.inj this]

theorem mem_eventsOf {i : Nat} {ev : Ev} : (i, ev) ∈ trace ↔ ev ∈ eventsOf i trace := by
  simp [eventsOf]

theorem run_mem (h : TasksRun parse o tasks resps trace result) {i : Nat} {ev : Ev} (hm : (i, ev) ∈ trace) :
    ∃ t resp, tasks[i]? = some t ∧ resps[i]? = some (some resp) ∧ ev ∈ (convertOne parse o t resp).1 := by
  rw [mem_eventsOf, eventsOf, run_filter h, List.getElem?_map, List.getElem?_zipIdx] at hm
  cases hz : (tasks.zip resps)[i]? with
  | none => rw [hz] at hm; simp at hm
  | some p =>
    obtain ⟨h1, h2⟩ := List.getElem?_zip_eq_some.mp hz
    rw [hz] at hm
    obtain ⟨t, r⟩ := p
    cases r with
    | none => simp [localEvents] at hm
    | some resp =>
      refine ⟨t, resp, h1, h2, ?_⟩
      simpa [localEvents] using hm

/-- Success: every conversion was done and was successful. -/
theorem run_success (h : TasksRun parse o tasks resps trace (.ok true)) {i : Nat} {t : Task} (ht : tasks[i]? = some t) :
    ∃ resp, resps[i]? = some (some resp) ∧ (convertOne parse o t resp).2 = .ok true := by
  obtain ⟨hlen, _, hr⟩ := h
  have hi : i < tasks.length := (List.getElem?_eq_some_iff.mp ht).1
  obtain ⟨r, hri⟩ : ∃ r, resps[i]? = some r := ⟨resps[i]'(by omega), List.getElem?_eq_getElem _⟩
  have hz : (tasks.zip resps)[i]? = some (t, r) := List.getElem?_zip_eq_some.mpr ⟨ht, hri⟩
  generalize hrs : ((tasks.zip resps).map fun p => p.2.map fun resp => (convertOne parse o p.1 resp).2) = rs at hr
  generalize hb : (Except.ok true : Except CliError Bool) = res at hr
  cases hr with
  | error _ => cases hb
  | ok bs =>
    have hall : bs.all id = true := by simpa using hb.symm
    have h1 := congrArg (·[i]?) hrs
    simp only [List.getElem?_map, hz, Option.map_some] at h1
    cases hbi : bs[i]? with
    | none => rw [hbi] at h1; simp at h1
    | some b =>
      rw [hbi] at h1
      simp only [Option.map_some, Option.some.injEq] at h1
      have hbt : b = true := by simpa using List.all_eq_true.mp hall b (List.mem_of_getElem? hbi)
      subst hbt
      cases r with
      | none => simp at h1
      | some resp => exact ⟨resp, hri, by simpa [hall] using h1⟩

/-- Failure: some conversion failed. -/
theorem run_failure (h : TasksRun parse o tasks resps trace result) (hne : result ≠ .ok true) :
    ∃ (i : Nat) (t : Task) (resp : IoResp), tasks[i]? = some t ∧ resps[i]? = some (some resp) ∧
      (convertOne parse o t resp).2 = result := by
  obtain ⟨hlen, _, hr⟩ := h
  have find : ∀ r : Except CliError Bool, some r ∈ ((tasks.zip resps).map fun p => p.2.map fun resp =>
      (convertOne parse o p.1 resp).2) → ∃ (i : Nat) (t : Task) (resp : IoResp), tasks[i]? = some t ∧
        resps[i]? = some (some resp) ∧ (convertOne parse o t resp).2 = r := by
    intro r hm
    obtain ⟨i, hi⟩ := List.mem_iff_getElem?.mp hm
    rw [List.getElem?_map] at hi
    cases hz : (tasks.zip resps)[i]? with
    | none => rw [hz] at hi; simp at hi
    | some p =>
      obtain ⟨h1, h2⟩ := List.getElem?_zip_eq_some.mp hz
      obtain ⟨t, q⟩ := p
      rw [hz] at hi
      cases q with
      | none => simp at hi
      | some resp => exact ⟨i, t, resp, h1, h2, by simpa using hi⟩
  generalize hrs : ((tasks.zip resps).map fun p => p.2.map fun resp => (convertOne parse o p.1 resp).2) = rs at hr find
  cases hr with
  | @error _ e hm =>
    obtain ⟨i, t, resp, h1, h2, h3⟩ := find _ hm
    exact ⟨i, t, resp, h1, h2, h3⟩
  | ok bs =>
    have : ¬ bs.all id = true := fun h => hne (by rw [h])
    have hf : false ∈ bs := by
      by_contra hc
      refine this (List.all_eq_true.mpr fun b hb => ?_)
      cases b with
      | true => rfl
      | false => exact absurd hb hc
    obtain ⟨i, t, resp, h1, h2, h3⟩ := find (.ok false) (by simp [hf])
    exact ⟨i, t, resp, h1, h2, by rw [h3, Bool.eq_false_iff.mpr this]⟩

end

/-! ## Files -/

/-- The effect of an event on one file. -/
def fileStep (ident : Str → Nat) (f : Nat) (c : Option Str) (ev : Ev) : Option Str :=
  match ev with
  | .open_ p => if f = ident p then some (c.getD []) else c
  | .truncate p => if f = ident p then some [] else c
  | .write p pos chunk => if f = ident p then some (writeAt (c.getD []) pos chunk) else c
  | _ => c

theorem happens_file {ident : Str → Nat} {w w' : World} {trace : List (Nat × Ev)} (h : Happens ident w trace w') (f : Nat) :
    w'.files f = (trace.map (·.2)).foldl (fileStep ident f) (w.files f) := by
  induction h with
  | nil => rfl
  | @cons w w' i ev rest _ _ ih =>
    rw [ih, List.map_cons, List.foldl_cons]
    congr 1
    cases ev <;> simp only [World.apply, fileStep]

/-- Only the events of one conversion matter. -/
theorem fold_events {ident : Str → Nat} {f : Nat} {i : Nat} (trace : List (Nat × Ev)) (c : Option Str)
    (h : ∀ j ev, (j, ev) ∈ trace → j ≠ i → ∀ c, fileStep ident f c ev = c) :
    (trace.map (·.2)).foldl (fileStep ident f) c = (eventsOf i trace).foldl (fileStep ident f) c := by
  induction trace generalizing c with
  | nil => rfl
  | cons x rest ih =>
    obtain ⟨j, ev⟩ := x
    have ih := fun c => ih c fun j ev hm => h j ev (by simp [hm])
    rw [List.map_cons, List.foldl_cons, ih]
    by_cases hj : j = i
    · simp [eventsOf, hj]
    · rw [h j ev (by simp) hj]
      simp [eventsOf, hj]

theorem fold_nothing {ident : Str → Nat} {f : Nat} (evs : List Ev) (c : Option Str)
    (h : ∀ ev ∈ evs, ∀ c, fileStep ident f c ev = c) : evs.foldl (fileStep ident f) c = c := by
  induction evs with
  | nil => rfl
  | cons ev rest ih =>
    rw [List.foldl_cons, h ev (by simp), ih fun ev hev => h ev (by simp [hev])]

theorem writeAt_end (old c : Str) : writeAt old old.length c = old ++ c := by
  simp [writeAt]

theorem fold_chunks {ident : Str → Nat} {p : Str} {pos : Nat} {v : Str} {evs : List Ev}
    (h : Chunks (.write p) pos v evs) (old : Str) (hl : old.length = pos) :
    evs.foldl (fileStep ident (ident p)) (some old) = some (old ++ v) := by
  induction h generalizing old with
  | done => simp
  | @chunk pos c v evs _ _ ih =>
    subst hl
    rw [List.foldl_cons]
    simp only [fileStep, if_pos, Option.getD_some, writeAt_end]
    rw [ih (old ++ c) (by simp)]
    simp

theorem fold_written {ident : Str → Nat} {p value : Str} {evs : List Ev} (h : Written value (.file p) evs) (c : Option Str) :
    evs.foldl (fileStep ident (ident p)) c = some value := by
  cases h with
  | @file _ dirs evs hd hc =>
    rw [List.foldl_append, fold_nothing dirs c (by
      intro ev hev c
      obtain ⟨d, rfl⟩ := hd ev hev
      rfl)]
    simp only [List.foldl_cons, fileStep, if_pos]
    simpa using fold_chunks hc [] rfl

/-- A write for another file has no effect. -/
theorem writeEv_other {ident : Str → Nat} {f : Nat} {dest : StreamName} {ev : Ev} (h : WriteEv dest ev)
    (hd : ∀ p, dest = .file p → ident p ≠ f) (c : Option Str) : fileStep ident f c ev = c := by
  cases dest with
  | stdio =>
    obtain ⟨s, rfl⟩ := h
    rfl
  | file p =>
    have hne : f ≠ ident p := fun e => hd p rfl e.symm
    rcases h with ⟨d, _, rfl⟩ | rfl | rfl | ⟨pos, ch, rfl⟩
    · rfl
    · simp only [fileStep, if_neg hne]
    · simp only [fileStep, if_neg hne]
    · simp only [fileStep, if_neg hne]

theorem convertOne_mem (parse : Parser) (o : ConvertOptions) (t : Task) (resp : IoResp) :
    ∀ ev ∈ (convertOne parse o t resp).1, (∃ r, ev = .read t.src r) ∨ (∃ e, ev = .report t.src e) ∨ WriteEv t.dest ev := by
  rcases convertOne_cases parse o t resp with ⟨m, _, h⟩ | ⟨src, out, evs, _, _, _, hw, h⟩ | ⟨src, out, evs, m, _, _, _, _, hw, h⟩ |
    ⟨src, e, evs, r, _, _, _, hw, h, _⟩ <;> rw [h] <;> intro ev hev <;> simp only [List.mem_cons, List.not_mem_nil, or_false] at hev
  · exact .inl ⟨_, hev⟩
  · rcases hev with rfl | hev
    · exact .inl ⟨_, rfl⟩
    · exact .inr (.inr (hw ev hev))
  · rcases hev with rfl | hev
    · exact .inl ⟨_, rfl⟩
    · exact .inr (.inr (hw ev hev))
  · rcases hev with rfl | rfl | hev
    · exact .inl ⟨_, rfl⟩
    · exact .inr (.inl ⟨_, rfl⟩)
    · exact .inr (.inr (hw ev hev))

/-! ## Reporter -/

theorem reporter_closed (fmt : Fmt) (evs : List ErrorEvent) (s : ReporterState) (h : s.running = false) :
    evs.foldl (reporterStep fmt) s = s := by
  induction evs with
  | nil => rfl
  | cons e evs ih =>
    have : reporterStep fmt s e = s := by rw [reporterStep.eq_def, h]; rfl
    rw [List.foldl_cons, this, ih]

theorem modeFor_chosen {before : List ErrorEvent} {m : ErrorMode} (h : before.reverse.findSome? chosenMode = some m)
    (after : List ErrorEvent) : modeFor before after = m := by
  rw [modeFor, h]

/-- After a mode has been chosen every error is printed at once. -/
theorem reporter_direct (fmt : Fmt) (evs : List ErrorEvent) (hc : .close ∉ evs) (before : List ErrorEvent)
    (s : ReporterState) (hr : s.running = true) (hp : s.pending = none)
    (hm : before.reverse.findSome? chosenMode = some s.mode) :
    ((evs ++ [ErrorEvent.close]).foldl (reporterStep fmt) s).out =
      s.out ++ printedEvents (fun m d => d.report fmt m) before evs := by
  induction evs generalizing before s with
  | nil => simp [reporterStep, hr, ReporterState.writePending, hp, printedEvents]
  | cons e evs ih =>
    have hc' : ErrorEvent.close ∉ evs := fun h => hc (by simp [h])
    rw [List.cons_append, List.foldl_cons]
    cases e with
    | close => simp at hc
    | error d =>
      rw [ih hc' (before ++ [.error d]) _ (by simp [reporterStep, hr, hp]) (by simp [reporterStep, hr, hp])
        (by simp [reporterStep, hr, hp, List.findSome?_cons, chosenMode, hm])]
      simp [reporterStep, hr, hp, printedEvents, modeFor_chosen hm]
    | mode m =>
      rw [ih hc' (before ++ [.mode m]) _ (by simp [reporterStep, hr, ReporterState.writePending])
        (by simp [reporterStep, hr, ReporterState.writePending]) (by simp [reporterStep, hr, ReporterState.writePending, List.findSome?_cons, chosenMode])]
      simp [reporterStep, hr, ReporterState.writePending, hp, printedEvents]

/-- Before that errors are kept. -/
theorem reporter_kept (fmt : Fmt) (evs : List ErrorEvent) (hc : .close ∉ evs) (before : List ErrorEvent)
    (batch : List ErrorEventData) (s : ReporterState) (hr : s.running = true) (hp : s.pending = some batch)
    (hd : s.mode = .default) (hm : before.reverse.findSome? chosenMode = none) :
    ((evs ++ [ErrorEvent.close]).foldl (reporterStep fmt) s).out = s.out ++
      (batch.map (ErrorEventData.report fmt ((evs.findSome? chosenMode).getD .default))).flatten ++
      printedEvents (fun m d => d.report fmt m) before evs := by
  induction evs generalizing before s batch with
  | nil => simp [reporterStep, hr, ReporterState.writePending, hp, hd, printedEvents]
  | cons e evs ih =>
    have hc' : ErrorEvent.close ∉ evs := fun h => hc (by simp [h])
    rw [List.cons_append, List.foldl_cons]
    cases e with
    | close => simp at hc
    | error d =>
      rw [ih hc' (before ++ [.error d]) (batch ++ [d]) _ (by simp [reporterStep, hr, hp]) (by simp [reporterStep, hr, hp])
        (by simp [reporterStep, hr, hp, hd]) (by simpa [List.findSome?_cons, chosenMode] using hm)]
      simp [reporterStep, hr, hp, printedEvents, modeFor, hm, List.findSome?_cons, chosenMode]
    | mode m =>
      rw [reporter_direct fmt evs hc' (before ++ [.mode m]) _ (by simp [reporterStep, hr, ReporterState.writePending])
        (by simp [reporterStep, hr, ReporterState.writePending]) (by simp [reporterStep, hr, ReporterState.writePending, List.findSome?_cons, chosenMode])]
      simp [reporterStep, hr, ReporterState.writePending, hp, printedEvents, List.findSome?_cons, chosenMode]

theorem reporter_all (fmt : Fmt) (evs : List ErrorEvent) (hc : .close ∉ evs) :
    reporterRun fmt (evs ++ [.close]) = printedEvents (fun m d => d.report fmt m) [] evs := by
  rw [reporterRun, reporter_kept fmt evs hc [] [] {} rfl rfl rfl rfl]
  simp

/-- The data of error events. -/
def eventData : ErrorEvent → Option ErrorEventData
  | .error d => some d
  | _ => none

theorem printed_fixed (print : ErrorMode → ErrorEventData → Str) (m : ErrorMode) (evs before : List ErrorEvent)
    (hm : before.reverse.findSome? chosenMode = some m) (hn : ∀ e ∈ evs, chosenMode e = none) :
    printedEvents print before evs = ((evs.filterMap eventData).map (print m)).flatten := by
  induction evs generalizing before with
  | nil => simp [printedEvents]
  | cons e evs ih =>
    have hn' := fun e he => hn e (List.mem_cons_of_mem _ he)
    cases e with
    | error d =>
      rw [printedEvents, ih (before ++ [ErrorEvent.error d]) (by simpa [List.findSome?_cons, chosenMode] using hm) hn']
      simp [eventData, modeFor_chosen hm]
    | mode m => have := hn (.mode m) (by simp); simp [List.findSome?_cons, chosenMode] at this
    | close =>
      rw [printedEvents, ih (before ++ [ErrorEvent.close]) (by simpa [List.findSome?_cons, chosenMode] using hm) hn']
      · rfl
      · simp

/-- What `main` prints. -/
theorem main_prints (fmt : Fmt) (mode : ErrorMode) (trace : List (Nat × Ev)) (result : Except CliError Bool) :
    reporterRun fmt (.mode mode :: reported trace ++ finalEvents result) =
      ((((reported trace) ++ (match result with
        | .error e => [otherError e]
        | .ok _ => [])).filterMap eventData).map (ErrorEventData.report fmt mode)).flatten := by
  have hrep : ∀ e ∈ reported trace, chosenMode e = none ∧ e ≠ .close := by
    intro e he
    rw [reported, List.mem_filterMap] at he
    obtain ⟨⟨i, ev⟩, _, he⟩ := he
    cases ev with
    | report s e =>
      simp only [Option.some.injEq] at he
      subst he
      cases e <;> simp [conversionError, chosenMode]
    | _ => simp at he
  cases result with
  | ok b =>
    rw [finalEvents, reporter_all fmt _ (by simp; exact fun h => (hrep _ h).2 rfl), printedEvents,
      printed_fixed _ mode _ _ (by simp [chosenMode]) (fun e he => (hrep e he).1)]
    · simp
    · simp
  | error e =>
    rw [finalEvents, show ErrorEvent.mode mode :: reported trace ++ [otherError e, .close] =
        (ErrorEvent.mode mode :: (reported trace ++ [otherError e])) ++ [.close] by simp,
      reporter_all fmt _ (by simp [otherError]; exact fun h => (hrep _ h).2 rfl), printedEvents,
      printed_fixed _ mode _ _ (by simp [chosenMode]) (by
        intro e' he
        rcases List.mem_append.mp he with he | he
        · exact (hrep e' he).1
        · simp at he; subst he; simp [otherError, List.findSome?_cons, chosenMode])]
    simp

end Mty.Cli
