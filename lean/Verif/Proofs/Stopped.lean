import Verif.Spec.Stopped
import Verif.Proofs.Schedule

/-! # Stopped runs of the command line -/

set_option autoImplicit false

namespace Mty
open Spec Cli

/-- A beginning of the writes to a file leaves a beginning of the text. -/
theorem fold_writeAll {ident : Str → Nat} {p : Str} (answers : List (Except Str Nat)) (pos : Nat) (v old : Str) (hl : old.length = pos)
    {evs : List Ev} (h : evs <+: (writeAll (.write p) pos v answers).1) :
    ∃ u, u <+: v ∧ evs.foldl (fileStep ident (ident p)) (some old) = some (old ++ u) := by
  induction answers generalizing pos v old evs with
  | nil =>
    cases v with
    | nil =>
      have : evs = [] := List.prefix_nil.1 (by simpa [writeAll] using h)
      subst this
      exact ⟨[], List.nil_prefix, by simp⟩
    | cons x v =>
      simp only [writeAll] at h
      rcases List.prefix_cons_iff.1 h with rfl | ⟨t, rfl, ht⟩
      · exact ⟨[], List.nil_prefix, by simp⟩
      · rw [List.prefix_nil.1 ht]
        refine ⟨x :: v, List.prefix_rfl, ?_⟩
        subst hl
        simp [fileStep, writeAt_end]
  | cons r answers ih =>
    cases v with
    | nil =>
      have : evs = [] := List.prefix_nil.1 (by simpa [writeAll] using h)
      subst this
      exact ⟨[], List.nil_prefix, by simp⟩
    | cons x v =>
      cases r with
      | error m =>
        have : evs = [] := List.prefix_nil.1 (by simpa [writeAll] using h)
        subst this
        exact ⟨[], List.nil_prefix, by simp⟩
      | ok n =>
        rw [writeAll] at h
        by_cases hn : n = 0
        · rw [if_pos hn] at h
          rw [List.prefix_nil.1 h]
          exact ⟨[], List.nil_prefix, by simp⟩
        · rw [if_neg hn] at h
          rcases List.prefix_cons_iff.1 h with rfl | ⟨t, rfl, ht⟩
          · exact ⟨[], List.nil_prefix, by simp⟩
          · subst hl
            obtain ⟨u, hu, he⟩ := ih (old.length + ((x :: v).take n).length) ((x :: v).drop n) (old ++ (x :: v).take n) (by simp) ht
            refine ⟨(x :: v).take n ++ u, ?_, ?_⟩
            · conv => rhs; rw [← List.take_append_drop n (x :: v)]
              exact (List.prefix_append_right_inj _).2 hu
            · rw [List.foldl_cons]
              simp only [fileStep, if_pos, Option.getD_some, writeAt_end]
              rw [he, List.append_assoc]

theorem fold_openAndWrite {ident : Str → Nat} {p v : Str} {resp : IoResp} {evs : List Ev} (h : evs <+: (openAndWrite p v resp).1)
    (c : Option Str) :
    evs.foldl (fileStep ident (ident p)) c = c ∨ ∃ u, u <+: v ∧ evs.foldl (fileStep ident (ident p)) c = some u := by
  have opened : some (c.getD []) = c ∨ ∃ u, u <+: v ∧ some (c.getD []) = some u := by
    cases c with
    | none => exact .inr ⟨[], List.nil_prefix, rfl⟩
    | some c => exact .inl rfl
  unfold openAndWrite at h
  cases ho : resp.open_ with
  | some m =>
    rw [ho] at h
    rw [List.prefix_nil.1 h]
    exact .inl rfl
  | none =>
    rw [ho] at h
    cases ht : resp.truncate with
    | some m =>
      rw [ht] at h
      rcases List.prefix_cons_iff.1 h with rfl | ⟨t, rfl, ht⟩
      · exact .inl rfl
      · rw [List.prefix_nil.1 ht]
        simpa [fileStep] using opened
    | none =>
      rw [ht] at h
      rcases List.prefix_cons_iff.1 h with rfl | ⟨t, rfl, ht⟩
      · exact .inl rfl
      · rcases List.prefix_cons_iff.1 ht with rfl | ⟨t, rfl, ht'⟩
        · simpa [fileStep] using opened
        · obtain ⟨u, hu, he⟩ := fold_writeAll (ident := ident) resp.writes 0 v [] rfl ht'
          refine .inr ⟨u, hu, ?_⟩
          simpa [fileStep] using he

theorem fold_ioWrite {ident : Str → Nat} {p v : Str} {resp : IoResp} {evs : List Ev} (h : evs <+: (ioWrite (.file p) v resp).1)
    (c : Option Str) :
    evs.foldl (fileStep ident (ident p)) c = c ∨ ∃ u, u <+: v ∧ evs.foldl (fileStep ident (ident p)) c = some u := by
  unfold ioWrite at h
  dsimp only at h
  cases hp : Path.parent p with
  | none =>
    rw [hp] at h
    exact fold_openAndWrite h c
  | some d =>
    rw [hp] at h
    cases hd : resp.createDirs with
    | some m =>
      rw [hd] at h
      rcases List.prefix_cons_iff.1 h with rfl | ⟨t, rfl, ht⟩
      · exact .inl rfl
      · rw [List.prefix_nil.1 ht]
        exact .inl rfl
    | none =>
      rw [hd] at h
      rcases List.prefix_cons_iff.1 h with rfl | ⟨t, rfl, ht⟩
      · exact .inl rfl
      · exact fold_openAndWrite (evs := t) ht c

theorem prefix_append_cases {α : Type} {l a b : List α} (h : l <+: a ++ b) : l <+: a ∨ ∃ l', l = a ++ l' ∧ l' <+: b := by
  obtain ⟨r, hr⟩ := h
  rcases List.append_eq_append_iff.1 hr with ⟨x, h1, h2⟩ | ⟨x, h1, h2⟩
  · exact .inl ⟨x, h1.symm⟩
  · exact .inr ⟨x, h1, r, h2.symm⟩

/-- A beginning of a conversion. -/
theorem fold_convertOne {parse : Parser} {o : ConvertOptions} {t : Cli.Task} {resp : IoResp} {ident : Str → Nat} {p : Str} {evs : List Ev}
    (hd : t.dest = .file p) (h : evs <+: (convertOne parse o t resp).1) (c : Option Str) :
    evs.foldl (fileStep ident (ident p)) c = c ∨ ∃ src out u, .read t.src (.ok src) ∈ evs ∧ outputFor parse o src = some out ∧ u <+: out ∧
      evs.foldl (fileStep ident (ident p)) c = some u := by
  cases hr : resp.read with
  | error m =>
    rw [convertOne, hr] at h
    rcases List.prefix_cons_iff.1 h with rfl | ⟨l, rfl, hl⟩
    · exact .inl rfl
    · rw [List.prefix_nil.1 hl]
      exact .inl rfl
  | ok src =>
    rw [convertOne_read parse o t resp hr] at h
    have plain : ∀ l : List Ev, l <+: .read t.src (.ok src) :: (sourceErrors parse o src).map (.report t.src) →
        ∀ c, l.foldl (fileStep ident (ident p)) c = c := by
      intro l hl c
      refine fold_nothing _ _ fun ev hev c => ?_
      rcases List.mem_cons.1 (hl.subset hev) with rfl | hev
      · rfl
      · obtain ⟨e, -, rfl⟩ := List.mem_map.1 hev
        rfl
    cases ho : outputFor parse o src with
    | none =>
      rw [ho] at h
      exact .inl (plain _ h c)
    | some out =>
      rw [ho, hd] at h
      rcases prefix_append_cases h with h | ⟨l, rfl, hl⟩
      · exact .inl (plain _ h c)
      · rw [List.foldl_append, plain _ List.prefix_rfl c]
        rcases fold_ioWrite (ident := ident) hl c with he | ⟨u, hu, he⟩
        · exact .inl he
        · exact .inr ⟨src, out, u, by simp, ho, hu, he⟩

section
variable {parse : Parser} {o : ConvertOptions} {tasks : List Cli.Task} {resps : List (Option IoResp)} {done rest : List (Nat × Ev)}
  {result : Except CliError Bool} {ident : Str → Nat} {w w' : World}

theorem eventsOf_prefix (i : Nat) (a b : List (Nat × Ev)) : eventsOf i a <+: eventsOf i (a ++ b) := by
  simp [eventsOf]

theorem stopped_source (ha : Apart ident tasks) (h : TasksRun parse o tasks resps (done ++ rest) result) (hw : Happens ident w done w')
    {t : Cli.Task} {s : Str} (ht : t ∈ tasks) (hs : t.src = .file s) : w'.files (ident s) = w.files (ident s) :=
  happens_unchanged hw fun j ev hm c => apart_sources ha h ht hs j ev (List.mem_append_left _ hm) c

theorem stopped_file (ha : Apart ident tasks) (h : TasksRun parse o tasks resps (done ++ rest) result) (hw : Happens ident w done w')
    (f : Nat) : WhenStopped parse o ident tasks w f (w'.files f) := by
  by_cases hd : ∃ (i : Nat) (t : Cli.Task) (d : Str), tasks[i]? = some t ∧ t.dest = .file d ∧ ident d = f
  · obtain ⟨i, t, d, ht, hd, rfl⟩ := hd
    have hfold : w'.files (ident d) = (eventsOf i done).foldl (fileStep ident (ident d)) (w.files (ident d)) := by
      rw [happens_file hw, fold_events (i := i)]
      intro j ev hm
      exact other_events h (fun j t' d' hj hji hd' => (ha.2.2 j i t' t d' d hj ht hji hd' hd)) j ev (List.mem_append_left _ hm)
    have hpre := eventsOf_prefix i done rest
    have hi : i < tasks.length := (List.getElem?_eq_some_iff.mp ht).1
    obtain ⟨r, hri⟩ : ∃ r, resps[i]? = some r := ⟨resps[i]'(by rw [h.1]; exact hi), List.getElem?_eq_getElem _⟩
    cases r with
    | none =>
      rw [run_not_started h hri] at hpre
      rw [hfold, List.prefix_nil.1 hpre]
      exact .untouched
    | some resp =>
      rw [run_started h ht hri] at hpre
      rcases fold_convertOne (ident := ident) hd hpre (w.files (ident d)) with he | ⟨c, out, v, hm, ho, hv, he⟩
      · rw [hfold, he]
        exact .untouched
      · have hmem := List.mem_of_getElem? ht
        obtain ⟨s, hs⟩ := ha.1 t hmem
        rw [hs] at hm
        have hc : w.files (ident s) = some c :=
          happens_read hw (fun j ev hm c => apart_sources ha h hmem hs j ev (List.mem_append_left _ hm) c) (mem_eventsOf.2 hm)
        rw [hfold, he]
        exact .beginning hmem hs hd rfl hc ho hv
  · have hun : w'.files f = w.files f := by
      refine happens_unchanged hw fun j ev hm c => other_events h (i := tasks.length) (fun j t d hj _ hd' he => ?_) j ev
        (List.mem_append_left _ hm) ?_ c
      · exact hd ⟨j, t, d, hj, hd', he⟩
      · obtain ⟨t', resp, h1, -⟩ := run_mem h (List.mem_append_left _ hm)
        have := (List.getElem?_eq_some_iff.mp h1).1
        omega
    rw [hun]
    exact .untouched

/-- One more stopped run. -/
theorem stopped_trans {w1 w2 : World} (hs : ∀ t ∈ tasks, ∀ s, t.src = .file s → w1.files (ident s) = w.files (ident s)) {f : Nat}
    (h1 : WhenStopped parse o ident tasks w f (w1.files f)) (h2 : WhenStopped parse o ident tasks w1 f (w2.files f)) :
    WhenStopped parse o ident tasks w f (w2.files f) := by
  generalize w2.files f = x at h2 ⊢
  cases h2 with
  | untouched => exact h1
  | beginning g1 g2 g3 g4 g5 g6 g7 =>
    rw [hs _ g1 _ g2] at g5
    exact .beginning g1 g2 g3 g4 g5 g6 g7

/-- A complete run after stopped ones. -/
theorem stopped_after {w1 : World} (ha : Apart ident tasks) (hs : ∀ t ∈ tasks, ∀ s, t.src = .file s → w1.files (ident s) = w.files (ident s))
    {f : Nat} (h1 : WhenStopped parse o ident tasks w f (w1.files f)) {x : Option Str} (h2 : After parse o ident tasks w1 f x) :
    After parse o ident tasks w f x := by
  cases h2 with
  | other h =>
    generalize w1.files f = y at h1
    cases h1 with
    | untouched => exact .other h
    | beginning g1 g2 g3 g4 => exact absurd g4 (h _ g1 _ g3)
  | @dest t s d c h1' h2 h3 h4 h5 =>
    rw [hs _ h1' _ h2] at h5
    have base : After parse o ident tasks w f ((outputFor parse o c).or (w.files f)) := .dest h1' h2 h3 h4 h5
    cases ho : outputFor parse o c with
    | some out => rw [ho] at base; exact base
    | none =>
      rw [ho] at base
      generalize w1.files f = y at h1
      cases h1 with
      | untouched => exact base
      | @beginning t' s' d' c' out v g1 g2 g3 g4 g5 g6 g7 =>
        have : t = t' := by
          obtain ⟨i, hi⟩ := List.mem_iff_getElem?.1 h1'
          obtain ⟨j, hj⟩ := List.mem_iff_getElem?.1 g1
          by_cases hij : i = j
          · subst hij; rw [hi] at hj; exact Option.some.inj hj
          · exact absurd (h4.trans g4.symm) (ha.2.2 i j t t' d d' hi hj hij h3 g3)
        subst this
        rw [h2] at g2
        cases g2
        rw [h5] at g5
        cases g5
        rw [ho] at g6
        cases g6

theorem errorsFor_congr {w1 : World} (hs : ∀ t ∈ tasks, ∀ s, t.src = .file s → w1.files (ident s) = w.files (ident s)) :
    errorsFor parse o ident tasks w1 = errorsFor parse o ident tasks w := by
  unfold errorsFor
  refine List.filterMap_congr fun t ht => ?_
  cases h : t.src with
  | stdio => rfl
  | file s =>
    dsimp only
    rw [hs t ht s h]

end

end Mty
