import Verif.Proofs.Path

/-! # Components of paths, search for files -/

set_option autoImplicit false

namespace Mty.Path
open Spec

/-! ## The end of a path -/

theorem trimEndRev_suffix (r : Str) : ∃ t, r = t ++ trimEndRev r := by
  fun_induction trimEndRev r with
  | case1 r ih => obtain ⟨t, h⟩ := ih; exact ⟨'/' :: t, by simp [← h]⟩
  | case2 r ih => obtain ⟨t, h⟩ := ih; exact ⟨'.' :: '/' :: t, by simp [← h]⟩
  | case3 r => exact ⟨[], rfl⟩

theorem split_last (p : Str) : ∃ t, p = beforeLast p ++ lastSegment p ++ t := by
  obtain ⟨t, h⟩ := trimEndRev_suffix p.reverse
  refine ⟨t.reverse, ?_⟩
  have h' := congrArg List.reverse h
  rw [List.reverse_reverse, List.reverse_append] at h'
  rw [beforeLast, lastSegment, ← List.reverse_append, List.takeWhile_append_dropWhile]
  exact h'

theorem fileName_eq {p n : Str} (h : fileName p = some n) : n = lastSegment p := by
  rw [fileName] at h
  split at h
  · cases h
  · simp at h; exact h.symm

/-! ## Components -/

theorem segments_ne_nil (p : Str) : segments p ≠ [] := by
  cases p with
  | nil => simp [segments]
  | cons c p =>
    rw [segments]
    split
    · simp
    · split <;> simp

theorem segments_append (a b : Str) : segments (a ++ '/' :: b) = segments a ++ segments b := by
  induction a with
  | nil => simp [segments]
  | cons c a ih =>
    rw [List.cons_append, segments, segments.eq_def (c :: a)]
    dsimp only
    rw [ih]
    by_cases hc : c = '/'
    · simp [hc]
    · rw [if_neg hc, if_neg hc]
      cases hs : segments a with
      | nil => exact absurd hs (segments_ne_nil a)
      | cons x xs => rfl

theorem segments_single {n : Str} (h : '/' ∉ n) : segments n = [n] := by
  induction n with
  | nil => rfl
  | cons c n ih =>
    simp at h
    rw [segments, if_neg (fun e => h.1 e.symm), ih h.2]

theorem head?_append_of_ne {a b : Str} (h : a ≠ []) : (a ++ b).head? = a.head? := by
  cases a with
  | nil => exact absurd rfl h
  | cons => rfl

theorem segments_head? {a b : Str} : (segments a ++ segments b).head? = (segments a).head? := by
  cases hs : segments a with
  | nil => exact absurd hs (segments_ne_nil a)
  | cons x xs => rfl

/-- What follows a separator adds its proper segments. -/
theorem components_append {a b : Str} (ha : a ≠ []) :
    components (a ++ '/' :: b) = components a ++ (segments b).filter fun s => s ≠ [] ∧ s ≠ ['.'] := by
  rw [components, components, segments_append, head?_append_of_ne ha, segments_head?, List.filter_append, List.append_assoc]

theorem components_root (b : Str) :
    components ('/' :: b) = ['/'] :: (segments b).filter fun s => s ≠ [] ∧ s ≠ ['.'] := by
  rw [components, show ('/' :: b) = [] ++ '/' :: b from rfl, segments_append]
  simp [segments]

theorem components_sep {a : Str} (ha : a ≠ []) : components (a ++ ['/']) = components a := by
  have := components_append (a := a) (b := []) ha
  rw [this]; simp [segments]

theorem components_dot {a : Str} (ha : a ≠ []) : components (a ++ ['/', '.']) = components a := by
  have := components_append (a := a) (b := ['.']) ha
  rw [this]; simp [segments]

theorem components_plain' {n : Str} (h0 : n ≠ []) (h1 : n ≠ ['.']) (h3 : '/' ∉ n) : components n = [n] := by
  have : n.head? ≠ some '/' := by
    cases n with
    | nil => simp
    | cons c n => simp at h3 ⊢; exact fun e => h3.1 e.symm
  rw [components, segments_single h3, if_neg this]
  simp [h0, h1]

theorem components_plain {n : Str} (h : Plain n) : components n = [n] := components_plain' h.1 h.2.1 h.2.2.2

/-- The path with a separator at its end. -/
theorem join_plain (p : Str) {n : Str} (h : Plain n) :
    ∃ d, DirPart d ∧ join p n = d ++ n ∧ (d = p ∨ (p ≠ [] ∧ d = p ++ ['/'])) := by
  obtain ⟨h0, h1, h2, h3⟩ := h
  have : n.head? ≠ some '/' := by
    cases n with
    | nil => simp
    | cons c n => simp at h3 ⊢; exact fun e => h3.1 e.symm
  rw [join, if_neg this]
  by_cases hp : p = [] ∨ p.getLast? = some '/'
  · rw [if_pos hp]; exact ⟨p, hp, rfl, .inl rfl⟩
  · rw [if_neg hp]
    exact ⟨p ++ ['/'], .inr (by simp), by simp, .inr ⟨fun e => hp (.inl e), rfl⟩⟩

theorem components_dirPart' {d n : Str} (hd : DirPart d) (h0 : n ≠ []) (h1 : n ≠ ['.']) (h3 : '/' ∉ n) :
    components (d ++ n) = components d ++ [n] := by
  have hs : (segments n).filter (fun s => decide (s ≠ [] ∧ s ≠ ['.'])) = [n] := by
    rw [segments_single h3]; simp [h0, h1]
  rcases hd with rfl | hd
  · rw [List.nil_append, components_plain' h0 h1 h3]; rfl
  · obtain ⟨q, rfl⟩ : ∃ q, d = q ++ ['/'] := by
      rcases List.eq_nil_or_concat d with rfl | ⟨q, c, rfl⟩
      · simp at hd
      · simp at hd; subst hd; exact ⟨q, by simp⟩
    rw [List.append_assoc]
    by_cases hq : q = []
    · subst hq
      rw [List.nil_append, List.singleton_append, components_root, List.nil_append, hs]
      rfl
    · rw [List.singleton_append, components_append hq, hs, components_sep hq]

theorem components_dirPart {d n : Str} (hd : DirPart d) (h : Plain n) :
    components (d ++ n) = components d ++ [n] := components_dirPart' hd h.1 h.2.1 h.2.2.2

theorem components_join (p : Str) {n : Str} (h : Plain n) : components (join p n) = components p ++ [n] := by
  obtain ⟨d, hd, hj, he⟩ := join_plain p h
  rw [hj, components_dirPart hd h]
  rcases he with rfl | ⟨hp, rfl⟩
  · rfl
  · rw [components_sep hp]

/-- Trimming does not change the components, except that nothing remains of `/`. -/
theorem components_trim (r : Str) :
    (trimEndRev r = [] ∧ (r = [] ∨ (r.getLast? = some '/' ∧ components r.reverse = [['/']]))) ∨
    (trimEndRev r ≠ [] ∧ components (trimEndRev r).reverse = components r.reverse) := by
  fun_induction trimEndRev r with
  | case1 r ih =>
    by_cases hr : r = []
    · subst hr
      left
      refine ⟨by simp [trimEndRev], .inr ⟨rfl, by decide⟩⟩
    · have hc : components ('/' :: r).reverse = components r.reverse := by
        rw [List.reverse_cons, components_sep (by simpa using hr)]
      have hl : ('/' :: r).getLast? = r.getLast? := by
        cases r with
        | nil => exact absurd rfl hr
        | cons a r => rfl
      rw [hc, hl]
      rcases ih with ⟨h1, h2⟩ | h
      · exact .inl ⟨h1, .inr (h2.resolve_left hr)⟩
      · exact .inr h
  | case2 r ih =>
    by_cases hr : r = []
    · subst hr
      left
      refine ⟨by simp [trimEndRev], .inr ⟨rfl, by decide⟩⟩
    · have hc : components ('.' :: '/' :: r).reverse = components r.reverse := by
        rw [List.reverse_cons, List.reverse_cons, List.append_assoc]
        exact components_dot (by simpa using hr)
      have hl : ('.' :: '/' :: r).getLast? = r.getLast? := by
        cases r with
        | nil => exact absurd rfl hr
        | cons a r => rfl
      rw [hc, hl]
      rcases ih with ⟨h1, h2⟩ | h
      · exact .inl ⟨h1, .inr (h2.resolve_left hr)⟩
      · exact .inr h
  | case3 r =>
    by_cases hr : r = []
    · exact .inl ⟨hr, .inl hr⟩
    · exact .inr ⟨hr, rfl⟩

theorem components_parent {d n : Str} (hd : DirPart d) (h : Plain n) :
    ∃ q, parent (d ++ n) = some q ∧ components q = components d := by
  obtain ⟨h1, h2, _⟩ := last_name hd h.1 h.2.1 h.2.2.2
  rw [parent, h1, if_neg h.1, h2]
  rcases components_trim d.reverse with ⟨h3, h4⟩ | ⟨h3, h4⟩
  · have ht : trimEnd d = [] := by rw [trimEnd, h3]; rfl
    simp only [ht]
    rcases h4 with h4 | ⟨h4, h5⟩
    · have : d = [] := by simpa using h4
      subst this
      exact ⟨[], by simp, rfl⟩
    · rw [List.getLast?_reverse] at h4
      rw [List.reverse_reverse] at h5
      exact ⟨['/'], by simp [h4], by rw [h5]; decide⟩
  · rw [List.reverse_reverse] at h4
    refine ⟨_, if_neg ?_, h4⟩
    rintro ⟨h5, _⟩
    exact h3 (by rw [trimEnd] at h5; simpa using h5)

theorem components_pop_join (p : Str) {n : Str} (h : Plain n) : components (pop (join p n)) = components p := by
  obtain ⟨d, hd, hj, he⟩ := join_plain p h
  obtain ⟨q, hq, hc⟩ := components_parent hd h
  rw [pop, hj, hq, Option.getD_some, hc]
  rcases he with rfl | ⟨hp, rfl⟩
  · rfl
  · rw [components_sep hp]

/-- A path whose last step is a name is its parent followed by the name. -/
theorem components_split {p n : Str} (h : fileName p = some n) :
    Plain n ∧ components (pop p) ++ [n] = components p := by
  have hn := fileName_eq h
  have hnot : n ≠ [] ∧ n ≠ ['.'] ∧ n ≠ ['.', '.'] := by
    rw [fileName] at h
    split at h
    · cases h
    · rename_i hc
      simp only [Option.some.injEq] at h
      rw [h] at hc
      simpa [not_or] using hc
  have hslash : '/' ∉ n := by
    rw [hn, lastSegment]
    intro hm
    have := (List.all_eq_true.mp (List.all_takeWhile (p := fun x : Char => decide (x ≠ '/')) (l := trimEndRev p.reverse))) _
      (List.mem_reverse.mp hm)
    simp at this
  have hp : Plain n := ⟨hnot.1, hnot.2.1, hnot.2.2, hslash⟩
  refine ⟨hp, ?_⟩
  -- the trimmed path
  have ht : trimEnd p = beforeLast p ++ n := by
    rw [hn, trimEnd, beforeLast, lastSegment, ← List.reverse_append, List.takeWhile_append_dropWhile]
  have hd : DirPart (beforeLast p) := by
    rw [beforeLast]
    rcases hdw : (trimEndRev p.reverse).dropWhile (· ≠ '/') with _ | ⟨c, r⟩
    · exact .inl rfl
    · right
      have := List.head?_dropWhile_not (fun x : Char => decide (x ≠ '/')) (trimEndRev p.reverse)
      rw [hdw] at this
      simp at this
      simp [this]
  have hl := (last_name hd hp.1 hp.2.1 hp.2.2.2)
  have hpar : parent p = parent (beforeLast p ++ n) := by
    rw [parent, parent, hl.1, hl.2.1, ← hn]
  obtain ⟨q, hq, hc⟩ := components_parent hd hp
  rw [pop, hpar, hq, Option.getD_some, hc, ← components_dirPart hd hp, ← ht, trimEnd]
  rcases components_trim p.reverse with ⟨h3, _⟩ | ⟨_, h4⟩
  · rw [trimEnd, h3] at ht
    have : n = [] := (List.append_eq_nil_iff.mp ht.symm).2
    exact absurd this hp.1
  · rw [h4, List.reverse_reverse]

theorem trimEndRev_head (r : Str) : (∀ t, trimEndRev r ≠ '/' :: t) ∧ ∀ t, trimEndRev r ≠ '.' :: '/' :: t := by
  fun_induction trimEndRev r with
  | case1 r ih => exact ih
  | case2 r ih => exact ih
  | case3 r h1 h2 => exact ⟨fun t e => h1 t e, fun t e => h2 t e⟩

/-- The last step, if it is a name, is the file name. -/
theorem fileName_of_components {p n : Str} {c : List Str} (h : Plain n) (hc : components p = c ++ [n]) :
    fileName p = some n := by
  obtain ⟨hh1, hh2⟩ := trimEndRev_head p.reverse
  have hslash : '/' ∉ lastSegment p := by
    rw [lastSegment]
    intro hm
    have := (List.all_eq_true.mp (List.all_takeWhile (p := fun x : Char => decide (x ≠ '/')) (l := trimEndRev p.reverse))) _
      (List.mem_reverse.mp hm)
    simp at this
  have ht : trimEnd p = beforeLast p ++ lastSegment p := by
    rw [trimEnd, beforeLast, lastSegment, ← List.reverse_append, List.takeWhile_append_dropWhile]
  have hd : DirPart (beforeLast p) := by
    rw [beforeLast]
    rcases hdw : (trimEndRev p.reverse).dropWhile (· ≠ '/') with _ | ⟨c, r⟩
    · exact .inl rfl
    · right
      have := List.head?_dropWhile_not (fun x : Char => decide (x ≠ '/')) (trimEndRev p.reverse)
      rw [hdw] at this
      simp at this
      simp [this]
  have hct : components (trimEnd p) = components p := by
    rcases components_trim p.reverse with ⟨_, h4⟩ | ⟨_, h4⟩
    · rcases h4 with h4 | ⟨_, h4⟩
      · have : p = [] := by simpa using h4
        subst this; rfl
      · rw [List.reverse_reverse] at h4
        rw [h4] at hc
        have : n = ['/'] := by
          cases c with
          | nil => simpa using hc.symm
          | cons a c => simp at hc
        exact absurd (by simp [this]) h.2.2.2
    · rw [List.reverse_reverse] at h4; rw [trimEnd, h4]
  have hrev : trimEndRev p.reverse = (lastSegment p).reverse ++ (beforeLast p).reverse := by
    rw [lastSegment, beforeLast, List.reverse_reverse, List.reverse_reverse, List.takeWhile_append_dropWhile]
  have hl0 : lastSegment p ≠ [] := by
    intro e
    rw [e] at hrev ht
    rcases hd with hd | hd
    · rw [hd] at ht
      simp at ht
      rw [ht] at hct
      rw [← hct] at hc
      simp [components, segments] at hc
    · obtain ⟨q, hq⟩ : ∃ q, beforeLast p = q ++ ['/'] := by
        rcases List.eq_nil_or_concat (beforeLast p) with e | ⟨q, c, e⟩
        · rw [e] at hd; simp at hd
        · rw [e] at hd; simp at hd; subst hd; exact ⟨q, by simp [e]⟩
      rw [hq] at hrev
      simp at hrev
      exact hh1 _ hrev
  have hl1 : lastSegment p ≠ ['.'] := by
    intro e
    rw [e] at hrev ht
    rcases hd with hd | hd
    · rw [hd] at ht
      simp at ht
      rw [ht] at hct
      rw [← hct] at hc
      have : components ['.'] = [['.']] := by decide
      rw [this] at hc
      have : n = ['.'] := by
        cases c with
        | nil => simpa using hc.symm
        | cons a c => simp at hc
      exact absurd this h.2.1
    · obtain ⟨q, hq⟩ : ∃ q, beforeLast p = q ++ ['/'] := by
        rcases List.eq_nil_or_concat (beforeLast p) with e | ⟨q, c, e⟩
        · rw [e] at hd; simp at hd
        · rw [e] at hd; simp at hd; subst hd; exact ⟨q, by simp [e]⟩
      rw [hq] at hrev
      simp at hrev
      exact hh2 _ hrev
  have he : lastSegment p = n := by
    rw [← hct, ht, components_dirPart' hd hl0 hl1 hslash] at hc
    have := List.append_inj_right' hc rfl
    simpa using this
  rw [fileName, he, if_neg (by simp [h.1, h.2.1, h.2.2.1])]

theorem components_pop {p n : Str} {c : List Str} (h : Plain n) (hc : components p = c ++ [n]) : components (pop p) = c := by
  have := (components_split (fileName_of_components h hc)).2
  rw [hc] at this
  exact List.append_cancel_right this

end Mty.Path

namespace Mty.Cli
open Spec Path

theorem changeExtension_ne (p : Str) (o : ConvertOptions) : changeExtension p o ≠ p := by
  have hsuf : ∀ b t : Str, MintyExt b → (if o.xml = true then ".xhtml".toList else ".html".toList) ≠ '.' :: b ++ t := by
    intro b t hb he
    rcases hb with hb | hb <;>
    · cases hb with | cons h1 h =>
      cases ho : o.xml <;> rw [ho] at he <;> simp at he <;> rcases h1 with rfl | rfl <;> simp at he
  rw [changeExtension]
  cases hm : hasMintyExtension p with
  | false =>
    intro h
    have := congrArg List.length h
    cases ho : o.xml <;> simp [ho] at this
  | true =>
    rw [if_pos rfl]
    rw [hasMintyExtension, extension] at hm
    cases hf : fileName p with
    | none => rw [hf] at hm; simp at hm
    | some n =>
      rw [hf] at hm
      cases hs : splitDot n with
      | none => simp [hs] at hm
      | some q =>
        obtain ⟨a, b⟩ := q
        simp only [Option.bind_some, hs, Option.map_some, decide_eq_true_eq] at hm
        obtain ⟨e, _, _⟩ := splitDot_some hs
        obtain ⟨t, ht⟩ := split_last p
        rw [← fileName_eq hf, e] at ht
        intro h
        rw [removeExtension, fileStem, hf] at h
        simp only [Option.map_some, hs] at h
        conv_rhs at h => rw [ht]
        simp only [List.append_assoc, List.append_cancel_left_eq] at h
        exact hsuf b t ((mintyExt_iff b).mp hm) h

/-! ## The search -/

section
variable (ls : Listing)

/-- The search over steps of paths: loop over the entries. -/
def foundEntries (sub : Option (Str → Except Str (List (List Str)))) : List (Str × PathInfo) → Except Str (List (List Str))
  | [] => .ok []
  | (n, i) :: rest =>
    if i.isFile then
      match foundEntries sub rest with
      | .error m => .error m
      | .ok l => .ok ((if hasMintyExtension n then [[n]] else []) ++ l)
    else
      match sub with
      | none => foundEntries sub rest
      | some f =>
        match f n with
        | .error m => .error m
        | .ok l =>
          match foundEntries sub rest with
          | .error m => .error m
          | .ok l' => .ok (l.map (n :: ·) ++ l')

/-- The search over steps of paths. -/
def foundList : Nat → List Str → Except Str (List (List Str))
  | d, dir =>
    match ls dir with
    | .error m => .error m
    | .ok entries =>
      match d with
      | 0 => foundEntries none entries
      | d + 1 => foundEntries (some fun n => foundList d (dir ++ [n])) entries

end

/-- What the search does to its state. -/
def Extends (base : Str) (s : SearchState) (r : Except Str (List (List Str))) (r' : Except Str SearchState) : Prop :=
  match r with
  | .error m => r' = .error m
  | .ok names => ∃ s', r' = .ok s' ∧ components s'.exact = components s.exact ∧ components s'.rel = components s.rel ∧
      ∃ locs, s'.out = s.out ++ locs ∧
        locs.map (fun l => (l.base, components l.relative)) = names.map fun n => (base, components s.rel ++ n)

theorem search_entries (base : Str) (sub : Option (Str → Except Str (List (List Str))))
    (rec : Option (SearchState → Except Str SearchState)) (exact : List Str)
    (hrec : match sub, rec with
      | none, none => True
      | some f, some g => ∀ n s, components s.exact = exact ++ [n] → Extends base s (f n) (g s)
      | _, _ => False)
    (entries : List (Str × PathInfo)) (hp : ∀ e ∈ entries, Plain e.1) (s : SearchState) (he : components s.exact = exact) :
    Extends base s (foundEntries sub entries) (searchEntries base rec entries s) := by
  induction entries generalizing s with
  | nil => exact ⟨s, rfl, rfl, rfl, [], by simp, rfl⟩
  | cons e rest ih =>
    obtain ⟨n, i⟩ := e
    have hn : Plain n := hp (n, i) (by simp)
    have hp' : ∀ e ∈ rest, Plain e.1 := fun e h => hp e (by simp [h])
    rw [searchEntries.eq_def, foundEntries.eq_def]
    dsimp only
    by_cases hi : i.isFile = true
    · rw [if_pos hi, if_pos hi]
      by_cases hm : hasMintyExtension n = true
      · rw [if_pos hm, if_pos hm]
        have := ih hp' { s with out := s.out ++ [⟨base, join s.rel n⟩] } he
        cases hf : foundEntries sub rest with
        | error m => rw [hf] at this; exact this
        | ok l =>
          rw [hf] at this
          obtain ⟨s', h1, h2, h3, locs, h4, h5⟩ := this
          refine ⟨s', h1, h2, h3, ⟨base, join s.rel n⟩ :: locs, by simp [h4], ?_⟩
          rw [List.map_cons, h5]
          simp [components_join s.rel hn]
      · rw [if_neg hm, if_neg hm]
        have := ih hp' s he
        cases hf : foundEntries sub rest with
        | error m => rw [hf] at this; exact this
        | ok l => rw [hf] at this; exact this
    · rw [if_neg hi, if_neg hi]
      cases rec with
      | none =>
        cases sub with
        | none => exact ih hp' s he
        | some f => exact hrec.elim
      | some g =>
        cases sub with
        | none => exact hrec.elim
        | some f =>
          have h0 := hrec n { s with rel := join s.rel n, exact := join s.exact n }
            (by simp only; rw [components_join s.exact hn, he])
          simp only
          cases hf : f n with
          | error m => rw [hf] at h0; dsimp only [Extends] at h0 ⊢; rw [h0]
          | ok l =>
            rw [hf] at h0
            obtain ⟨s1, h1, h2, h3, locs, h4, h5⟩ := h0
            simp only at h2 h3 h4 h5
            rw [h1]
            simp only
            -- popping leads back
            have hpe : components (pop s1.exact) = components s.exact :=
              components_pop hn (by rw [h2, components_join s.exact hn])
            have hpr : components (pop s1.rel) = components s.rel :=
              components_pop hn (by rw [h3, components_join s.rel hn])
            have h6 := ih hp' { s1 with exact := pop s1.exact, rel := pop s1.rel } (by simp only; rw [hpe, he])
            cases hr : foundEntries (some f) rest with
            | error m => rw [hr] at h6; exact h6
            | ok l' =>
              rw [hr] at h6
              obtain ⟨s2, g1, g2, g3, locs', g4, g5⟩ := h6
              simp only at g2 g3 g4 g5
              refine ⟨s2, g1, g2.trans hpe, g3.trans hpr, locs ++ locs', by rw [g4, h4, List.append_assoc], ?_⟩
              rw [List.map_append, h5, g5, List.map_append, List.map_map, hpr]
              congr 1
              refine List.map_congr_left fun a _ => ?_
              simp [components_join s.rel hn]

theorem search_inner {fs : Fs} {ls : Listing} (hfs : ∀ p, fs.readDir p = ls (components p)) (hl : ProperListing ls)
    (base : Str) (d : Nat) (s : SearchState) :
    Extends base s (foundList ls d (components s.exact)) (searchDirInner fs base d s) := by
  induction d generalizing s with
  | zero =>
    rw [foundList.eq_def, searchDirInner.eq_def]; dsimp only; rw [hfs]
    cases he : ls (components s.exact) with
    | error m => rfl
    | ok entries => exact search_entries base none none _ trivial entries (hl _ _ he).1 s rfl
  | succ d ih =>
    rw [foundList.eq_def, searchDirInner.eq_def]; dsimp only; rw [hfs]
    cases he : ls (components s.exact) with
    | error m => rfl
    | ok entries =>
      refine search_entries base (some _) (some _) _ ?_ entries (hl _ _ he).1 s rfl
      intro n s' hs'
      have := ih s'
      rw [hs'] at this
      exact this

/-! ## What is found -/

theorem foundEntries_none {entries : List (Str × PathInfo)} (hp : ∀ e ∈ entries, Plain e.1) :
    ∃ l, foundEntries none entries = .ok l ∧
      ∀ names, names ∈ l ↔ ∃ n i, (n, i) ∈ entries ∧ i.isFile = true ∧ MintyName n ∧ names = [n] := by
  induction entries with
  | nil => exact ⟨[], rfl, by simp⟩
  | cons e rest ih =>
    obtain ⟨n, i⟩ := e
    obtain ⟨l, h1, h2⟩ := ih fun e h => hp e (by simp [h])
    have hn : hasMintyExtension n = true ↔ MintyName n := hasMinty_plain (d := []) (.inl rfl) (hp (n, i) (by simp))
    rw [foundEntries.eq_def]
    dsimp only
    rw [h1]
    by_cases hi : i.isFile = true
    · rw [if_pos hi]
      refine ⟨_, rfl, fun names => ?_⟩
      rw [List.mem_append, h2]
      constructor
      · rintro (h | ⟨n', i', h3, h4⟩)
        · split at h
          · rename_i hm
            simp at h
            exact ⟨n, i, by simp, hi, hn.mp hm, h⟩
          · simp at h
        · exact ⟨n', i', by simp [h3], h4⟩
      · rintro ⟨n', i', h3, h4, h5, h6⟩
        rcases List.mem_cons.mp h3 with h | h
        · cases h
          left
          rw [if_pos (hn.mpr h5), h6]; simp
        · exact .inr ⟨n', i', h, h4, h5, h6⟩
    · rw [if_neg hi]
      refine ⟨l, rfl, fun names => ?_⟩
      rw [h2]
      constructor
      · rintro ⟨n', i', h3, h4⟩
        exact ⟨n', i', by simp [h3], h4⟩
      · rintro ⟨n', i', h3, h4, h5, h6⟩
        rcases List.mem_cons.mp h3 with h | h
        · cases h; exact absurd h4 hi
        · exact ⟨n', i', h, h4, h5, h6⟩

theorem foundEntries_some {entries : List (Str × PathInfo)} (hp : ∀ e ∈ entries, Plain e.1)
    (f : Str → Except Str (List (List Str))) :
    (∃ l, foundEntries (some f) entries = .ok l ∧
      (∀ n i, (n, i) ∈ entries → i.isFile = false → ∃ l', f n = .ok l') ∧
      ∀ names, names ∈ l ↔ ∃ n i, (n, i) ∈ entries ∧
        ((i.isFile = true ∧ MintyName n ∧ names = [n]) ∨
          (i.isFile = false ∧ ∃ l' rest, f n = .ok l' ∧ rest ∈ l' ∧ names = n :: rest))) ∨
    (∃ m n i, foundEntries (some f) entries = .error m ∧ (n, i) ∈ entries ∧ i.isFile = false ∧ f n = .error m) := by
  induction entries with
  | nil => exact .inl ⟨[], rfl, by simp, by simp⟩
  | cons e rest ih =>
    obtain ⟨n, i⟩ := e
    have ih := ih fun e h => hp e (by simp [h])
    have hn : hasMintyExtension n = true ↔ MintyName n := hasMinty_plain (d := []) (.inl rfl) (hp (n, i) (by simp))
    rw [foundEntries.eq_def]
    dsimp only
    by_cases hi : i.isFile = true
    · rw [if_pos hi]
      rcases ih with ⟨l, h1, h0, h2⟩ | ⟨m, n', i', h1, h2, h3⟩
      · left
        rw [h1]
        refine ⟨_, rfl, ?_, fun names => ?_⟩
        · intro n' i' hm hf
          rcases List.mem_cons.mp hm with h | h
          · cases h; rw [hi] at hf; cases hf
          · exact h0 n' i' h hf
        rw [List.mem_append, h2]
        constructor
        · rintro (h | ⟨n', i', h3, h4⟩)
          · split at h
            · rename_i hm
              simp at h
              exact ⟨n, i, by simp, .inl ⟨hi, hn.mp hm, h⟩⟩
            · simp at h
          · exact ⟨n', i', by simp [h3], h4⟩
        · rintro ⟨n', i', h3, h4⟩
          rcases List.mem_cons.mp h3 with h | h
          · cases h
            rcases h4 with ⟨_, h5, h6⟩ | ⟨h5, _⟩
            · left
              rw [if_pos (hn.mpr h5), h6]; simp
            · rw [hi] at h5; cases h5
          · exact .inr ⟨n', i', h, h4⟩
      · right
        rw [h1]
        exact ⟨m, n', i', rfl, by simp [h2], h3⟩
    · rw [if_neg hi]
      have hi' : i.isFile = false := by simpa using hi
      cases hf : f n with
      | error m => exact .inr ⟨m, n, i, rfl, by simp, hi', hf⟩
      | ok l0 =>
        simp only
        rcases ih with ⟨l, h1, h0, h2⟩ | ⟨m, n', i', h1, h2, h3⟩
        · left
          rw [h1]
          refine ⟨_, rfl, ?_, fun names => ?_⟩
          · intro n' i' hm hf'
            rcases List.mem_cons.mp hm with h | h
            · cases h; exact ⟨l0, hf⟩
            · exact h0 n' i' h hf'
          rw [List.mem_append, h2, List.mem_map]
          constructor
          · rintro (⟨r, h, rfl⟩ | ⟨n', i', h3, h4⟩)
            · exact ⟨n, i, by simp, .inr ⟨hi', l0, r, hf, h, rfl⟩⟩
            · exact ⟨n', i', by simp [h3], h4⟩
          · rintro ⟨n', i', h3, h4⟩
            rcases List.mem_cons.mp h3 with h | h
            · cases h
              rcases h4 with ⟨h5, _⟩ | ⟨_, l', r, h5, h6, h7⟩
              · rw [hi'] at h5; cases h5
              · rw [hf] at h5; cases h5
                exact .inl ⟨r, h6, h7.symm⟩
            · exact .inr ⟨n', i', h, h4⟩
        · right
          rw [h1]
          exact ⟨m, n', i', rfl, by simp [h2], h3⟩

/-- The files found are those described by `Found`; the search fails exactly if a directory on the way
cannot be read. -/
theorem foundList_spec {ls : Listing} (hl : ProperListing ls) (d : Nat) (dir : List Str) :
    (∃ l, foundList ls d dir = .ok l ∧ (∀ sub, Below ls dir d sub → ∃ e, ls sub = .ok e) ∧
      ∀ names, names ∈ l ↔ Found ls dir d names) ∨
    (∃ m sub, foundList ls d dir = .error m ∧ Below ls dir d sub ∧ ls sub = .error m) := by
  induction d generalizing dir with
  | zero =>
    rw [foundList.eq_def]; dsimp only
    cases he : ls dir with
    | error m => exact .inr ⟨m, dir, rfl, .here, he⟩
    | ok entries =>
      obtain ⟨l, h1, h2⟩ := foundEntries_none (hl _ _ he).1
      refine .inl ⟨l, h1, ?_, fun names => ?_⟩
      · intro sub hs; cases hs; exact ⟨_, he⟩
      rw [h2]
      constructor
      · rintro ⟨n, i, h3, h4, h5, rfl⟩; exact .file he h3 h4 h5
      · intro h
        cases h with
        | file h3 h4 h5 h6 => rw [he] at h3; cases h3; exact ⟨_, _, h4, h5, h6, rfl⟩
  | succ d ih =>
    rw [foundList.eq_def]; dsimp only
    cases he : ls dir with
    | error m => exact .inr ⟨m, dir, rfl, .here, he⟩
    | ok entries =>
      rcases foundEntries_some (hl _ _ he).1 (fun n => foundList ls d (dir ++ [n])) with ⟨l, h1, h0, h2⟩ | ⟨m, n, i, h1, h2, h3, h4⟩
      · refine .inl ⟨l, h1, ?_, fun names => ?_⟩
        · intro sub hs
          cases hs with
          | here => exact ⟨_, he⟩
          | sub h3 h4 h5 h6 =>
            rw [he] at h3; cases h3
            obtain ⟨l', h7⟩ := h0 _ _ h4 h5
            rcases ih (dir ++ [_]) with ⟨_, _, g2, _⟩ | ⟨m, _, g1, _⟩
            · exact g2 _ h6
            · simp only [g1] at h7; cases h7
        · rw [h2]
          constructor
          · rintro ⟨n, i, h3, ⟨h4, h5, rfl⟩ | ⟨h4, l', r, h5, h6, rfl⟩⟩
            · exact .file he h3 h4 h5
            · refine .sub he h3 h4 ?_
              rcases ih (dir ++ [n]) with ⟨l'', g1, _, g2⟩ | ⟨m, _, g1, _⟩
              · simp only [g1] at h5; cases h5
                exact (g2 r).mp h6
              · simp only [g1] at h5; cases h5
          · intro h
            cases h with
            | file h3 h4 h5 h6 => rw [he] at h3; cases h3; exact ⟨_, _, h4, .inl ⟨h5, h6, rfl⟩⟩
            | @sub _ _ n i _ names h3 h4 h5 h6 =>
              rw [he] at h3; cases h3
              obtain ⟨l', h7⟩ := h0 _ _ h4 h5
              refine ⟨_, _, h4, .inr ⟨h5, l', names, h7, ?_, rfl⟩⟩
              rcases ih (dir ++ [n]) with ⟨l'', g1, _, g2⟩ | ⟨m, _, g1, _⟩
              · simp only [g1] at h7; cases h7
                exact (g2 _).mpr h6
              · simp only [g1] at h7; cases h7
      · right
        rcases ih (dir ++ [n]) with ⟨l'', g1, _⟩ | ⟨m', sub, g1, g2, g3⟩
        · simp only [g1] at h4; cases h4
        · simp only [g1] at h4; cases h4
          exact ⟨m, sub, h1, .sub he h2 h3 g2, g3⟩

/-- No file is found twice. -/
theorem foundEntries_nodup {entries : List (Str × PathInfo)} (hn : (entries.map Prod.fst).Nodup)
    (sub : Option (Str → Except Str (List (List Str))))
    (hs : ∀ f, sub = some f → ∀ n l, f n = .ok l → l.Nodup) :
    ∀ l, foundEntries sub entries = .ok l → l.Nodup ∧ ∀ names ∈ l, ∃ n, names.head? = some n ∧ n ∈ entries.map Prod.fst := by
  induction entries with
  | nil => intro l h; cases h; simp
  | cons e rest ih =>
    obtain ⟨n, i⟩ := e
    simp only [List.map_cons, List.nodup_cons] at hn
    have ih := ih hn.2
    intro l h
    rw [foundEntries.eq_def] at h
    dsimp only at h
    split at h
    · cases hr : foundEntries sub rest with
      | error m => rw [hr] at h; cases h
      | ok l' =>
        rw [hr] at h
        simp only [Except.ok.injEq] at h
        subst h
        obtain ⟨h1, h2⟩ := ih l' hr
        refine ⟨?_, ?_⟩
        · split
          · rw [List.singleton_append, List.nodup_cons]
            refine ⟨fun hm => ?_, h1⟩
            obtain ⟨n', h3, h4⟩ := h2 _ hm
            simp at h3; subst h3
            exact hn.1 h4
          · simpa using h1
        · intro names hm
          rw [List.mem_append] at hm
          rcases hm with hm | hm
          · split at hm
            · simp at hm; subst hm; exact ⟨n, rfl, by simp⟩
            · simp at hm
          · obtain ⟨n', h3, h4⟩ := h2 _ hm
            exact ⟨n', h3, by simp only [List.map_cons, List.mem_cons]; exact .inr h4⟩
    · cases sub with
      | none =>
        simp only at h
        obtain ⟨h1, h2⟩ := ih l h
        refine ⟨h1, fun names hm => ?_⟩
        obtain ⟨n', h3, h4⟩ := h2 _ hm
        exact ⟨n', h3, by simp only [List.map_cons, List.mem_cons]; exact .inr h4⟩
      | some f =>
        simp only at h
        cases hf : f n with
        | error m => rw [hf] at h; cases h
        | ok l0 =>
          rw [hf] at h
          cases hr : foundEntries (some f) rest with
          | error m => simp only [hr] at h; cases h
          | ok l' =>
            simp only [hr, Except.ok.injEq] at h
            subst h
            obtain ⟨h1, h2⟩ := ih l' hr
            refine ⟨?_, ?_⟩
            · rw [List.nodup_append]
              refine ⟨List.Pairwise.map _ (fun a b hne e => hne (by simpa using e)) (hs f rfl n l0 hf), h1, ?_⟩
              intro a ha b hb e
              subst e
              rw [List.mem_map] at ha
              obtain ⟨r, _, rfl⟩ := ha
              obtain ⟨n', h3, h4⟩ := h2 _ hb
              simp at h3; subst h3
              exact hn.1 h4
            · intro names hm
              rw [List.mem_append, List.mem_map] at hm
              rcases hm with ⟨r, _, rfl⟩ | hm
              · exact ⟨n, rfl, by simp⟩
              · obtain ⟨n', h3, h4⟩ := h2 _ hm
                exact ⟨n', h3, by simp only [List.map_cons, List.mem_cons]; exact .inr h4⟩

theorem foundList_nodup {ls : Listing} (hl : ProperListing ls) (d : Nat) (dir : List Str) (l : List (List Str))
    (h : foundList ls d dir = .ok l) : l.Nodup := by
  induction d generalizing dir l with
  | zero =>
    rw [foundList.eq_def] at h; dsimp only at h
    cases he : ls dir with
    | error m => rw [he] at h; cases h
    | ok entries =>
      rw [he] at h
      exact (foundEntries_nodup (hl _ _ he).2 none (by simp) l h).1
  | succ d ih =>
    rw [foundList.eq_def] at h; dsimp only at h
    cases he : ls dir with
    | error m => rw [he] at h; cases h
    | ok entries =>
      rw [he] at h
      refine (foundEntries_nodup (hl _ _ he).2 (some _) ?_ l h).1
      rintro f hf n l' hn
      cases hf
      exact ih _ _ hn

end Mty.Cli
