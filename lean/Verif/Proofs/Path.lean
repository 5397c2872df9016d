import Verif.Spec.Cli

/-! # Paths -/

set_option autoImplicit false

namespace Mty.Path
open Spec

/-! ## Names at the end of a path -/

theorem trimEndRev_name {n r : Str} (h0 : n ≠ []) (h1 : n ≠ ['.']) (h2 : '/' ∉ n) :
    trimEndRev (n ++ r) = n ++ r := by
  rcases n with _ | ⟨a, _ | ⟨b, n⟩⟩
  · exact absurd rfl h0
  · have ha : a ≠ '/' := fun e => h2 (by simp [e])
    have ha' : a ≠ '.' := fun e => h1 (by simp [e])
    rw [trimEndRev.eq_def]
    split
    · rename_i heq; simp at heq; exact absurd heq.1 ha
    · rename_i heq; simp at heq; exact absurd heq.1 ha'
    · rfl
  · have ha : a ≠ '/' := fun e => h2 (by simp [e])
    have hb : b ≠ '/' := fun e => h2 (by simp [e])
    rw [trimEndRev.eq_def]
    split
    · rename_i heq; simp at heq; exact absurd heq.1 ha
    · rename_i heq; simp at heq; exact absurd heq.2.1 hb
    · rfl

theorem takeWhile_name {n r : Str} (h2 : '/' ∉ n) (hr : r = [] ∨ r.head? = some '/') :
    (n ++ r).takeWhile (· ≠ '/') = n ∧ (n ++ r).dropWhile (· ≠ '/') = r := by
  induction n with
  | nil =>
    rcases hr with rfl | hr
    · simp
    · cases r with
      | nil => simp at hr
      | cons c r => simp at hr; subst hr; simp
  | cons a n ih =>
    simp at h2
    obtain ⟨i1, i2⟩ := ih h2.2
    have : a ≠ '/' := fun e => h2.1 e.symm
    simp only [List.cons_append, List.takeWhile_cons, List.dropWhile_cons]
    simp [this] at i1 i2 ⊢
    exact ⟨i1, i2⟩

/-- A directory part: empty or ending with a separator. -/
def DirPart (d : Str) : Prop := d = [] ∨ d.getLast? = some '/'

section
variable {d n : Str}

theorem last_name (hd : DirPart d) (h0 : n ≠ []) (h1 : n ≠ ['.']) (h2 : '/' ∉ n) :
    lastSegment (d ++ n) = n ∧ beforeLast (d ++ n) = d ∧ trimEnd (d ++ n) = d ++ n := by
  have hr : d.reverse = [] ∨ d.reverse.head? = some '/' := by
    rcases hd with rfl | h
    · exact .inl rfl
    · right; rw [List.head?_reverse]; exact h
  have ht : trimEndRev (d ++ n).reverse = n.reverse ++ d.reverse := by
    rw [List.reverse_append]
    refine trimEndRev_name ?_ ?_ ?_
    · simpa using h0
    · intro e; apply h1; rw [← List.reverse_reverse n, e]; rfl
    · simpa using h2
  have hm : '/' ∉ n.reverse := by simpa using h2
  obtain ⟨t1, t2⟩ := takeWhile_name hm hr
  refine ⟨?_, ?_, ?_⟩
  · rw [lastSegment, ht, t1, List.reverse_reverse]
  · rw [beforeLast, ht, t2, List.reverse_reverse]
  · rw [trimEnd, ht]; simp

theorem fileName_plain (hd : DirPart d) (h : Plain n) : fileName (d ++ n) = some n := by
  obtain ⟨h0, h1, h2, h3⟩ := h
  rw [fileName]
  rw [(last_name hd h0 h1 h3).1, if_neg (by simp [h0, h1, h2])]

theorem splitDot_ext {stem ext : Str} (hs : stem ≠ []) (he : '.' ∉ ext) :
    splitDot (stem ++ '.' :: ext) = some (stem, ext) := by
  have e : (stem ++ '.' :: ext).reverse = ext.reverse ++ '.' :: stem.reverse := by simp
  have ht : ∀ r : Str, '.' ∉ r → ∀ s : Str, (r ++ '.' :: s).takeWhile (· ≠ '.') = r ∧ (r ++ '.' :: s).dropWhile (· ≠ '.') = '.' :: s := by
    intro r
    induction r with
    | nil => intro _ s; simp
    | cons a r ih =>
      intro h s
      simp at h
      have : a ≠ '.' := fun e => h.1 e.symm
      have := ih h.2 s
      simp only [List.cons_append, List.takeWhile_cons, List.dropWhile_cons]
      simp_all
  obtain ⟨t1, t2⟩ := ht ext.reverse (by simpa using he) stem.reverse
  rw [splitDot, e, t1, t2]
  simp [hs]

theorem splitDot_some {name a b : Str} (h : splitDot name = some (a, b)) : name = a ++ '.' :: b ∧ a ≠ [] ∧ '.' ∉ b := by
  simp only [splitDot] at h
  split at h
  · rename_i hc
    obtain ⟨hdot, hne⟩ := hc
    simp only [Option.some.injEq, Prod.mk.injEq] at h
    obtain ⟨ha, hb⟩ := h
    have hsplit := List.takeWhile_append_dropWhile (p := (fun x : Char => decide (x ≠ '.'))) (l := name.reverse)
    have hdrop : ∃ r, name.reverse.dropWhile (fun x : Char => decide (x ≠ '.')) = '.' :: r := by
      cases hdw : name.reverse.dropWhile (fun x : Char => decide (x ≠ '.')) with
      | nil =>
        rw [hdw] at hne; simp at hne
      | cons c r =>
        have := List.head?_dropWhile_not (fun x : Char => decide (x ≠ '.')) name.reverse
        rw [hdw] at this
        simp at this
        exact ⟨r, by rw [this]⟩
    obtain ⟨r, hr⟩ := hdrop
    have hrev := congrArg List.reverse hsplit
    rw [List.reverse_reverse, List.reverse_append, hr] at hrev
    rw [hr] at ha hne
    simp only [List.reverse_cons, List.dropLast_concat] at ha hne
    refine ⟨?_, ?_, ?_⟩
    · rw [← ha, ← hb]; conv_lhs => rw [← hrev]
      simp
    · rw [← ha]; exact hne
    · rw [← hb]
      intro hm
      have := (List.all_eq_true.mp (List.all_takeWhile (p := fun x : Char => decide (x ≠ '.')) (l := name.reverse))) _
        (List.mem_reverse.mp hm)
      simp at this
  · cases h

end

end Mty.Path

namespace Mty.Cli
open Spec Path

theorem lowerAscii_letter {c u l : Char} (hu : 'A' ≤ u ∧ u ≤ 'Z') (hl : l = Char.ofNat (u.toNat + 32)) :
    lowerAscii c = l ↔ c = l ∨ c = u := by
  have key : ∀ u : Fin 26, ∀ c : Fin 128, lowerAscii (Char.ofNat c) = Char.ofNat (65 + u + 32) ↔
      Char.ofNat c = Char.ofNat (65 + u + 32) ∨ Char.ofNat c = Char.ofNat (65 + u) := by decide +kernel
  have hu1 : 65 ≤ u.toNat := hu.1
  have hu2 : u.toNat ≤ 90 := hu.2
  have hue : u = Char.ofNat (65 + (u.toNat - 65)) := by
    rw [show 65 + (u.toNat - 65) = u.toNat from by omega, Char.ofNat_toNat]
  by_cases hc : c.toNat < 128
  · have := key ⟨u.toNat - 65, by omega⟩ ⟨c.toNat, hc⟩
    simp only [Char.ofNat_toNat] at this
    rw [← hue, show 65 + (u.toNat - 65) + 32 = u.toNat + 32 from by omega, ← hl] at this
    exact this
  · have hn : ¬('A' ≤ c ∧ c ≤ 'Z') := by
      rintro ⟨_, h⟩
      have : c.toNat ≤ 90 := h
      omega
    rw [lowerAscii, if_neg hn]
    constructor
    · exact .inl
    · rintro (h | h)
      · exact h
      · subst h; omega

theorem lower_map {ext : Str} {l : List (Char × Char)}
    (hl : ∀ p ∈ l, ('A' ≤ p.2 ∧ p.2 ≤ 'Z') ∧ p.1 = Char.ofNat (p.2.toNat + 32)) :
    ext.map lowerAscii = l.map Prod.fst ↔
      List.Forall₂ (fun (c : Char) (p : Char × Char) => c = p.1 ∨ c = p.2) ext l := by
  induction l generalizing ext with
  | nil => cases ext <;> simp
  | cons p l ih =>
    cases ext with
    | nil => simp
    | cons c ext =>
      have hp := hl p (by simp)
      simp only [List.map_cons, List.cons.injEq, List.forall₂_cons]
      rw [lowerAscii_letter hp.1 hp.2, ih (fun q hq => hl q (by simp [hq]))]

theorem mintyExt_iff (ext : Str) :
    (ext.map lowerAscii = "mty".toList ∨ ext.map lowerAscii = "minty".toList) ↔ MintyExt ext := by
  have h1 := lower_map (ext := ext) (l := [('m', 'M'), ('t', 'T'), ('y', 'Y')]) (by decide +kernel)
  have h2 := lower_map (ext := ext) (l := [('m', 'M'), ('i', 'I'), ('n', 'N'), ('t', 'T'), ('y', 'Y')]) (by decide +kernel)
  rw [MintyExt, ← h1, ← h2]
  rfl

theorem mintyExt_chars {ext : Str} (h : MintyExt ext) : '.' ∉ ext ∧ '/' ∉ ext ∧ ext ≠ [] := by
  rcases h with h | h
  · cases h with | cons h1 h =>
    cases h with | cons h2 h =>
    cases h with | cons h3 h =>
    cases h
    rcases h1 with rfl | rfl <;> rcases h2 with rfl | rfl <;> rcases h3 with rfl | rfl <;> decide
  · cases h with | cons h1 h =>
    cases h with | cons h2 h =>
    cases h with | cons h3 h =>
    cases h with | cons h4 h =>
    cases h with | cons h5 h =>
    cases h
    refine ⟨?_, ?_, by simp⟩ <;> intro hm <;> simp at hm <;>
      rcases hm with rfl | rfl | rfl | rfl | rfl <;> simp_all

variable {d n : Str}

theorem hasMinty_plain (hd : DirPart d) (h : Plain n) : hasMintyExtension (d ++ n) = true ↔ MintyName n := by
  rw [hasMintyExtension, Path.extension, fileName_plain hd h]
  simp only [Option.bind_some]
  constructor
  · intro hm
    cases hs : splitDot n with
    | none => rw [hs] at hm; simp at hm
    | some p =>
      obtain ⟨a, b⟩ := p
      obtain ⟨e, ha, hb⟩ := splitDot_some hs
      rw [hs] at hm
      simp only [Option.map_some, decide_eq_true_eq] at hm
      exact ⟨a, b, ha, (mintyExt_iff b).mp hm, e⟩
  · rintro ⟨stem, ext, hs, he, rfl⟩
    rw [splitDot_ext hs (mintyExt_chars he).1]
    simp only [Option.map_some, decide_eq_true_eq]
    exact (mintyExt_iff ext).mpr he

theorem renamed_plain (o : ConvertOptions) (hd : DirPart d) (h : Plain n) :
    ∃ n', Renamed o.xml n n' ∧ changeExtension (d ++ n) o = d ++ n' := by
  have hx : (if o.xml = true then ".xhtml".toList else ".html".toList) = htmlSuffix o.xml := rfl
  by_cases hm : MintyName n
  · have hb := (hasMinty_plain hd h).mpr hm
    obtain ⟨stem, ext, hs, he, rfl⟩ := hm
    refine ⟨_, .minty hs he, ?_⟩
    rw [changeExtension, hb, if_pos rfl, removeExtension, fileStem, fileName_plain hd h]
    simp only [Option.map_some]
    rw [splitDot_ext hs (mintyExt_chars he).1]
    simp only
    rw [(last_name hd h.1 h.2.1 h.2.2.2).2.1, hx]
    simp
  · have hb : hasMintyExtension (d ++ n) = false := by
      rw [← Bool.not_eq_true, hasMinty_plain hd h]; exact hm
    refine ⟨_, .other hm, ?_⟩
    rw [changeExtension, hb, hx]; simp

end Mty.Cli
