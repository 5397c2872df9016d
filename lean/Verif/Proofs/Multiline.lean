import Verif.Proofs.EscapeRanges
import Verif.Proofs.OutEscape
import Verif.Model.Multiline
import Verif.Spec.Multiline

/-! # Lemmas about `trimMultiline` -/

namespace Mty
open Spec

theorem splitOnce_append {p : Char} {a b : Str} (h : p ∉ a) :
    splitOnce p (a ++ p :: b) = some (a, b) := by
  induction a with
  | nil => simp [splitOnce]
  | cons c a ih =>
    simp at h
    simp [splitOnce, ih h.2, show ¬ c = p from fun e => h.1 e.symm]

theorem splitOnce_none {p : Char} {s : Str} (h : splitOnce p s = none) : p ∉ s := by
  induction s with
  | nil => simp
  | cons c s ih =>
    simp only [splitOnce] at h
    split at h
    · simp at h
    · rename_i hc
      simp at h
      simp [ih h]
      exact fun e => hc e.symm

theorem splitOnce_some {p : Char} {s a b : Str} (h : splitOnce p s = some (a, b)) :
    s = a ++ p :: b ∧ p ∉ a := by
  induction s generalizing a b with
  | nil => simp [splitOnce] at h
  | cons c s ih =>
    simp only [splitOnce] at h
    split at h
    · rename_i hc
      simp at h; obtain ⟨rfl, rfl⟩ := h
      simp [hc]
    · rename_i hc
      simp at h
      obtain ⟨a', h1, h2⟩ := h
      obtain ⟨rfl, h3⟩ := ih h1
      subst h2
      simp [h3]; exact fun e => hc e.symm

theorem rsplitOnce_not_mem {p : Char} {s : Str} (h : p ∉ s) : rsplitOnce p s = none := by
  induction s with
  | nil => rfl
  | cons c s ih =>
    simp at h
    simp [rsplitOnce, ih h.2, show ¬ c = p from fun e => h.1 e.symm]

theorem rsplitOnce_append {p : Char} {a b : Str} (h : p ∉ b) :
    rsplitOnce p (a ++ p :: b) = some (a, b) := by
  induction a with
  | nil => simp [rsplitOnce, rsplitOnce_not_mem h]
  | cons c a ih => simp [rsplitOnce, ih]

theorem rsplitOnce_none {p : Char} {s : Str} (h : rsplitOnce p s = none) : p ∉ s := by
  induction s with
  | nil => simp
  | cons c s ih =>
    simp only [rsplitOnce] at h
    cases hr : rsplitOnce p s with
    | some q => simp [hr] at h
    | none =>
      simp [hr] at h
      simp [ih hr]
      exact fun e => h e.symm

theorem rsplitOnce_some {p : Char} {s a b : Str} (h : rsplitOnce p s = some (a, b)) :
    s = a ++ p :: b ∧ p ∉ b := by
  induction s generalizing a b with
  | nil => simp [rsplitOnce] at h
  | cons c s ih =>
    simp only [rsplitOnce] at h
    cases hr : rsplitOnce p s with
    | some q =>
      obtain ⟨q1, q2⟩ := q
      simp [hr] at h
      obtain ⟨rfl, rfl⟩ := h
      obtain ⟨rfl, h2⟩ := ih hr
      exact ⟨rfl, h2⟩
    | none =>
      simp [hr] at h
      obtain ⟨rfl, rfl, rfl⟩ := h
      exact ⟨rfl, rsplitOnce_none hr⟩

theorem splitInclusive_append {p : Char} {a b : Str} (h : p ∉ a) :
    splitInclusive p (a ++ p :: b) = (a ++ [p]) :: splitInclusive p b := by
  induction a with
  | nil => simp [splitInclusive]
  | cons c a ih =>
    simp at h
    simp [splitInclusive, ih h.2, show ¬ c = p from fun e => h.1 e.symm]

theorem splitInclusive_one {p : Char} {a : Str} (h : p ∉ a) :
    splitInclusive p a = if a = [] then [] else [a] := by
  induction a with
  | nil => rfl
  | cons c a ih =>
    simp at h
    rw [splitInclusive, if_neg (show ¬ c = p from fun e => h.1 e.symm), ih h.2]
    cases a <;> simp

theorem splitInclusive_flatten (p : Char) (s : Str) : (splitInclusive p s).flatten = s := by
  induction s with
  | nil => rfl
  | cons c s ih =>
    simp only [splitInclusive]
    split
    · simp [ih]
    · cases h : splitInclusive p s with
      | nil => rw [h] at ih; simp at ih; simp [← ih]
      | cons l ls => rw [h] at ih; simp at ih; simp [← ih]

theorem joinLines_cons {l : Str} {ls : List Str} (h : ls ≠ []) :
    joinLines (l :: ls) = l ++ '\n' :: joinLines ls := by
  cases ls with
  | nil => exact absurd rfl h
  | cons => rfl

theorem joinLines_snoc {ls : List Str} {l : Str} (h : ls ≠ []) :
    joinLines (ls ++ [l]) = joinLines ls ++ '\n' :: l := by
  induction ls with
  | nil => exact absurd rfl h
  | cons x ls ih =>
    cases ls with
    | nil => simp [joinLines]
    | cons y ls => 
      rw [List.cons_append, joinLines_cons (by simp), ih (by simp)]
      simp [joinLines]

theorem isWhitespace_iff (c : Char) : isWhitespace c = true ↔ c.toNat ∈ whiteSpace := by
  simp only [isWhitespace, whiteSpace, Bool.or_eq_true, Bool.and_eq_true, decide_eq_true_eq,
    beq_iff_eq, List.mem_cons, List.not_mem_nil, or_false]
  omega

theorem indentation_takeWhile {pre last : Str} (h : Indentation pre last) :
    last.takeWhile isWhitespace = pre := by
  obtain ⟨h1, rest, rfl, h2⟩ := h
  rw [List.takeWhile_append_of_pos (fun c hc => (isWhitespace_iff c).2 (h1 c hc))]
  cases rest with
  | nil => simp
  | cons c r =>
    have := h2 c r rfl
    rw [← isWhitespace_iff] at this
    simp [this]

theorem indentation_exists (last : Str) : Indentation (last.takeWhile isWhitespace) last := by
  refine ⟨fun c hc => (isWhitespace_iff c).1 (by
      have := List.all_takeWhile (p := isWhitespace) (l := last); rw [List.all_eq_true] at this; exact this c hc),
    last.dropWhile isWhitespace, (List.takeWhile_append_dropWhile).symm, ?_⟩
  intro c r h hc
  rw [← isWhitespace_iff] at hc
  have := List.head?_dropWhile_not (p := isWhitespace) last
  rw [h] at this
  simp [hc] at this

theorem dedent_stripPrefix {pre l l' : Str} (h : Dedent pre l l') : stripPrefix pre l = l' := by
  cases h with
  | strip => simp [stripPrefix]
  | keep _ h => simp [stripPrefix, h]

theorem stripPrefix_dedent (pre l : Str) : Dedent pre l (stripPrefix pre l) := by
  by_cases h : pre <+: l
  · obtain ⟨r, rfl⟩ := h
    have : stripPrefix pre (pre ++ r) = r := by simp [stripPrefix]
    rw [this]
    exact .strip r
  · have : stripPrefix pre l = l := by simp [stripPrefix, h]
    rw [this]
    exact .keep l h

theorem stripCr_drop {l l' : Str} (h : DropCr l l') : stripCr l = l' := by
  cases h with
  | cr => simp [stripCr]
  | none _ h =>
    have : ¬ l.getLast? = some '\r' := by
      intro e
      obtain ⟨a, rfl⟩ := List.getLast?_eq_some_iff.1 e
      exact h a rfl
    simp [stripCr, this]

theorem dropCr_exists (l : Str) : DropCr l (stripCr l) := by
  by_cases h : l.getLast? = some '\r'
  · obtain ⟨a, rfl⟩ := List.getLast?_eq_some_iff.1 h
    have : stripCr (a ++ ['\r']) = a := by simp [stripCr]
    rw [this]
    exact .cr a
  · have : stripCr l = l := by simp [stripCr, h]
    rw [this]
    refine .none l ?_
    rintro a rfl
    simp at h

theorem stripPrefix_newline {pre l : Str} (h : '\n' ∉ pre) :
    stripPrefix pre (l ++ ['\n']) = stripPrefix pre l ++ ['\n'] := by
  have key : pre <+: l ++ ['\n'] ↔ pre <+: l := by
    constructor
    · rintro ⟨r, hr⟩
      rcases List.append_eq_append_iff.1 hr with ⟨u, h1, -⟩ | ⟨u, h1, h2⟩
      · exact ⟨u, h1.symm⟩
      · cases u with
        | nil => exact ⟨[], by simpa using h1⟩
        | cons x u =>
          simp at h2
          rw [h1, ← h2.1] at h
          simp at h
    · rintro ⟨r, rfl⟩
      exact ⟨r ++ ['\n'], by simp⟩
  by_cases hp : pre <+: l
  · simp only [stripPrefix, List.isPrefixOf_iff_prefix, key, hp, if_true]
    obtain ⟨r, rfl⟩ := hp
    simp
  · simp [stripPrefix, key, hp]

theorem stripCr_joinLines {ls : List Str} {l : Str} :
    stripCr (joinLines (ls ++ [l])) = joinLines (ls ++ [stripCr l]) := by
  cases ls with
  | nil => rfl
  | cons x ls =>
    rw [joinLines_snoc (by simp), joinLines_snoc (by simp)]
    generalize joinLines (x :: ls) = y
    cases h : l.getLast? with
    | none =>
      simp at h; subst h
      simp [stripCr]
    | some c =>
      obtain ⟨a, rfl⟩ := List.getLast?_eq_some_iff.1 h
      have e1 : y ++ '\n' :: (a ++ [c]) = (y ++ '\n' :: a) ++ [c] := by simp
      rw [e1]
      simp only [stripCr, List.getLast?_concat, List.dropLast_concat]
      split <;> simp

theorem trimLines (pre : Str) (hpre : '\n' ∉ pre) (ls : List Str) (l : Str)
    (h : ∀ x ∈ ls ++ [l], '\n' ∉ x) :
    ((splitInclusive '\n' (joinLines (ls ++ [l]))).map (stripPrefix pre)).flatten =
      joinLines (ls.map (stripPrefix pre) ++ [stripPrefix pre l]) := by
  induction ls with
  | nil =>
    simp only [List.nil_append, List.map_nil, joinLines]
    rw [splitInclusive_one (h l (by simp))]
    split
    · rename_i e; subst e; simp [stripPrefix]
    · simp
  | cons x ls ih =>
    rw [List.cons_append, joinLines_cons (by simp), splitInclusive_append (h x (by simp)),
      List.map_cons, List.map_cons, List.cons_append, joinLines_cons (by simp), List.flatten_cons,
      ih (fun y hy => h y (by simp at hy ⊢; tauto)), stripPrefix_newline hpre]
    simp

theorem whiteSpace_prefix_no_newline {pre last : Str} (h : Indentation pre last) (hl : '\n' ∉ last) :
    '\n' ∉ pre := by
  obtain ⟨-, rest, rfl, -⟩ := h
  simp at hl; exact hl.1

theorem trimMultiline_of_trimmed {s body : Str} (h : Trimmed s body) :
    (trimMultiline s).flatten = body := by
  cases h with
  | @mk first last pre lines l l₁ l₂ lines' h1 h2 h3 h4 h5 h6 h7 =>
    have e : joinLines ([first] ++ lines ++ [l, last]) =
        first ++ '\n' :: (joinLines (lines ++ [l]) ++ '\n' :: last) := by
      rw [List.append_assoc, List.singleton_append, joinLines_cons (by simp),
        show lines ++ [l, last] = (lines ++ [l]) ++ [last] by simp, joinLines_snoc (by simp)]
    rw [e]
    simp only [trimMultiline, splitOnce_append h1, rsplitOnce_append h2, indentation_takeWhile h4,
      stripCr_joinLines, stripCr_drop h5]
    rw [trimLines pre (whiteSpace_prefix_no_newline h4 h2), dedent_stripPrefix h6]
    · congr 2
      clear e h3
      induction h7 with
      | nil => rfl
      | cons hd _ ih => simp [dedent_stripPrefix hd, ih]
    · intro x hx
      simp at hx
      rcases hx with hx | rfl
      · exact h3 x (by simp [hx])
      · have := h3 l (by simp)
        cases h5 with
        | cr => simp at this; exact this
        | none => exact this

theorem lines_exist (s : Str) : ∃ ls l, s = joinLines (ls ++ [l]) ∧ ∀ x ∈ ls ++ [l], '\n' ∉ x := by
  induction s with
  | nil => exact ⟨[], [], rfl, by simp⟩
  | cons c s ih =>
    obtain ⟨ls, l, h1, h2⟩ := ih
    by_cases hc : c = '\n'
    · subst hc
      refine ⟨[] :: ls, l, ?_, ?_⟩
      · rw [List.cons_append, joinLines_cons (by simp), ← h1]; simp
      · simpa using h2
    · cases ls with
      | nil =>
        refine ⟨[], c :: l, by simp [h1, joinLines], ?_⟩
        simp at h2 ⊢
        exact ⟨fun e => hc e.symm, h2⟩
      | cons x ls =>
        refine ⟨(c :: x) :: ls, l, ?_, ?_⟩
        · rw [List.cons_append, joinLines_cons (by simp), h1, List.cons_append,
            joinLines_cons (by simp)]; simp
        · intro y hy
          simp at hy
          rcases hy with rfl | hy | rfl
          · have := h2 x (by simp)
            simp; exact ⟨fun e => hc e.symm, this⟩
          · exact h2 y (by simp [hy])
          · exact h2 y (by simp)

theorem forall2_map (pre : Str) (ls : List Str) :
    List.Forall₂ (Dedent pre) ls (ls.map (stripPrefix pre)) := by
  induction ls with
  | nil => exact .nil
  | cons x ls ih => exact .cons (stripPrefix_dedent pre x) ih

theorem trimmed_exists {s : Str} (h : 2 ≤ s.count '\n') : ∃ body, Trimmed s body := by
  cases h1 : splitOnce '\n' s with
  | none => have := List.count_eq_zero.2 (splitOnce_none h1); omega
  | some p =>
    obtain ⟨first, s'⟩ := p
    obtain ⟨rfl, hf⟩ := splitOnce_some h1
    have hc : 1 ≤ s'.count '\n' := by
      rw [List.count_append, List.count_eq_zero.2 hf, List.count_cons_self] at h
      omega
    cases h2 : rsplitOnce '\n' s' with
    | none => have := List.count_eq_zero.2 (rsplitOnce_none h2); omega
    | some q =>
      obtain ⟨mid, last⟩ := q
      obtain ⟨rfl, hl⟩ := rsplitOnce_some h2
      obtain ⟨ls, l, rfl, hls⟩ := lines_exist mid
      have := Trimmed.mk hf hl hls (indentation_exists last) (dropCr_exists l)
        (stripPrefix_dedent _ _) (forall2_map (last.takeWhile isWhitespace) ls)
      have e : joinLines ([first] ++ ls ++ [l, last]) =
          first ++ '\n' :: (joinLines (ls ++ [l]) ++ '\n' :: last) := by
        rw [List.append_assoc, List.singleton_append, joinLines_cons (by simp),
          show ls ++ [l, last] = (ls ++ [l]) ++ [last] by simp, joinLines_snoc (by simp)]
      rw [e] at this
      exact ⟨_, this⟩

theorem trimMultiline_short {s : Str} (h : s.count '\n' < 2) : trimMultiline s = [] := by
  simp only [trimMultiline]
  cases h1 : splitOnce '\n' s with
  | none => rfl
  | some p =>
    obtain ⟨first, s'⟩ := p
    obtain ⟨rfl, hf⟩ := splitOnce_some h1
    have : '\n' ∉ s' := by
      rw [← List.count_eq_zero]
      simp [List.count_append] at h
      omega
    simp only [rsplitOnce_not_mem this]

/-! ## escapes and line boundaries -/

theorem hexNum_mem {ds : Str} {n : Nat} (h : HexNum ds n) : ∀ c ∈ ds, hexVal c ≠ none := by
  induction h with
  | one h => simp [h]
  | snoc _ h ih =>
    intro c hc
    simp at hc
    rcases hc with hc | rfl
    · exact ih c hc
    · simp [h]

theorem hexVal_space {c : Char} (h : isWhitespace c = true) : hexVal c = none := by
  rw [hexVal_eq]
  rw [isWhitespace_iff] at h
  have h0 : c = Char.ofNat c.toNat := by simp
  simp [whiteSpace] at h
  rcases h with h | h | h | h | h | h | h | h | h | h | h | h | h | h | h | h | h | h | h | h | h
    | h | h | h | h <;> (rw [h] at h0; subst h0; decide)

theorem accepted_no_space {e : Str} {c x : Char} (h : Accepted e c) (hx : isWhitespace x = true) :
    x ∉ e := by
  have hv := hexVal_space hx
  have hne : ∀ y : Char, isWhitespace y = false → x ≠ y := by
    intro y hy e; subst e; rw [hx] at hy; cases hy
  intro hm
  rcases h with h | h
  · cases h with
    | tab => simp at hm; exact hne _ (by decide) hm
    | newline => simp at hm; exact hne _ (by decide) hm
    | cr => simp at hm; exact hne _ (by decide) hm
    | self hc =>
      simp at hm; subst hm
      have key : ∀ y ∈ ['<', '>', '{', '}', '"', '\'', '\\', '[', ']'], isWhitespace y = false := by
        decide
      rw [key x hc] at hx; cases hx
    | byte _ hn _ =>
      rw [List.mem_cons] at hm
      rcases hm with rfl | hm
      · exact absurd hx (by decide)
      · exact hexNum_mem hn x hm hv
    | unicode _ hn _ =>
      simp at hm
      rcases hm with rfl | rfl | hm | rfl
      · exact absurd hx (by decide)
      · exact absurd hx (by decide)
      · exact hexNum_mem hn x hm hv
      · exact absurd hx (by decide)
  · cases h with
    | byte _ hn =>
      simp at hm
      rcases hm with rfl | rfl | rfl
      · exact absurd hx (by decide)
      · exact absurd hx (by decide)
      · exact hexNum_mem hn x (by simp) hv
    | unicode _ hn _ =>
      simp at hm
      rcases hm with rfl | rfl | rfl | hm | rfl
      · exact absurd hx (by decide)
      · exact absurd hx (by decide)
      · exact absurd hx (by decide)
      · exact hexNum_mem hn x hm hv
      · exact absurd hx (by decide)

theorem unescapes_append {E : Str → Char → Prop} {a b t u : Str} (h1 : Unescapes E a t)
    (h2 : Unescapes E b u) : Unescapes E (a ++ b) (t ++ u) := by
  induction h1 with
  | nil => exact h2
  | plain hc _ ih => exact .plain hc ih
  | esc he _ ih =>
    rw [List.append_assoc]
    exact .esc he ih

theorem unescapes_split {x : Char} (hx : isWhitespace x = true) {a b t : Str}
    (h : Unescapes Accepted (a ++ x :: b) t) :
    ∃ t₁ t₂, t = t₁ ++ x :: t₂ ∧ Unescapes Accepted a t₁ ∧ Unescapes Accepted b t₂ := by
  generalize hs : a ++ x :: b = s at h
  induction h generalizing a with
  | nil => simp at hs
  | @plain c s t hc hst ih =>
    cases a with
    | nil =>
      simp at hs
      obtain ⟨rfl, rfl⟩ := hs
      exact ⟨[], t, rfl, .nil, hst⟩
    | cons y a =>
      simp at hs
      obtain ⟨rfl, hs⟩ := hs
      obtain ⟨t₁, t₂, rfl, h1, h2⟩ := ih hs
      exact ⟨y :: t₁, t₂, rfl, .plain hc h1, h2⟩
  | @esc e c s t he _ ih =>
    cases a with
    | nil =>
      simp at hs
      rw [hs.1] at hx
      exact absurd hx (by decide)
    | cons y a =>
      simp at hs
      obtain ⟨rfl, hs⟩ := hs
      rcases List.append_eq_append_iff.1 hs with ⟨u, h1, h2⟩ | ⟨u, h1, h2⟩
      · cases u with
        | nil =>
          simp at h1 h2
          obtain ⟨t₁, t₂, rfl, i1, i2⟩ := ih (a := []) (by simpa using h2)
          subst h1
          cases i1
          exact ⟨[c], t₂, rfl, by simpa using Unescapes.esc he .nil, i2⟩
        | cons z u =>
          simp at h2
          rw [h1, ← h2.1] at he
          exact absurd (show x ∈ a ++ x :: u by simp) (accepted_no_space he hx)
      · obtain ⟨t₁, t₂, rfl, i1, i2⟩ := ih h2.symm
        subst h1
        exact ⟨c :: t₁, t₂, rfl, .esc he i1, i2⟩

theorem unescapes_space_prefix {pre l t : Str} (hp : ∀ c ∈ pre, isWhitespace c = true)
    (h : Unescapes Accepted (pre ++ l) t) : ∃ t', Unescapes Accepted l t' := by
  induction pre generalizing t with
  | nil => exact ⟨t, h⟩
  | cons c pre ih =>
    obtain ⟨t₁, t₂, -, -, h2⟩ := unescapes_split (a := []) (hp c (by simp)) h
    exact ih (fun d hd => hp d (by simp [hd])) h2

theorem unescapes_joinLines {ls : List Str} :
    (∃ t, Unescapes Accepted (joinLines ls) t) ↔ ∀ l ∈ ls, ∃ t, Unescapes Accepted l t := by
  induction ls with
  | nil => simp; exact ⟨[], .nil⟩
  | cons x ls ih =>
    cases ls with
    | nil => simp [joinLines]
    | cons y ls =>
      rw [joinLines_cons (by simp)]
      constructor
      · rintro ⟨t, h⟩ l hl
        obtain ⟨t₁, t₂, -, h1, h2⟩ := unescapes_split (by decide) h
        rcases List.mem_cons.1 hl with rfl | hl
        · exact ⟨t₁, h1⟩
        · exact ih.1 ⟨t₂, h2⟩ l hl
      · intro h
        obtain ⟨t₁, h1⟩ := h x (by simp)
        obtain ⟨t₂, h2⟩ := ih.2 (fun l hl => h l (by simp only [List.mem_cons]; right; simpa using hl))
        exact ⟨_, unescapes_append h1 (.plain (by decide) h2)⟩

/-- If a whole block has valid escapes, so has its trimmed body. -/
theorem unescapes_trimmed {s body t : Str} (h : Trimmed s body) (hs : Unescapes Accepted s t) :
    ∃ t', Unescapes Accepted body t' := by
  cases h with
  | @mk first last pre lines l l₁ l₂ lines' h1 h2 h3 h4 h5 h6 h7 =>
    have hall := unescapes_joinLines.1 ⟨t, hs⟩
    have hded : ∀ {a b}, Dedent pre a b → (∃ t, Unescapes Accepted a t) →
        ∃ t, Unescapes Accepted b t := by
      intro a b hd ⟨t, ht⟩
      cases hd with
      | strip => exact unescapes_space_prefix (fun c hc => (isWhitespace_iff c).2 (h4.1 c hc)) ht
      | keep => exact ⟨t, ht⟩
    rw [unescapes_joinLines]
    intro y hy
    rcases List.mem_append.1 hy with hy | hy
    · have hl : ∀ x ∈ lines, ∃ t, Unescapes Accepted x t := fun x hx => hall x (by simp [hx])
      clear hall h3 hs
      induction h7 with
      | nil => simp at hy
      | cons hd _ ih =>
        rcases List.mem_cons.1 hy with rfl | hy
        · exact hded hd (hl _ (by simp))
        · exact ih (by simp [hy]) hy (fun x hx => hl x (by simp [hx]))
    · simp at hy; subst hy
      refine hded h6 ?_
      obtain ⟨t', ht'⟩ := hall l (by simp)
      cases h5 with
      | cr =>
        obtain ⟨t₁, t₂, -, i1, -⟩ := unescapes_split (x := '\r') (b := []) (by decide) ht'
        exact ⟨t₁, i1⟩
      | none => exact ⟨t', ht'⟩

/-- The pieces written one by one unescape to the whole. -/
theorem unescapes_pieces {pre s t : Str} (hpre : '\n' ∉ pre)
    (hs : Unescapes Accepted ((splitInclusive '\n' s).map (stripPrefix pre)).flatten t) :
    ∃ ts, List.Forall₂ (Unescapes Accepted) ((splitInclusive '\n' s).map (stripPrefix pre)) ts ∧
      ts.flatten = t := by
  obtain ⟨ls, l, rfl, hls⟩ := lines_exist s
  induction ls generalizing t with
  | nil =>
    simp only [List.nil_append, joinLines] at hs ⊢
    rw [splitInclusive_one (hls l (by simp))] at hs ⊢
    split at hs
    · rename_i h
      simp at hs; cases hs
      exact ⟨[], by simp [h], rfl⟩
    · rename_i h
      rw [if_neg h]
      simp at hs
      exact ⟨[t], by simpa using hs, by simp⟩
  | cons x ls ih =>
    rw [List.cons_append, joinLines_cons (by simp), splitInclusive_append (hls x (by simp)),
      List.map_cons, stripPrefix_newline hpre] at hs ⊢
    rw [List.flatten_cons, List.append_assoc, List.singleton_append] at hs
    obtain ⟨t₁, t₂, rfl, h1, h2⟩ := unescapes_split (by decide) hs
    obtain ⟨ts, h3, rfl⟩ := ih (fun y hy => hls y (by simp at hy ⊢; tauto)) h2
    exact ⟨(t₁ ++ ['\n']) :: ts, .cons (unescapes_append h1 (.plain (by decide) .nil)) h3, by simp⟩

end Mty
