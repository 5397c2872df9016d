import Verif.Proofs.PartsTree
import Verif.Proofs.Usable

/-! # The output of a document of two parts (for C76) -/

set_option autoImplicit false

namespace Mty
open Spec Build

namespace Parts
open Same

/-! ## Actions -/

theorem seq_assoc (a b c : Act) : Act.seq (Act.seq a b) c = Act.seq a (Act.seq b c) := by
  funext fs
  unfold Act.seq
  dsimp only
  cases h : (a fs).ok with
  | false => simp [h]
  | true =>
    simp only [if_true]
    cases h2 : (b (a fs).fs).ok <;> simp [h2]

theorem skip_seq (a : Act) : Act.seq Act.skip a = a := by
  funext fs
  simp [Act.seq, Act.skip]

theorem seq_skip (a : Act) : Act.seq a Act.skip = a := by
  funext fs
  simp only [Act.seq, Act.skip, List.append_nil]
  cases h : a fs with
  | mk o f k => cases k <;> simp

theorem all_append : ∀ a b : List Act, Act.all (a ++ b) = Act.seq (Act.all a) (Act.all b)
  | [], b => (skip_seq _).symm
  | x :: a, b => by rw [List.cons_append, Act.all, Act.all, all_append a b, seq_assoc]

/-- Nodes that are white space, as actions. -/
def SpaceAct (cx : OutCx) (p : Bool × Act) : Prop := ∃ s, p = (true, writeTextLike cx (.space s))

theorem space_true (cx : OutCx) (s : Space) : writeTextLike cx (.space s) true = ⟨[], true, true⟩ := rfl

theorem space_false (cx : OutCx) (s : Space) : ∃ w, writeTextLike cx (.space s) false = ⟨w, true, true⟩ ∧
    ((∀ t, s ≠ .inline (some t)) → cx.indentLevel = 0 → w = [' '] ∨ w = ['\n']) ∧ ∀ t, s = .inline (some t) → w = t.asStr cx.src := by
  cases s with
  | inline t =>
    cases t with
    | none => exact ⟨[' '], rfl, fun _ _ => .inl rfl, fun _ h => by cases h⟩
    | some t => exact ⟨t.asStr cx.src, by simp [writeTextLike, space, Act.seq, Act.write, Act.setFs], fun h _ => absurd rfl (h t), fun _ h => by cases h; rfl⟩
  | lineEnd =>
    cases hf : cx.fmtInline with
    | true => exact ⟨[' '], by simp [writeTextLike, space, hf, Act.seq, Act.write, Act.setFs], fun _ _ => .inl rfl, fun _ h => by cases h⟩
    | false =>
      cases hi : cx.cfg.indent with
      | none => exact ⟨[' '], by simp [writeTextLike, space, hf, hi, Act.seq, Act.write, Act.setFs], fun _ _ => .inl rfl, fun _ h => by cases h⟩
      | some i => exact ⟨'\n' :: (List.replicate cx.indentLevel i).flatten, by simp [writeTextLike, space, lineRaw, hf, hi, Act.seq, Act.write, Act.setFs], fun _ h => by simp [h], fun _ h => by cases h⟩
  | paragraphEnd =>
    cases hf : cx.fmtInline with
    | true => exact ⟨[' '], by simp [writeTextLike, space, hf, Act.seq, Act.write, Act.setFs], fun _ _ => .inl rfl, fun _ h => by cases h⟩
    | false =>
      cases hi : cx.cfg.indent with
      | none => exact ⟨[' '], by simp [writeTextLike, space, hf, hi, Act.seq, Act.write, Act.setFs], fun _ _ => .inl rfl, fun _ h => by cases h⟩
      | some i => exact ⟨'\n' :: (List.replicate cx.indentLevel i).flatten, by simp [writeTextLike, space, lineRaw, hf, hi, Act.seq, Act.write, Act.setFs], fun _ h => by simp [h], fun _ h => by cases h⟩

theorem spaces_true {cx : OutCx} {l : List (Bool × Act)} (h : ∀ p ∈ l, SpaceAct cx p) : Act.all (l.map (·.2)) true = ⟨[], true, true⟩ := by
  induction l with
  | nil => rfl
  | cons p l ih =>
    obtain ⟨s, rfl⟩ := h p (List.mem_cons_self ..)
    simp only [List.map_cons, Act.all, Act.seq, space_true, ih fun q hq => h q (List.mem_cons_of_mem _ hq)]
    rfl

/-- What is written between the parts. -/
def SepText (cx : OutCx) (l : List (Bool × Act)) (w : Str) : Prop :=
  w = [] ∨ w = [' '] ∨ w = ['\n'] ∨ ∃ t, (true, writeTextLike cx (.space (.inline (some t)))) ∈ l ∧ w = t.asStr cx.src

theorem spaces_any {cx : OutCx} {l : List (Bool × Act)} (h : ∀ p ∈ l, SpaceAct cx p) (hl : l ≠ []) (hi : cx.indentLevel = 0) (fs : Bool) :
    ∃ w, Act.all (l.map (·.2)) fs = ⟨w, true, true⟩ ∧ SepText cx l w := by
  cases fs with
  | true => exact ⟨[], spaces_true h, .inl rfl⟩
  | false =>
    cases l with
    | nil => exact absurd rfl hl
    | cons p l =>
      obtain ⟨s, rfl⟩ := h p (List.mem_cons_self ..)
      obtain ⟨w, h1, h2, h3⟩ := space_false cx s
      refine ⟨w, ?_, ?_⟩
      · simp only [List.map_cons, Act.all, Act.seq, h1, spaces_true fun q hq => h q (List.mem_cons_of_mem _ hq)]
        simp
      · cases s with
        | inline t =>
          cases t with
          | none => rcases h2 (by simp) hi with h | h <;> simp [SepText, h]
          | some t => exact .inr (.inr (.inr ⟨t, List.mem_cons_self .., h3 t rfl⟩))
        | lineEnd => rcases h2 (by simp) hi with h | h <;> simp [SepText, h]
        | paragraphEnd => rcases h2 (by simp) hi with h | h <;> simp [SepText, h]

/-! ## Leading and trailing spaces -/

/-- Leading and trailing spaces removed. -/
def trim (l : List (Bool × Act)) : List (Bool × Act) := ((l.dropWhile (·.1)).reverse.dropWhile (·.1)).reverse

theorem contentActs_trim (l : List (Bool × Act)) : contentActs l = Act.all ((trim l).map (·.2)) := rfl

theorem dropWhile_all {α : Type} {p : α → Bool} {a b : List α} (h : ∀ x ∈ a, p x = true) : (a ++ b).dropWhile p = b.dropWhile p := by
  induction a with
  | nil => rfl
  | cons x a ih =>
    rw [List.cons_append, List.dropWhile_cons, h x (List.mem_cons_self ..), if_pos rfl]
    exact ih fun y hy => h y (List.mem_cons_of_mem _ hy)

theorem trim_left {a b : List (Bool × Act)} (h : ∀ x ∈ a, x.1 = true) : trim (a ++ b) = trim b := by
  unfold trim
  rw [dropWhile_all h]

theorem trim_all {a : List (Bool × Act)} (h : ∀ x ∈ a, x.1 = true) : trim a = [] := by
  have := trim_left (b := []) h
  rw [List.append_nil] at this
  rw [this]
  rfl

theorem trim_right {a b : List (Bool × Act)} (h : ∀ x ∈ b, x.1 = true) : trim (a ++ b) = trim a := by
  unfold trim
  by_cases ha : ∀ x ∈ a, x.1 = true
  · rw [dropWhile_all ha]
    have h1 : a.dropWhile (fun x => x.1) = [] := by have := dropWhile_all (b := []) ha; simpa using this
    have h2 : b.dropWhile (fun x => x.1) = [] := by have := dropWhile_all (b := []) h; simpa using this
    rw [h1, h2]
  · have : (a ++ b).dropWhile (fun x => x.1) = a.dropWhile (fun x => x.1) ++ b := by
      clear h
      induction a with
      | nil => simp at ha
      | cons x a ih =>
        rw [List.cons_append, List.dropWhile_cons, List.dropWhile_cons]
        cases hx : x.1 with
        | false => simp
        | true =>
          simp only [if_true]
          exact ih fun h => ha fun y hy => by
            rcases List.mem_cons.1 hy with rfl | hy
            · exact hx
            · exact h y hy
    rw [this, List.reverse_append, dropWhile_all fun x hx => h x (List.mem_reverse.1 hx)]

theorem trim_split (l : List (Bool × Act)) : (∀ x ∈ l, x.1 = true) ∨ ∃ a x m y b, l = a ++ (x :: m) ++ b ∧ (∀ z ∈ a, z.1 = true) ∧ (∀ z ∈ b, z.1 = true) ∧
    x.1 = false ∧ (x :: m).getLast? = some y ∧ y.1 = false := by
  by_cases h : ∀ x ∈ l, x.1 = true
  · exact .inl h
  · right
    have key : ∀ l : List (Bool × Act), (¬ ∀ x ∈ l, x.1 = true) → ∃ a x m, l = a ++ x :: m ∧ (∀ z ∈ a, z.1 = true) ∧ x.1 = false := by
      intro l hl
      induction l with
      | nil => simp at hl
      | cons x l ih =>
        cases hx : x.1 with
        | false => exact ⟨[], x, l, rfl, by simp, hx⟩
        | true =>
          obtain ⟨a, y, m, rfl, h1, h2⟩ := ih fun h => hl fun z hz => by
            rcases List.mem_cons.1 hz with rfl | hz
            · exact hx
            · exact h z hz
          exact ⟨x :: a, y, m, rfl, fun z hz => by
            rcases List.mem_cons.1 hz with rfl | hz
            · exact hx
            · exact h1 z hz, h2⟩
    obtain ⟨a, x, m, rfl, h1, h2⟩ := key l h
    obtain ⟨b, y, k, e, h3, h4⟩ := key (x :: m).reverse fun h => by
      have := h x (by simp)
      rw [h2] at this
      cases this
    have e' : x :: m = k.reverse ++ [y] ++ b.reverse := by
      have := congrArg List.reverse e
      simpa using this
    cases hk : k.reverse ++ [y] with
    | nil => simp at hk
    | cons x' m' =>
      rw [hk, List.cons_append] at e'
      cases e'
      exact ⟨a, x, m', y, b.reverse, by simp, h1, fun z hz => h3 z (List.mem_reverse.1 hz), h2, by rw [← hk]; simp, h4⟩

theorem trim_core {x y : Bool × Act} {m : List (Bool × Act)} (h1 : x.1 = false) (h2 : (x :: m).getLast? = some y) (h3 : y.1 = false) :
    trim (x :: m) = x :: m := by
  unfold trim
  rw [List.dropWhile_cons, h1]
  simp only [Bool.false_eq_true, if_false]
  obtain ⟨k, hk⟩ := List.getLast?_eq_some_iff.1 h2
  rw [hk, List.reverse_append]
  simp [h3]

/-- The parts of the content one after the other. -/
theorem content_acts {cx : OutCx} {A Z B : List (Bool × Act)} (hi : cx.indentLevel = 0) (hs : ∀ p ∈ A ++ Z ++ B, p.1 = true → SpaceAct cx p) (hz : ∀ p ∈ Z, p.1 = true) (hz' : Z ≠ []) :
    (∃ w, contentActs (A ++ Z ++ B) true = Act.seq (contentActs A) (Act.seq (Act.write w) (Act.seq (Act.setFs true) (contentActs B))) true ∧ SepText cx (A ++ Z ++ B) w) ∨
    (contentActs (A ++ Z ++ B) = contentActs A ∧ contentActs B true = ⟨[], true, true⟩) ∨
    (contentActs (A ++ Z ++ B) = contentActs B ∧ contentActs A true = ⟨[], true, true⟩) := by
  rcases trim_split A with hA | ⟨a, x, m, y, b, rfl, a1, a2, a3, a4, a5⟩
  · right; right
    rw [contentActs_trim, contentActs_trim, contentActs_trim A, trim_left (a := A ++ Z) (by
      intro p hp
      rcases List.mem_append.1 hp with hp | hp
      · exact hA p hp
      · exact hz p hp), trim_all hA]
    exact ⟨rfl, rfl⟩
  · rcases trim_split B with hB | ⟨a', x', m', y', b', rfl, b1, b2, b3, b4, b5⟩
    · right; left
      rw [List.append_assoc, contentActs_trim, contentActs_trim, contentActs_trim B, trim_right (b := Z ++ B) (by
        intro p hp
        rcases List.mem_append.1 hp with hp | hp
        · exact hz p hp
        · exact hB p hp), trim_all hB]
      exact ⟨rfl, rfl⟩
    · left
      have e1 : contentActs (a ++ (x :: m) ++ b) = Act.all ((x :: m).map (·.2)) := by
        rw [contentActs_trim, trim_right a2, trim_left a1, trim_core a3 a4 a5]
      have e2 : contentActs (a' ++ (x' :: m') ++ b') = Act.all ((x' :: m').map (·.2)) := by
        rw [contentActs_trim, trim_right b2, trim_left b1, trim_core b3 b4 b5]
      have e3 : contentActs (a ++ (x :: m) ++ b ++ Z ++ (a' ++ (x' :: m') ++ b')) =
          Act.seq (Act.all ((x :: m).map (·.2))) (Act.seq (Act.all ((b ++ Z ++ a').map (·.2))) (Act.all ((x' :: m').map (·.2)))) := by
        rw [contentActs_trim, show a ++ (x :: m) ++ b ++ Z ++ (a' ++ (x' :: m') ++ b') = a ++ (x :: (m ++ (b ++ Z ++ a') ++ (x' :: m'))) ++ b' by simp,
          trim_right b2, trim_left a1, trim_core (y := y') a3 (by
            rw [← List.cons_append, List.getLast?_append, b4]; rfl) b5]
        rw [← List.cons_append, ← List.cons_append, List.map_append, List.map_append, all_append, all_append, seq_assoc]
      have hsp : ∀ p ∈ b ++ Z ++ a', SpaceAct cx p := by
        intro p hp
        refine hs p ?_ ?_
        · simp only [List.mem_append] at hp ⊢
          tauto
        · simp only [List.mem_append] at hp
          rcases hp with (hp | hp) | hp
          · exact a2 p hp
          · exact hz p hp
          · exact b1 p hp
      obtain ⟨w, hw, hw'⟩ := spaces_any hsp (by simp [hz']) hi (Act.all ((x :: m).map (·.2)) true).fs
      refine ⟨w, ?_, ?_⟩
      · rw [e1, e2, e3]
        generalize Act.all ((x :: m).map (·.2)) = f at hw ⊢
        simp only [Act.seq]
        cases (f true).ok with
        | false => rfl
        | true =>
          simp only [hw, Act.write, Act.setFs, if_true]
          rfl
      · rcases hw' with h | h | h | ⟨t, ht, h⟩
        · exact .inl h
        · exact .inr (.inl h)
        · exact .inr (.inr (.inl h))
        · refine .inr (.inr (.inr ⟨t, ?_, h⟩))
          simp only [List.mem_append] at ht ⊢
          tauto

end Parts
end Mty
