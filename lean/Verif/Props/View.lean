import Verif.Spec.View

/-!
# C83, C84, C85: the view of the output, links into it, and panes of the demonstration page

Specification: `Spec/View.lean`.
-/

set_option autoImplicit false

namespace Mty
open Spec View

namespace View

theorem run_append (b : Browser) : ∀ (s : State) (a c : List Event), run b s (a ++ c) = run b (run b s a) c
  | _, [], _ => rfl
  | s, e :: a, c => by rw [List.cons_append, run, run, run_append]

theorem show_parts (s : State) : (showElementInHash s).head = s.head ∧ (showElementInHash s).body = s.body ∧
    (showElementInHash s).ids = s.ids ∧ (showElementInHash s).hash = s.hash := by
  rw [showElementInHash]
  dsimp only
  split
  · exact ⟨rfl, rfl, rfl, rfl⟩
  · split <;> exact ⟨rfl, rfl, rfl, rfl⟩

theorem update_parts (b : Browser) (src : Str) (s : State) :
    (updateDoc b src s).head = (setBase (s.address ++ s.hash) s.head).filter (fun x => !x.isUser) ++ (b.parse src).head.map .user ∧
    (updateDoc b src s).body = (b.parse src).body ∧ (updateDoc b src s).ids = (b.parse src).ids ∧ (updateDoc b src s).hash = s.hash := by
  rw [updateDoc]
  dsimp only
  split
  · exact show_parts _
  · exact ⟨rfl, rfl, rfl, rfl⟩

/-- What is in the frame: the parts of the page, and those of one document. -/
def Shows (d : Parsed) (s : State) : Prop :=
  (∃ h, s.head = [.style, .theme, .base h] ++ d.head.map .user) ∧ s.body = d.body ∧ s.ids = d.ids

theorem filter_user (l : List Str) : (l.map HeadItem.user).filter (fun x => !x.isUser) = [] := by
  induction l with
  | nil => rfl
  | cons a l ih => simpa [HeadItem.isUser] using ih

theorem step_shows (b : Browser) {d : Parsed} {s : State} (h : Shows d s) (e : Event) :
    Shows (match e with | .output src => b.parse src | _ => d) (step b s e) := by
  obtain ⟨⟨x, h1⟩, h2, h3⟩ := h
  cases e with
  | output src =>
    obtain ⟨e1, e2, e3, -⟩ := update_parts b src s
    refine ⟨⟨some (s.address ++ s.hash), ?_⟩, e2, e3⟩
    show (updateDoc b src s).head = _
    rw [e1, h1]
    simp [setBase, HeadItem.isUser]
  | hashChange id =>
    obtain ⟨e1, e2, e3, -⟩ := show_parts { s with hash := b.fragment id }
    exact ⟨⟨x, e1.trans h1⟩, e2.trans h2, e3.trans h3⟩
  | load a => exact ⟨⟨x, h1⟩, h2, h3⟩

theorem run_shows (b : Browser) : ∀ (es : List Event) {d : Parsed} {s : State}, Shows d s →
    Shows (match lastOutput es with | some src => b.parse src | none => d) (run b s es)
  | [], _, _, h => h
  | e :: es, d, s, h => by
    have := run_shows b es (step_shows b h e)
    rw [run]
    cases hl : lastOutput es with
    | some src =>
      rw [hl] at this
      simpa [lastOutput, hl] using this
    | none =>
      rw [hl] at this
      cases e <;> simpa [lastOutput, hl] using this

/-- An example of a browser: the first character of an output is its title, the rest its body and its only id. -/
def toy : Browser :=
  { parse := fun s => ⟨[s.take 1], s.drop 1, [s.drop 1]⟩
    fragment := fun id => if id.all fun c => c.toNat < 128 then '#' :: id else "#%C3%A9".toList }

end View

/-- **C83.** After every history the frame shows the last output: its body, in its head the title, links and styles of this output in order
and none of an earlier one, and besides these exactly the style, the theme and the base of the page. -/
theorem C83_view (b : Browser) (address hash : Str) (es : List Event) (src : Str) (h : lastOutput es = some src) :
    let s := run b (start address hash) es
    s.body = (b.parse src).body ∧ shownHead s = (b.parse src).head ∧ ownHead s = ["style", "theme", "base"] ∧ s.ids = (b.parse src).ids := by
  have h0 : Shows ⟨[], [], []⟩ (start address hash) := ⟨⟨none, rfl⟩, rfl, rfl⟩
  have h1 := run_shows b es h0
  rw [h] at h1
  obtain ⟨⟨x, h1⟩, h2, h3⟩ := h1
  refine ⟨h2, ?_, ?_, h3⟩
  · rw [shownHead, h1]
    generalize (b.parse src).head = l
    induction l with
    | nil => rfl
    | cons a l ih => simpa using ih
  · rw [ownHead, h1]
    generalize (b.parse src).head = l
    induction l with
    | nil => rfl
    | cons a l ih => simpa using ih

example : shownHead (run toy (start [] []) [.output "ab".toList, .hashChange "b".toList, .output "cd".toList, .load "x".toList]) = ["c".toList] := by
  decide

/-- **C84, partial.** When a link to an id is followed and the output has it, the frame is scrolled there, once; the outputs that follow do not
scroll it again, so the view stays where the user has put it. Missing: ids that are written differently in addresses, and addresses with
a fragment when the page is loaded (`C84_other_ids`, `C84_on_load`). -/
theorem C84_link_partial (b : Browser) (s : State) (id : Str) (hp : PlainId b id) (hi : id ∈ s.ids) (es : List Event) (he : Outputs es) :
    (run b (step b s (.hashChange id)) es).scrolled = s.scrolled ++ [id] := by
  have hs : (step b s (.hashChange id)).scrolled = s.scrolled ++ [id] ∧ (step b s (.hashChange id)).shouldShow = false := by
    obtain ⟨c, t, rfl⟩ := List.exists_cons_of_ne_nil hp.1
    simp only [step, showElementInHash, hp.2, List.length_cons, List.drop_succ_cons, List.drop_zero]
    rw [if_neg (by omega), if_pos hi]
    exact ⟨rfl, rfl⟩
  rw [← hs.1]
  generalize step b s (.hashChange id) = t at hs ⊢
  have h := hs.2
  clear hs
  induction es generalizing t with
  | nil => rfl
  | cons e es ih =>
    obtain ⟨src, rfl⟩ := he e List.mem_cons_self
    have hu : (updateDoc b src t).scrolled = t.scrolled ∧ (updateDoc b src t).shouldShow = false := by
      rw [updateDoc]
      dsimp only
      rw [if_neg (by simp [h])]
      exact ⟨rfl, h⟩
    rw [run, step, ih (fun e h => he e (List.mem_cons_of_mem _ h)) _ hu.2, hu.1]

example : (run toy (step toy (run toy (start [] []) [.output "ab".toList]) (.hashChange "b".toList)) [.output "cd".toList, .output "ab".toList]).scrolled =
    ["b".toList] := by decide

/-- **C84, partial.** If the output does not have the id yet, the frame is scrolled there when the first output that has it arrives, and
not before. -/
theorem C84_later_partial (b : Browser) (s : State) (id : Str) (hp : PlainId b id) (hi : id ∉ s.ids) (es : List Event) (he : OutputsWithout b id es) :
    (run b (step b s (.hashChange id)) es).scrolled = s.scrolled ∧
    ∀ src, id ∈ (b.parse src).ids → (run b (step b s (.hashChange id)) (es ++ [.output src])).scrolled = s.scrolled ++ [id] := by
  obtain ⟨c, t, rfl⟩ := List.exists_cons_of_ne_nil hp.1
  have hs : (step b s (.hashChange (c :: t))).scrolled = s.scrolled ∧ (step b s (.hashChange (c :: t))).shouldShow = true ∧
      (step b s (.hashChange (c :: t))).hash = '#' :: c :: t := by
    simp only [step, showElementInHash, hp.2, List.length_cons, List.drop_succ_cons, List.drop_zero]
    rw [if_neg (by omega), if_neg hi]
    exact ⟨rfl, rfl, rfl⟩
  generalize step b s (.hashChange (c :: t)) = u at hs ⊢
  obtain ⟨h1, h2, h3⟩ := hs
  rw [← h1]
  have key : ∀ (src : Str) (u : State), u.shouldShow = true → u.hash = '#' :: c :: t → (updateDoc b src u).hash = '#' :: c :: t ∧
      (if c :: t ∈ (b.parse src).ids then (updateDoc b src u).scrolled = u.scrolled ++ [c :: t]
        else (updateDoc b src u).scrolled = u.scrolled ∧ (updateDoc b src u).shouldShow = true) := by
    intro src u g1 g2
    refine ⟨(update_parts b src u).2.2.2.trans g2, ?_⟩
    rw [updateDoc]
    dsimp only
    rw [if_pos g1, showElementInHash]
    simp only [g2, List.length_cons, List.drop_succ_cons, List.drop_zero]
    have hlt : ¬ (t.length + 1 + 1 < 2) := by omega
    by_cases h : c :: t ∈ (b.parse src).ids
    · simp only [if_neg hlt, if_pos h]
    · simp only [if_neg hlt, if_neg h, and_self]
  clear h1
  induction es generalizing u with
  | nil =>
    refine ⟨rfl, fun src h => ?_⟩
    have := (key src u h2 h3).2
    rw [if_pos h] at this
    exact this
  | cons e es ih =>
    obtain ⟨src, rfl, hn⟩ := he e List.mem_cons_self
    obtain ⟨k1, k2⟩ := key src u h2 h3
    rw [if_neg hn] at k2
    have := ih (fun e h => he e (List.mem_cons_of_mem _ h)) _ k2.2 k1
    rw [k2.1] at this
    exact this

example : (run toy (step toy (run toy (start [] []) [.output "ab".toList]) (.hashChange "d".toList)) [.output "ce".toList, .output "cd".toList]).scrolled =
    ["d".toList] := by decide

/-- The page removes the fragment of its address when it is loaded, so an address with a fragment does not lead to the place. -/
theorem C84_on_load (b : Browser) (address hash : Str) (es : List Event) (he : Outputs es) : (run b (start address hash) es).scrolled = [] := by
  have key : ∀ (es : List Event) (s : State), Outputs es → s.hash = [] → (run b s es).scrolled = s.scrolled := by
    intro es
    induction es with
    | nil => intros; rfl
    | cons e es ih =>
      intro s he hh
      obtain ⟨src, rfl⟩ := he e List.mem_cons_self
      rw [run, step, ih _ (fun e h => he e (List.mem_cons_of_mem _ h)) ((update_parts b src s).2.2.2.trans hh), updateDoc]
      dsimp only
      split
      · rw [showElementInHash]
        simp [hh]
      · rfl
  exact key es _ he rfl

example : (run toy (start [] "#b".toList) [.output "ab".toList]).scrolled = [] := by decide

/-- In the address the browser writes other characters than ASCII with `%`; such an id is not found. -/
theorem C84_other_ids : (run toy (start [] []) [.output "aé".toList, .hashChange "é".toList]).scrolled = [] := by decide

/-- **C85.** After every history of clicks and changes from outside, a pane shows its content exactly if it is open, its button says so, and
it is open exactly if the history has left it open: a click opens a closed pane and closes an open one. -/
theorem C85_pane (o : Option Str) (es : List PaneEvent) :
    let p := (Pane.new o).run es
    p.open_.isSome = openAfter o.isSome es ∧ p.hidden = !openAfter o.isSome es ∧
      p.expanded = (if openAfter o.isSome es then "true".toList else "false".toList) := by
  have key : ∀ (es : List PaneEvent) (p : Pane), p.hidden = !p.open_.isSome → p.expanded = boolStr p.open_.isSome →
      (p.run es).open_.isSome = openAfter p.open_.isSome es ∧ (p.run es).hidden = !openAfter p.open_.isSome es ∧
      (p.run es).expanded = boolStr (openAfter p.open_.isSome es) := by
    intro es
    induction es with
    | nil => intro p h1 h2; exact ⟨rfl, h1, h2⟩
    | cons e es ih =>
      intro p h1 h2
      have hset : ∀ v : Option Str, (p.setOpen v).open_ = v ∧ (p.setOpen v).hidden = !v.isSome ∧ (p.setOpen v).expanded = boolStr v.isSome :=
        fun v => ⟨by simp [Pane.setOpen, Pane.attributeChanged], by simp [Pane.setOpen, Pane.attributeChanged], by simp [Pane.setOpen, Pane.attributeChanged]⟩
      have hv : ∀ v : Option Str, ((p.setOpen v).run es).open_.isSome = openAfter v.isSome es ∧ ((p.setOpen v).run es).hidden = !openAfter v.isSome es ∧
          ((p.setOpen v).run es).expanded = boolStr (openAfter v.isSome es) := by
        intro v
        obtain ⟨a, b, c⟩ := hset v
        have := ih (p.setOpen v) (by rw [b, a]) (by rw [c, a])
        rwa [a] at this
      cases e with
      | click =>
        rw [Pane.run, Pane.step, Pane.click]
        cases ho : p.open_ with
        | some x => exact hv none
        | none => exact hv (some [])
      | set v => exact hv (some v)
      | remove =>
        rw [Pane.run, Pane.step]
        cases ho : p.open_ with
        | some x => exact hv none
        | none =>
          have := ih p h1 h2
          rw [ho] at this
          exact this
  exact key es (Pane.new o) rfl rfl

example : (Pane.new (some [])).run [.click, .click, .click, .remove] = ⟨none, "false".toList, true⟩ := by decide
example : (Pane.new none).run [.click, .set "x".toList] = ⟨some "x".toList, "true".toList, false⟩ := by decide

end Mty
