import Verif.Proofs.SizeTree
import Verif.Proofs.ErrorOrder

/-! # The size of the output (for C82): the document that is built -/

set_option autoImplicit false

namespace Mty.Size

open Build

/-- What a building step returns, if it returns. -/
def Ret {α : Type} (m : BM α) (P : α → Prop) : Prop := ∀ e a e', m e = (some a, e') → P a

theorem Ret.pure {α : Type} {P : α → Prop} {a : α} (h : P a) : Ret (Pure.pure a : BM α) P := by
  intro e b e' hb
  cases hb
  exact h

theorem Ret.pure' {α : Type} {P : α → Prop} {a : α} (h : P a) : Ret (BM.pure a : BM α) P := Ret.pure h

theorem Ret.bind {α β : Type} {m : BM α} {f : α → BM β} {P : α → Prop} {Q : β → Prop} (h : Ret m P) (hf : ∀ a, P a → Ret (f a) Q) :
    Ret (m >>= f) Q := by
  intro e b e' hb
  change BM.bind m f e = _ at hb
  rw [BM.bind] at hb
  split at hb
  · rename_i a e1 ha
    exact hf a (h _ _ _ ha) _ _ _ hb
  · cases hb

theorem Ret.any {α : Type} {m : BM α} : Ret m fun _ => True := fun _ _ _ _ => trivial

theorem Ret.then {α β : Type} {m : BM α} {f : α → BM β} {Q : β → Prop} (hf : ∀ a, Ret (f a) Q) : Ret (m >>= f) Q :=
  Ret.any.bind fun a _ => hf a

theorem Ret.mono {α : Type} {m : BM α} {P Q : α → Prop} (h : Ret m P) (hi : ∀ a, P a → Q a) : Ret m Q :=
  fun e a e' ha => hi a (h e a e' ha)

/-! ## Lines -/

variable (src : Str)

def PW : PKind → Nat → Prop
  | .text b, n => Ret b fun x => nodeW src x ≤ n
  | .comment b, n => Ret b fun x => nodeW src x ≤ n
  | .selector _ b, n => Ret b fun s => selW src s ≤ n
  | .line _, n => 24 ≤ n
  | .block b, n => ∀ r p, Ret (b r p) fun x => x.1.selectors = [] ∧ 24 + nodesW src x.2 ≤ n
  | .other b, n => Ret b fun x => nodesW src x ≤ n

def spW (s : Option Range) : Nat := (s.map fun r => 1 + len src (.fromSource r)).getD 0

def PsW : List PNode → Nat → Prop
  | [], _ => True
  | n :: ns, w => ∃ k r, PW src n.kind k ∧ PsW ns r ∧ spW src n.space + k + r ≤ w

variable {src}

theorem PsW.mono {ns : List PNode} {w w' : Nat} (h : PsW src ns w) (hw : w ≤ w') : PsW src ns w' := by
  cases ns with
  | nil => trivial
  | cons n ns =>
    obtain ⟨k, r, h1, h2, h3⟩ := h
    exact ⟨k, r, h1, h2, by omega⟩

/-- The result of a line function. -/
def Out (w : Nat) (x : LineRes) : Prop := ∃ r, PsW src x.2 r ∧ nodesW src x.1 + r ≤ w

theorem space_le (s : Option Range) : nodesW src (s.map exactSpace).toList = spW src s := by
  cases s with
  | none => rfl
  | some r => simp [exactSpace, nodesW, nodeW, textW, spW]

theorem empty_sel (p : Nat) : selW src (Selector.empty p) = 24 := rfl

theorem lines_all : ∀ k : Nat,
    (∀ pr ns ss lr w, ss ≠ [] → PsW src ns w → Ret (postChildCombinator k pr ns ss lr) (Out (src := src) (w + selsW src ss))) ∧
    (∀ pr ns ss lr w, ss ≠ [] → PsW src ns w → Ret (postSelector k pr ns ss lr) (Out (src := src) (w + selsW src ss))) ∧
    (∀ ns w, PsW src ns w → Ret (extendLine k ns) (Out (src := src) w)) ∧
    (∀ ns w, PsW src ns w → Ret (buildLine k ns) (Out (src := src) w)) := by
  intro k
  induction k with
  | zero =>
    refine ⟨?_, ?_, ?_, ?_⟩
    · intro pr ns ss lr w _ h
      rw [postChildCombinator]
      exact .pure' ⟨w, h, by simp [nodesW]⟩
    · intro pr ns ss lr w _ h
      rw [postSelector]
      exact .pure' ⟨w, h, by simp [nodesW]⟩
    · intro ns w h
      rw [extendLine]
      exact .pure' ⟨w, h, by simp [nodesW]⟩
    · intro ns w h
      rw [buildLine]
      exact .pure' ⟨w, h, by simp [nodesW]⟩
  | succ k ih =>
    obtain ⟨ih1, ih2, ih3, ih4⟩ := ih
    have hb : ∀ ss : List Selector, ss ≠ [] → headW src ss = selsW src ss := by
      intro ss h
      cases ss with
      | nil => exact absurd rfl h
      | cons s ss => exact headW_cons s ss
    refine ⟨?_, ?_, ?_, ?_⟩
    · intro pr ns ss lr w hs h
      have other : Ret (do
          let x ← buildLine k ns
          let range := match x.1.getLast? with
            | some n => pr.combine n.range
            | none => pr
          let contentRange : Range := ⟨pr.stop, range.stop⟩
          let h : EHead := { EHead.new range (.standard (.line lr)) with
            selectors := ss, contentRange }
          return ([Node.ofElem h x.1], x.2)) (Out (src := src) (w + selsW src ss)) := by
        refine (ih4 ns w h).bind ?_
        rintro ⟨ch, rest⟩ ⟨r, h1, h2⟩
        refine .pure ⟨r, h1, ?_⟩
        simp only [nodesW, Node.ofElem, nodeW, hb ss hs] at h2 ⊢
        omega
      rw [postChildCombinator.eq_def]
      dsimp only
      split
      · rename_i sp a b kind rest
        obtain ⟨n, r, h1, h2, h3⟩ := h
        dsimp only at h1 h3
        split
        · rename_i rg build
          refine Ret.bind h1 fun s hsel => ?_
          refine (ih2 _ _ (ss ++ [s]) _ r (by simp) h2).mono ?_
          rintro x ⟨r', h4, h5⟩
          rw [selsW_append, selsW, selsW] at h5
          exact ⟨r', h4, by omega⟩
        · rename_i build
          refine (h1 _ _).bind ?_
          rintro ⟨hd, ch⟩ ⟨h4, h5⟩
          refine .pure ⟨r, h2, ?_⟩
          simp only [nodesW, Node.ofElem, nodeW, hb ss hs] at h5 ⊢
          omega
        · rename_i c
          have h1 : 24 ≤ n := h1
          refine (ih1 _ _ (ss ++ [Selector.empty a]) _ r (by simp) h2).mono ?_
          rintro x ⟨r', h4, h5⟩
          rw [selsW_append, selsW, selsW, empty_sel] at h5
          exact ⟨r', h4, by omega⟩
        · exact other
      · exact other
    · intro pr ns ss lr w hs h
      rw [postSelector.eq_def]
      dsimp only
      split
      · rename_i sp a b kind rest
        have h0 := h
        obtain ⟨n, r, h1, h2, h3⟩ := h
        dsimp only at h1 h3
        split
        · exact .then fun _ => .pure ⟨w, h0, by simp [nodesW]⟩
        · rename_i build
          refine Ret.bind h1 fun c hc => ?_
          refine (ih2 _ _ ss _ r hs h2).bind ?_
          rintro ⟨out, rest'⟩ ⟨r', h4, h5⟩
          refine .pure ⟨r', h4, ?_⟩
          simp only [nodesW] at h5 ⊢
          omega
        · refine (ih1 _ _ ss _ r hs h2).mono ?_
          rintro x ⟨r', h4, h5⟩
          exact ⟨r', h4, by omega⟩
        · refine (h1 _ _).bind ?_
          rintro ⟨hd, ch⟩ ⟨h4, h5⟩
          refine .pure ⟨r, h2, ?_⟩
          simp only [nodesW, Node.ofElem, nodeW, hb ss hs] at h5 ⊢
          omega
        · exact .then fun _ => .pure ⟨w, h0, by simp [nodesW]⟩
      · exact .pure' ⟨w, h, by simp [nodesW]⟩
    · intro ns w h
      rw [extendLine.eq_def]
      dsimp only
      split
      · exact .pure' ⟨0, trivial, by simp [nodesW]⟩
      · rename_i sp a b kind rest
        obtain ⟨n, r, h1, h2, h3⟩ := h
        dsimp only at h1 h3
        have hsp := space_le (src := src) sp
        split
        · refine Ret.bind h1 fun c hc => ?_
          refine (ih3 _ r h2).bind ?_
          rintro ⟨out, rest'⟩ ⟨r', h4, h5⟩
          refine .pure ⟨r', h4, ?_⟩
          simp only [nodesW_append, nodesW, hsp] at h5 ⊢
          omega
        · refine Ret.bind h1 fun c hc => ?_
          refine (ih3 _ r h2).bind ?_
          rintro ⟨out, rest'⟩ ⟨r', h4, h5⟩
          refine .pure ⟨r', h4, ?_⟩
          simp only [nodesW_append, nodesW, hsp] at h5 ⊢
          omega
        · refine Ret.bind h1 fun s hc => ?_
          refine (ih2 _ _ [s] _ r (by simp) h2).bind ?_
          rintro ⟨out, rest'⟩ ⟨r', h4, h5⟩
          refine (ih3 _ r' h4).bind ?_
          rintro ⟨out', rest''⟩ ⟨r'', h6, h7⟩
          refine .pure ⟨r'', h6, ?_⟩
          simp only [nodesW_append, selsW, hsp] at h5 h7 ⊢
          omega
        · have h1 : 24 ≤ n := h1
          refine (ih1 _ _ [Selector.empty a] _ r (by simp) h2).bind ?_
          rintro ⟨out, rest'⟩ ⟨r', h4, h5⟩
          refine .pure ⟨r', h4, ?_⟩
          simp only [nodesW_append, selsW, hsp, empty_sel] at h5 ⊢
          omega
        · refine (h1 _ _).bind ?_
          rintro ⟨hd, ch⟩ ⟨h4, h5⟩
          refine (ih3 _ r h2).bind ?_
          rintro ⟨out, rest'⟩ ⟨r', h6, h7⟩
          refine .pure ⟨r', h6, ?_⟩
          have e : headW src hd.selectors = 24 := by rw [show hd.selectors = [] from h4]; rfl
          simp only [nodesW_append, nodesW, hsp, Node.ofElem, nodeW, e] at h5 h7 ⊢
          omega
        · refine Ret.bind h1 fun c hc => ?_
          refine (ih3 _ r h2).bind ?_
          rintro ⟨out, rest'⟩ ⟨r', h4, h5⟩
          refine .pure ⟨r', h4, ?_⟩
          simp only [nodesW_append, hsp] at h5 ⊢
          omega
    · intro ns w h
      rw [buildLine]
      refine (ih3 ns w h).bind ?_
      rintro ⟨out, rest⟩ h1
      exact .then fun _ => .pure h1

theorem built_le {k : Nat} {ns : List PNode} {w : Nat} (h : PsW src ns w) : Ret (buildLine k ns) fun x => nodesW src x.1 ≤ w :=
  ((lines_all k).2.2.2 ns w h).mono fun _ ⟨_, _, h⟩ => by omega

/-! ## Content -/

theorem last_le {ns : List Node} {n : Node} (h : ns.getLast? = some n) : nodesW src ns = nodesW src ns.dropLast + nodeW src n := by
  obtain ⟨ys, rfl⟩ := List.getLast?_eq_some_iff.1 h
  simp [nodesW_append, nodesW]

theorem append_le (out line : List Node) (r : Range) (l : Nat) :
    nodesW src (appendToPrevious out line r l).1 + nodesW src (appendToPrevious out line r l).2 ≤ nodesW src out + nodesW src line + 1 := by
  rw [appendToPrevious]
  split
  · rename_i rg h ch hl
    have e := last_le (src := src) hl
    split
    all_goals simp only [nodesW_append, nodesW, nodeW, lineEnd, textW] at e ⊢
    all_goals omega
  · dsimp only
    omega

theorem add_le (out line : List Node) (r : Range) (l : Nat) (fp : Bool) :
    nodesW src (addLine out line r l fp) ≤ nodesW src out + nodesW src line + 26 := by
  rw [addLine]
  dsimp only
  have h : nodesW src (if (!startsWithElement line) = true then appendToPrevious out line r l else (out, line)).1 +
      nodesW src (if (!startsWithElement line) = true then appendToPrevious out line r l else (out, line)).2 ≤ nodesW src out + nodesW src line + 1 := by
    split
    · exact append_le _ _ _ _
    · dsimp only; omega
  generalize (if (!startsWithElement line) = true then appendToPrevious out line r l else (out, line)) = x at h ⊢
  have e : ∀ rg, headW src (EHead.new rg .paragraph).selectors = 24 := fun _ => rfl
  have h2 : nodesW src (if x.1.any Node.isVisible then x.1 ++ [paragraphEnd l r.start] else x.1) ≤ nodesW src x.1 + 1 := by
    split
    · simp [nodesW_append, nodesW, nodeW, paragraphEnd, textW]
    · omega
  generalize (if x.1.any Node.isVisible then x.1 ++ [paragraphEnd l r.start] else x.1) = y at h2 ⊢
  split
  · split
    · simp only [nodesW_append, nodesW, Node.ofElem, nodeW, e]
      omega
    · simp only [nodesW_append]
      omega
  · omega

theorem inline_first (r : Range) : ∀ {l l' : List Node}, inlineFirst r l = some l' → nodesW src l' = nodesW src l
  | [], _, h => by cases h
  | n :: l, l', h => by
    rw [inlineFirst.eq_def] at h
    dsimp only at h
    split at h
    · split at h
      · split at h
        · cases h
          simp only [nodesW, nodeW]
        · cases h
      · cases h
    · cases hl : inlineFirst r l with
      | none => simp [hl] at h
      | some x =>
        simp only [hl, Option.map_some, Option.some.injEq] at h
        subst h
        simp only [nodesW, inline_first r hl]

theorem inline_le {r o : Range} {inner : List PNode} {c : Option Range} {w : Nat} (h : PsW src inner w) :
    Ret (buildInline r o inner c) fun x => nodesW src x ≤ 24 + w := by
  have key : Ret (do
      let x ← buildLine (lineFuel inner) inner
      validateLine x.1
      match inlineFirst r x.1 with
      | some line => return line
      | none =>
        let h : EHead := { EHead.new r (.inline none) with contentRange := ⟨o.stop, (c.map Range.start).getD r.stop⟩ }
        return [Node.ofElem h x.1]) fun x => nodesW src x ≤ 24 + w := by
    refine (built_le h).bind fun x hx => ?_
    refine .then fun _ => ?_
    split
    · rename_i l hl
      refine .pure ?_
      rw [inline_first r hl]
      omega
    · refine .pure ?_
      have e : headW src (EHead.new r (.inline none)).selectors = 24 := rfl
      simp only [nodesW, Node.ofElem, nodeW, e]
      omega
  rw [buildInline]
  dsimp only
  split
  · exact .then fun _ => key
  · exact key

end Mty.Size
