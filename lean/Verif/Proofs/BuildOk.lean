import Mathlib.Data.List.Forall2
import Verif.Model.Build
import Verif.Spec.Syntax
import Verif.Proofs.Run
import Verif.Proofs.Escape

/-! # Building logs no error exactly for well-formed documents -/

namespace Mty
namespace Build
open Spec

/-- Whether a node counts as an element or multiline block in a line. -/
def Node.isEl (n : Node) : Bool := n.itemType == .element || n.itemType == .multiline

/-- The visible nodes, each with `isEl`. -/
def visKinds (ns : List Node) : List Bool := (ns.filter Node.isVisible).map Node.isEl

@[simp] theorem visKinds_nil : visKinds [] = [] := rfl

@[simp] theorem visKinds_append (a b : List Node) : visKinds (a ++ b) = visKinds a ++ visKinds b := by
  simp [visKinds]

theorem visKinds_cons (n : Node) (b : List Node) : visKinds (n :: b) = visKinds [n] ++ visKinds b :=
  visKinds_append [n] b

@[simp] theorem visKinds_space (r : Range) : visKinds [exactSpace r] = [] := rfl

@[simp] theorem visKinds_sp (sp : Option Range) : visKinds (sp.map exactSpace).toList = [] := by
  cases sp <;> rfl

theorem notVisible_iff (n : Node) :
    (n.itemType = .comment ∨ n.itemType = .space) ↔ n.isVisible = false := by
  rcases n with ⟨r, (t | c | s)⟩ | ⟨r, h, ch⟩
  · simp [Node.itemType, Node.isVisible]
  · simp [Node.itemType, Node.isVisible]
  · simp [Node.itemType, Node.isVisible]
  · simp only [Node.itemType, Node.isVisible]
    cases h.ty <;> simp

/-! ## Validation -/

theorem validateLoop_run (ns : List Node) : ∀ last : Option (ItemType × Range),
    Run (validateLoop last ns) fun _ es =>
      es = [] ↔ match last with
        | none => OneOrInline (visKinds ns)
        | some (l, _) =>
          if l = .element ∨ l = .multiline then visKinds ns = []
          else ∀ b ∈ visKinds ns, b = false := by
  induction ns with
  | nil =>
    intro last
    refine Run.pure ?_
    rcases last with _ | ⟨l, r⟩ <;> simp [OneOrInline]
  | cons n ns ih =>
    intro last
    rw [validateLoop]
    simp only
    by_cases hv : n.itemType = .comment ∨ n.itemType = .space
    · rw [if_pos hv]
      refine (ih last).mono fun _ es h => ?_
      have : visKinds (n :: ns) = visKinds ns := by
        simp [visKinds, (notVisible_iff n).1 hv]
      rw [this]; exact h
    · rw [if_neg hv]
      have hvis : n.isVisible = true := by
        rw [notVisible_iff] at hv; simpa using hv
      have hk : visKinds (n :: ns) = Node.isEl n :: visKinds ns := by simp [visKinds, hvis]
      have hel : Node.isEl n = true ↔ (n.itemType = .element ∨ n.itemType = .multiline) := by
        simp [Node.isEl]
      rcases last with _ | ⟨l, r⟩
      · refine Run.bind' (Run.pure' ?_)
        refine (ih _).mono fun _ es h => ?_
        simp only [List.nil_append]
        rw [h, hk]
        by_cases he : n.itemType = .element ∨ n.itemType = .multiline
        · simp [OneOrInline, hel.2 he, he]
        · have : Node.isEl n = false := by rw [← Bool.not_eq_true, hel]; exact he
          simp [OneOrInline, this, he]
      · simp only
        rw [hk]
        by_cases hl : l = .element ∨ l = .multiline
        · rw [if_pos hl]
          refine Run.bind' (Run.syntaxErr ?_)
          refine (ih _).mono fun _ es h => ?_
          simp [hl]
        · rw [if_neg hl]
          by_cases he : n.itemType = .element ∨ n.itemType = .multiline
          · rw [if_pos he]
            refine Run.bind' (Run.syntaxErr ?_)
            refine (ih _).mono fun _ es h => ?_
            simp [hl, hel.2 he]
          · rw [if_neg he]
            refine Run.bind' (Run.pure' ?_)
            refine (ih _).mono fun _ es h => ?_
            have : Node.isEl n = false := by rw [← Bool.not_eq_true, hel]; exact he
            simp only [List.nil_append]
            rw [h]
            simp [hl, he, this]

theorem validateLine_run (ns : List Node) :
    Run (validateLine ns) fun _ es => es = [] ↔ OneOrInline (visKinds ns) :=
  validateLoop_run ns none

/-! ## Lines -/

/-- A prepared node behaves as the item says. -/
def Fits (p : PNode) (i : Item) : Prop :=
  match p.kind with
  | .text b => i.shape = .inl ∧ Run b fun n es => (es = [] ↔ i.ok) ∧ visKinds [n] = [false]
  | .comment b => i.shape = .comment ∧ Run b fun n es => (es = [] ↔ i.ok) ∧ visKinds [n] = []
  | .selector _ b => i.shape = .selector ∧ Run b fun _ es => es = [] ↔ i.ok
  | .line _ => i.shape = .arrow
  | .block b => i.shape = .block ∧ ∀ r q, Run (b r q) fun x es =>
      (es = [] ↔ i.ok) ∧ ∃ d, x.1.ty = .standard d
  | .other b => (i.shape = .inl ∧ Run b fun ns es => (es = [] ↔ i.ok) ∧ (es = [] → visKinds ns = [false]))
      ∨ (i.shape = .multiline ∧ Run b fun ns es => (es = [] ↔ i.ok) ∧ visKinds ns = [true])

theorem visKinds_standard {h : EHead} {ch : List Node} {d : Delim} (hd : h.ty = .standard d) :
    visKinds [Node.ofElem h ch] = [true] := by
  have hv : (Node.ofElem h ch).isVisible = true := rfl
  have he : Node.isEl (Node.ofElem h ch) = true := by simp [Node.isEl, Node.ofElem, Node.itemType, hd]
  simp [visKinds, hv, he]

/-- Result of the functions that continue a chain. -/
def OutcomeR (out : List Node) (is' : List Item) : Outcome → Prop
  | .element r => visKinds out = [true] ∧ r = is'
  | .dangling => visKinds out = [] ∧ is' = []

def PostR (st : ChainState) (is : List Item) (x : LineRes) (es : List SyntaxError) : Prop :=
  ∃ is', List.Forall₂ Fits x.2 is' ∧ is'.length ≤ is.length ∧
    (es = [] → ∃ o, Chain st is o ∧ OutcomeR x.1 is' o) ∧
    (∀ o, Chain st is o → es = [] ∧ OutcomeR x.1 is' o)

def ExtR (is : List Item) (x : LineRes) (es : List SyntaxError) : Prop :=
  ∃ is', List.Forall₂ Fits x.2 is' ∧ is'.length ≤ is.length ∧
    (es = [] → Items is (visKinds x.1) is') ∧
    (∀ v r, Items is v r → es = [] ∧ v = visKinds x.1 ∧ r = is')

def LineR (is : List Item) (x : LineRes) (es : List SyntaxError) : Prop :=
  ∃ is', List.Forall₂ Fits x.2 is' ∧ is'.length ≤ is.length ∧
    (es = [] → Items is (visKinds x.1) is' ∧ OneOrInline (visKinds x.1)) ∧
    (∀ v r, Items is v r → OneOrInline v → es = [] ∧ v = visKinds x.1 ∧ r = is')

theorem LineR.of {is : List Item} {x : LineRes} {es es' : List SyntaxError} (h : ExtR is x es)
    (hv : es' = [] ↔ OneOrInline (visKinds x.1)) : LineR is x (es ++ es') := by
  obtain ⟨is', h1, h2, h3, h4⟩ := h
  refine ⟨is', h1, h2, fun hn => ?_, fun v r hi ho => ?_⟩
  · have ⟨a, b⟩ := List.append_eq_nil_iff.1 hn
    exact ⟨h3 a, hv.1 b⟩
  · obtain ⟨rfl, rfl, rfl⟩ := h4 v r hi
    exact ⟨by simp [hv.2 ho], rfl, rfl⟩


theorem Fits.shape {sp a b k i} (h : Fits ⟨sp, a, b, k⟩ i) :
    (match k with
      | .text _ => i.shape = .inl
      | .comment _ => i.shape = .comment
      | .selector _ _ => i.shape = .selector
      | .line _ => i.shape = .arrow
      | .block _ => i.shape = .block
      | .other _ => i.shape = .inl ∨ i.shape = .multiline) := by
  cases k <;> first | exact h.1 | exact h | (rcases h with h | h <;> simp [h.1])

theorem line_main (fuel : Nat) :
    (∀ ps is, List.Forall₂ Fits ps is → 3 * ps.length + 1 ≤ fuel →
      Run (extendLine fuel ps) (ExtR is)) ∧
    (∀ ps is, List.Forall₂ Fits ps is → 3 * ps.length + 2 ≤ fuel →
      Run (buildLine fuel ps) (LineR is)) ∧
    (∀ ps is pr sels lr, List.Forall₂ Fits ps is → 3 * ps.length + 3 ≤ fuel →
      Run (postChildCombinator fuel pr ps sels lr) (PostR .arrow is)) ∧
    (∀ ps is pr sels lr, List.Forall₂ Fits ps is → 3 * ps.length + 1 ≤ fuel →
      Run (postSelector fuel pr ps sels lr) (PostR .selector is)) := by
  induction fuel with
  | zero => refine ⟨?_, ?_, ?_, ?_⟩ <;> intros <;> omega
  | succ fuel ih =>
    obtain ⟨ihE, ihB, ihC, ihS⟩ := ih
    refine ⟨?_, ?_, ?_, ?_⟩
    · -- extendLine
      intro ps is hf hfuel
      cases hf with
      | nil =>
        rw [extendLine.eq_def]; dsimp only
        refine Run.pure ⟨[], .nil, Nat.le_refl _, fun _ => .nil, fun v r h => ?_⟩
        cases h; simp
      | @cons p i ps is hp hf =>
        obtain ⟨sp, start, stop, kind⟩ := p
        simp only [List.length_cons] at hfuel
        have hsh := hp.shape
        cases kind with
        | text b =>
          rw [extendLine.eq_def]; dsimp only
          obtain ⟨_, hb⟩ := hp
          refine Run.bind' (hb.mono fun n es ⟨hok, hv⟩ => ?_)
          refine Run.bind' ((ihE ps is hf (by omega)).mono fun x es' ⟨is', h1, h2, h3, h4⟩ => ?_)
          refine Run.pure' ⟨is', h1, by simp; omega, fun hn => ?_, fun v r hi => ?_⟩
          · simp only [List.append_nil, List.append_eq_nil_iff] at hn
            simp only [visKinds_append, visKinds_sp, List.nil_append]
            rw [visKinds_cons, hv]
            exact .inl hsh (hok.1 hn.1) (h3 hn.2)
          · simp only [visKinds_append, visKinds_sp, List.nil_append]
            rw [visKinds_cons, hv]
            cases hi <;> simp_all <;> (try (rename_i hi; have := h4 _ _ hi; simp_all))
        | comment b =>
          rw [extendLine.eq_def]; dsimp only
          obtain ⟨_, hb⟩ := hp
          refine Run.bind' (hb.mono fun n es ⟨hok, hv⟩ => ?_)
          refine Run.bind' ((ihE ps is hf (by omega)).mono fun x es' ⟨is', h1, h2, h3, h4⟩ => ?_)
          refine Run.pure' ⟨is', h1, by simp; omega, fun hn => ?_, fun v r hi => ?_⟩
          · simp only [List.append_nil, List.append_eq_nil_iff] at hn
            simp only [visKinds_append, visKinds_sp, List.nil_append]
            rw [visKinds_cons, hv]
            exact .comment hsh (hok.1 hn.1) (h3 hn.2)
          · simp only [visKinds_append, visKinds_sp, List.nil_append]
            rw [visKinds_cons, hv]
            cases hi <;> simp_all <;> (try (rename_i hi; have := h4 _ _ hi; simp_all))
        | block b =>
          rw [extendLine.eq_def]; dsimp only
          obtain ⟨_, hb⟩ := hp
          refine Run.bind' ((hb _ _).mono fun y es ⟨hok, d, hd⟩ => ?_)
          refine Run.bind' ((ihE ps is hf (by omega)).mono fun x es' ⟨is', h1, h2, h3, h4⟩ => ?_)
          refine Run.pure' ⟨is', h1, by simp; omega, fun hn => ?_, fun v r hi => ?_⟩
          · simp only [List.append_nil, List.append_eq_nil_iff] at hn
            simp only [visKinds_append, visKinds_sp, List.nil_append]
            rw [visKinds_cons, visKinds_standard hd]
            exact .block hsh (hok.1 hn.1) (h3 hn.2)
          · simp only [visKinds_append, visKinds_sp, List.nil_append]
            rw [visKinds_cons, visKinds_standard hd]
            cases hi <;> simp_all <;> (try (rename_i hi; have := h4 _ _ hi; simp_all))
        | other b =>
          rw [extendLine.eq_def]; dsimp only
          rcases hp with ⟨hs, hb⟩ | ⟨hs, hb⟩
          · refine Run.bind' (hb.mono fun ns es ⟨hok, hv⟩ => ?_)
            refine Run.bind' ((ihE ps is hf (by omega)).mono fun x es' ⟨is', h1, h2, h3, h4⟩ => ?_)
            refine Run.pure' ⟨is', h1, by simp; omega, fun hn => ?_, fun v r hi => ?_⟩
            · simp only [List.append_nil, List.append_eq_nil_iff] at hn
              simp only [visKinds_append, visKinds_sp, List.nil_append]
              rw [hv hn.1]
              exact .inl hs (hok.1 hn.1) (h3 hn.2)
            · simp only [visKinds_append, visKinds_sp, List.nil_append]
              cases hi <;> simp_all <;> (try (rename_i hi; have := h4 _ _ hi; simp_all))
          · refine Run.bind' (hb.mono fun ns es ⟨hok, hv⟩ => ?_)
            refine Run.bind' ((ihE ps is hf (by omega)).mono fun x es' ⟨is', h1, h2, h3, h4⟩ => ?_)
            refine Run.pure' ⟨is', h1, by simp; omega, fun hn => ?_, fun v r hi => ?_⟩
            · simp only [List.append_nil, List.append_eq_nil_iff] at hn
              simp only [visKinds_append, visKinds_sp, List.nil_append]
              rw [hv]
              exact .multiline hs (hok.1 hn.1) (h3 hn.2)
            · simp only [visKinds_append, visKinds_sp, List.nil_append]
              cases hi <;> simp_all <;> (try (rename_i hi; have := h4 _ _ hi; simp_all))
        | line c =>
          rw [extendLine.eq_def]; dsimp only
          refine Run.bind' ((ihC ps is _ _ _ hf (by omega)).mono
            fun x es ⟨is', h1, h2, h3, h4⟩ => ?_)
          refine Run.pure' ⟨is', h1, by simp; omega, fun hn => ?_, fun v r hi => ?_⟩
          · simp only [List.append_nil] at hn
            simp only [visKinds_append, visKinds_sp, List.nil_append]
            obtain ⟨o, hc, ho⟩ := h3 hn
            cases o with
            | element r =>
              obtain ⟨hv, rfl⟩ := ho
              rw [hv]; exact .arrow hsh hc
            | dangling =>
              obtain ⟨hv, rfl⟩ := ho
              rw [hv]; exact .arrowDangling hsh hc
          · simp only [visKinds_append, visKinds_sp, List.nil_append]
            cases hi <;> simp_all
            · rename_i hc; have := h4 _ hc; simp_all [OutcomeR]
            · rename_i hc; have := h4 _ hc; simp_all [OutcomeR]
        | selector rg b =>
          rw [extendLine.eq_def]; dsimp only
          obtain ⟨_, hb⟩ := hp
          refine Run.bind' (hb.mono fun s es hok => ?_)
          refine Run.bind' ((ihS ps is _ _ _ hf (by omega)).mono
            fun x es1 ⟨is1, h1, h2, h3, h4⟩ => ?_)
          have hlen : x.2.length = is1.length := h1.length_eq
          have hlen' : ps.length = is.length := hf.length_eq
          refine Run.bind' ((ihE x.2 is1 h1 (by omega)).mono
            fun x' es2 ⟨is2, k1, k2, k3, k4⟩ => ?_)
          refine Run.pure' ⟨is2, k1, by simp; omega, fun hn => ?_, fun v r hi => ?_⟩
          · simp only [List.append_nil, List.append_eq_nil_iff] at hn
            simp only [visKinds_append, visKinds_sp, List.nil_append]
            obtain ⟨o, hc, ho⟩ := h3 hn.2.1
            cases o with
            | element r =>
              obtain ⟨hv, rfl⟩ := ho
              rw [hv]; exact .selector hsh (hok.1 hn.1) hc (k3 hn.2.2)
            | dangling =>
              obtain ⟨hv, rfl⟩ := ho
              have hk := k3 hn.2.2
              generalize hw : visKinds x'.1 = w at hk ⊢
              cases hk
              rw [hv]; exact .selectorDangling hsh (hok.1 hn.1) hc
          · simp only [visKinds_append, visKinds_sp, List.nil_append]
            cases hi <;> simp_all
            · rename_i hc hi
              have ⟨e1, ho⟩ := h4 _ hc
              obtain ⟨hv, rfl⟩ := ho
              have := k4 _ _ hi
              simp_all
            · rename_i hc
              have ⟨e1, ho⟩ := h4 _ hc
              obtain ⟨hv, rfl⟩ := ho
              have := k4 _ _ .nil
              simp_all
    · -- buildLine
      intro ps is hf hfuel
      rw [buildLine]
      refine Run.bind' ((ihE ps is hf (by omega)).mono fun x es hx => ?_)
      refine Run.bind' ((validateLine_run x.1).mono fun _ es' hv => ?_)
      refine Run.pure' ?_
      simpa using LineR.of hx hv
    · -- postChildCombinator
      intro ps is pr sels lr hf hfuel
      have hother : ∀ (pr : Range), StartsChildren is → Run (do
          let (children, rest) ← buildLine fuel ps
          let range := match children.getLast? with
            | some n => pr.combine n.range
            | none => pr
          let contentRange : Range := ⟨pr.stop, range.stop⟩
          let h : EHead := { EHead.new range (.standard (.line lr)) with
            selectors := sels, contentRange }
          return ([Node.ofElem h children], rest) : BM LineRes) (PostR .arrow is) := by
        intro pr hsc
        refine Run.bind' ((ihB ps is hf (by omega)).mono fun x es ⟨is', h1, h2, h3, h4⟩ => ?_)
        refine Run.pure' ⟨is', h1, h2, fun hn => ?_, fun o hc => ?_⟩
        · simp only [List.append_nil] at hn
          exact ⟨_, .arrowLine hsc (h3 hn).1 (h3 hn).2, visKinds_standard rfl, rfl⟩
        · cases hc <;> simp_all [StartsChildren]
          rename_i ho hi
          have ⟨_, _, e⟩ := h4 _ _ hi ho
          simp_all
          exact ⟨visKinds_standard rfl, rfl⟩
      cases hf with
      | nil =>
        rw [postChildCombinator.eq_def]; dsimp only
        exact hother _ trivial
      | @cons p i ps is hp hf =>
        obtain ⟨sp, start, stop, kind⟩ := p
        simp only [List.length_cons] at hfuel
        have hsh := hp.shape
        cases kind with
        | text b =>
          rw [postChildCombinator.eq_def]; dsimp only
          exact hother _ (Or.inl hsh)
        | comment b =>
          rw [postChildCombinator.eq_def]; dsimp only
          exact hother _ (Or.inr (Or.inl hsh))
        | other b =>
          rw [postChildCombinator.eq_def]; dsimp only
          exact hother _ (by rcases hsh with h | h <;> simp [StartsChildren, h])
        | line c =>
          rw [postChildCombinator.eq_def]; dsimp only
          refine (ihC ps is _ _ _ hf (by omega)).mono fun x es ⟨is', h1, h2, h3, h4⟩ => ?_
          refine ⟨is', h1, by simp; omega, fun hn => ?_, fun o hc => ?_⟩
          · obtain ⟨o, hc, ho⟩ := h3 hn
            exact ⟨o, .arrowArrow hsh hc, ho⟩
          · cases hc <;> simp_all [StartsChildren]
            exact (h4 _ ‹_›).1
        | selector rg b =>
          rw [postChildCombinator.eq_def]; dsimp only
          obtain ⟨_, hb⟩ := hp
          refine Run.bind' (hb.mono fun s es hok => ?_)
          refine (ihS ps is _ _ _ hf (by omega)).mono fun x es' ⟨is', h1, h2, h3, h4⟩ => ?_
          refine ⟨is', h1, by simp; omega, fun hn => ?_, fun o hc => ?_⟩
          · simp only [List.append_eq_nil_iff] at hn
            obtain ⟨o, hc, ho⟩ := h3 hn.2
            exact ⟨o, .arrowSelector hsh (hok.1 hn.1) hc, ho⟩
          · cases hc <;> simp_all [StartsChildren]
            exact (h4 _ ‹_›).1
        | block b =>
          rw [postChildCombinator.eq_def]; dsimp only
          obtain ⟨_, hb⟩ := hp
          refine Run.bind' ((hb _ _).mono fun y es ⟨hok, d, hd⟩ => ?_)
          refine Run.pure' ⟨is, hf, by simp, fun hn => ?_, fun o hc => ?_⟩
          · simp only [List.append_nil] at hn
            exact ⟨_, .arrowBlock hsh (hok.1 hn), visKinds_standard rfl, rfl⟩
          · cases hc <;> simp_all [StartsChildren]
            exact ⟨visKinds_standard rfl, rfl⟩
    · -- postSelector
      intro ps is pr sels lr hf hfuel
      cases hf with
      | nil =>
        rw [postSelector.eq_def]; dsimp only
        refine Run.pure ⟨[], .nil, Nat.le_refl _, fun _ => ⟨_, .selectorEnd, rfl, rfl⟩, fun o hc => ?_⟩
        cases hc; exact ⟨rfl, rfl, rfl⟩
      | @cons p i ps is hp hf =>
        have hf' : List.Forall₂ Fits (p :: ps) (i :: is) := .cons hp hf
        obtain ⟨sp, start, stop, kind⟩ := p
        simp only [List.length_cons] at hfuel
        have hsh := hp.shape
        have hbad : ∀ rg mk, i.shape = .inl ∨ i.shape = .selector ∨ i.shape = .multiline →
            Run (do misplaced rg mk; return (([] : List Node), PNode.mk sp start stop kind :: ps) : BM LineRes)
              (PostR .selector (i :: is)) := by
          intro rg mk hi
          refine Run.bind' (Run.syntaxErr ?_)
          refine Run.pure' ⟨i :: is, hf', Nat.le_refl _, by simp, fun o hc => ?_⟩
          cases hc <;> simp_all
        cases kind with
        | text b =>
          rw [postSelector.eq_def]; dsimp only
          exact hbad _ _ (Or.inl hsh)
        | selector rg b =>
          rw [postSelector.eq_def]; dsimp only
          exact hbad _ _ (Or.inr (Or.inl hsh))
        | other b =>
          rw [postSelector.eq_def]; dsimp only
          exact hbad _ _ (by tauto)
        | comment b =>
          rw [postSelector.eq_def]; dsimp only
          obtain ⟨_, hb⟩ := hp
          refine Run.bind' (hb.mono fun c es ⟨hok, hv⟩ => ?_)
          refine Run.bind' ((ihS ps is _ _ _ hf (by omega)).mono
            fun x es' ⟨is', h1, h2, h3, h4⟩ => ?_)
          have ho' : ∀ o, OutcomeR (c :: x.1) is' o ↔ OutcomeR x.1 is' o := by
            intro o
            cases o <;> simp only [OutcomeR] <;> rw [visKinds_cons, hv] <;> simp
          refine Run.pure' ⟨is', h1, by simp; omega, fun hn => ?_, fun o hc => ?_⟩
          · simp only [List.append_nil, List.append_eq_nil_iff] at hn
            obtain ⟨o, hc, ho⟩ := h3 hn.2
            exact ⟨o, .selectorComment hsh (hok.1 hn.1) hc, (ho' o).2 ho⟩
          · rw [ho']
            cases hc <;> simp_all
            exact (h4 _ ‹_›).1
        | line c =>
          rw [postSelector.eq_def]; dsimp only
          refine (ihC ps is _ _ _ hf (by omega)).mono fun x es ⟨is', h1, h2, h3, h4⟩ => ?_
          refine ⟨is', h1, by simp; omega, fun hn => ?_, fun o hc => ?_⟩
          · obtain ⟨o, hc, ho⟩ := h3 hn
            exact ⟨o, .selectorArrow hsh hc, ho⟩
          · cases hc <;> simp_all
            exact (h4 _ ‹_›).1
        | block b =>
          rw [postSelector.eq_def]; dsimp only
          obtain ⟨_, hb⟩ := hp
          refine Run.bind' ((hb _ _).mono fun y es ⟨hok, d, hd⟩ => ?_)
          refine Run.pure' ⟨is, hf, by simp, fun hn => ?_, fun o hc => ?_⟩
          · simp only [List.append_nil] at hn
            exact ⟨_, .selectorBlock hsh (hok.1 hn), visKinds_standard (h := { y.1 with selectors := sels }) hd, rfl⟩
          · cases hc <;> simp_all
            exact ⟨visKinds_standard rfl, rfl⟩


theorem LineR.ok {is : List Item} {x : LineRes} {es : List SyntaxError} (h : LineR is x es) :
    es = [] ↔ LineOk is := by
  obtain ⟨is', _, _, h3, h4⟩ := h
  exact ⟨fun hn => ⟨is', _, (h3 hn).1, (h3 hn).2⟩, fun ⟨r, v, hi, ho⟩ => (h4 v r hi ho).1⟩

theorem buildLine_run {ps : List PNode} {is : List Item} (hf : List.Forall₂ Fits ps is) :
    Run (buildLine (lineFuel ps) ps) (LineR is) :=
  (line_main _).2.1 ps is hf (by simp [lineFuel])

/-! ## Content -/

def FitsLine (l : PLine) (is : List Item) : Prop := List.Forall₂ Fits l.nodes is

theorem contentLoop_run (fp : Bool) {ls : List PLine} {iss : List (List Item)}
    (h : List.Forall₂ FitsLine ls iss) : ∀ (out : List Node) (e : Nat),
    Run (contentLoop fp out e ls) fun _ es => es = [] ↔ ∀ is ∈ iss, LineOk is := by
  induction h with
  | nil => intro out e; exact Run.pure (by simp)
  | @cons l is ls iss hl _ ih =>
    intro out e
    obtain ⟨start, nodes, stop⟩ := l
    rw [contentLoop]
    by_cases hn : nodes.isEmpty = true
    · rw [if_pos hn]
      refine (ih _ _).mono fun _ es h => ?_
      have : nodes = [] := by simpa using hn
      subst this
      cases hl
      have hok : LineOk [] := ⟨[], [], .nil, Or.inl (by simp)⟩
      simp [h, hok]
    · rw [if_neg hn]
      refine Run.bind' ((buildLine_run hl).mono fun x es hx => ?_)
      refine (ih _ _).mono fun _ es' h => ?_
      simp [List.append_eq_nil_iff, hx.ok, h]

/-! ## Single nodes -/

theorem escapableSlice_run (src : Str) (r : Range) (esc : Bool) :
    Run (escapableSlice src r esc) fun a es =>
      a = .fromSource r ∧ (es = [] ↔ (esc = true → EscapesOk (r.slice src))) := by
  cases esc with
  | false => exact Run.bind' (Run.pure' (Run.pure' (by simp)))
  | true =>
    refine Run.bind' (Run.syntaxErr ?_)
    refine Run.pure' ?_
    have := escapeErrors_nil_iff (r.slice src) r.start
    simp only [List.append_nil, List.map_eq_nil_iff, this, EscapesOk, true_and, forall_const]

theorem buildTextNode_run (src : Str) (r : Range) (u e raw ml : Bool) :
    Run (buildTextNode src r u e raw ml) fun n es =>
      n = .text r (.text ⟨.fromSource r, ml, u, e, raw⟩) ∧
        (es = [] ↔ (u = true → EscapesOk (r.slice src))) := by
  refine Run.bind' ((escapableSlice_run src r u).mono fun a es ⟨ha, h⟩ => ?_)
  subst ha
  exact Run.pure' ⟨rfl, by simpa using h⟩

theorem escapableSlice_esc (src : Str) (r : Range) (esc : Bool) :
    Run (escapableSlice src r esc) fun _ es => (∀ x ∈ es, x.kind = .invalidEscape) := by
  cases esc with
  | false => exact Run.bind' (Run.pure' (Run.pure' (by simp)))
  | true =>
    refine Run.bind' (Run.syntaxErr ?_)
    refine Run.pure' ?_
    intro x hx
    rw [List.append_nil] at hx
    obtain ⟨y, -, rfl⟩ := List.mem_map.1 hx
    rfl

/-- The only errors of a text are invalid escape sequences. -/
theorem buildTextNode_esc (src : Str) (r : Range) (u e raw ml : Bool) :
    Run (buildTextNode src r u e raw ml) fun _ es => (∀ x ∈ es, x.kind = .invalidEscape) :=
  Run.bind' ((escapableSlice_esc src r u).mono fun _ es h => Run.pure' (by simpa using h))

theorem unclosedIf_run {α : Type} {c : Option Range} (o : Range) (k : UnclosedKind) {m : Unit → BM α}
    {R : α → List SyntaxError → Prop}
    (h : ∀ es, (es = [] ↔ c.isSome = true) → Run (m ()) fun b es' => R b (es ++ es')) :
    Run (do
      if c.isNone then unclosed o k
      m ()) R := by
  cases c with
  | none => exact Run.bind' (Run.syntaxErr (h _ (by simp)))
  | some c => exact Run.bind' (Run.pure' (h _ (by simp)))

theorem buildCommentNode_run (c : Ast.Comment) :
    Run (buildCommentNode c) fun n es =>
      n = .text ⟨c.start, c.stop⟩ (.comment (.fromSource c.inner)) ∧
      (es = [] ↔ c.close.isSome = true) := by
  refine unclosedIf_run (c := c.close) c.open_ .comment
    (m := fun _ => Pure.pure (Node.text ⟨c.start, c.stop⟩ (.comment (.fromSource c.inner)))) fun es h => ?_
  exact Run.pure' ⟨rfl, by simpa using h⟩

theorem buildAttributeList_run (a : Ast.AttributeSelector) :
    Run (buildAttributeList a) fun i es =>
      i = .attributes ⟨a.start, a.stop⟩ (a.parts.map buildAttribute) ∧
      (es = [] ↔ a.rBracket.isSome = true) := by
  refine unclosedIf_run (c := a.rBracket) a.lBracket .attributeList
    (m := fun _ => Pure.pure (SelectorItem.attributes ⟨a.start, a.stop⟩ (a.parts.map buildAttribute)))
    fun es h => ?_
  exact Run.pure' ⟨rfl, by simpa using h⟩

/-- What a class-like item becomes. -/
def classLikeItem : Ast.ClassLike → List SelectorItem
  | .cls dot ident => [.cls dot (.fromSource ident)]
  | .id hash ident => [.id hash (.fromSource ident)]
  | .invalid _ => []

theorem extendClassLike_run (l : List Ast.ClassLike) :
    Run (extendClassLike l) fun is es =>
      is = l.flatMap classLikeItem ∧ (es = [] ↔ ∀ i ∈ l, ClassLikeOk i) := by
  induction l with
  | nil => exact Run.pure (by simp)
  | cons c l ih =>
    rw [extendClassLike]
    cases c with
    | cls d i =>
      refine Run.bind' (Run.pure ?_)
      refine Run.bind' (ih.mono fun a es ⟨ha, h⟩ => Run.pure' ?_)
      simp [ha, h, ClassLikeOk, classLikeItem]
    | id d i =>
      refine Run.bind' (Run.pure ?_)
      refine Run.bind' (ih.mono fun a es ⟨ha, h⟩ => Run.pure' ?_)
      simp [ha, h, ClassLikeOk, classLikeItem]
    | invalid r =>
      refine Run.bind' (Run.bind' (Run.syntaxErr (Run.pure' ?_)))
      refine Run.bind' (ih.mono fun a es ⟨ha, h⟩ => Run.pure' ?_)
      simp [ha, ClassLikeOk, classLikeItem]

/-- What a selector segment becomes. -/
def segmentItems : Ast.SelectorSegment → List SelectorItem
  | .attributes a => [.attributes ⟨a.start, a.stop⟩ (a.parts.map buildAttribute)]
  | .classLike items => items.flatMap classLikeItem

theorem extendSegments_run (l : List Ast.SelectorSegment) :
    Run (extendSegments l) fun is es =>
      is = l.flatMap segmentItems ∧ (es = [] ↔ ∀ i ∈ l, SegmentOk i) := by
  induction l with
  | nil => exact Run.pure (by simp)
  | cons c l ih =>
    cases c with
    | attributes a =>
      rw [extendSegments]
      refine Run.bind' ((buildAttributeList_run a).mono fun a es ⟨ha, h⟩ => ?_)
      refine Run.bind' (ih.mono fun b es' ⟨hb, h'⟩ => Run.pure' ?_)
      simp [ha, h, hb, h', SegmentOk, segmentItems]
    | classLike a =>
      rw [extendSegments]
      refine Run.bind' ((extendClassLike_run a).mono fun a es ⟨ha, h⟩ => ?_)
      refine Run.bind' (ih.mono fun b es' ⟨hb, h'⟩ => Run.pure' ?_)
      simp [ha, h, hb, h', SegmentOk, segmentItems]

/-- What a selector becomes. -/
def selectorOf (s : Ast.Selector) : Selector :=
  match s.first with
  | .tag element cl =>
    ⟨⟨s.start, s.stop⟩, buildTag element, cl.flatMap classLikeItem ++ s.segments.flatMap segmentItems⟩
  | .attributes a =>
    ⟨⟨s.start, s.stop⟩, .implicit,
      .attributes ⟨a.start, a.stop⟩ (a.parts.map buildAttribute) :: s.segments.flatMap segmentItems⟩

theorem buildSelector_run (s : Ast.Selector) :
    Run (buildSelector s) fun a es => a = selectorOf s ∧ (es = [] ↔ SelectorOk s) := by
  obtain ⟨start, first, segments, stop⟩ := s
  cases first with
  | tag el cl =>
    refine Run.bind' ((extendClassLike_run cl).mono fun a es ⟨ha, h⟩ => Run.bind' (Run.pure' ?_))
    refine Run.bind' ((extendSegments_run segments).mono fun b es' ⟨hb, h'⟩ => Run.pure' ?_)
    simp [ha, h, hb, h', SelectorOk, selectorOf]
  | attributes l =>
    refine Run.bind' ((buildAttributeList_run l).mono fun a es ⟨ha, h⟩ => Run.bind' (Run.pure' ?_))
    refine Run.bind' ((extendSegments_run segments).mono fun b es' ⟨hb, h'⟩ => Run.pure' ?_)
    simp [ha, h, hb, h', SelectorOk, selectorOf]

theorem inlineFirst_kinds {r : Range} : ∀ {ns ns' : List Node}, inlineFirst r ns = some ns' →
    visKinds ns = [true] → visKinds ns' = [false]
  | n :: ns, ns', h, hk => by
    rw [inlineFirst.eq_def] at h; dsimp only at h
    by_cases hv : n.isVisible = true
    · rw [if_pos hv] at h
      cases n with
      | text _ _ => simp at h
      | elem rg hd ch =>
        simp only at h
        split at h <;> simp at h
        subst h
        have : visKinds ns = [] := by
          rw [visKinds_cons] at hk
          have h2 : visKinds [Node.elem rg hd ch] = [Node.isEl (.elem rg hd ch)] := by
            simp [visKinds, hv]
          rw [h2] at hk
          simpa using (List.cons.inj hk).2
        rw [visKinds_cons, this]
        rfl
    · rw [if_neg hv] at h
      cases hh : inlineFirst r ns with
      | none => rw [hh] at h; simp at h
      | some w =>
        rw [hh] at h
        simp at h
        subst h
        have h0 : visKinds [n] = [] := by simp [visKinds, hv]
        rw [visKinds_cons, h0] at hk ⊢
        exact inlineFirst_kinds hh hk

theorem inlineFirst_none {r : Range} : ∀ {ns ns' : List Node}, inlineFirst r ns = some ns' →
    ∃ v, visKinds ns = true :: v
  | n :: ns, ns', h => by
    rw [inlineFirst.eq_def] at h; dsimp only at h
    by_cases hv : n.isVisible = true
    · rw [if_pos hv] at h
      cases n with
      | text _ _ => simp at h
      | elem rg hd ch =>
        simp only at h
        split at h <;> simp at h
        rename_i d hd'
        have : Node.isEl (.elem rg hd ch) = true := by simp [Node.isEl, Node.itemType, hd']
        exact ⟨visKinds ns, by simp [visKinds, hv, this]⟩
    · rw [if_neg hv] at h
      cases hh : inlineFirst r ns with
      | none => rw [hh] at h; simp at h
      | some w =>
        obtain ⟨v, hv'⟩ := inlineFirst_none hh
        have h0 : visKinds [n] = [] := by simp [visKinds, hv]
        exact ⟨v, by rw [visKinds_cons, h0, hv']; rfl⟩

theorem buildInline_run {range o : Range} {ps : List PNode} {is : List Item} {c : Option Range}
    (hf : List.Forall₂ Fits ps is) :
    Run (buildInline range o ps c) fun ns es =>
      (es = [] ↔ (c.isSome = true ∧ LineOk is)) ∧ (es = [] → visKinds ns = [false]) := by
  refine unclosedIf_run (c := c) o .inline (m := fun _ => do
    let (line, _) ← buildLine (lineFuel ps) ps
    validateLine line
    match inlineFirst range line with
    | some line => return line
    | none =>
      let h : EHead := { EHead.new range (.inline none) with
        contentRange := ⟨o.stop, (c.map Range.start).getD range.stop⟩ }
      return [Node.ofElem h line]) fun e0 h0 => ?_
  refine Run.bind' ((buildLine_run hf).mono fun x es hx => ?_)
  refine Run.bind' ((validateLine_run x.1).mono fun _ es' hv => ?_)
  have hiff : e0 ++ (es ++ (es' ++ [])) = [] ↔ (c.isSome = true ∧ LineOk is) := by
    simp only [List.append_nil, List.append_eq_nil_iff, h0, hx.ok]
    refine and_congr_right fun _ => ⟨fun h => h.1, fun h => ⟨h, hv.2 ?_⟩⟩
    obtain ⟨is', _, _, h3, h4⟩ := hx
    obtain ⟨r, v, hi, ho⟩ := h
    exact (h3 (h4 v r hi ho).1).2
  cases hi : inlineFirst range x.1 with
  | none =>
    simp only
    exact Run.pure' ⟨hiff, fun _ => rfl⟩
  | some w =>
    simp only
    refine Run.pure' ⟨hiff, fun hn => ?_⟩
    simp only [List.append_nil, List.append_eq_nil_iff] at hn
    have ho := hv.1 hn.2.2
    obtain ⟨v, hv'⟩ := inlineFirst_none hi
    rcases ho with ho | ho
    · rw [hv'] at ho; simp at ho
    · exact inlineFirst_kinds hi ho

/-! ## The syntax tree -/

/-- The items of all lines. -/
def lineItems (src : Str) : List Ast.Line → List (List Item)
  | [] => []
  | .mk _ nodes _ :: ls => itemsOf src nodes :: lineItems src ls

theorem linesOk_iff (src : Str) : ∀ ls : List Ast.Line,
    LinesOk src ls ↔ ∀ is ∈ lineItems src ls, LineOk is
  | [] => by simp [LinesOk, lineItems]
  | .mk _ nodes _ :: ls => by
    have := linesOk_iff src ls
    simp [LinesOk, lineItems, this]

mutual
  theorem fitNode (src : Str) : ∀ n : Ast.Node, Fits (prepNode src n) (itemOf src n)
    | .mk sp start stop ty => by
      rw [prepNode, itemOf]; exact fitType src sp start stop ty
  theorem fitType (src : Str) (sp : Option Range) (start stop : Nat) : ∀ ty : Ast.NodeType,
      Fits ⟨sp, start, stop, prepType src ⟨start, stop⟩ ty⟩ ⟨shapeOf ty, TypeOk src ty⟩
    | .multiline k a b => by
      refine Or.inr ⟨rfl, ?_⟩
      refine Run.bind' ((buildTextNode_run _ _ _ _ _ _).mono fun n es ⟨hn, h⟩ => Run.pure' ⟨?_, rfl⟩)
      cases k <;> simp_all [TypeOk]
    | .text (.comment c) => by
      refine ⟨rfl, (buildCommentNode_run c).mono fun n es ⟨hn, h⟩ => ⟨?_, by subst hn; rfl⟩⟩
      simpa [TypeOk] using h
    | .text (.segment r) => by
      refine ⟨rfl, (buildTextNode_run _ _ _ _ _ _).mono fun n es ⟨hn, h⟩ => ⟨?_, by subst hn; rfl⟩⟩
      simpa [TypeOk] using h
    | .text (.interpolation r) => by
      refine ⟨rfl, (buildTextNode_run _ _ _ _ _ _).mono fun n es ⟨hn, h⟩ => ⟨?_, by subst hn; rfl⟩⟩
      simpa [TypeOk] using h
    | .text (.verbatim o raw tail) => by
      refine ⟨rfl, Run.pure ⟨by simp [TypeOk], ?_⟩⟩
      cases tail <;> rfl
    | .selector s => by
      refine ⟨rfl, (buildSelector_run s).mono fun n es ⟨hn, h⟩ => ?_⟩
      simpa [TypeOk] using h
    | .line c => rfl
    | .block l (.mk a lines b) r => by
      refine ⟨rfl, fun rg q => ?_⟩
      refine unclosedIf_run (c := r) l .block (m := fun _ => do
        let nodes ← buildContent a (prepLines src lines) q
        let h : EHead := { EHead.new rg (.standard (.block rg)) with contentRange := ⟨a, b⟩ }
        return (h, nodes)) fun e0 h0 => ?_
      refine Run.bind' ((contentLoop_run q (fitLines src lines) [] a).mono fun x es h => ?_)
      refine Run.pure' ⟨?_, _, rfl⟩
      simp [TypeOk, h0, h, linesOk_iff]
    | .inline o inner c => by
      refine Or.inl ⟨rfl, (buildInline_run (fitNodes src inner)).mono fun x es h => ?_⟩
      simpa [TypeOk] using h
    | .special form o (.mk a lines b) c => by
      refine Or.inl ⟨rfl, ?_⟩
      refine unclosedIf_run (c := c) o (.specialInline (specialKind form)) (m := fun _ => do
        let nodes ← buildContent a (prepLines src lines) false
        let h : EHead := { EHead.new ⟨start, stop⟩ (.special (specialKind form)) with
          contentRange := ⟨a, b⟩ }
        return [Node.ofElem h nodes]) fun e0 h0 => ?_
      refine Run.bind' ((contentLoop_run false (fitLines src lines) [] a).mono fun x es h => ?_)
      refine Run.pure' ⟨?_, fun _ => rfl⟩
      simp [TypeOk, h0, h, linesOk_iff]
    | .code r => by
      refine Or.inl ⟨rfl, ?_⟩
      refine Run.bind' ((buildTextNode_run _ _ _ _ _ _).mono fun n es ⟨hn, h⟩ =>
        Run.pure' ⟨?_, fun _ => rfl⟩)
      simp_all [TypeOk]
  theorem fitNodes (src : Str) : ∀ ns : List Ast.Node,
      List.Forall₂ Fits (prepNodes src ns) (itemsOf src ns)
    | [] => .nil
    | n :: ns => .cons (fitNode src n) (fitNodes src ns)
  theorem fitLines (src : Str) : ∀ ls : List Ast.Line,
      List.Forall₂ FitsLine (prepLines src ls) (lineItems src ls)
    | [] => .nil
    | .mk _ nodes _ :: ls => .cons (fitNodes src nodes) (fitLines src ls)
end

/-- Building logs no error exactly for well-formed documents. -/
theorem fromAst_run (src : Str) (d : Ast.Document) :
    Run (fromAst src d) fun _ es => es = [] ↔ WellFormed src d := by
  obtain ⟨⟨start, lines, stop⟩⟩ := d
  refine Run.bind' ((contentLoop_run true (fitLines src lines) [] start).mono fun x es h => ?_)
  refine Run.pure' ?_
  simp [WellFormed, h, linesOk_iff]

end Build
end Mty
