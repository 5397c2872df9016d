import Mathlib.Data.List.Forall2
import Verif.Model.Build
import Verif.Spec.Leaves
import Verif.Proofs.Run
import Verif.Proofs.BuildOk

/-! # What becomes of the content of a syntax tree -/

namespace Mty
namespace Build
open Spec

/-- The errors other than misplaced items. -/
def nm (es : List SyntaxError) : List SyntaxError := es.filter fun e => !isMisplaced e

@[simp] theorem nm_nil : nm [] = [] := rfl
@[simp] theorem nm_append (a b : List SyntaxError) : nm (a ++ b) = nm a ++ nm b := by simp [nm]
@[simp] theorem nm_misplaced (r : Range) (k : MisplacedKind) :
    nm [⟨r, .misplacedItem k⟩] = [] := rfl
@[simp] theorem nm_cons_misplaced (r : Range) (k : MisplacedKind) (es : List SyntaxError) :
    nm (⟨r, .misplacedItem k⟩ :: es) = nm es := rfl

@[simp] theorem docLeaves_nil : docLeaves [] = [] := by simp [docLeaves]
@[simp] theorem docLeaves_cons (n : Node) (ns : List Node) :
    docLeaves (n :: ns) = docNodeLeaves n ++ docLeaves ns := by simp [docLeaves]
@[simp] theorem docLeaves_append (a b : List Node) :
    docLeaves (a ++ b) = docLeaves a ++ docLeaves b := by
  induction a with
  | nil => simp
  | cons n a ih => simp [ih]

@[simp] theorem docNodeLeaves_elem (r : Range) (h : EHead) (ch : List Node) :
    docNodeLeaves (.elem r h ch) = docLeaves ch := by simp [docNodeLeaves]
@[simp] theorem docNodeLeaves_ofElem (h : EHead) (ch : List Node) :
    docNodeLeaves (Node.ofElem h ch) = docLeaves ch := by simp [Node.ofElem]
@[simp] theorem docNodeLeaves_space (r : Range) (s : Space) :
    docNodeLeaves (.text r (.space s)) = [] := by simp [docNodeLeaves]
@[simp] theorem docLeaves_sp (sp : Option Range) : docLeaves (sp.map exactSpace).toList = [] := by
  cases sp <;> simp [exactSpace]

/-- What is known of a prepared node: shape, leaves, errors. -/
structure CItem where
  shape : Shape
  leaves : List Leaf
  errs : List SyntaxError

def Cov (p : PNode) (c : CItem) : Prop :=
  match p.kind with
  | .text b => c.shape = .inl ∧ Run b fun n es => docNodeLeaves n = c.leaves ∧ nm es = c.errs
  | .comment b => c.shape = .comment ∧ Run b fun n es => docNodeLeaves n = c.leaves ∧ nm es = c.errs
  | .selector _ b => c.shape = .selector ∧ c.leaves = [] ∧ Run b fun _ es => nm es = c.errs
  | .line _ => c.shape = .arrow ∧ c.leaves = [] ∧ c.errs = []
  | .block b => c.shape = .block ∧ ∀ r q, Run (b r q) fun x es =>
      docLeaves x.2 = c.leaves ∧ nm es = c.errs
  | .other b => (c.shape = .inl ∨ c.shape = .multiline) ∧
      Run b fun ns es => docLeaves ns = c.leaves ∧ nm es = c.errs

/-- Continue after a chain. -/
def ret (k : Nat) (l : List CItem) : List CItem :=
  match k with
  | 0 => l
  | k + 1 => ignoredFrom CItem.shape .top k l

def CovR (st : LineSt) (cs : List CItem) (x : LineRes) (es : List SyntaxError) : Prop :=
  ∃ used cs', cs = used ++ cs' ∧ List.Forall₂ Cov x.2 cs' ∧
    docLeaves x.1 = used.flatMap CItem.leaves ∧ nm es = used.flatMap CItem.errs ∧
    ∀ k, ignoredFrom CItem.shape st k cs = ret k cs'

theorem Cov.shape {sp a b k i} (h : Cov ⟨sp, a, b, k⟩ i) :
    (match k with
      | .text _ => i.shape = .inl
      | .comment _ => i.shape = .comment
      | .selector _ _ => i.shape = .selector
      | .line _ => i.shape = .arrow
      | .block _ => i.shape = .block
      | .other _ => i.shape = .inl ∨ i.shape = .multiline) := by
  cases k <;> exact h.1

theorem validateLoop_nm (ns : List Node) : ∀ last, Run (validateLoop last ns) fun _ es => nm es = [] := by
  induction ns with
  | nil => intro last; exact Run.pure rfl
  | cons n ns ih =>
    intro last
    rw [validateLoop]
    simp only
    split
    · exact ih last
    · rcases last with _ | ⟨l, r⟩
      · exact Run.bind' (Run.pure' ((ih _).mono fun _ es h => by simpa using h))
      · simp only
        split
        · exact Run.bind' (Run.syntaxErr ((ih _).mono fun _ es h => by simp [h]))
        · split
          · exact Run.bind' (Run.syntaxErr ((ih _).mono fun _ es h => by simp [h]))
          · exact Run.bind' (Run.pure' ((ih _).mono fun _ es h => by simpa using h))

theorem line_cov (fuel : Nat) :
    (∀ ps cs, List.Forall₂ Cov ps cs → 3 * ps.length + 1 ≤ fuel →
      Run (extendLine fuel ps) (CovR .top cs)) ∧
    (∀ ps cs, List.Forall₂ Cov ps cs → 3 * ps.length + 2 ≤ fuel →
      Run (buildLine fuel ps) (CovR .top cs)) ∧
    (∀ ps cs pr sels lr, List.Forall₂ Cov ps cs → 3 * ps.length + 3 ≤ fuel →
      Run (postChildCombinator fuel pr ps sels lr) (CovR .arrow cs)) ∧
    (∀ ps cs pr sels lr, List.Forall₂ Cov ps cs → 3 * ps.length + 1 ≤ fuel →
      Run (postSelector fuel pr ps sels lr) (CovR .selector cs)) := by
  induction fuel with
  | zero => refine ⟨?_, ?_, ?_, ?_⟩ <;> intros <;> omega
  | succ fuel ih =>
    obtain ⟨ihE, ihB, ihC, ihS⟩ := ih
    refine ⟨?_, ?_, ?_, ?_⟩
    · -- extendLine
      intro ps cs hf hfuel
      cases hf with
      | nil =>
        rw [extendLine.eq_def]; dsimp only
        refine Run.pure ⟨[], [], rfl, .nil, by simp, by simp, fun k => ?_⟩
        cases k <;> simp [ret, ignoredFrom]
      | @cons p i ps cs hp hf =>
        obtain ⟨sp, start, stop, kind⟩ := p
        simp only [List.length_cons] at hfuel
        have hsh := hp.shape
        rw [extendLine.eq_def]; dsimp only
        cases kind with
        | text b =>
          obtain ⟨_, hb⟩ := hp
          refine Run.bind' (hb.mono fun n es ⟨hl, he⟩ => ?_)
          refine Run.bind' ((ihE ps cs hf (by omega)).mono fun x es' ⟨u, cs', h1, h2, h3, h4, h5⟩ => ?_)
          refine Run.pure' ⟨i :: u, cs', by simp [h1], h2, by simp [h3, hl], by simp [h4, he], fun k => ?_⟩
          rw [← h5 k]; cases k <;> simp [ignoredFrom, hsh]
        | comment b =>
          obtain ⟨_, hb⟩ := hp
          refine Run.bind' (hb.mono fun n es ⟨hl, he⟩ => ?_)
          refine Run.bind' ((ihE ps cs hf (by omega)).mono fun x es' ⟨u, cs', h1, h2, h3, h4, h5⟩ => ?_)
          refine Run.pure' ⟨i :: u, cs', by simp [h1], h2, by simp [h3, hl], by simp [h4, he], fun k => ?_⟩
          rw [← h5 k]; cases k <;> simp [ignoredFrom, hsh]
        | block b =>
          obtain ⟨_, hb⟩ := hp
          refine Run.bind' ((hb _ _).mono fun y es ⟨hl, he⟩ => ?_)
          refine Run.bind' ((ihE ps cs hf (by omega)).mono fun x es' ⟨u, cs', h1, h2, h3, h4, h5⟩ => ?_)
          refine Run.pure' ⟨i :: u, cs', by simp [h1], h2, by simp [h3, hl], by simp [h4, he], fun k => ?_⟩
          rw [← h5 k]; cases k <;> simp [ignoredFrom, hsh]
        | other b =>
          obtain ⟨_, hb⟩ := hp
          refine Run.bind' (hb.mono fun y es ⟨hl, he⟩ => ?_)
          refine Run.bind' ((ihE ps cs hf (by omega)).mono fun x es' ⟨u, cs', h1, h2, h3, h4, h5⟩ => ?_)
          refine Run.pure' ⟨i :: u, cs', by simp [h1], h2, by simp [h3, hl], by simp [h4, he], fun k => ?_⟩
          rw [← h5 k, ignoredFrom]
          rcases hsh with hsh | hsh <;> rw [hsh]
        | line c =>
          obtain ⟨_, hl, he⟩ := hp
          refine Run.bind' ((ihC ps cs _ _ _ hf (by omega)).mono fun x es' ⟨u, cs', h1, h2, h3, h4, h5⟩ => ?_)
          refine Run.pure' ⟨i :: u, cs', by simp [h1], h2, by simp [h3, hl], by simp [h4, he], fun k => ?_⟩
          rw [← h5 k]; cases k <;> simp [ignoredFrom, hsh]
        | selector rg b =>
          obtain ⟨_, hl, hb⟩ := hp
          refine Run.bind' (hb.mono fun y es he => ?_)
          refine Run.bind' ((ihS ps cs _ _ _ hf (by omega)).mono fun x es' ⟨u, cs', h1, h2, h3, h4, h5⟩ => ?_)
          have e1 : x.2.length = cs'.length := h2.length_eq
          have e2 : ps.length = cs.length := hf.length_eq
          have e3 : cs.length = u.length + cs'.length := by simp [h1]
          refine Run.bind' ((ihE x.2 cs' h2 (by omega)).mono fun x' es2 ⟨u', cs2, k1, k2, k3, k4, k5⟩ => ?_)
          refine Run.pure' ⟨i :: (u ++ u'), cs2, by simp [h1, k1], k2, by simp [h3, k3, hl],
            by simp [he, h4, k4], fun k => ?_⟩
          rw [← k5 k, ignoredFrom, hsh]
          exact h5 (k + 1)
    · -- buildLine
      intro ps cs hf hfuel
      rw [buildLine]
      refine Run.bind' ((ihE ps cs hf (by omega)).mono fun x es ⟨u, cs', h1, h2, h3, h4, h5⟩ => ?_)
      refine Run.bind' ((validateLoop_nm x.1 none).mono fun _ es' hv => ?_)
      exact Run.pure' ⟨u, cs', h1, h2, h3, by simp [h4, hv], h5⟩
    · -- postChildCombinator
      intro ps cs pr sels lr hf hfuel
      have hother : ∀ (pr : Range), (∀ k, ignoredFrom CItem.shape .arrow k cs =
          ignoredFrom CItem.shape .top k cs) → Run (do
          let (children, rest) ← buildLine fuel ps
          let range := match children.getLast? with
            | some n => pr.combine n.range
            | none => pr
          let contentRange : Range := ⟨pr.stop, range.stop⟩
          let h : EHead := { EHead.new range (.standard (.line lr)) with
            selectors := sels, contentRange }
          return ([Node.ofElem h children], rest) : BM LineRes) (CovR .arrow cs) := by
        intro pr hsc
        refine Run.bind' ((ihB ps cs hf (by omega)).mono fun x es ⟨u, cs', h1, h2, h3, h4, h5⟩ => ?_)
        refine Run.pure' ⟨u, cs', h1, h2, by simp [h3], by simp [h4], fun k => ?_⟩
        rw [hsc, h5]
      cases hf with
      | nil =>
        rw [postChildCombinator.eq_def]; dsimp only
        exact hother _ fun k => rfl
      | @cons p i ps cs hp hf =>
        obtain ⟨sp, start, stop, kind⟩ := p
        simp only [List.length_cons] at hfuel
        have hsh := hp.shape
        rw [postChildCombinator.eq_def]; dsimp only
        cases kind with
        | text b => exact hother _ fun k => by cases k <;> simp [ignoredFrom, hsh]
        | comment b => exact hother _ fun k => by cases k <;> simp [ignoredFrom, hsh]
        | other b =>
          exact hother _ fun k => by
            rcases hsh with hsh | hsh <;> cases k <;> simp [ignoredFrom, hsh]
        | line c =>
          obtain ⟨_, hl, he⟩ := hp
          refine (ihC ps cs _ _ _ hf (by omega)).mono fun x es' ⟨u, cs', h1, h2, h3, h4, h5⟩ => ?_
          refine ⟨i :: u, cs', by simp [h1], h2, by simp [h3, hl], by simp [h4, he], fun k => ?_⟩
          rw [← h5 k]; cases k <;> simp [ignoredFrom, hsh]
        | selector rg b =>
          obtain ⟨_, hl, hb⟩ := hp
          refine Run.bind' (hb.mono fun y es he => ?_)
          refine (ihS ps cs _ _ _ hf (by omega)).mono fun x es' ⟨u, cs', h1, h2, h3, h4, h5⟩ => ?_
          refine ⟨i :: u, cs', by simp [h1], h2, by simp [h3, hl], by simp [h4, he], fun k => ?_⟩
          rw [← h5 k]; cases k <;> simp [ignoredFrom, hsh]
        | block b =>
          obtain ⟨_, hb⟩ := hp
          refine Run.bind' ((hb _ _).mono fun y es ⟨hl, he⟩ => ?_)
          refine Run.pure' ⟨[i], cs, rfl, hf, by simp [hl], by simp [he], fun k => ?_⟩
          cases k <;> simp [ignoredFrom, hsh, ret]
    · -- postSelector
      intro ps cs pr sels lr hf hfuel
      cases hf with
      | nil =>
        rw [postSelector.eq_def]; dsimp only
        refine Run.pure ⟨[], [], rfl, .nil, by simp, by simp, fun k => ?_⟩
        cases k <;> simp [ret, ignoredFrom]
      | @cons p i ps cs hp hf =>
        have hf' : List.Forall₂ Cov (p :: ps) (i :: cs) := .cons hp hf
        obtain ⟨sp, start, stop, kind⟩ := p
        simp only [List.length_cons] at hfuel
        have hsh := hp.shape
        have hbad : ∀ rg mk, (∀ k, ignoredFrom CItem.shape .selector k (i :: cs) = ret k (i :: cs)) →
            Run (do misplaced rg mk; return (([] : List Node), PNode.mk sp start stop kind :: ps) : BM LineRes)
              (CovR .selector (i :: cs)) := by
          intro rg mk hi
          refine Run.bind' (Run.syntaxErr ?_)
          exact Run.pure' ⟨[], i :: cs, rfl, hf', by simp, by simp, hi⟩
        rw [postSelector.eq_def]; dsimp only
        cases kind with
        | text b => exact hbad _ _ fun k => by cases k <;> simp [ret, ignoredFrom, hsh]
        | selector rg b => exact hbad _ _ fun k => by cases k <;> simp [ret, ignoredFrom, hsh]
        | other b =>
          exact hbad _ _ fun k => by
            rcases hsh with hsh | hsh <;> cases k <;> simp [ret, ignoredFrom, hsh]
        | comment b =>
          obtain ⟨_, hb⟩ := hp
          refine Run.bind' (hb.mono fun n es ⟨hl, he⟩ => ?_)
          refine Run.bind' ((ihS ps cs _ _ _ hf (by omega)).mono fun x es' ⟨u, cs', h1, h2, h3, h4, h5⟩ => ?_)
          refine Run.pure' ⟨i :: u, cs', by simp [h1], h2, by simp [h3, hl], by simp [h4, he], fun k => ?_⟩
          rw [← h5 k]; cases k <;> simp [ignoredFrom, hsh]
        | line c =>
          obtain ⟨_, hl, he⟩ := hp
          refine (ihC ps cs _ _ _ hf (by omega)).mono fun x es' ⟨u, cs', h1, h2, h3, h4, h5⟩ => ?_
          refine ⟨i :: u, cs', by simp [h1], h2, by simp [h3, hl], by simp [h4, he], fun k => ?_⟩
          rw [← h5 k]; cases k <;> simp [ignoredFrom, hsh]
        | block b =>
          obtain ⟨_, hb⟩ := hp
          refine Run.bind' ((hb _ _).mono fun y es ⟨hl, he⟩ => ?_)
          refine Run.pure' ⟨[i], cs, rfl, hf, by simp [hl], by simp [he], fun k => ?_⟩
          cases k <;> simp [ignoredFrom, hsh, ret]

/-- A whole line: what is not in the ignored tail is built, and its errors are logged. -/
theorem buildLine_cov {ps : List PNode} {cs : List CItem} (hf : List.Forall₂ Cov ps cs) :
    Run (buildLine (lineFuel ps) ps) fun x es => ∃ used,
      cs = used ++ ignoredFrom CItem.shape .top 0 cs ∧
      docLeaves x.1 = used.flatMap CItem.leaves ∧ nm es = used.flatMap CItem.errs :=
  ((line_cov _).2.1 ps cs hf (by simp [lineFuel])).mono fun x es ⟨u, cs', h1, _, h3, h4, h5⟩ => by
    have := h5 0
    simp only [ret] at this
    exact ⟨u, by rw [this]; exact h1, h3, h4⟩


/-! ## Content -/

theorem appendToPrevious_leaves (out line : List Node) (r : Range) (e : Nat) :
    docLeaves (appendToPrevious out line r e).1 ++ docLeaves (appendToPrevious out line r e).2 =
      docLeaves out ++ docLeaves line := by
  unfold appendToPrevious
  split
  · rename_i rg h ch heq
    have : out = out.dropLast ++ [Node.elem rg h ch] := by
      obtain ⟨ys, rfl⟩ := List.getLast?_eq_some_iff.1 heq
      simp
    have hl : docLeaves out = docLeaves out.dropLast ++ docLeaves ch := by
      conv_lhs => rw [this]
      simp
    split <;> simp [hl, lineEnd]
  · rfl

theorem addLine_leaves (out line : List Node) (r : Range) (e : Nat) (fp : Bool) :
    docLeaves (addLine out line r e fp) = docLeaves out ++ docLeaves line := by
  have key : ∀ o l : List Node, docLeaves
      (if !l.isEmpty then
        let o' := if o.any Node.isVisible then o ++ [paragraphEnd e r.start] else o
        if fp && !startsWithElement line && (line.find? Node.isVisible).isSome then
          o' ++ [Node.ofElem (EHead.new r .paragraph) l]
        else o' ++ l
       else o) = docLeaves o ++ docLeaves l := by
    intro o l
    cases l with
    | nil => simp
    | cons n l =>
      simp only [List.isEmpty_cons, Bool.not_false, if_true]
      split <;> split <;> simp [paragraphEnd]
  have h := appendToPrevious_leaves out line r e
  unfold addLine
  by_cases hs : startsWithElement line = true
  · rw [hs]
    have := key out line
    rw [hs] at this
    exact this
  · simp only [Bool.not_eq_true] at hs
    have := key (appendToPrevious out line r e).1 (appendToPrevious out line r e).2
    rw [h, hs] at this
    rw [hs]
    exact this

def CovLine (l : PLine) (cs : List CItem) : Prop := List.Forall₂ Cov l.nodes cs

/-- The part of a line that is looked at. -/
def seen (cs : List CItem) : List CItem :=
  cs.take (cs.length - (ignoredFrom CItem.shape .top 0 cs).length)

theorem buildLine_seen {ps : List PNode} {cs : List CItem} (hf : List.Forall₂ Cov ps cs) :
    Run (buildLine (lineFuel ps) ps) fun x es =>
      docLeaves x.1 = (seen cs).flatMap CItem.leaves ∧ nm es = (seen cs).flatMap CItem.errs := by
  refine (buildLine_cov hf).mono fun x es ⟨u, h1, h2, h3⟩ => ?_
  have : seen cs = u := by
    unfold seen
    have hl : cs.length = u.length + (ignoredFrom CItem.shape .top 0 cs).length := by
      conv_lhs => rw [h1]
      simp
    rw [hl]
    simp only [Nat.add_sub_cancel]
    conv_lhs => rw [h1]
    simp
  rw [this]; exact ⟨h2, h3⟩

theorem contentLoop_cov (fp : Bool) {ls : List PLine} {css : List (List CItem)}
    (h : List.Forall₂ CovLine ls css) : ∀ (out : List Node) (e : Nat),
    Run (contentLoop fp out e ls) fun ns es =>
      docLeaves ns = docLeaves out ++ css.flatMap (fun cs => (seen cs).flatMap CItem.leaves) ∧
      nm es = css.flatMap (fun cs => (seen cs).flatMap CItem.errs) := by
  induction h with
  | nil => intro out e; exact Run.pure (by simp)
  | @cons l cs ls css hl _ ih =>
    intro out e
    obtain ⟨start, nodes, stop⟩ := l
    rw [contentLoop]
    by_cases hn : nodes.isEmpty = true
    · rw [if_pos hn]
      refine (ih _ _).mono fun _ es ⟨h1, h2⟩ => ?_
      have : nodes = [] := by simpa using hn
      subst this
      cases hl
      simp [h1, h2, seen, paragraphEnd]
    · rw [if_neg hn]
      refine Run.bind' ((buildLine_seen hl).mono fun x es ⟨h1, h2⟩ => ?_)
      refine (ih _ _).mono fun _ es' ⟨h3, h4⟩ => ?_
      simp [h1, h2, h3, h4, addLine_leaves]

/-! ## Single nodes -/

theorem unclosedIf_cov {α : Type} {c : Option Range} (o : Range) (k : UnclosedKind) {m : Unit → BM α}
    {R : α → List SyntaxError → Prop}
    (h : ∀ es, nm es = closeErr o k c → Run (m ()) fun b es' => R b (es ++ es')) :
    Run (do
      if c.isNone then unclosed o k
      m ()) R := by
  cases c with
  | none => exact Run.bind' (Run.syntaxErr (h _ rfl))
  | some c => exact Run.bind' (Run.pure' (h _ rfl))

/-- The invalid escapes of a range of the source. -/
def badEsc (src : Str) (r : Range) : List Range := escapeErrors (r.slice src) r.start

theorem nm_escErrs (bad : Range → List Range) (r : Range) : nm (escErrs bad r) = escErrs bad r := by
  unfold escErrs nm
  rw [List.filter_eq_self]
  intro e he
  obtain ⟨x, _, rfl⟩ := List.mem_map.1 he
  rfl

theorem buildTextNode_cov (src : Str) (r : Range) (u e raw ml : Bool) :
    Run (buildTextNode src r u e raw ml) fun n es =>
      docNodeLeaves n = [.text r u e raw ml] ∧ nm es = if u then escErrs (badEsc src) r else [] := by
  refine Run.bind' ?_
  cases u with
  | false =>
    refine Run.bind' (Run.pure' (Run.pure' (Run.pure' ?_)))
    simp [docNodeLeaves, sliceRange]
  | true =>
    refine Run.bind' (Run.syntaxErr (Run.pure' (Run.pure' ?_)))
    refine ⟨by simp [docNodeLeaves, sliceRange], ?_⟩
    rw [if_pos rfl, ← nm_escErrs (badEsc src) r]
    simp; rfl

theorem buildCommentNode_cov (c : Ast.Comment) :
    Run (buildCommentNode c) fun n es =>
      docNodeLeaves n = [.comment c.inner] ∧ nm es = closeErr c.open_ .comment c.close := by
  refine unclosedIf_cov (c := c.close) c.open_ .comment
    (m := fun _ => Pure.pure (Node.text ⟨c.start, c.stop⟩ (.comment (.fromSource c.inner)))) fun es h => ?_
  exact Run.pure' ⟨by simp [docNodeLeaves, sliceRange], by simpa using h⟩

theorem buildAttributeList_cov (a : Ast.AttributeSelector) :
    Run (buildAttributeList a) fun _ es => nm es = attrErrs a := by
  refine unclosedIf_cov (c := a.rBracket) a.lBracket .attributeList
    (m := fun _ => Pure.pure (SelectorItem.attributes ⟨a.start, a.stop⟩ (a.parts.map buildAttribute)))
    fun es h => ?_
  exact Run.pure' (by rw [attrErrs]; simpa using h)

theorem extendClassLike_cov (l : List Ast.ClassLike) :
    Run (extendClassLike l) fun _ es => nm es = l.flatMap classErrs := by
  induction l with
  | nil => exact Run.pure (by simp)
  | cons c l ih =>
    rw [extendClassLike]
    cases c with
    | cls d i =>
      refine Run.bind' (Run.pure (Run.bind' (ih.mono fun a es h => Run.pure' ?_)))
      simp [h, classErrs]
    | id d i =>
      refine Run.bind' (Run.pure (Run.bind' (ih.mono fun a es h => Run.pure' ?_)))
      simp [h, classErrs]
    | invalid r =>
      refine Run.bind' (Run.bind' (Run.syntaxErr (Run.pure' (Run.bind' (ih.mono fun a es h => Run.pure' ?_)))))
      have : nm (⟨r, .invalidItem .selector⟩ :: es) = ⟨r, .invalidItem .selector⟩ :: nm es := rfl
      simp only [List.append_nil, List.flatMap_cons, classErrs, this, h, List.singleton_append]

theorem extendSegments_cov (l : List Ast.SelectorSegment) :
    Run (extendSegments l) fun _ es => nm es = l.flatMap segmentErrs := by
  induction l with
  | nil => exact Run.pure (by simp)
  | cons c l ih =>
    cases c with
    | attributes a =>
      rw [extendSegments]
      refine Run.bind' ((buildAttributeList_cov a).mono fun a es h => ?_)
      refine Run.bind' (ih.mono fun b es' h' => Run.pure' ?_)
      simp [h, h', segmentErrs]
    | classLike a =>
      rw [extendSegments]
      refine Run.bind' ((extendClassLike_cov a).mono fun a es h => ?_)
      refine Run.bind' (ih.mono fun b es' h' => Run.pure' ?_)
      simp [h, h', segmentErrs]

theorem buildSelector_cov (s : Ast.Selector) :
    Run (buildSelector s) fun _ es => nm es = selectorErrs s := by
  obtain ⟨start, first, segments, stop⟩ := s
  cases first with
  | tag el cl =>
    refine Run.bind' ((extendClassLike_cov cl).mono fun a es h => Run.bind' (Run.pure' ?_))
    refine Run.bind' ((extendSegments_cov segments).mono fun b es' h' => Run.pure' ?_)
    simp [h, h', selectorErrs]
  | attributes l =>
    refine Run.bind' ((buildAttributeList_cov l).mono fun a es h => Run.bind' (Run.pure' ?_))
    refine Run.bind' ((extendSegments_cov segments).mono fun b es' h' => Run.pure' ?_)
    simp [h, h', selectorErrs]

theorem inlineFirst_leaves {r : Range} : ∀ {ns ns' : List Node}, inlineFirst r ns = some ns' →
    docLeaves ns' = docLeaves ns
  | n :: ns, ns', h => by
    rw [inlineFirst.eq_def] at h; dsimp only at h
    by_cases hv : n.isVisible = true
    · rw [if_pos hv] at h
      cases n with
      | text _ _ => simp at h
      | elem rg hd ch =>
        simp only at h
        split at h <;> simp at h
        subst h
        simp
    · rw [if_neg hv] at h
      cases hh : inlineFirst r ns with
      | none => rw [hh] at h; simp at h
      | some w =>
        rw [hh] at h
        simp at h
        subst h
        simp [inlineFirst_leaves hh]

theorem buildInline_cov {range o : Range} {ps : List PNode} {cs : List CItem} {c : Option Range}
    (hf : List.Forall₂ Cov ps cs) :
    Run (buildInline range o ps c) fun ns es =>
      docLeaves ns = (seen cs).flatMap CItem.leaves ∧
      nm es = closeErr o .inline c ++ (seen cs).flatMap CItem.errs := by
  refine unclosedIf_cov (c := c) o .inline (m := fun _ => do
    let (line, _) ← buildLine (lineFuel ps) ps
    validateLine line
    match inlineFirst range line with
    | some line => return line
    | none =>
      let h : EHead := { EHead.new range (.inline none) with
        contentRange := ⟨o.stop, (c.map Range.start).getD range.stop⟩ }
      return [Node.ofElem h line]) fun e0 h0 => ?_
  refine Run.bind' ((buildLine_seen hf).mono fun x es ⟨h1, h2⟩ => ?_)
  refine Run.bind' ((validateLoop_nm x.1 none).mono fun _ es' hv => ?_)
  cases hi : inlineFirst range x.1 with
  | none => exact Run.pure' ⟨by simp [h1], by simp [h0, h2, hv]⟩
  | some w => exact Run.pure' ⟨by simp [inlineFirst_leaves hi, h1], by simp [h0, h2, hv]⟩

/-! ## The syntax tree -/

def citem (src : Str) (n : Ast.Node) : CItem :=
  ⟨nodeShape n, nodeLeaves false n, nodeErrs (badEsc src) n⟩

theorem ignoredFrom_map {α β : Type} (f : α → β) (sh : β → Shape) : ∀ (st : LineSt) (k : Nat) (l : List α),
    ignoredFrom sh st k (l.map f) = (ignoredFrom (fun a => sh (f a)) st k l).map f
  | st, k, [] => by cases st <;> simp [ignoredFrom]
  | .top, k, i :: l => by
    simp only [List.map_cons, ignoredFrom]
    split <;> exact ignoredFrom_map f sh _ _ l
  | .arrow, k, i :: l => by
    simp only [List.map_cons, ignoredFrom]
    split <;> simp [ignoredFrom_map f sh _ _ l]
  | .selector, k, i :: l => by
    simp only [List.map_cons, ignoredFrom]
    split <;> simp [ignoredFrom_map f sh _ _ l]

theorem nodesLeaves_eq (all : Bool) : ∀ ns, nodesLeaves all ns = ns.map (nodeLeaves all)
  | [] => by simp [nodesLeaves]
  | n :: ns => by simp [nodesLeaves, nodesLeaves_eq all ns]

theorem nodesErrs_eq (bad : Range → List Range) : ∀ ns, nodesErrs bad ns = ns.map (nodeErrs bad)
  | [] => by simp [nodesErrs]
  | n :: ns => by simp [nodesErrs, nodesErrs_eq bad ns]

theorem seen_map (src : Str) (ns : List Ast.Node) :
    seen (ns.map (citem src)) = (ns.take (visited ns)).map (citem src) := by
  unfold seen visited ignored
  rw [ignoredFrom_map]
  simp only [List.length_map, ← List.map_take]
  rfl

theorem seen_leaves (src : Str) (ns : List Ast.Node) :
    (seen (ns.map (citem src))).flatMap CItem.leaves =
      ((nodesLeaves false ns).take (visited ns)).flatten := by
  rw [seen_map, nodesLeaves_eq, ← List.map_take, List.flatMap_map, List.flatMap_def]
  rfl

theorem seen_errs (src : Str) (ns : List Ast.Node) :
    (seen (ns.map (citem src))).flatMap CItem.errs =
      ((nodesErrs (badEsc src) ns).take (visited ns)).flatten := by
  rw [seen_map, nodesErrs_eq, ← List.map_take, List.flatMap_map, List.flatMap_def]
  rfl

def lineNodes : Ast.Line → List Ast.Node
  | .mk _ nodes _ => nodes

theorem lines_leaves (src : Str) : ∀ ls : List Ast.Line,
    (ls.map fun l => (lineNodes l).map (citem src)).flatMap (fun cs => (seen cs).flatMap CItem.leaves) =
      linesLeaves false ls
  | [] => by simp [linesLeaves]
  | .mk a ns b :: ls => by
    have := lines_leaves src ls
    simp only [List.map_cons, List.flatMap_cons, this]
    simp [linesLeaves, seen_leaves, lineNodes]

theorem lines_errs (src : Str) : ∀ ls : List Ast.Line,
    (ls.map fun l => (lineNodes l).map (citem src)).flatMap (fun cs => (seen cs).flatMap CItem.errs) =
      linesErrs (badEsc src) ls
  | [] => by simp [linesErrs]
  | .mk a ns b :: ls => by
    have := lines_errs src ls
    simp only [List.map_cons, List.flatMap_cons, this]
    simp [linesErrs, seen_errs, lineNodes]

mutual
  theorem covNode (src : Str) : ∀ n : Ast.Node, Cov (prepNode src n) (citem src n)
    | .mk sp start stop ty => by
      rw [prepNode]; exact covType src sp start stop ty
  theorem covType (src : Str) (sp : Option Range) (start stop : Nat) : ∀ ty : Ast.NodeType,
      Cov ⟨sp, start, stop, prepType src ⟨start, stop⟩ ty⟩ (citem src (.mk sp start stop ty))
    | .multiline k a b => by
      refine ⟨Or.inr rfl, ?_⟩
      refine Run.bind' ((buildTextNode_cov _ _ _ _ _ _).mono fun n es ⟨hn, h⟩ => Run.pure' ?_)
      cases k <;> simp_all [citem, nodeLeaves, typeLeaves, nodeErrs, typeErrs]
    | .text (.comment c) => by
      refine ⟨rfl, (buildCommentNode_cov c).mono fun n es ⟨hn, h⟩ => ?_⟩
      simp [citem, nodeLeaves, typeLeaves, nodeErrs, typeErrs, textLeaf, hn, h]
    | .text (.segment r) => by
      refine ⟨rfl, (buildTextNode_cov _ _ _ _ _ _).mono fun n es ⟨hn, h⟩ => ?_⟩
      simp [citem, nodeLeaves, typeLeaves, nodeErrs, typeErrs, textLeaf, hn, h]
    | .text (.interpolation r) => by
      refine ⟨rfl, (buildTextNode_cov _ _ _ _ _ _).mono fun n es ⟨hn, h⟩ => ?_⟩
      simp [citem, nodeLeaves, typeLeaves, nodeErrs, typeErrs, textLeaf, hn, h]
    | .text (.verbatim o raw tail) => by
      refine ⟨rfl, Run.pure ?_⟩
      cases tail <;> simp [citem, nodeLeaves, typeLeaves, nodeErrs, typeErrs, textLeaf,
        docNodeLeaves, buildVerbatimNode, sliceRange, verbatimRange]
    | .selector s => by
      refine ⟨rfl, by simp [citem, nodeLeaves, typeLeaves], (buildSelector_cov s).mono fun n es h => ?_⟩
      simp [citem, nodeErrs, typeErrs, h]
    | .line c => by simp [Cov, prepType, citem, nodeLeaves, typeLeaves, nodeErrs, typeErrs, nodeShape, shapeOf]
    | .block l (.mk a lines b) r => by
      refine ⟨rfl, fun rg q => ?_⟩
      refine unclosedIf_cov (c := r) l .block (m := fun _ => do
        let nodes ← buildContent a (prepLines src lines) q
        let h : EHead := { EHead.new rg (.standard (.block rg)) with contentRange := ⟨a, b⟩ }
        return (h, nodes)) fun e0 h0 => ?_
      refine Run.bind' ((contentLoop_cov q (covLines src lines) [] a).mono fun x es ⟨h1, h2⟩ => ?_)
      refine Run.pure' ?_
      rw [lines_leaves] at h1
      rw [lines_errs] at h2
      simp [citem, nodeLeaves, typeLeaves, nodeErrs, typeErrs, h0, h1, h2]
    | .inline o inner c => by
      refine ⟨Or.inl rfl, (buildInline_cov (covNodes src inner)).mono fun x es ⟨h1, h2⟩ => ?_⟩
      rw [seen_leaves] at h1
      rw [seen_errs] at h2
      simp [citem, nodeLeaves, typeLeaves, nodeErrs, typeErrs, h1, h2]
    | .special form o (.mk a lines b) c => by
      refine ⟨Or.inl rfl, ?_⟩
      refine unclosedIf_cov (c := c) o (.specialInline (specialKind form)) (m := fun _ => do
        let nodes ← buildContent a (prepLines src lines) false
        let h : EHead := { EHead.new ⟨start, stop⟩ (.special (specialKind form)) with
          contentRange := ⟨a, b⟩ }
        return [Node.ofElem h nodes]) fun e0 h0 => ?_
      refine Run.bind' ((contentLoop_cov false (covLines src lines) [] a).mono fun x es ⟨h1, h2⟩ => ?_)
      refine Run.pure' ?_
      rw [lines_leaves] at h1
      rw [lines_errs] at h2
      have : specialKind form = formKind form := by cases form <;> rfl
      rw [this] at h0
      simp [citem, nodeLeaves, typeLeaves, nodeErrs, typeErrs, h0, h1, h2]
    | .code r => by
      refine ⟨Or.inl rfl, ?_⟩
      refine Run.bind' ((buildTextNode_cov _ _ _ _ _ _).mono fun n es ⟨hn, h⟩ => Run.pure' ?_)
      simp_all [citem, nodeLeaves, typeLeaves, nodeErrs, typeErrs]
  theorem covNodes (src : Str) : ∀ ns : List Ast.Node,
      List.Forall₂ Cov (prepNodes src ns) (ns.map (citem src))
    | [] => .nil
    | n :: ns => .cons (covNode src n) (covNodes src ns)
  theorem covLines (src : Str) : ∀ ls : List Ast.Line,
      List.Forall₂ CovLine (prepLines src ls) (ls.map fun l => (lineNodes l).map (citem src))
    | [] => .nil
    | .mk _ nodes _ :: ls => .cons (covNodes src nodes) (covLines src ls)
end

theorem fromAst_cov (src : Str) (d : Ast.Document) :
    Run (fromAst src d) fun doc es =>
      docLeaves doc.nodes = astLeaves false d ∧ nm es = astErrs (badEsc src) d := by
  obtain ⟨⟨start, lines, stop⟩⟩ := d
  refine Run.bind' ((contentLoop_cov true (covLines src lines) [] start).mono fun x es ⟨h1, h2⟩ => ?_)
  rw [lines_leaves] at h1
  rw [lines_errs] at h2
  exact Run.pure' ⟨by simp [astLeaves, h1], by simp [astErrs, h2]⟩

/-! ## When nothing is ignored -/

mutual
  theorem nodeLeaves_all : ∀ n : Ast.Node, NodeAll n → nodeLeaves false n = nodeLeaves true n
    | .mk _ _ _ ty, h => by
      rw [nodeLeaves, nodeLeaves]; exact typeLeaves_all ty h
  theorem typeLeaves_all : ∀ ty : Ast.NodeType, TypeAll ty → typeLeaves false ty = typeLeaves true ty
    | .multiline k a b, _ => by rw [typeLeaves, typeLeaves]
    | .text t, _ => by rw [typeLeaves, typeLeaves]
    | .selector s, _ => by rw [typeLeaves, typeLeaves]
    | .line c, _ => by rw [typeLeaves, typeLeaves]
    | .code r, _ => by rw [typeLeaves, typeLeaves]
    | .block _ (.mk _ lines _) _, h => by
      rw [typeLeaves, typeLeaves]; exact linesLeaves_all lines h
    | .special _ _ (.mk _ lines _) _, h => by
      rw [typeLeaves, typeLeaves]; exact linesLeaves_all lines h
    | .inline _ inner _, h => by
      rw [typeLeaves, typeLeaves, nodesLeaves_all inner h.2]
      simp [visited, h.1]
  theorem nodesLeaves_all : ∀ ns : List Ast.Node, NodesAll ns → nodesLeaves false ns = nodesLeaves true ns
    | [], _ => by rw [nodesLeaves, nodesLeaves]
    | n :: ns, h => by rw [nodesLeaves, nodesLeaves, nodeLeaves_all n h.1, nodesLeaves_all ns h.2]
  theorem linesLeaves_all : ∀ ls : List Ast.Line, LinesAll ls → linesLeaves false ls = linesLeaves true ls
    | [], _ => by rw [linesLeaves, linesLeaves]
    | .mk _ nodes _ :: ls, h => by
      rw [linesLeaves, linesLeaves, nodesLeaves_all nodes h.1.2, linesLeaves_all ls h.2]
      simp [visited, h.1.1]
end

end Build
end Mty
