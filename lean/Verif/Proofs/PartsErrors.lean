import Verif.Proofs.PartsMove
import Verif.Proofs.Run
import Verif.Proofs.Convert
import Verif.Spec.Parts

/-! # The errors in a moved syntax tree (for C77) -/

set_option autoImplicit false

namespace Mty.Build
open Spec Grammar

/-- An error further on in the source. -/
abbrev mvE := movedBy

/-- Both run, the second with the errors of the first further on, and their results are related. -/
def Two {α : Type} (k : Nat) (R : α → α → Prop) (m m' : BM α) : Prop :=
  ∃ a a' es, Logs m a es ∧ Logs m' a' (es.map (mvE k)) ∧ R a a'

section
variable {α β : Type} {k : Nat}

theorem Two.pure {R : α → α → Prop} {a a' : α} (h : R a a') : Two k R (BM.pure a) (BM.pure a') :=
  ⟨a, a', [], .pure a, .pure a', h⟩

theorem Two.pure' {R : α → α → Prop} {a a' : α} (h : R a a') : Two k R (Pure.pure a) (Pure.pure a') := Two.pure h

theorem Two.bind {R : α → α → Prop} {S : β → β → Prop} {m m' : BM α} {f f' : α → BM β} (h : Two k R m m')
    (h1 : ∀ a a', R a a' → Two k S (f a) (f' a')) : Two k S (m >>= f) (m' >>= f') := by
  obtain ⟨a, a', es, l, l', hr⟩ := h
  obtain ⟨b, b', es1, l1, l1', hs⟩ := h1 a a' hr
  exact ⟨b, b', es ++ es1, l.bind l1, by rw [List.map_append]; exact l'.bind l1', hs⟩

theorem Two.err (es : List SyntaxError) : Two k (fun _ _ => True) (BM.syntaxErr es) (BM.syntaxErr (es.map (mvE k))) :=
  ⟨(), (), es, .syntaxErr es, .syntaxErr _, trivial⟩

theorem Two.mono {R S : α → α → Prop} {m m' : BM α} (h : Two k R m m') (hs : ∀ a a', R a a' → S a a') : Two k S m m' := by
  obtain ⟨a, a', es, l, l', hr⟩ := h
  exact ⟨a, a', es, l, l', hs _ _ hr⟩

/-! ## Nodes -/

/-- The same kind of node further on in the source. -/
def NMv (k : Nat) (n n' : Node) : Prop := n'.range = mvR k n.range ∧ n'.itemType = n.itemType

theorem visible_iff (n : Node) : n.isVisible = (n.itemType != .comment && n.itemType != .space) := by
  match n with
  | .elem _ ⟨_, _, _, ty, _, _⟩ _ => cases ty <;> rfl
  | .text _ (.text _) => rfl
  | .text _ (.comment _) => rfl
  | .text _ (.space _) => rfl

theorem NMv.visible {n n' : Node} (h : NMv k n n') : n'.isVisible = n.isVisible := by
  rw [visible_iff, visible_iff, h.2]

theorem mvR_combine (a b : Range) : (mvR k a).combine (mvR k b) = mvR k (a.combine b) := by
  simp only [mvR, Range.combine, Range.mk.injEq]
  omega

theorem unclosed_two (r : Range) (d : UnclosedKind) : Two k (fun _ _ => True) (unclosed r d) (unclosed (mvR k r) d) := Two.err _
theorem misplaced_two (r : Range) (d : MisplacedKind) : Two k (fun _ _ => True) (misplaced r d) (misplaced (mvR k r) d) := Two.err _
theorem invalid_two (r : Range) (d : ItemType) : Two k (fun _ _ => True) (invalid r d) (invalid (mvR k r) d) := Two.err _

theorem validate_two : ∀ {ns ns' : List Node} (last : Option (ItemType × Range)), List.Forall₂ (NMv k) ns ns' →
    Two k (fun _ _ => True) (validateLoop last ns) (validateLoop (last.map fun x => (x.1, mvR k x.2)) ns')
  | [], [], _, _ => by rw [validateLoop, validateLoop]; exact Two.pure trivial
  | n :: ns, n' :: ns', last, h => by
    cases h with
    | cons h1 h2 =>
      rw [validateLoop, validateLoop]
      dsimp only
      rw [h1.2]
      split
      · exact validate_two last h2
      · have ih := validate_two (some (n.itemType, n.range)) h2
        rw [h1.1]
        cases last with
        | none => exact ih
        | some x =>
          obtain ⟨l, r⟩ := x
          dsimp only [Option.map]
          split
          · exact Two.bind (misplaced_two _ _) fun _ _ _ => ih
          · split
            · exact Two.bind (misplaced_two _ _) fun _ _ _ => ih
            · exact ih

/-! ## Prepared nodes -/

inductive KMv (k : Nat) : PKind → PKind → Prop
  | text {b b'} : Two k (NMv k) b b' → KMv k (.text b) (.text b')
  | comment {b b'} : Two k (NMv k) b b' → KMv k (.comment b) (.comment b')
  | selector {r b b'} : Two k (fun _ _ => True) b b' → KMv k (.selector r b) (.selector (mvR k r) b')
  | line {r} : KMv k (.line r) (.line (mvR k r))
  | block {b b'} : (∀ r p, Two k (fun x x' => x'.1.range = mvR k x.1.range ∧ (∃ d, x.1.ty = .standard d) ∧ ∃ d, x'.1.ty = .standard d)
      (b r p) (b' (mvR k r) p)) → KMv k (.block b) (.block b')
  | other {b b'} : Two k (List.Forall₂ (NMv k)) b b' → KMv k (.other b) (.other b')

structure PMv (k : Nat) (p p' : PNode) : Prop where
  space : p'.space = p.space.map (mvR k)
  start : p'.start = k + p.start
  stop : p'.stop = k + p.stop
  kind : KMv k p.kind p'.kind

/-- The results of the line functions. -/
def LMv (k : Nat) (x x' : LineRes) : Prop := List.Forall₂ (NMv k) x.1 x'.1 ∧ List.Forall₂ (PMv k) x.2 x'.2

theorem forall₂_getLast {R : Node → Node → Prop} : ∀ {l l' : List Node}, List.Forall₂ R l l' →
    (l = [] ∧ l' = []) ∨ ∃ a a', l.getLast? = some a ∧ l'.getLast? = some a' ∧ R a a'
  | _, _, .nil => .inl ⟨rfl, rfl⟩
  | _, _, .cons (a := a) (b := b) h .nil => .inr ⟨a, b, rfl, rfl, h⟩
  | _, _, .cons h (.cons h1 h2) => by
    rcases forall₂_getLast (.cons h1 h2) with ⟨h3, _⟩ | ⟨a, a', h3, h4, h5⟩
    · cases h3
    · exact .inr ⟨a, a', by rw [List.getLast?_cons_cons]; exact h3, by rw [List.getLast?_cons_cons]; exact h4, h5⟩

theorem space_two {sp : Option Range} {sp' : Option Range} (h : sp' = sp.map (mvR k)) :
    List.Forall₂ (NMv k) (sp.map exactSpace).toList (sp'.map exactSpace).toList := by
  subst h
  cases sp with
  | none => exact .nil
  | some r => exact .cons ⟨rfl, rfl⟩ .nil

structure LinesTwo (k n : Nat) : Prop where
  child : ∀ pr ns ns' ss ss' lr, List.Forall₂ (PMv k) ns ns' →
    Two k (LMv k) (postChildCombinator n pr ns ss lr) (postChildCombinator n (mvR k pr) ns' ss' (mvR k lr))
  selector : ∀ pr ns ns' ss ss' lr, List.Forall₂ (PMv k) ns ns' →
    Two k (LMv k) (postSelector n pr ns ss lr) (postSelector n (mvR k pr) ns' ss' (mvR k lr))
  extend : ∀ ns ns', List.Forall₂ (PMv k) ns ns' → Two k (LMv k) (extendLine n ns) (extendLine n ns')
  line : ∀ ns ns', List.Forall₂ (PMv k) ns ns' → Two k (LMv k) (buildLine n ns) (buildLine n ns')

theorem other_two {n : Nat} (ih : LinesTwo k n) (pr lr : Range) {ns ns' : List PNode} (ss ss' : List Selector) (h : List.Forall₂ (PMv k) ns ns') :
    Two k (LMv k)
      (do
        let (children, rest) ← buildLine n ns
        let range := match children.getLast? with
          | some n => pr.combine n.range
          | none => pr
        let contentRange : Range := ⟨pr.stop, range.stop⟩
        let h : EHead := { EHead.new range (.standard (.line lr)) with selectors := ss, contentRange }
        return ([Node.ofElem h children], rest))
      (do
        let (children, rest) ← buildLine n ns'
        let range := match children.getLast? with
          | some n => (mvR k pr).combine n.range
          | none => mvR k pr
        let contentRange : Range := ⟨(mvR k pr).stop, range.stop⟩
        let h : EHead := { EHead.new range (.standard (.line (mvR k lr))) with selectors := ss', contentRange }
        return ([Node.ofElem h children], rest)) := by
  refine Two.bind (ih.line ns ns' h) fun x x' hx => ?_
  obtain ⟨out, rest⟩ := x
  obtain ⟨out', rest'⟩ := x'
  obtain ⟨hx1, hx2⟩ := hx
  refine Two.pure' ⟨.cons ⟨?_, rfl⟩ .nil, hx2⟩
  show (match out'.getLast? with
    | some n => (mvR k pr).combine n.range
    | none => mvR k pr) = mvR k (match out.getLast? with
    | some n => pr.combine n.range
    | none => pr)
  rcases forall₂_getLast hx1 with ⟨e1, e2⟩ | ⟨c, c', e1, e2, h3⟩
  · dsimp only at e1 e2
    rw [e1, e2]; rfl
  · rw [e1, e2]
    dsimp only
    rw [h3.1, mvR_combine]

theorem lines_two : ∀ n, LinesTwo k n
  | 0 => by
    refine ⟨fun pr ns ns' ss ss' lr h => ?_, fun pr ns ns' ss ss' lr h => ?_, fun ns ns' h => ?_, fun ns ns' h => ?_⟩
    · rw [postChildCombinator, postChildCombinator]; exact Two.pure ⟨.nil, h⟩
    · rw [postSelector, postSelector]; exact Two.pure ⟨.nil, h⟩
    · rw [extendLine, extendLine]; exact Two.pure ⟨.nil, h⟩
    · rw [buildLine, buildLine]; exact Two.pure ⟨.nil, h⟩
  | n + 1 => by
    have ih := lines_two n
    refine ⟨fun pr ns ns' ss ss' lr h => ?_, fun pr ns ns' ss ss' lr h => ?_, fun ns ns' h => ?_, fun ns ns' h => ?_⟩
    · unfold postChildCombinator
      cases h with
      | nil => exact other_two ih pr lr ss ss' .nil
      | cons h1 h2 =>
        have h := List.Forall₂.cons h1 h2
        rename_i p p' ps ps'
        obtain ⟨sp, a, b, kind⟩ := p
        obtain ⟨sp', a', b', kind'⟩ := p'
        obtain ⟨e1, e2, e3, hk⟩ := h1
        dsimp only at e1 e2 e3 hk
        subst e1 e2 e3
        cases hk with
        | text => exact other_two ih pr lr ss ss' h
        | comment => exact other_two ih pr lr ss ss' h
        | other => exact other_two ih pr lr ss ss' h
        | line => exact ih.child ⟨pr.start, b⟩ _ _ _ _ _ h2
        | selector hb =>
          refine Two.bind hb fun s s' _ => ?_
          exact ih.selector ⟨pr.start, b⟩ _ _ _ _ ⟨a, b⟩ h2
        | block hb =>
          refine Two.bind (hb ⟨a, b⟩ false) fun x x' hx => ?_
          exact Two.pure' ⟨.cons ⟨hx.1, rfl⟩ .nil, h2⟩
    · unfold postSelector
      cases h with
      | nil => exact Two.pure ⟨.nil, .nil⟩
      | cons h1 h2 =>
        have h := List.Forall₂.cons h1 h2
        rename_i p p' ps ps'
        obtain ⟨sp, a, b, kind⟩ := p
        obtain ⟨sp', a', b', kind'⟩ := p'
        obtain ⟨e1, e2, e3, hk⟩ := h1
        dsimp only at e1 e2 e3 hk
        subst e1 e2 e3
        cases hk with
        | text => exact Two.bind (misplaced_two ⟨a, b⟩ _) fun _ _ _ => Two.pure' ⟨.nil, h⟩
        | other => exact Two.bind (misplaced_two ⟨a, b⟩ _) fun _ _ _ => Two.pure' ⟨.nil, h⟩
        | selector hb => exact Two.bind (misplaced_two _ _) fun _ _ _ => Two.pure' ⟨.nil, h⟩
        | comment hb =>
          refine Two.bind hb fun c c' hc => ?_
          refine Two.bind (ih.selector ⟨pr.start, b⟩ _ _ _ ss' _ h2) fun x x' hx => ?_
          exact Two.pure' ⟨.cons hc hx.1, hx.2⟩
        | line => exact ih.child ⟨pr.start, b⟩ _ _ _ _ _ h2
        | block hb =>
          refine Two.bind (hb ⟨pr.start, b⟩ true) fun x x' hx => ?_
          obtain ⟨g1, ⟨d, g2⟩, ⟨d', g3⟩⟩ := hx
          refine Two.pure' ⟨.cons ⟨g1, ?_⟩ .nil, h2⟩
          simp only [Node.ofElem, Node.itemType, g2, g3]
    · unfold extendLine
      cases h with
      | nil => exact Two.pure ⟨.nil, .nil⟩
      | cons h1 h2 =>
        have h := List.Forall₂.cons h1 h2
        rename_i p p' ps ps'
        obtain ⟨sp, a, b, kind⟩ := p
        obtain ⟨sp', a', b', kind'⟩ := p'
        obtain ⟨e1, e2, e3, hk⟩ := h1
        dsimp only at e1 e2 e3 hk
        subst e2 e3
        have hsp := space_two e1
        cases hk with
        | text hb =>
          refine Two.bind hb fun c c' hc => ?_
          refine Two.bind (ih.extend _ _ h2) fun x x' hx => ?_
          exact Two.pure' ⟨List.rel_append hsp (.cons hc hx.1), hx.2⟩
        | comment hb =>
          refine Two.bind hb fun c c' hc => ?_
          refine Two.bind (ih.extend _ _ h2) fun x x' hx => ?_
          exact Two.pure' ⟨List.rel_append hsp (.cons hc hx.1), hx.2⟩
        | selector hb =>
          refine Two.bind hb fun s s' _ => ?_
          refine Two.bind (ih.selector ⟨a, b⟩ _ _ _ [s'] ⟨a, b⟩ h2) fun x x' hx => ?_
          refine Two.bind (ih.extend _ _ hx.2) fun y y' hy => ?_
          exact Two.pure' ⟨List.rel_append (List.rel_append hsp hx.1) hy.1, hy.2⟩
        | line =>
          refine Two.bind (ih.child ⟨a, b⟩ _ _ _ [Selector.empty (k + a)] ⟨a, b⟩ h2) fun x x' hx => ?_
          exact Two.pure' ⟨List.rel_append hsp hx.1, hx.2⟩
        | block hb =>
          refine Two.bind (hb ⟨a, b⟩ true) fun x x' hx => ?_
          obtain ⟨g1, ⟨d, g2⟩, ⟨d', g3⟩⟩ := hx
          refine Two.bind (ih.extend _ _ h2) fun y y' hy => ?_
          refine Two.pure' ⟨List.rel_append hsp (.cons ⟨g1, ?_⟩ hy.1), hy.2⟩
          simp only [Node.ofElem, Node.itemType, g2, g3]
        | other hb =>
          refine Two.bind hb fun x x' hx => ?_
          refine Two.bind (ih.extend _ _ h2) fun y y' hy => ?_
          exact Two.pure' ⟨List.rel_append (List.rel_append hsp hx) hy.1, hy.2⟩
    · rw [buildLine, buildLine]
      refine Two.bind (ih.extend ns ns' h) fun x x' hx => ?_
      exact Two.bind (R := fun _ _ => True) (validate_two none hx.1) fun _ _ _ => Two.pure' hx

/-! ## Contents -/

/-- The same line further on in the source. -/
structure PLineMv (k : Nat) (l l' : PLine) : Prop where
  start : l'.start = k + l.start
  stop : l'.stop = k + l.stop
  nodes : List.Forall₂ (PMv k) l.nodes l'.nodes

theorem fuel_two {ns ns' : List PNode} (h : List.Forall₂ (PMv k) ns ns') : lineFuel ns' = lineFuel ns := by
  rw [lineFuel, lineFuel, h.length_eq]

theorem loop_two (fp : Bool) : ∀ {ls ls' : List PLine} (out out' : List Node) (e e' : Nat), List.Forall₂ (PLineMv k) ls ls' →
    Two k (fun _ _ => True) (contentLoop fp out e ls) (contentLoop fp out' e' ls')
  | [], [], out, out', e, e', _ => by rw [contentLoop, contentLoop]; exact Two.pure trivial
  | ⟨a, ns, b⟩ :: ls, ⟨a', ns', b'⟩ :: ls', out, out', e, e', h => by
    cases h with
    | cons h1 h2 =>
      obtain ⟨rfl, rfl, h1⟩ := h1
      dsimp only at h1
      rw [contentLoop, contentLoop]
      have hf := fuel_two h1
      have hl := (lines_two (lineFuel ns)).line ns ns' h1
      cases h1 with
      | nil => exact loop_two fp _ _ _ _ h2
      | cons _ _ =>
        simp only [List.isEmpty_cons, Bool.false_eq_true, if_false]
        rw [hf]
        exact Two.bind hl fun x x' hx => loop_two fp _ _ _ _ h2

end

/-! ## Leaves -/

theorem step_mv (k o : Nat) (cur : Cursor) : unescapeStep (k + o) cur = (unescapeStep o cur).map fun x => (match x.1 with
    | .ok p => .ok p
    | .error r => .error (mvR k r), x.2) := by
  rw [unescapeStep, unescapeStep]
  split <;> try rfl
  rename_i cur1 _
  dsimp only
  split
  · simp [mvR, Nat.add_assoc]
  · split
    · rfl
    · simp [mvR, Nat.add_assoc]

theorem loop_mv (k o : Nat) : ∀ (n : Nat) (cur : Cursor), unescapeLoop (k + o) n cur = (unescapeLoop o n cur).map fun x => match x with
    | .ok p => .ok p
    | .error r => .error (mvR k r)
  | 0, _ => rfl
  | n + 1, cur => by
    rw [unescapeLoop, unescapeLoop, step_mv]
    cases unescapeStep o cur with
    | none => rfl
    | some x => 
      dsimp only [Option.map]
      rw [loop_mv k o n, List.map_cons]

theorem escape_mv (k o : Nat) (t : Str) : escapeErrors t (k + o) = (escapeErrors t o).map (mvR k) := by
  rw [escapeErrors, escapeErrors, unescapeParts, unescapeParts, loop_mv]
  generalize unescapeLoop o _ _ = l
  induction l with
  | nil => rfl
  | cons x l ih => cases x <;> simp [ih]

section
variable {pre s post : Str}
local notation "k" => byteLen pre
local notation "s'" => pre ++ (s ++ post)

theorem slice_two {r : Range} (h : ValidRange s r) (b : Bool) :
    Two k (fun _ _ => True) (escapableSlice s r b) (escapableSlice s' (mvR k r) b) := by
  rw [escapableSlice, escapableSlice]
  cases b with
  | false => exact Two.pure' trivial
  | true =>
    have e : r.slice s = (mvR k r).slice s' := slice_mvR h
    simp only [if_true]
    refine Two.bind (R := fun _ _ => True) ?_ fun _ _ _ => Two.pure' trivial
    rw [← e]
    have := @Two.err k ((escapeErrors (r.slice s) r.start).map fun r => ⟨r, .invalidEscape⟩)
    rw [List.map_map] at this
    rw [show (mvR k r).start = k + r.start from rfl, escape_mv, List.map_map]
    exact this

theorem text_two {r : Range} (h : ValidRange s r) (a b c d : Bool) :
    Two k (NMv k) (buildTextNode s r a b c d) (buildTextNode s' (mvR k r) a b c d) := by
  rw [buildTextNode, buildTextNode]
  exact Two.bind (slice_two h a) fun _ _ _ => Two.pure' ⟨rfl, rfl⟩

theorem comment_two (c : Ast.Comment) : Two k (NMv k) (buildCommentNode c) (buildCommentNode (mvComment k c)) := by
  rw [buildCommentNode, buildCommentNode]
  obtain ⟨a, o, i, cl, b⟩ := c
  cases cl with
  | none => exact Two.bind (unclosed_two o _) fun _ _ _ => Two.pure' ⟨rfl, rfl⟩
  | some r => exact Two.pure' ⟨rfl, rfl⟩

theorem inlineText_two {lo hi : Nat} : ∀ {t : Ast.InlineText}, inlineTextIn s lo hi t →
    Two k (NMv k) (buildInlineText s t) (buildInlineText s' (mvText k t))
  | .segment r, h => text_two h.1 ..
  | .interpolation r, h => text_two h.1 ..
  | .comment c, _ => comment_two c
  | .verbatim o raw t, h => by
    refine Two.pure ⟨?_, rfl⟩
    cases t <;> exact mvR_combine _ _

theorem attributes_two (a : Ast.AttributeSelector) :
    Two k (fun _ _ => True) (buildAttributeList a) (buildAttributeList (mvAttributes k a)) := by
  rw [buildAttributeList, buildAttributeList]
  obtain ⟨x, l, ps, r, y⟩ := a
  cases r with
  | none => exact Two.bind (unclosed_two l _) fun _ _ _ => Two.pure' trivial
  | some r => exact Two.pure' trivial

theorem classes_two : ∀ l : List Ast.ClassLike, Two k (fun _ _ => True) (extendClassLike l) (extendClassLike (l.map (mvClass k)))
  | [] => Two.pure trivial
  | c :: l => by
    rw [List.map_cons, extendClassLike, extendClassLike]
    refine Two.bind (R := fun _ _ => True) ?_ fun _ _ _ => Two.bind (classes_two l) fun _ _ _ => Two.pure' trivial
    cases c with
    | cls => exact Two.pure trivial
    | id => exact Two.pure trivial
    | invalid r => exact Two.bind (invalid_two r _) fun _ _ _ => Two.pure' trivial

theorem segments_two : ∀ l : List Ast.SelectorSegment, Two k (fun _ _ => True) (extendSegments l) (extendSegments (l.map (mvSegment k)))
  | [] => Two.pure trivial
  | .attributes a :: l => by
    rw [List.map_cons, extendSegments, mvSegment, extendSegments]
    exact Two.bind (attributes_two a) fun _ _ _ => Two.bind (segments_two l) fun _ _ _ => Two.pure' trivial
  | .classLike a :: l => by
    rw [List.map_cons, extendSegments, mvSegment, extendSegments]
    exact Two.bind (classes_two a) fun _ _ _ => Two.bind (segments_two l) fun _ _ _ => Two.pure' trivial

theorem selector_two (x : Ast.Selector) : Two k (fun _ _ => True) (buildSelector x) (buildSelector (mvSelector k x)) := by
  rw [buildSelector, buildSelector]
  obtain ⟨a, f, g, b⟩ := x
  cases f with
  | tag e c =>
    exact Two.bind (classes_two c) fun _ _ _ => Two.bind (R := fun _ _ => True) (Two.pure' trivial) fun (_, _) (_, _) _ =>
      Two.bind (segments_two g) fun _ _ _ => Two.pure' trivial
  | attributes c =>
    exact Two.bind (attributes_two c) fun _ _ _ => Two.bind (R := fun _ _ => True) (Two.pure' trivial) fun (_, _) (_, _) _ =>
      Two.bind (segments_two g) fun _ _ _ => Two.pure' trivial

theorem code_two (range code : Range) (code' : Range) (src src' : Str) :
    Two k (List.Forall₂ (NMv k)) (buildInlineCode src range code) (buildInlineCode src' (mvR k range) code') := by
  rw [buildInlineCode, buildInlineCode, buildTextNode, buildTextNode, escapableSlice, escapableSlice]
  exact Two.pure' (.cons ⟨rfl, rfl⟩ .nil)

theorem multiline_two (range : Range) (kind : MultilineKind) {inner : Range} (h : ValidRange s inner) :
    Two k (List.Forall₂ (NMv k)) (buildMultiline s range kind inner) (buildMultiline s' (mvR k range) kind (mvR k inner)) := by
  unfold buildMultiline
  exact Two.bind (text_two h ..) fun _ _ _ => Two.pure' (.cons ⟨rfl, rfl⟩ .nil)

theorem inlineFirst_two (r : Range) : ∀ {ns ns' : List Node}, List.Forall₂ (NMv k) ns ns' →
    (inlineFirst r ns = none ∧ inlineFirst (mvR k r) ns' = none) ∨
      ∃ l l', inlineFirst r ns = some l ∧ inlineFirst (mvR k r) ns' = some l' ∧ List.Forall₂ (NMv k) l l'
  | [], [], _ => .inl ⟨rfl, rfl⟩
  | n :: ns, n' :: ns', h => by
    cases h with
    | cons h1 h2 =>
      have hv := h1.visible
      unfold inlineFirst
      rw [hv]
      cases hn : n.isVisible with
      | false =>
        simp only [Bool.false_eq_true, if_false]
        rcases inlineFirst_two r h2 with ⟨e1, e2⟩ | ⟨l, l', e1, e2, h3⟩
        · rw [e1, e2]; exact .inl ⟨rfl, rfl⟩
        · rw [e1, e2]; exact .inr ⟨_, _, rfl, rfl, .cons h1 h3⟩
      | true =>
        simp only [if_true]
        have ht := h1.2
        have key : ∀ (m : Node), m.itemType = .element ∨ (m.itemType ≠ .element ∧ ∀ (r : Range) (rest : List Node), (match m with
            | .elem _ h children =>
              match h.ty with
              | .standard d => some (Node.elem r { h with ty := .inline (some d), range := r } children :: rest)
              | _ => none
            | _ => none) = none) := by
          intro m
          match m with
          | .elem _ ⟨_, _, _, ty, _, _⟩ _ => cases ty <;> first | exact .inl rfl | exact .inr ⟨by simp [Node.itemType], fun _ _ => rfl⟩
          | .text _ (.text _) => exact .inr ⟨by simp [Node.itemType], fun _ _ => rfl⟩
          | .text _ (.comment _) => exact .inr ⟨by simp [Node.itemType], fun _ _ => rfl⟩
          | .text _ (.space _) => exact .inr ⟨by simp [Node.itemType], fun _ _ => rfl⟩
        have key2 : ∀ (m : Node), m.itemType = .element → ∃ (a : Range) (x : EHead) (c : List Node) (d : Delim), m = .elem a x c ∧ x.ty = .standard d := by
          intro m
          match m with
          | .elem _ ⟨_, _, _, ty, _, _⟩ _ => cases ty <;> simp [Node.itemType]
          | .text _ (.text _) => simp [Node.itemType]
          | .text _ (.comment _) => simp [Node.itemType]
          | .text _ (.space _) => simp [Node.itemType]
        rcases key n with e | ⟨e, h3⟩
        · right
          obtain ⟨a, x, c, d, rfl, hx⟩ := key2 n e
          obtain ⟨a', x', c', d', rfl, hx'⟩ := key2 n' (ht.trans e)
          simp only [hx, hx']
          exact ⟨_, _, rfl, rfl, .cons ⟨rfl, rfl⟩ h2⟩
        · left
          rcases key n' with e' | ⟨_, h4⟩
          · exact absurd (ht ▸ e') e
          · exact ⟨h3 r ns, h4 (mvR k r) ns'⟩

theorem inline_two (range o : Range) {ns ns' : List PNode} (cl : Option Range) (h : List.Forall₂ (PMv k) ns ns') :
    Two k (List.Forall₂ (NMv k)) (buildInline range o ns cl) (buildInline (mvR k range) (mvR k o) ns' (cl.map (mvR k))) := by
  have main : ∀ ir ir', Two k (List.Forall₂ (NMv k))
      (do
        let (line, _) ← buildLine (lineFuel ns) ns
        validateLine line
        match inlineFirst range line with
        | some line => return line
        | none =>
          let h : EHead := { EHead.new range (.inline none) with contentRange := ir }
          return [Node.ofElem h line])
      (do
        let (line, _) ← buildLine (lineFuel ns') ns'
        validateLine line
        match inlineFirst (mvR k range) line with
        | some line => return line
        | none =>
          let h : EHead := { EHead.new (mvR k range) (.inline none) with contentRange := ir' }
          return [Node.ofElem h line]) := by
    intro ir ir'
    rw [fuel_two h]
    refine Two.bind ((lines_two _).line ns ns' h) fun x x' hx => ?_
    obtain ⟨l, _⟩ := x
    obtain ⟨l', _⟩ := x'
    refine Two.bind (validate_two none hx.1) fun _ _ _ => ?_
    rcases inlineFirst_two range hx.1 with ⟨e1, e2⟩ | ⟨m, m', e1, e2, h3⟩
    · dsimp only at e1 e2
      rw [e1, e2]
      exact Two.pure' (.cons ⟨rfl, rfl⟩ .nil)
    · dsimp only at e1 e2
      rw [e1, e2]
      exact Two.pure' h3
  rw [buildInline, buildInline]
  cases cl with
  | none => exact Two.bind (unclosed_two o _) fun _ _ _ => main _ _
  | some c => exact main _ _

mutual
  theorem node_two {lo hi : Nat} : ∀ {n : Ast.Node}, nodeIn s lo hi n → PMv k (prepNode s n) (prepNode s' (mvNode k n))
    | .mk sp a b ty, h => by
      unfold nodeIn at h
      rw [mvNode, prepNode, prepNode]
      exact ⟨rfl, rfl, rfl, type_two ⟨a, b⟩ h.2.2⟩
  theorem type_two (range : Range) {a b : Nat} : ∀ {ty : Ast.NodeType}, typeIn s a b ty →
      KMv k (prepType s range ty) (prepType s' (mvR k range) (mvType k ty))
    | .multiline kind x y, h => by
      rw [typeIn] at h
      rw [mvType, prepType, prepType]
      exact .other (multiline_two range kind h.1)
    | .text t, h => by
      rw [typeIn] at h
      rw [mvType]
      cases t with
      | comment c => rw [prepType, mvText, prepType]; exact .comment (comment_two c)
      | segment r => exact .text (inlineText_two (t := .segment r) h)
      | verbatim o raw t => exact .text (inlineText_two (t := .verbatim o raw t) h)
      | interpolation r => exact .text (inlineText_two (t := .interpolation r) h)
    | .selector x, h => by
      rw [mvType, prepType, prepType]
      exact .selector (r := ⟨x.start, x.stop⟩) (selector_two x)
    | .line c, h => by
      rw [mvType, prepType, prepType]
      exact .line
    | .block l (.mk x ls y) r, h => by
      rw [typeIn] at h
      rw [mvType, mvContent, prepType, prepType]
      refine .block fun range p => ?_
      rw [buildBlock, buildBlock]
      have ih := loop_two p [] [] x (k + x) (lines_two_mv h.2.2.1)
      cases r with
      | none => exact Two.bind (unclosed_two l _) fun _ _ _ => Two.bind ih fun _ _ _ => Two.pure' ⟨rfl, ⟨_, rfl⟩, ⟨_, rfl⟩⟩
      | some r => exact Two.bind ih fun _ _ _ => Two.pure' ⟨rfl, ⟨_, rfl⟩, ⟨_, rfl⟩⟩
    | .inline o ns c, h => by
      unfold typeIn at h
      rw [mvType, prepType, prepType]
      exact .other (inline_two range o c (nodes_two h.2.2.1))
    | .special f o (.mk x ls y) c, h => by
      rw [typeIn] at h
      rw [mvType, mvContent, prepType, prepType]
      refine .other ?_
      rw [buildInlineSpecial, buildInlineSpecial]
      have ih := loop_two false [] [] x (k + x) (lines_two_mv h.2.2.1)
      cases c with
      | none => exact Two.bind (unclosed_two o _) fun _ _ _ => Two.bind ih fun _ _ _ => Two.pure' (.cons ⟨rfl, rfl⟩ .nil)
      | some r => exact Two.bind ih fun _ _ _ => Two.pure' (.cons ⟨rfl, rfl⟩ .nil)
    | .code r, _ => by
      rw [mvType, prepType, prepType]
      exact .other (code_two ..)
  theorem nodes_two {lo hi : Nat} : ∀ {ns : List Ast.Node}, nodesIn s lo hi ns → List.Forall₂ (PMv k) (prepNodes s ns) (prepNodes s' (mvNodes k ns))
    | [], _ => by rw [mvNodes, prepNodes, prepNodes]; exact .nil
    | .mk sp a b ty :: ns, h => by
      rw [nodesIn] at h
      rw [mvNodes, prepNodes, prepNodes]
      exact .cons (node_two h.1) (nodes_two h.2)
  theorem lines_two_mv {lo hi : Nat} : ∀ {ls : List Ast.Line}, linesIn s lo hi ls → List.Forall₂ (PLineMv k) (prepLines s ls) (prepLines s' (mvLines k ls))
    | [], _ => by rw [mvLines, prepLines, prepLines]; exact .nil
    | .mk x ns y :: ls, h => by
      rw [linesIn] at h
      rw [mvLines, prepLines, prepLines, mvLine, prepLine, prepLine]
      exact .cons ⟨rfl, rfl, nodes_two h.2.1⟩ (lines_two_mv h.2.2)
end

end

/-! ## Contents one after the other -/

theorem bm_assoc {α β γ : Type} (m : BM α) (f : α → BM β) (g : β → BM γ) : m >>= f >>= g = m >>= fun a => f a >>= g := by
  funext e
  show BM.bind (BM.bind m f) g e = BM.bind m (fun a => BM.bind (f a) g) e
  simp only [BM.bind]
  rcases m e with ⟨_ | a, e'⟩ <;> rfl

theorem contentLoop_append (fp : Bool) (ls' : List PLine) : ∀ (ls : List PLine) (e : Nat),
    ∃ e', ∀ out, contentLoop fp out e (ls ++ ls') = contentLoop fp out e ls >>= fun out => contentLoop fp out e' ls'
  | [], e => ⟨e, fun out => by rw [List.nil_append, contentLoop]; rfl⟩
  | ⟨a, ns, b⟩ :: ls, e => by
    obtain ⟨e', h⟩ := contentLoop_append fp ls' ls b
    refine ⟨e', fun out => ?_⟩
    rw [List.cons_append, contentLoop, contentLoop]
    cases ns with
    | nil => exact h _
    | cons n ns =>
      simp only [List.isEmpty_cons, Bool.false_eq_true, if_false]
      rw [bm_assoc]
      congr 1
      funext x
      exact h _

theorem prepLines_append (src : Str) : ∀ (ls ls' : List Ast.Line), prepLines src (ls ++ ls') = prepLines src ls ++ prepLines src ls'
  | [], _ => by rw [prepLines]; rfl
  | l :: ls, ls' => by rw [List.cons_append, prepLines, prepLines, prepLines_append src ls, List.cons_append]

/-- The errors of two texts, and of the two texts with an empty line between them. -/
theorem parts_logs {s1 s2 : Str} {a1 b1 a2 b2 a x y b : Nat} {L1 L2 : List Ast.Line} (h1 : linesIn s1 a1 b1 L1) (h2 : linesIn s2 a2 b2 L2) :
    ∃ d1 d2 d es1 es2, Logs (fromAst s1 ⟨.mk a1 L1 b1⟩) d1 es1 ∧ Logs (fromAst s2 ⟨.mk a2 L2 b2⟩) d2 es2 ∧
      Logs (fromAst (s1 ++ '\n' :: '\n' :: s2) ⟨.mk a (L1 ++ .mk x [] y :: mvLines (byteLen (s1 ++ ['\n', '\n'])) L2) b⟩) d
        (es1 ++ es2.map (mvE (byteLen (s1 ++ ['\n', '\n'])))) := by
  have e1 := lines_two_mv (pre := []) (post := '\n' :: '\n' :: s2) h1
  have e2 := lines_two_mv (pre := s1 ++ ['\n', '\n']) (post := []) h2
  rw [show byteLen [] = 0 from rfl, mvLines_zero] at e1
  rw [show s1 ++ ['\n', '\n'] ++ (s2 ++ []) = s1 ++ '\n' :: '\n' :: s2 by simp] at e2
  obtain ⟨e', hl⟩ := contentLoop_append true (prepLines (s1 ++ '\n' :: '\n' :: s2) (.mk x [] y :: mvLines (byteLen (s1 ++ ['\n', '\n'])) L2))
    (prepLines (s1 ++ '\n' :: '\n' :: s2) L1) a
  obtain ⟨n1, n1', es1, l1, l1', _⟩ := loop_two true [] [] a1 a e1
  obtain ⟨n2, n2', es2, l2, l2', _⟩ := loop_two true [] (n1' ++ [paragraphEnd e' y]) a2 y e2
  refine ⟨⟨⟨0, byteLen s1⟩, ⟨a1, b1⟩, n1⟩, ⟨⟨0, byteLen s2⟩, ⟨a2, b2⟩, n2⟩, { range := ⟨0, byteLen (s1 ++ '\n' :: '\n' :: s2)⟩, contentRange := ⟨a, b⟩, nodes := n2' }, es1, es2, ?_, ?_, ?_⟩
  · have := l1.bind (f := fun n => BM.pure (Document.mk ⟨0, byteLen s1⟩ ⟨a1, b1⟩ n)) (Logs.pure _)
    rw [List.append_nil] at this
    exact this
  · have := l2.bind (f := fun n => BM.pure (Document.mk ⟨0, byteLen s2⟩ ⟨a2, b2⟩ n)) (Logs.pure _)
    rw [List.append_nil] at this
    exact this
  · have hz : es1.map (mvE 0) = es1 := by
      rw [show mvE 0 = id by funext ⟨r, _⟩; simp [mvE, movedBy], List.map_id]
    rw [hz] at l1'
    have l3 : Logs (contentLoop true n1' e' (prepLines (s1 ++ '\n' :: '\n' :: s2) (.mk x [] y :: mvLines (byteLen (s1 ++ ['\n', '\n'])) L2))) n2'
        (es2.map (mvE (byteLen (s1 ++ ['\n', '\n'])))) := by
      rw [prepLines, prepLine, prepNodes, contentLoop]
      exact l2'
    have := (l1'.bind (f := fun n => contentLoop true n e' _) l3).bind
      (f := fun n => BM.pure (Document.mk ⟨0, byteLen (s1 ++ '\n' :: '\n' :: s2)⟩ ⟨a, b⟩ n)) (Logs.pure _)
    rw [List.append_nil] at this
    rw [fromAst]
    dsimp only
    rw [buildContent, prepLines_append, hl]
    exact this

end Mty.Build
