import Verif.Spec.ErrorOrder
import Verif.Spec.Leaves
import Verif.Proofs.Grammar
import Verif.Proofs.ShiftParse
import Verif.Proofs.Leaves
import Verif.Props.Escape

/-! # The order of errors (for C81) -/

set_option autoImplicit false

namespace Mty.Grammar.Order
open Pat Lex Spec

/-- The errors are between two positions, and in order. -/
structure In (lo hi : Nat) (es : List SyntaxError) : Prop where
  le : lo ≤ hi
  within : ∀ e ∈ es, lo ≤ e.range.start ∧ e.range.start < e.range.stop ∧ e.range.stop ≤ hi
  order : es.Pairwise fun a b => a.range.stop ≤ b.range.start

theorem In.nil {lo hi : Nat} (h : lo ≤ hi) : In lo hi [] := ⟨h, by simp, .nil⟩

theorem In.append {lo m hi : Nat} {a b : List SyntaxError} (h1 : In lo m a) (h2 : In m hi b) : In lo hi (a ++ b) := by
  refine ⟨Nat.le_trans h1.le h2.le, ?_, ?_⟩
  · intro e he
    rcases List.mem_append.1 he with he | he
    · have := h1.within e he; have := h2.le; omega
    · have := h2.within e he; have := h1.le; omega
  · refine List.pairwise_append.2 ⟨h1.order, h2.order, fun x hx y hy => ?_⟩
    have := h1.within x hx; have := h2.within y hy; omega

theorem In.mono {lo hi lo' hi' : Nat} {es : List SyntaxError} (h : In lo hi es) (h1 : lo' ≤ lo) (h2 : hi ≤ hi') : In lo' hi' es :=
  ⟨by have := h.le; omega, fun e he => by have := h.within e he; omega, h.order⟩

theorem In.single {r : Range} {k : SyntaxErrorKind} (h : r.start < r.stop) : In r.start r.stop [⟨r, k⟩] :=
  ⟨Nat.le_of_lt h, by simpa using h, List.pairwise_singleton _ _⟩

theorem In.sub {lo hi : Nat} {es es' : List SyntaxError} (h : In lo hi es) (hs : es'.Sublist es) : In lo hi es' :=
  ⟨h.le, fun e he => h.within e (hs.subset he), h.order.sublist hs⟩

theorem reads_le {src : Str} {p : Pat} {r : Range} (h : reads src p r = true) : r.start ≤ r.stop := by
  obtain ⟨b, m, a, _, rfl, _⟩ := reads_iff.1 h
  simp only [byteLen_app]; omega

theorem reads_lt {src : Str} {p : Pat} (hp : NE p) {r : Range} (h : reads src p r = true) : r.start < r.stop := by
  obtain ⟨b, m, a, _, rfl, hm⟩ := reads_iff.1 h
  have := hp _ _ _ _ hm
  cases m with
  | nil => exact absurd rfl this
  | cons c m =>
    have := Char.utf8Size_pos c
    simp only [byteLen_app, byteLen]; omega

theorem gap_le {src : Str} {p : Char → Bool} {lo hi : Nat} (h : gap src p lo hi = true) : lo ≤ hi := by
  obtain ⟨b, m, a, _, rfl, rfl, _⟩ := gap_iff.1 h
  simp only [byteLen_app]; omega

variable {alnum : Char → Bool} {src : Str}

theorem closeErr_in {r : Range} {k : UnclosedKind} (h : r.start < r.stop) (c : Option Range) : In r.start r.stop (closeErr r k c) := by
  cases c with
  | none => exact .single h
  | some x => exact .nil (Nat.le_of_lt h)

theorem parts_le : ∀ (as : List Ast.Attribute) (p : Nat), (partsOk src p as).1 = true → p ≤ (partsOk src p as).2
  | [], p, _ => Nat.le_refl _
  | a :: as, p, h => by
    rw [partsOk] at h ⊢
    simp only [Bool.and_eq_true] at h
    have h1 := gap_le h.1.1
    have h2 := parts_le as a.stop h.2
    have h3 : a.start ≤ a.stop := by
      have h3 := h.1.2
      rw [attributeOk] at h3
      simp only [Bool.and_eq_true, beq_iff_eq] at h3
      obtain ⟨⟨h4, h5⟩, h6⟩ := h3
      have h5 := reads_le h5
      split at h6
      · simp only [beq_iff_eq] at h6; omega
      · simp only [Bool.and_eq_true, beq_iff_eq] at h6
        have h7 := reads_le h6.1.1; have h8 := reads_le h6.1.2
        dsimp only at h7; omega
      · simp only [Bool.and_eq_true, beq_iff_eq] at h6
        have h7 := reads_le h6.1.1; have h8 := reads_le h6.1.2
        dsimp only at h7; omega
    dsimp only
    omega

theorem attributes_in {a : Ast.AttributeSelector} (h : attributesOk src a = true) : In a.start a.stop (attrErrs a) := by
  rw [attributesOk] at h
  simp only [Bool.and_eq_true, beq_iff_eq] at h
  obtain ⟨⟨⟨h1, h2⟩, h3⟩, h4⟩ := h
  have h2 := reads_lt (ne_exact (by decide)) h2
  have h3 := parts_le _ _ h3
  have h5 : (partsOk src a.lBracket.stop a.parts).2 ≤ a.stop := by
    split at h4
    · exact gap_le h4
    · simp only [Bool.and_eq_true, beq_iff_eq] at h4
      have := gap_le h4.1.1; have := reads_le h4.1.2; omega
  exact (closeErr_in h2 _).mono (by omega) (by omega)

theorem classes_in : ∀ (cs : List Ast.ClassLike) (p q : Nat), classLikesOk src p q cs = true → In p q (cs.flatMap classErrs)
  | [], p, q, h => by
    simp only [classLikesOk, beq_iff_eq] at h
    exact .nil (by omega)
  | .cls d i :: cs, p, q, h => by
    simp only [classLikesOk, Bool.and_eq_true, beq_iff_eq] at h
    obtain ⟨⟨⟨⟨h1, h2⟩, h3⟩, h4⟩, h5⟩ := h
    have h2 := reads_le h2; have h4 := reads_le h4
    exact (classes_in cs _ q h5).mono (by omega) (Nat.le_refl _)
  | .id d i :: cs, p, q, h => by
    simp only [classLikesOk, Bool.and_eq_true, beq_iff_eq] at h
    obtain ⟨⟨⟨⟨h1, h2⟩, h3⟩, h4⟩, h5⟩ := h
    have h2 := reads_le h2; have h4 := reads_le h4
    exact (classes_in cs _ q h5).mono (by omega) (Nat.le_refl _)
  | .invalid r :: cs, p, q, h => by
    simp only [classLikesOk, Bool.and_eq_true, beq_iff_eq] at h
    obtain ⟨⟨h1, h2⟩, h5⟩ := h
    have h2 := reads_lt (by unfold anyChars; exact ne_seq1 (ne_chr _)) h2
    rw [← h1]
    exact (In.single h2).append (classes_in cs _ q h5)

theorem chain_in {p q : Nat} {e : Option Ast.ElementSelector} {cs : List Ast.ClassLike} (h : chainOk alnum src p q e cs = true) :
    In p q (cs.flatMap classErrs) := by
  unfold chainOk at h
  simp only [Bool.and_eq_true] at h
  obtain ⟨_, h⟩ := h
  split at h
  · exact classes_in _ _ _ h
  · simp only [Bool.and_eq_true, beq_iff_eq] at h
    have := reads_le h.1.2
    exact (classes_in _ _ _ h.2).mono (by omega) (Nat.le_refl _)
  · simp only [Bool.and_eq_true, beq_iff_eq] at h
    have := reads_le h.1.2
    exact (classes_in _ _ _ h.2).mono (by omega) (Nat.le_refl _)

theorem segments_in : ∀ (gs : List Ast.SelectorSegment) (p q : Nat), segmentsOk alnum src p q gs = true → In p q (gs.flatMap segmentErrs)
  | [], p, q, h => by
    simp only [segmentsOk, beq_iff_eq] at h
    exact .nil (by omega)
  | .attributes a :: gs, p, q, h => by
    simp only [segmentsOk, Bool.and_eq_true, beq_iff_eq] at h
    rw [← h.1.1]
    exact (attributes_in h.1.2).append (segments_in gs _ q h.2)
  | .classLike cs :: gs, p, q, h => by
    simp only [segmentsOk, Bool.and_eq_true] at h
    exact (chain_in h.1).append (segments_in gs _ q h.2)

theorem selector_in {s : Ast.Selector} (h : selectorOk alnum src s = true) : In s.start s.stop (selectorErrs s) := by
  obtain ⟨a, first, segs, b⟩ := s
  rw [selectorOk] at h
  simp only [Bool.and_eq_true] at h
  obtain ⟨h1, h2⟩ := h
  have h2 := segments_in _ _ _ h2
  cases first with
  | attributes x =>
    simp only [Bool.and_eq_true, beq_iff_eq] at h1
    rw [← h1.1]
    exact (attributes_in h1.2).append h2
  | tag e cs => exact (chain_in h1).append h2

theorem escapes_in {r : Range} (h : ValidRange src r) : In r.start r.stop (escErrs (Build.badEsc src) r) := by
  obtain ⟨a, m, b, e1, e2, e3⟩ := h.split
  obtain ⟨h1, h2⟩ := C05_ranges m r.start
  have hs : r.stop = r.start + byteLen m := by rw [e2]; simp only [byteLen_app]
  refine ⟨h.1, ?_, ?_⟩
  · intro e he
    rw [escErrs, List.mem_map] at he
    obtain ⟨x, hx, rfl⟩ := he
    rw [Build.badEsc, e3] at hx
    obtain ⟨pre, f, post, h3, h4, h5, _⟩ := h1 x hx
    have := Char.utf8Size_pos '\\'
    rw [h3] at hs
    simp only [byteLen_app, byteLen, List.cons_append, List.append_assoc] at hs h5
    dsimp only
    omega
  · rw [escErrs, Build.badEsc, e3]
    exact List.Pairwise.map _ (fun _ _ h => h) h2

theorem close_le {t : Str} {p b : Nat} {c : Option Range} (h : closeOk src t p b c = true) : p ≤ b := by
  cases c with
  | none => exact gap_le h
  | some r =>
    simp only [closeOk, Bool.and_eq_true, beq_iff_eq] at h
    have := gap_le h.1.1; have := reads_le h.1.2; omega

theorem flatten_take (l : List (List SyntaxError)) (k : Nat) : ((l.take k).flatten).Sublist l.flatten :=
  by
  induction l generalizing k with
  | nil => simp
  | cons a l ih =>
    cases k with
    | zero => simp
    | succ k => simpa using ih k

mutual
  theorem type_in {a b : Nat} : ∀ {ty : Ast.NodeType}, typeOk alnum src a b ty = true → In a b (typeErrs (Build.badEsc src) ty)
    | .multiline k s e, h => by
      simp only [typeOk, Bool.and_eq_true] at h
      obtain ⟨⟨h1, h2⟩, h3⟩ := h
      have h4 := reads_le h1; have h5 := reads_le h2; have h6 := reads_le h3
      dsimp only at h4 h5 h6
      cases k with
      | escaped => exact (escapes_in (reads_valid h2)).mono h4 h6
      | unescaped => exact .nil (by omega)
      | code => exact .nil (by omega)
    | .text (.segment r), h => by
      simp only [typeOk, inlineTextOk, Bool.and_eq_true, beq_iff_eq] at h
      obtain ⟨rfl, h⟩ := h
      exact escapes_in (reads_valid h)
    | .text (.verbatim o raw tail), h => by
      simp only [typeOk, inlineTextOk, Bool.and_eq_true, beq_iff_eq] at h
      obtain ⟨⟨⟨⟨h1, h2⟩, h3⟩, h4⟩, h5⟩ := h
      have h2 := reads_le h2; have h3 := reads_le h3
      refine .nil ?_
      cases raw with
      | none => simp only [beq_iff_eq] at h5; omega
      | some k =>
        simp only [Bool.and_eq_true, beq_iff_eq] at h5
        have := reads_le h5.1.2
        omega
    | .text (.comment c), h => by
      simp only [typeOk, inlineTextOk, Bool.and_eq_true, beq_iff_eq] at h
      obtain ⟨⟨⟨⟨⟨⟨h1, h2⟩, h3⟩, h4⟩, h5⟩, h6⟩, h7⟩ := h
      have h4 := reads_lt (ne_exact (by decide)) h4; have h6 := reads_le h6
      rw [typeErrs]
      refine (closeErr_in h4 _).mono (by omega) ?_
      cases hc : c.close with
      | none => rw [hc] at h7; simp only [beq_iff_eq] at h7; omega
      | some r =>
        rw [hc] at h7
        simp only [Bool.and_eq_true, beq_iff_eq] at h7
        have := reads_le h7.1.2
        omega
    | .text (.interpolation r), h => by
      simp only [typeOk, inlineTextOk, Bool.and_eq_true, beq_iff_eq] at h
      obtain ⟨rfl, h⟩ := h
      exact .nil (reads_le h)
    | .selector s, h => by
      simp only [typeOk, Bool.and_eq_true, beq_iff_eq] at h
      rw [← h.1.1, ← h.1.2]
      exact selector_in h.2
    | .line c, h => by
      simp only [typeOk, Bool.and_eq_true, beq_iff_eq] at h
      obtain ⟨rfl, h⟩ := h
      exact .nil (reads_le h)
    | .block l (.mk s lines e) r, h => by
      simp only [typeOk, Bool.and_eq_true, beq_iff_eq] at h
      obtain ⟨⟨⟨⟨h1, h2⟩, h3⟩, h4⟩, h5⟩ := h
      have h2 := reads_lt (ne_exact (by decide)) h2; have h3 := gap_le h3
      rw [typeErrs, ← h1]
      refine (closeErr_in h2 _).append ((lines_in h4).mono h3 ?_)
      exact close_le h5
    | .inline o inner c, h => by
      simp only [typeOk, Bool.and_eq_true, beq_iff_eq] at h
      obtain ⟨⟨⟨⟨h1, h2⟩, h3⟩, h4⟩, h5⟩ := h
      have h2 := reads_lt (ne_exact (by decide)) h2; have h3 := gap_le h3
      rw [typeErrs, ← h1]
      exact (closeErr_in h2 _).append (((nodes_in h4).sub (flatten_take _ _)).mono h3 (close_le h5))
    | .special f o (.mk s lines e) c, h => by
      simp only [typeOk, Bool.and_eq_true, beq_iff_eq] at h
      obtain ⟨⟨⟨⟨h1, h2⟩, h3⟩, h4⟩, h5⟩ := h
      have h2 := reads_lt (ne_exact (by cases f <;> decide)) h2; have h3 := gap_le h3
      rw [typeErrs, ← h1]
      exact (closeErr_in h2 _).append ((lines_in h4).mono h3 (close_le h5))
    | .code r, h => by
      simp only [typeOk, Bool.and_eq_true, beq_iff_eq] at h
      obtain ⟨rfl, h⟩ := h
      exact .nil (reads_le h)
  theorem nodes_in {p q : Nat} : ∀ {ns : List Ast.Node}, nodesOk alnum src p q ns = true → In p q (nodesErrs (Build.badEsc src) ns).flatten
    | [], h => by
      simp only [nodesOk, beq_iff_eq] at h
      exact .nil (by omega)
    | .mk sp a b ty :: ns, h => by
      simp only [nodesOk, Bool.and_eq_true] at h
      obtain ⟨⟨h1, h2⟩, h3⟩ := h
      have h4 : p ≤ a := by
        cases sp with
        | none => simp only [spaceOk, beq_iff_eq] at h1; omega
        | some r =>
          simp only [spaceOk, Bool.and_eq_true, beq_iff_eq] at h1
          have := reads_le h1.1.2
          omega
      rw [nodesErrs, List.flatten_cons, nodeErrs]
      exact ((type_in h2).mono h4 (Nat.le_refl _)).append (nodes_in h3)
  theorem lines_in {first : Bool} {p q : Nat} : ∀ {ls : List Ast.Line}, linesOk alnum src first p q ls = true →
      In p q (linesErrs (Build.badEsc src) ls)
    | [], h => by
      refine .nil ?_
      cases first with
      | true => exact gap_le h
      | false => simp only [linesOk, Bool.false_eq_true, if_false, beq_iff_eq] at h; omega
    | .mk s ns e :: ls, h => by
      simp only [linesOk, Bool.and_eq_true] at h
      obtain ⟨⟨⟨⟨h1, h2⟩, h3⟩, h4⟩, h5⟩ := h
      have h6 : p ≤ s := by
        cases first with
        | true => exact gap_le h1
        | false => exact reads_le h1
      have h2 := gap_le h2; have h4 := gap_le h4
      rw [linesErrs]
      exact (((nodes_in h3).sub (flatten_take _ _)).mono (by omega) h4).append (lines_in h5)
end

/-- The errors of a document that are not about misplaced items. -/
theorem doc_in {d : Ast.Document} (h : Conforms alnum src d = true) : InSourceOrder (astErrs (Build.badEsc src) d) := by
  obtain ⟨⟨s, lines, e⟩⟩ := d
  simp only [Conforms, Bool.and_eq_true] at h
  have := lines_in h.1.2
  exact ⟨fun x hx => (this.within x hx).2.1, this.order⟩

end Mty.Grammar.Order
