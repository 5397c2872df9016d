import Verif.Spec.Tokens
import Verif.Proofs.Grammar
import Verif.Proofs.PlainAst
import Verif.Proofs.Parse

/-! # The tokens of a tree cover the source -/

set_option autoImplicit false

namespace Mty.Grammar
open Pat Lex Spec

variable {src : Str}

/-- The text from `p` to `q` consists of these parts and white space. -/
def Cov (src : Str) : Nat → Nat → List Range → Prop
  | p, q, [] => gap src isWhitespace p q = true
  | p, q, x :: xs => gap src isWhitespace p x.start = true ∧ ValidRange src x ∧ Cov src x.stop q xs

theorem gap_trans {p : Char → Bool} {a b c : Nat} (h : gap src p a b = true) (h' : gap src p b c = true) : gap src p a c = true := by
  obtain ⟨b1, m1, a1, e1, rfl, rfl, h1⟩ := gap_iff.mp h
  obtain ⟨b2, m2, a2, e2, e3, rfl, h2⟩ := gap_iff.mp h'
  obtain ⟨rfl, rfl⟩ := append_cancel (b := b1 ++ m1) (b' := b2) (r := a1) (r' := m2 ++ a2) (by rw [← e2, e1]; simp) e3
  exact gap_iff.2 ⟨b1, m1 ++ m2, a2, by simp [e2], rfl, by simp, by
    intro c hc
    rcases List.mem_append.1 hc with hc | hc
    · exact h1 c hc
    · exact h2 c hc⟩

theorem Cov.gap {p q r : Nat} {xs : List Range} (h : gap src isWhitespace p q = true) (h' : Cov src q r xs) : Cov src p r xs := by
  cases xs with
  | nil => exact gap_trans h h'
  | cons x xs => exact ⟨gap_trans h h'.1, h'.2⟩

theorem Cov.append {r : Nat} {ys : List Range} : ∀ {xs : List Range} {p q : Nat}, Cov src p q xs → Cov src q r ys → Cov src p r (xs ++ ys)
  | [], _, _, h, h' => h'.gap h
  | _ :: _, _, _, h, h' => ⟨h.1, h.2.1, h.2.2.append h'⟩

theorem gap_self {p : Nat} (h : isBoundary src p) : gap src isWhitespace p p = true := by
  obtain ⟨a, b, h1, h2⟩ := h
  exact gap_iff.2 ⟨a, [], b, by simpa using h1, h2.symm, by simpa using h2.symm, by simp⟩

theorem Cov.one {x : Range} (h : ValidRange src x) : Cov src x.start x.stop [x] :=
  ⟨gap_self h.2.1, h, gap_self h.2.2⟩

theorem Cov.cons {p q : Nat} {x : Range} {xs : List Range} (h : ValidRange src x) (hp : x.start = p) (h' : Cov src x.stop q xs) :
    Cov src p q (x :: xs) := by
  subst hp
  exact ⟨gap_self h.2.1, h, h'⟩

theorem reads_white {p : Pat} {r : Range} (h : reads src p r = true)
    (hp : ∀ b m a, p b (m ++ a) = some (m, a) → ∀ c ∈ m, isWhitespace c = true) : gap src isWhitespace r.start r.stop = true := by
  obtain ⟨b, m, a, h1, rfl, h2⟩ := reads_iff.mp h
  exact gap_iff.2 ⟨b, m, a, h1, rfl, rfl, hp b m a h2⟩


theorem manyLoop_all (p : Char → Bool) : ∀ (n : Nat) (b r : Str), ∀ c ∈ (manyLoop (chr p) n b r).1, p c = true
  | 0, _, _ => by simp [manyLoop]
  | n + 1, b, r => by
    rw [manyLoop]
    split
    · rename_i c m r1 h
      obtain ⟨c', hc', h1, -⟩ := chr_some h
      cases h1
      intro x hx
      simp only [List.cons_append, List.nil_append, List.mem_cons] at hx
      rcases hx with rfl | hx
      · exact hc'
      · exact manyLoop_all p n _ _ x hx
    · simp

theorem many_all {p : Char → Bool} {b r m r' : Str} (h : many (chr p) b r = some (m, r')) : ∀ c ∈ m, p c = true := by
  simp only [many, Option.some.injEq] at h
  have := manyLoop_all p r.length b r
  rw [h] at this
  exact this

theorem space_white {r : Range} (h : reads src space r = true) : gap src isWhitespace r.start r.stop = true := by
  refine reads_white h fun b m a h => ?_
  rw [space, many1] at h
  obtain ⟨m1, r1, m2, h1, h2, rfl⟩ := seq_some h
  obtain ⟨c, hc, rfl, -⟩ := chr_some h1
  have := many_all h2
  intro x hx
  have hx' : isSpace x = true := by
    rcases List.mem_append.1 hx with hx | hx
    · rw [List.mem_singleton.1 hx]; exact hc
    · exact this x hx
  simp only [isSpace, Bool.and_eq_true] at hx'
  exact hx'.1

theorem isSpace_white {x : Char} (h : isSpace x = true) : isWhitespace x = true := by
  simp only [isSpace, Bool.and_eq_true] at h
  exact h.1

theorem newLine_white {r : Range} (h : reads src newLine r = true) : gap src isWhitespace r.start r.stop = true := by
  refine reads_white h fun b m a h => ?_
  obtain ⟨m1, r1, m2, h1, h2, rfl⟩ := seq_some h
  obtain ⟨m3, r3, m4, h3, h4, rfl⟩ := seq_some h2
  obtain ⟨c, hc, rfl, -⟩ := chr_some h3
  have w1 := many_all h1
  have w2 := many_all h4
  simp only [decide_eq_true_eq] at hc
  subst hc
  intro x hx
  simp only [List.mem_append, List.mem_singleton] at hx
  rcases hx with hx | rfl | hx
  · exact isSpace_white (w1 x hx)
  · decide
  · exact isSpace_white (w2 x hx)

theorem gap_space {a b : Nat} (h : gap src isSpace a b = true) : gap src isWhitespace a b = true := by
  obtain ⟨b, m, a, h1, h2, h3, h4⟩ := gap_iff.mp h
  exact gap_iff.2 ⟨b, m, a, h1, h2, h3, fun c hc => isSpace_white (h4 c hc)⟩

/-! ## Selectors -/

theorem attribute_cov {a : Ast.Attribute} (h : attributeOk src a = true) : Cov src a.start a.stop (attributeTokens a) := by
  rw [attributeOk] at h
  simp only [Bool.and_eq_true, beq_iff_eq] at h
  obtain ⟨⟨h1, h2⟩, h3⟩ := h
  have v := reads_valid h2
  rw [attributeTokens]
  cases hv : a.value with
  | none =>
    simp only [hv, beq_iff_eq] at h3
    rw [h3]
    exact .cons v h1 (gap_self v.2.2)
  | some x =>
    cases x with
    | unquoted r =>
      simp only [hv, Bool.and_eq_true, beq_iff_eq] at h3
      rw [h3.2]
      exact .cons v h1 (.cons (reads_valid h3.1.1) rfl (.one (reads_valid h3.1.2)))
    | quoted r =>
      simp only [hv, Bool.and_eq_true, beq_iff_eq] at h3
      rw [h3.2]
      exact .cons v h1 (.cons (reads_valid h3.1.1) rfl (.one (reads_valid h3.1.2)))

theorem parts_cov : ∀ (as : List Ast.Attribute) (p : Nat), isBoundary src p → (partsOk src p as).1 = true →
    Cov src p (partsOk src p as).2 (as.flatMap attributeTokens)
  | [], p, hb, h => gap_self hb
  | a :: as, p, hb, h => by
    simp only [partsOk, Bool.and_eq_true] at h ⊢
    obtain ⟨⟨h1, h2⟩, h3⟩ := h
    have hc := attribute_cov h2
    have hv := (attribute_in h2).1
    exact ((hc.gap h1).append (parts_cov as _ hv.2.2 h3))

theorem attributes_cov {a : Ast.AttributeSelector} (h : attributesOk src a = true) : Cov src a.start a.stop (bracketTokens a) := by
  rw [attributesOk] at h
  simp only [Bool.and_eq_true, beq_iff_eq] at h
  obtain ⟨⟨⟨h1, h2⟩, h3⟩, h4⟩ := h
  have v := reads_valid h2
  refine .cons v h1 ((parts_cov _ _ v.2.2 h3).append ?_)
  cases hr : a.rBracket with
  | none =>
    simp only [hr] at h4
    exact h4
  | some r =>
    simp only [hr, Bool.and_eq_true, beq_iff_eq] at h4
    obtain ⟨⟨h5, h6⟩, h7⟩ := h4
    rw [h7]
    exact (Cov.one (reads_valid h6)).gap h5

theorem classLikes_cov {q' : Nat} : ∀ (cs : List Ast.ClassLike) (p q : Nat), isBoundary src p →
    classLikesOk (takeBytes q' src) p q cs = true → Cov src p q (cs.flatMap classTokens)
  | [], p, q, hb, h => by
    simp only [classLikesOk, beq_iff_eq] at h
    subst h
    exact gap_self hb
  | .cls dot ident :: cs, p, q, hb, h => by
    simp only [classLikesOk, Bool.and_eq_true, beq_iff_eq] at h
    obtain ⟨⟨⟨⟨h1, h2⟩, h3⟩, h4⟩, h5⟩ := h
    have v := valid_take (reads_valid h2)
    have v' := valid_take (reads_valid h4)
    exact .cons v h1 (.cons v' h3 (classLikes_cov cs _ _ v'.2.2 h5))
  | .id dot ident :: cs, p, q, hb, h => by
    simp only [classLikesOk, Bool.and_eq_true, beq_iff_eq] at h
    obtain ⟨⟨⟨⟨h1, h2⟩, h3⟩, h4⟩, h5⟩ := h
    have v := valid_take (reads_valid h2)
    have v' := valid_take (reads_valid h4)
    exact .cons v h1 (.cons v' h3 (classLikes_cov cs _ _ v'.2.2 h5))
  | .invalid r :: cs, p, q, hb, h => by
    simp only [classLikesOk, Bool.and_eq_true, beq_iff_eq] at h
    obtain ⟨⟨h1, h2⟩, h3⟩ := h
    have v := valid_take (reads_valid h2)
    exact .cons v h1 (classLikes_cov cs _ _ v.2.2 h3)

variable {alnum : Char → Bool}

theorem chain_cov {p q : Nat} {e : Option Ast.ElementSelector} {cs : List Ast.ClassLike} (h : chainOk alnum src p q e cs = true) :
    Cov src p q (elementTokens e ++ cs.flatMap classTokens) := by
  rw [chainOk.eq_def] at h
  simp only [Bool.and_eq_true] at h
  obtain ⟨h1, h2⟩ := h
  have v := reads_valid h1
  cases e with
  | none => exact classLikes_cov _ _ _ v.2.1 h2
  | some x =>
    cases x with
    | name r =>
      simp only [Bool.and_eq_true, beq_iff_eq] at h2
      have v' := valid_take (reads_valid h2.1.2)
      exact .cons v' h2.1.1 (classLikes_cov _ _ _ v'.2.2 h2.2)
    | star r =>
      simp only [Bool.and_eq_true, beq_iff_eq] at h2
      have v' := valid_take (reads_valid h2.1.2)
      exact .cons v' h2.1.1 (classLikes_cov _ _ _ v'.2.2 h2.2)

theorem segments_cov : ∀ (gs : List Ast.SelectorSegment) (p q : Nat), isBoundary src p → segmentsOk alnum src p q gs = true →
    Cov src p q (gs.flatMap segmentTokens)
  | [], p, q, hb, h => by
    simp only [segmentsOk, beq_iff_eq] at h
    subst h
    exact gap_self hb
  | .attributes a :: gs, p, q, hb, h => by
    simp only [segmentsOk, Bool.and_eq_true, beq_iff_eq] at h
    obtain ⟨⟨h1, h2⟩, h3⟩ := h
    rw [← h1]
    exact (attributes_cov h2).append (segments_cov gs _ _ (attributes_in h2).1.2.2 h3)
  | .classLike cs :: gs, p, q, hb, h => by
    simp only [segmentsOk, Bool.and_eq_true] at h
    obtain ⟨h1, h2⟩ := h
    exact (chain_cov (e := none) h1).append (segments_cov gs _ _ (chain_in h1).1.2.2 h2)

theorem selector_cov {s : Ast.Selector} (h : selectorOk alnum src s = true) : Cov src s.start s.stop (selectorTokens s) := by
  obtain ⟨a, first, segs, b⟩ := s
  rw [selectorOk] at h
  simp only [Bool.and_eq_true] at h
  obtain ⟨h1, h2⟩ := h
  cases first with
  | attributes x =>
    simp only [Bool.and_eq_true, beq_iff_eq] at h1
    have := attributes_cov h1.2
    rw [h1.1] at this
    exact this.append (segments_cov _ _ _ (attributes_in h1.2).1.2.2 h2)
  | tag e cs => exact (chain_cov h1).append (segments_cov _ _ _ (chain_in h1).1.2.2 h2)

/-! ## Nodes -/

theorem text_cov {a b : Nat} {t : Ast.InlineText} (h : inlineTextOk alnum src a b t = true) : Cov src a b (textTokens t) := by
  cases t with
  | segment r =>
    simp only [inlineTextOk, Bool.and_eq_true, beq_iff_eq] at h
    obtain ⟨rfl, h⟩ := h
    exact .one (reads_valid h)
  | interpolation r =>
    simp only [inlineTextOk, Bool.and_eq_true, beq_iff_eq] at h
    obtain ⟨rfl, h⟩ := h
    exact .one (reads_valid h)
  | comment c =>
    simp only [inlineTextOk, Bool.and_eq_true, beq_iff_eq] at h
    obtain ⟨⟨⟨⟨⟨⟨h1, h2⟩, h3⟩, h4⟩, h5⟩, h6⟩, h7⟩ := h
    refine .cons (reads_valid h4) h3 (.cons (reads_valid h6) h5 ?_)
    cases hc : c.close with
    | none =>
      simp only [hc, beq_iff_eq] at h7
      rw [← h7]
      exact gap_self (reads_valid h6).2.2
    | some r =>
      simp only [hc, Bool.and_eq_true, beq_iff_eq] at h7
      rw [← h7.1.1, ← h7.2]
      exact .one (reads_valid h7.1.2)
  | verbatim o raw tail =>
    have ht : textTokens (.verbatim o raw tail) = o :: (raw.toList ++ [(tailOk tail).2]) := by cases tail <;> rfl
    rw [ht]
    simp only [inlineTextOk, Bool.and_eq_true, beq_iff_eq] at h
    obtain ⟨⟨⟨⟨h1, h2⟩, h3⟩, h4⟩, h5⟩ := h
    refine .cons (reads_valid h2) h1 ?_
    rw [← h4]
    cases raw with
    | none =>
      simp only [beq_iff_eq] at h5
      rw [← h5]
      exact .one (reads_valid h3)
    | some k =>
      simp only [Bool.and_eq_true, beq_iff_eq] at h5
      refine .cons (reads_valid h5.1.2) h5.1.1 ?_
      rw [← h5.2]
      exact .one (reads_valid h3)

theorem close_cov {t : Str} {p b : Nat} {c : Option Range} (h : closeOk src t p b c = true) : Cov src p b c.toList := by
  cases c with
  | none => exact h
  | some r =>
    simp only [closeOk, Bool.and_eq_true, beq_iff_eq] at h
    rw [← h.2]
    exact (Cov.one (reads_valid h.1.2)).gap h.1.1

mutual
  theorem type_cov (alnum : Char → Bool) (src : Str) : ∀ (ty : Ast.NodeType) (a b : Nat), typeOk alnum src a b ty = true →
      Cov src a b (typeTokens a b ty)
    | .multiline k s e, a, b, h => by
      simp only [typeOk, Bool.and_eq_true] at h
      exact .cons (reads_valid h.1.1) rfl (.cons (reads_valid h.1.2) rfl (.one (reads_valid h.2)))
    | .text t, a, b, h => text_cov h
    | .selector s, a, b, h => by
      simp only [typeOk, Bool.and_eq_true, beq_iff_eq] at h
      have := selector_cov h.2
      rw [h.1.1, h.1.2] at this
      exact this
    | .line c, a, b, h => by
      simp only [typeOk, Bool.and_eq_true, beq_iff_eq] at h
      obtain ⟨rfl, h⟩ := h
      exact .one (reads_valid h)
    | .code c, a, b, h => by
      simp only [typeOk, Bool.and_eq_true, beq_iff_eq] at h
      obtain ⟨rfl, h⟩ := h
      exact .one (reads_valid h)
    | .block l (.mk s lines e) r, a, b, h => by
      simp only [typeOk, Bool.and_eq_true, beq_iff_eq] at h
      obtain ⟨⟨⟨⟨h1, h2⟩, h3⟩, h4⟩, h5⟩ := h
      exact .cons (reads_valid h2) h1 (((lines_cov alnum src lines true s e (gap_valid h3).2.2 h4).gap h3).append (close_cov h5))
    | .special f l (.mk s lines e) r, a, b, h => by
      simp only [typeOk, Bool.and_eq_true, beq_iff_eq] at h
      obtain ⟨⟨⟨⟨h1, h2⟩, h3⟩, h4⟩, h5⟩ := h
      exact .cons (reads_valid h2) h1 (((lines_cov alnum src lines true s e (gap_valid h3).2.2 h4).gap h3).append (close_cov h5))
    | .inline o inner c, a, b, h => by
      simp only [typeOk, Bool.and_eq_true, beq_iff_eq] at h
      obtain ⟨⟨⟨⟨h1, h2⟩, h3⟩, h4⟩, h5⟩ := h
      exact .cons (reads_valid h2) h1 (((nodes_cov alnum src inner _ _ (gap_valid h3).2.2 h4).gap h3).append (close_cov h5))
  theorem nodes_cov (alnum : Char → Bool) (src : Str) : ∀ (ns : List Ast.Node) (p q : Nat), isBoundary src p →
      nodesOk alnum src p q ns = true → Cov src p q (nodesTokens ns)
    | [], p, q, hb, h => by
      simp only [nodesOk, beq_iff_eq] at h
      subst h
      exact gap_self hb
    | .mk sp a b ty :: ns, p, q, hb, h => by
      simp only [nodesOk, Bool.and_eq_true] at h
      obtain ⟨⟨h1, h2⟩, h3⟩ := h
      have c1 := type_cov alnum src ty a b h2
      have c2 := nodes_cov alnum src ns b q (type_in alnum src ty a b h2).1.2.2 h3
      refine Cov.gap ?_ (c1.append c2)
      cases sp with
      | none =>
        simp only [spaceOk, beq_iff_eq] at h1
        subst h1
        exact gap_self hb
      | some r =>
        simp only [spaceOk, Bool.and_eq_true, beq_iff_eq] at h1
        rw [← h1.1.1, ← h1.2]
        exact space_white h1.1.2
  theorem lines_cov (alnum : Char → Bool) (src : Str) : ∀ (ls : List Ast.Line) (first : Bool) (p q : Nat), isBoundary src p →
      linesOk alnum src first p q ls = true → Cov src p q (linesTokens ls)
    | [], first, p, q, hb, h => by
      cases first with
      | true =>
        have : gap src isWhitespace p q = true := by simpa [linesOk] using h
        exact this
      | false =>
        simp only [linesOk, Bool.false_eq_true, if_false, beq_iff_eq] at h
        subst h
        exact gap_self hb
    | .mk s ns e :: ls, first, p, q, hb, h => by
      simp only [linesOk, Bool.and_eq_true] at h
      obtain ⟨⟨⟨⟨h1, h2⟩, h3⟩, h4⟩, h5⟩ := h
      have c1 := nodes_cov alnum src ns _ _ (gap_valid h2).2.2 h3
      have c2 := lines_cov alnum src ls false e q (gap_valid h4).2.2 h5
      have g1 : gap src isWhitespace p s = true := by
        cases first with
        | true => simpa using h1
        | false => exact newLine_white (r := ⟨p, s⟩) (by simpa using h1)
      exact Cov.gap (gap_trans g1 (gap_space h2)) (c1.append (c2.gap (gap_space h4)))
end

/-! ## The source -/

theorem covers_of : ∀ (xs : List Range) (b r : Str), src = b ++ r → Cov src (byteLen b) (byteLen src) xs → CoversFrom b r xs
  | [], b, r, hs, h => by
    obtain ⟨b1, m, a, e1, e2, e3, h1⟩ := gap_iff.mp h
    obtain ⟨rfl, rfl⟩ := append_cancel (b := b) (b' := b1) (r := r) (r' := m ++ a) (by rw [← hs, e1]) e2
    have : a = [] := by
      have hl : byteLen (b ++ m ++ a) = byteLen (b ++ m) := by rw [← e3, hs]; simp
      rw [byteLen_app] at hl
      cases a with
      | nil => rfl
      | cons c a =>
        have := Char.utf8Size_pos c
        simp only [byteLen] at hl
        omega
    subst this
    intro c hc
    exact (white_iff c).1 (h1 c (by simpa using hc))
  | x :: xs, b, r, hs, h => by
    obtain ⟨h1, h2, h3⟩ := h
    obtain ⟨b1, w, a, e1, e2, e3, hw⟩ := gap_iff.mp h1
    obtain ⟨rfl, rfl⟩ := append_cancel (b := b) (b' := b1) (r := r) (r' := w ++ a) (by rw [← hs, e1]) e2
    obtain ⟨v1, ⟨b2, a2, e4, e5⟩, ⟨b3, a3, e6, e7⟩⟩ := h2
    obtain ⟨h4, h5⟩ := append_cancel (b := b2) (b' := b ++ w) (r := a2) (r' := a) (by rw [← e4, e1]; simp) (by rw [e5, e3])
    subst h4 h5
    have : ∃ t, b3 = b ++ w ++ t ∧ a2 = t ++ a3 := by
      have hh : b ++ w ++ a2 = b3 ++ a3 := by rw [← e4, e6]
      rcases List.append_eq_append_iff.1 hh with ⟨t, h6, h7⟩ | ⟨t, h6, h7⟩
      · exact ⟨t, h6, h7⟩
      · have : t = [] := by
          have hl := congrArg byteLen h6
          rw [e5, byteLen_app, e7] at hl
          cases t with
          | nil => rfl
          | cons c t =>
            have := Char.utf8Size_pos c
            simp only [byteLen] at hl
            omega
        subst this
        exact ⟨[], by simpa using h6.symm, by simpa using h7.symm⟩
    obtain ⟨t, rfl, rfl⟩ := this
    refine ⟨w, t, a3, rfl, fun c hc => (white_iff c).1 (hw c hc), ?_, ?_⟩
    · rw [e5, e7]
    · refine covers_of xs _ _ (by rw [hs]; simp) ?_
      rw [e7]
      exact h3

theorem conforms_covers {ast : Ast.Document} (h : Conforms alnum src ast = true) : Covers src (treeTokens ast) := by
  obtain ⟨⟨s, lines, e⟩⟩ := ast
  simp only [Conforms, Bool.and_eq_true] at h
  obtain ⟨⟨h1, h2⟩, h3⟩ := h
  refine covers_of _ [] src rfl ?_
  have := (lines_cov alnum src lines true s e (gap_valid h1).2.2 h2).gap h1
  have := this.append (ys := []) h3
  rw [List.append_nil] at this
  exact this

end Mty.Grammar
