import Verif.Proofs.MarginsAt
import Verif.Proofs.PartsMove

/-! # The trees with different margins say the same (for C86 and C87) -/

set_option autoImplicit false

namespace Mty.Grammar
open Spec

variable {Q : Str → Str → Prop} {src src' : Str}

theorem Sl.slice {r r' : Range} (h : Sl Q src src' r r') : Margins Q (r.slice src) (r'.slice src') := by
  obtain ⟨a, m, b, a', m', b', rfl, rfl, hm, rfl, rfl⟩ := h
  rw [slice_mid, slice_mid]
  exact hm

theorem Sl.same {r r' : Range} (h : Sl Q src src' r r') (hl : OneLine src r) : SameSlice src src' r r' := by
  rw [SameSlice, h.slice.self hl]

theorem margins_end {t r r' : Str} (hn : '\n' ∉ t) (h : Margins Q (r ++ t) r') : ∃ x, r' = x ++ t ∧ Margins Q r x := by
  induction r generalizing r' with
  | nil => exact ⟨[], h.self (by simpa using hn), .nil⟩
  | cons c r ih =>
    rw [List.cons_append] at h
    by_cases hc : c = '\n'
    · subst hc
      replace h := h.nl
      obtain ⟨u, v, t', rfl, hu, hv, h⟩ := h
      obtain ⟨x, rfl, hx⟩ := ih h
      exact ⟨u ++ '\n' :: (v ++ x), by simp, .line hu hv hx⟩
    · replace h := h.cons hc
      obtain ⟨t', rfl, h⟩ := h
      obtain ⟨x, rfl, hx⟩ := ih h
      exact ⟨c :: x, rfl, .char hc hx⟩

theorem Sl.inner {r r' : Range} {o c : Str} (h : Sl Q src src' r r') (hd : Delimited src o c r) (ho : '\n' ∉ o) (hc : '\n' ∉ c) :
    Sl Q src src' ⟨r.start + byteLen o, r.stop - byteLen c⟩ ⟨r'.start + byteLen o, r'.stop - byteLen c⟩ := by
  obtain ⟨a, m, b, a', m', b', e, e', hm, rfl, rfl⟩ := h
  obtain ⟨pre, body, post, e2, e3⟩ := hd
  have e4 : byteLen a = byteLen pre := congrArg Range.start e3
  have e5 : byteLen (a ++ m) = byteLen (pre ++ (o ++ (body ++ c))) := congrArg Range.stop e3
  have s1 := splitBytes_append a (m ++ b)
  rw [← e, e4, e2, splitBytes_append] at s1
  obtain ⟨rfl, e6⟩ : pre = a ∧ o ++ (body ++ (c ++ post)) = m ++ b := by
    have := Option.some.inj s1
    exact ⟨congrArg Prod.fst this, congrArg Prod.snd this⟩
  have s2 := splitBytes_append m b
  have e7 : byteLen m = byteLen (o ++ (body ++ c)) := by
    simp only [byteLen_append] at e5 ⊢; omega
  rw [← e6, e7, show o ++ (body ++ (c ++ post)) = (o ++ (body ++ c)) ++ post by simp, splitBytes_append] at s2
  have e8 : o ++ (body ++ c) = m := congrArg Prod.fst (Option.some.inj s2)
  subst e8
  obtain ⟨x, rfl, hx⟩ := hm.drop ho
  obtain ⟨y, rfl, hy⟩ := margins_end hc hx
  refine ⟨pre ++ o, body, c ++ post, a' ++ o, y, c ++ b', by rw [e2]; simp, by rw [e']; simp, hy, ?_, ?_⟩
  · simp only [byteLen_append, Range.mk.injEq, true_and]; omega
  · simp only [byteLen_append, Range.mk.injEq, true_and]; omega

theorem tail_same {t t' : Ast.VerbatimTail} (h : RTail Q src src' t t') (hd : match t with
      | .verbatim0 r => Delimited src "[".toList "]]>".toList r
      | .verbatim1 r => Delimited src "#[".toList "]#]>".toList r
      | .verbatim2 r => Delimited src "##[".toList "]##]>".toList r) : Sl Q src src' (verbatimRange t) (verbatimRange t') := by
  cases h with
  | verbatim0 h => exact h.inner hd (by decide) (by decide)
  | verbatim1 h => exact h.inner hd (by decide) (by decide)
  | verbatim2 h => exact h.inner hd (by decide) (by decide)

theorem text_same {lo hi : Nat} {t t' : Ast.InlineText} (h : RText Q src src' t t') (hi : inlineTextIn src lo hi t) (hw : textWithin src t) :
    SameText src src' t t' := by
  cases h with
  | segment h => exact .segment (h.same hw)
  | verbatim hk ht =>
    refine .verbatim (Sl.same (tail_same ht ?_) hw) hk
    obtain ⟨_, _, h⟩ := hi
    cases ht <;> exact h
  | comment h hc => exact .comment (h.same hw) hc
  | interpolation h => exact .interpolation (h.same hw)

theorem value_same {v v' : Ast.AttributeValue} (h : RVal Q src src' v v') (hi : match v with
      | .unquoted r => ValidRange src r
      | .quoted r => ∃ q : Char, q ∈ ['"', '\''] ∧ Delimited src [q] [q] r) :
    Margins Q (valueText src v) (valueText src' v') := by
  cases h with
  | unquoted h => exact h.slice
  | quoted h =>
    obtain ⟨q, hq, hd⟩ := hi
    have hb : byteLen [q] = 1 ∧ '\n' ∉ [q] := by
      simp only [List.mem_cons, List.not_mem_nil, or_false] at hq
      rcases hq with rfl | rfl <;> decide
    have := (h.inner hd hb.2 hb.2).slice
    rw [hb.1] at this
    exact this

theorem attributes_same {a a' : Ast.AttributeSelector} (h : RAttrs Q src src' a a') (hi : attributesIn src a)
    (hw : ∀ p ∈ attributeParts src a, ∀ t ∈ p.texts, '\n' ∉ t) : attributeParts src a = attributeParts src' a' := by
  have hi := hi.2.2.1
  obtain ⟨h, _⟩ := h
  rw [attributeParts] at hw ⊢
  rw [attributeParts]
  revert h hi hw
  generalize a.parts = l
  generalize a'.parts = l'
  intro hw hi h
  induction h with
  | nil => rfl
  | cons h _ ih =>
    rename_i x y l l' _
    rw [List.map_cons, List.map_cons, ih (fun p hp => hw p (by simp at hp ⊢; exact .inr hp)) (fun p hp => hi p (by simp [hp]))]
    congr 1
    obtain ⟨_, h1, h2⟩ := hi x (by simp)
    have hw := hw (.attribute (x.name.slice src) (x.value.map (valueText src))) (List.mem_map_of_mem (List.mem_cons_self ..))
    obtain ⟨g1, g2⟩ := h
    rw [g1.slice.self (hw _ (by cases x.value <;> simp [Part.texts]))]
    revert g2 h2 hw
    generalize x.value = v
    generalize y.value = v'
    intro h2 hw g2
    cases g2 with
    | none => rfl
    | some g =>
      simp only [Option.map_some, Part.texts] at hw ⊢
      rw [Margins.self (value_same g (by cases g <;> exact h2)) (hw _ (by simp))]

theorem classes_same {l l' : List Ast.ClassLike} (h : List.Forall₂ (RClass Q src src') l l') (hw : ∀ p ∈ classParts src l, ∀ t ∈ p.texts, '\n' ∉ t) :
    classParts src l = classParts src' l' := by
  induction h with
  | nil => rfl
  | cons h _ ih =>
    cases h with
    | cls h =>
      rw [classParts] at hw
      rw [classParts, classParts, ih fun p hp => hw p (List.mem_cons_of_mem _ hp), h.slice.self (hw _ (List.mem_cons_self ..) _ (List.mem_singleton_self _))]
    | id h =>
      rw [classParts] at hw
      rw [classParts, classParts, ih fun p hp => hw p (List.mem_cons_of_mem _ hp), h.slice.self (hw _ (List.mem_cons_self ..) _ (List.mem_singleton_self _))]
    | invalid =>
      rw [classParts] at hw
      rw [classParts, classParts, ih hw]

theorem classesOk_same {l l' : List Ast.ClassLike} (h : List.Forall₂ (RClass Q src src') l l') :
    (∀ i ∈ l, ClassLikeOk i) ↔ ∀ i ∈ l', ClassLikeOk i := by
  induction h with
  | nil => simp
  | cons h _ ih =>
    rw [List.forall_mem_cons, List.forall_mem_cons, ih]
    refine and_congr_left' ?_
    cases h <;> rfl

theorem segments_same {l l' : List Ast.SelectorSegment} (h : List.Forall₂ (RSeg Q src src') l l')
    (hi : ∀ g ∈ l, match g with
      | .attributes a => attributesIn src a
      | .classLike cs => ∀ c ∈ cs, classLikeIn src c)
    (hw : ∀ p ∈ l.flatMap (segmentParts src), ∀ t ∈ p.texts, '\n' ∉ t) :
    l.flatMap (segmentParts src) = l'.flatMap (segmentParts src') := by
  induction h with
  | nil => rfl
  | cons h _ ih =>
    rw [List.flatMap_cons] at hw
    rw [List.flatMap_cons, List.flatMap_cons, ih (fun g hg => hi g (by simp [hg])) fun p hp => hw p (List.mem_append_right _ hp)]
    congr 1
    have hw := fun p hp => hw p (List.mem_append_left _ hp)
    have hi := hi _ (List.mem_cons_self ..)
    cases h with
    | attributes h => exact attributes_same h hi hw
    | classLike h => exact classes_same h hw

theorem selector_same {x x' : Ast.Selector} (h : RSel Q src src' x x') (hi : selectorIn src x) (hw : selectorWithin src x) :
    SameSelector src src' x x' := by
  obtain ⟨h1, h2⟩ := hi
  obtain ⟨w1, w2⟩ := hw
  obtain ⟨r1, r2⟩ := h
  rw [writtenName] at w1
  rw [writtenParts] at w2
  refine ⟨?_, ?_, ?_⟩
  · rw [writtenName, writtenName]
    revert r1 w1
    generalize x.first = f
    generalize x'.first = f'
    intro w1 r1
    cases r1 with
    | attributes _ => rfl
    | tag he _ =>
      cases he with
      | none => rfl
      | some he =>
        cases he with
        | star => rfl
        | name h => dsimp only at w1 ⊢; rw [h.slice.self (w1 _ rfl)]
  · refine .of_eq ?_
    rw [writtenParts, writtenParts, segments_same r2 (fun g hg => ?_) fun p hp => w2 p (List.mem_append_right _ hp)]
    · congr 1
      have w2 := fun p hp => w2 p (List.mem_append_left _ hp)
      revert r1 w2 h1
      generalize x.first = f
      generalize x'.first = f'
      intro h1 r1 w2
      cases r1 with
      | attributes h => exact attributes_same h h1 w2
      | tag _ h => exact classes_same h w2
    · have := h2 g hg
      cases g <;> exact this
  · rw [SelectorOk, SelectorOk]
    refine and_congr ?_ ?_
    · revert r1
      generalize x.first = f
      generalize x'.first = f'
      intro r1
      cases r1 with
      | attributes h => simp only [h.2]
      | tag _ h => exact classesOk_same h
    · clear w2 h2
      revert r2
      generalize x.segments = l
      generalize x'.segments = l'
      intro r2
      induction r2 with
      | nil => simp
      | cons h _ ih =>
        rw [List.forall_mem_cons, List.forall_mem_cons, ih]
        refine and_congr_left' ?_
        cases h with
        | attributes h => simp only [SegmentOk, h.2]
        | classLike h => exact classesOk_same h

variable (c : SpecialTagConfig) {B : Str → Prop}
  (hB : ∀ r r', Sb Q src src' r r' → B (r.slice src) → SameBlock (r.slice src) (r'.slice src'))

include hB

mutual
  theorem type_same {a b : Nat} : ∀ ty ty' : Ast.NodeType, RType Q src src' ty ty' → typeIn src a b ty → typeWithin src B ty → SameType c src src' ty ty'
    | _, _, .multiline h, _, hw => by rw [typeWithin] at hw; exact .multiline (hB _ _ h hw)
    | _, _, .text h, hi, hw => by rw [typeIn] at hi; rw [typeWithin] at hw; exact .text (text_same h hi hw)
    | _, _, .selector h, hi, hw => by rw [typeIn] at hi; rw [typeWithin] at hw; exact .selector (selector_same h hi.2 hw)
    | _, _, .line, _, _ => .line
    | _, _, .block h e, hi, hw => by
      rw [typeIn] at hi; rw [typeWithin] at hw; exact .block (lines_same _ _ h hi.2.2.1 hw) e
    | _, _, .inline h e, hi, hw => by
      unfold typeIn at hi; rw [typeWithin] at hw; exact .inline (nodes_same .top _ _ h hi.2.2.1 hw) e
    | _, _, .special h e, hi, hw => by
      rw [typeIn] at hi; rw [typeWithin] at hw; exact .special (lines_same _ _ h hi.2.2.1 hw) e
    | _, _, .code h, hi, hw => by
      rw [typeIn] at hi; rw [typeWithin] at hw
      exact .code (Sl.same (h.inner hi.2 (by decide) (by decide)) hw)
  theorem nodes_same {lo hi : Nat} : ∀ (st : LineSt) (ns ns' : List Ast.Node), RNodes Q src src' ns ns' → nodesIn src lo hi ns → nodesWithin src B ns →
      SameNodes c src src' st ns ns'
    | _, _, _, .nil, _, _ => .nil
    | st, _, _, .cons hsp hty hns, h, hw => by
      rw [nodesIn] at h
      unfold nodeIn at h
      rw [nodesWithin] at hw
      obtain ⟨⟨h1, _, h2⟩, h3⟩ := h
      refine .cons (fun _ => ?_) (type_same _ _ hty h2 hw.1) (nodes_same _ _ _ hns h3 hw.2)
      cases hsp with
      | none => trivial
      | some h =>
        obtain ⟨x, m, y, x', y', e, e', rfl, rfl, hm⟩ := h
        refine Sl.same (Q := Q) ⟨x, m, y, x', m, y', e, e', .plain hm, rfl, rfl⟩ ?_
        rw [OneLine, e, slice_mid]
        exact hm
  theorem lines_same {lo hi : Nat} : ∀ (ls ls' : List Ast.Line), RLines Q src src' ls ls' → linesIn src lo hi ls → linesWithin src B ls →
      SameLines c src src' ls ls'
    | _, _, .nil, _, _ => .nil
    | _, _, .cons hns hls, h, hw => by
      rw [linesIn] at h
      rw [linesWithin] at hw
      exact .cons (nodes_same .top _ _ hns h.2.1 hw.1) (lines_same _ _ hls h.2.2 hw.2)
end

end Mty.Grammar
