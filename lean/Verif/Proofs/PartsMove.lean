import Verif.Proofs.ShiftParse
import Verif.Proofs.Ranges
import Verif.Proofs.SameParts

/-! # Moved trees say the same (for C76) -/

set_option autoImplicit false

namespace Mty.Grammar
open Spec

section
variable {pre s post : Str}

theorem sameBlock_of {x y : Str} (h : x = y) : SameBlock x y := h ▸ .same x

theorem slice_mvR {r : Range} (h : ValidRange s r) : SameSlice s (pre ++ (s ++ post)) r (mvR (byteLen pre) r) := by
  obtain ⟨a, m, b, e, rfl, h1⟩ := h.split
  rw [SameSlice, h1]
  have := slice_mid (pre ++ a) m (b ++ post)
  rw [e]
  simp only [mvR]
  simp only [byteLen_append, List.append_assoc] at this ⊢
  exact this.symm

/-- The text between delimiters. -/
theorem slice_inner {o c : Str} {r : Range} (h : Delimited s o c r) :
    SameSlice s (pre ++ (s ++ post)) ⟨r.start + byteLen o, r.stop - byteLen c⟩
      ⟨byteLen pre + r.start + byteLen o, byteLen pre + r.stop - byteLen c⟩ := by
  obtain ⟨a, m, b, e, rfl⟩ := h
  have hv : ValidRange s ⟨byteLen a + byteLen o, byteLen (a ++ (o ++ (m ++ c))) - byteLen c⟩ := by
    refine ⟨?_, ⟨a ++ o, m ++ (c ++ b), ?_, ?_⟩, ⟨a ++ (o ++ m), c ++ b, ?_, ?_⟩⟩
    · simp only [byteLen_append]; omega
    · rw [e]; simp
    · rw [byteLen_append]
    · rw [e]; simp
    · simp only [byteLen_append]; omega
  have := slice_mvR (pre := pre) (post := post) hv
  rw [mvR] at this
  convert this using 2
  · simp only [byteLen_append]; omega
  · simp only [byteLen_append]; omega

theorem sameText_mv {lo hi : Nat} : ∀ {t : Ast.InlineText}, inlineTextIn s lo hi t → SameText s (pre ++ (s ++ post)) t (mvText (byteLen pre) t)
  | .segment _, h => .segment (slice_mvR h.1)
  | .verbatim _ raw t, h => by
    refine .verbatim ?_ (by cases raw <;> rfl)
    obtain ⟨_, _, h⟩ := h
    cases t with
    | verbatim0 r => exact slice_inner h
    | verbatim1 r => exact slice_inner h
    | verbatim2 r => exact slice_inner h
  | .comment c, h => .comment (slice_mvR h.2.2.1.1) (by simp [mvComment])
  | .interpolation _, h => .interpolation (slice_mvR h.1)

theorem valueText_mv {v : Ast.AttributeValue} (h : match v with
      | .unquoted r => ValidRange s r
      | .quoted r => ∃ q : Char, q ∈ ['"', '\''] ∧ Delimited s [q] [q] r) :
    valueText s v = valueText (pre ++ (s ++ post)) (mvValue (byteLen pre) v) := by
  cases v with
  | unquoted r => exact slice_mvR h
  | quoted r =>
    obtain ⟨q, hq, hd⟩ := h
    have hb : byteLen [q] = 1 := by
      simp only [List.mem_cons, List.not_mem_nil, or_false] at hq
      rcases hq with rfl | rfl <;> decide
    have := slice_inner (pre := pre) (post := post) hd
    rw [hb] at this
    exact this

theorem attributeParts_mv {a : Ast.AttributeSelector} (h : attributesIn s a) :
    attributeParts s a = attributeParts (pre ++ (s ++ post)) (mvAttributes (byteLen pre) a) := by
  rw [attributeParts, attributeParts, mvAttributes, List.map_map]
  refine List.map_congr_left fun p hp => ?_
  obtain ⟨_, h1, h2⟩ := h.2.2.1 p hp
  simp only [Function.comp, mvAttribute]
  have e1 : p.name.slice s = _ := slice_mvR (pre := pre) (post := post) h1
  rw [e1]
  cases hv : p.value with
  | none => rfl
  | some v =>
    rw [hv] at h2
    simp only [Option.map]
    rw [valueText_mv (pre := pre) (post := post) (v := v)]
    cases v <;> exact h2

theorem classParts_mv : ∀ {l : List Ast.ClassLike}, (∀ c ∈ l, classLikeIn s c) →
    classParts s l = classParts (pre ++ (s ++ post)) (l.map (mvClass (byteLen pre)))
  | [], _ => rfl
  | c :: l, h => by
    have ih := classParts_mv fun x hx => h x (List.mem_cons_of_mem c hx)
    have hc := h c (by simp)
    cases c with
    | cls a b =>
      have e : b.slice s = _ := slice_mvR (pre := pre) (post := post) hc.2
      rw [List.map_cons, mvClass, classParts, classParts, ih, e]
    | id a b =>
      have e : b.slice s = _ := slice_mvR (pre := pre) (post := post) hc.2
      rw [List.map_cons, mvClass, classParts, classParts, ih, e]
    | invalid r => rw [List.map_cons, mvClass, classParts, classParts, ih]

theorem classOk_mv {k : Nat} {l : List Ast.ClassLike} : (∀ i ∈ l, ClassLikeOk i) ↔ ∀ i ∈ l.map (mvClass k), ClassLikeOk i := by
  rw [List.forall_mem_map]
  refine forall₂_congr fun i _ => ?_
  cases i <;> rfl

theorem sameSelector_mv {x : Ast.Selector} (h : selectorIn s x) : SameSelector s (pre ++ (s ++ post)) x (mvSelector (byteLen pre) x) := by
  obtain ⟨h1, h2⟩ := h
  refine ⟨?_, ?_, ?_⟩
  · rw [writtenName, writtenName, mvSelector]
    cases hf : x.first with
    | attributes a => rfl
    | tag e cs =>
      cases e with
      | none => rfl
      | some e =>
        cases e with
        | star r => rfl
        | name r =>
          rw [hf] at h1
          have e : r.slice s = _ := slice_mvR (pre := pre) (post := post) h1.2
          simp only [mvStart, Option.map, mvElement]
          rw [e]
  · refine .of_eq ?_
    rw [writtenParts, writtenParts, mvSelector]
    dsimp only
    have e2 : x.segments.flatMap (segmentParts s) =
        (x.segments.map (mvSegment (byteLen pre))).flatMap (segmentParts (pre ++ (s ++ post))) := by
      rw [List.flatMap_map]
      refine List.flatMap_congr fun g hg => ?_
      have := h2 g hg
      cases g with
      | attributes a => exact attributeParts_mv this
      | classLike cs => exact classParts_mv this
    rw [e2]
    congr 1
    cases hf : x.first with
    | attributes a => rw [hf] at h1; exact attributeParts_mv h1
    | tag e cs => rw [hf] at h1; exact classParts_mv h1.1
  · rw [SelectorOk, SelectorOk, mvSelector]
    dsimp only
    refine and_congr ?_ ?_
    · cases hf : x.first with
      | attributes a => simp only [mvStart, mvAttributes, Option.isSome_map]
      | tag e cs => exact classOk_mv
    · rw [List.forall_mem_map]
      refine forall₂_congr fun g _ => ?_
      cases g with
      | attributes a => simp only [mvSegment, mvAttributes, SegmentOk, Option.isSome_map]
      | classLike cs => exact classOk_mv

variable (c : SpecialTagConfig)

mutual
  theorem sameType_mv {a b : Nat} : ∀ ty : Ast.NodeType, typeIn s a b ty → SameType c s (pre ++ (s ++ post)) ty (mvType (byteLen pre) ty)
    | .multiline _ x y, h => by rw [mvType]; rw [typeIn] at h; exact .multiline (sameBlock_of (slice_mvR h.1))
    | .text t, h => by rw [mvType]; rw [typeIn] at h; exact .text (sameText_mv h)
    | .selector x, h => by rw [mvType]; rw [typeIn] at h; exact .selector (sameSelector_mv h.2)
    | .line _, _ => by rw [mvType]; exact .line
    | .block l (.mk x ls y) r, h => by
      rw [mvType, mvContent]; rw [typeIn] at h; exact .block (sameLines_mv ls h.2.2.1) (by simp)
    | .inline o ns r, h => by
      rw [mvType]; unfold typeIn at h; exact .inline (sameNodes_mv .top ns h.2.2.1) (by simp)
    | .special f o (.mk x ls y) r, h => by
      rw [mvType, mvContent]; rw [typeIn] at h; exact .special (sameLines_mv ls h.2.2.1) (by simp)
    | .code r, h => by
      rw [mvType]; rw [typeIn] at h
      exact .code (slice_inner h.2)
  theorem sameNodes_mv {lo hi : Nat} : ∀ (st : LineSt) (ns : List Ast.Node), nodesIn s lo hi ns →
      SameNodes c s (pre ++ (s ++ post)) st ns (mvNodes (byteLen pre) ns)
    | _, [], _ => by rw [mvNodes]; exact .nil
    | st, .mk sp a b ty :: ns, h => by
      rw [mvNodes, mvNode]
      rw [nodesIn] at h
      unfold nodeIn at h
      obtain ⟨⟨h1, _, h2⟩, h3⟩ := h
      refine .cons (fun _ => ?_) (sameType_mv ty h2) (sameNodes_mv _ ns h3)
      cases sp with
      | none => trivial
      | some r => exact slice_mvR h1.1
  theorem sameLines_mv {lo hi : Nat} : ∀ (ls : List Ast.Line), linesIn s lo hi ls →
      SameLines c s (pre ++ (s ++ post)) ls (mvLines (byteLen pre) ls)
    | [], _ => by rw [mvLines]; exact .nil
    | .mk a ns b :: ls, h => by
      rw [mvLines, mvLine]
      rw [linesIn] at h
      exact .cons (sameNodes_mv .top ns h.2.1) (sameLines_mv ls h.2.2)
end

theorem shape_mv {k : Nat} : ∀ n : Ast.Node, nodeShape (mvNode k n) = nodeShape n
  | .mk _ _ _ (.multiline _ _ _) => by rw [mvNode, mvType]; rfl
  | .mk _ _ _ (.text t) => by rw [mvNode, mvType]; cases t <;> rfl
  | .mk _ _ _ (.selector _) => by rw [mvNode, mvType]; rfl
  | .mk _ _ _ (.line _) => by rw [mvNode, mvType]; rfl
  | .mk _ _ _ (.block _ (.mk _ _ _) _) => by rw [mvNode, mvType]; rfl
  | .mk _ _ _ (.inline _ _ _) => by rw [mvNode, mvType]; rfl
  | .mk _ _ _ (.special _ _ (.mk _ _ _) _) => by rw [mvNode, mvType]; rfl
  | .mk _ _ _ (.code _) => by rw [mvNode, mvType]; rfl

end

theorem mvNodes_map {k : Nat} : ∀ ns : List Ast.Node, mvNodes k ns = ns.map (mvNode k)
  | [] => by rw [mvNodes]; rfl
  | n :: ns => by rw [mvNodes, mvNodes_map ns]; rfl

end Mty.Grammar
