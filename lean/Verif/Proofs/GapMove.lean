import Verif.Proofs.PartsMove
import Verif.Proofs.SqueezeTree

/-! # The same text at two places says the same (for C90) -/

set_option autoImplicit false

namespace Mty.Grammar
open Spec

section
variable {p1 q1 p2 q2 s : Str}

theorem slice_two {r : Range} (h : ValidRange s r) : SameSlice (p1 ++ (s ++ q1)) (p2 ++ (s ++ q2)) (mvR (byteLen p1) r) (mvR (byteLen p2) r) :=
  (slice_mvR (pre := p1) (post := q1) h).symm.trans (slice_mvR h)

theorem inner_two {o c : Str} {r : Range} (h : Delimited s o c r) :
    SameSlice (p1 ++ (s ++ q1)) (p2 ++ (s ++ q2)) ⟨byteLen p1 + r.start + byteLen o, byteLen p1 + r.stop - byteLen c⟩
      ⟨byteLen p2 + r.start + byteLen o, byteLen p2 + r.stop - byteLen c⟩ :=
  (slice_inner (pre := p1) (post := q1) h).symm.trans (slice_inner h)

theorem text_two {lo hi : Nat} : ∀ {t : Ast.InlineText}, inlineTextIn s lo hi t →
    SameText (p1 ++ (s ++ q1)) (p2 ++ (s ++ q2)) (mvText (byteLen p1) t) (mvText (byteLen p2) t)
  | .segment _, h => .segment (slice_two h.1)
  | .verbatim _ raw t, h => by
    refine .verbatim ?_ (by cases raw <;> rfl)
    obtain ⟨_, _, h⟩ := h
    cases t with
    | verbatim0 r => exact inner_two h
    | verbatim1 r => exact inner_two h
    | verbatim2 r => exact inner_two h
  | .comment c, h => .comment (slice_two h.2.2.1.1) (by simp [mvComment])
  | .interpolation _, h => .interpolation (slice_two h.1)

theorem selector_two {x : Ast.Selector} (h : selectorIn s x) :
    SameSelector (p1 ++ (s ++ q1)) (p2 ++ (s ++ q2)) (mvSelector (byteLen p1) x) (mvSelector (byteLen p2) x) := by
  obtain ⟨a1, a2, a3⟩ := sameSelector_mv (pre := p1) (post := q1) h
  obtain ⟨b1, b2, b3⟩ := sameSelector_mv (pre := p2) (post := q2) h
  exact ⟨a1.symm.trans b1, (SameParts.symm a2).trans b2, a3.symm.trans b3⟩

variable (c : SpecialTagConfig)

mutual
  theorem type_two {a b : Nat} : ∀ ty : Ast.NodeType, typeIn s a b ty →
      SameType c (p1 ++ (s ++ q1)) (p2 ++ (s ++ q2)) (mvType (byteLen p1) ty) (mvType (byteLen p2) ty)
    | .multiline _ x y, h => by rw [mvType, mvType]; rw [typeIn] at h; exact .multiline (sameBlock_of (slice_two h.1))
    | .text t, h => by rw [mvType, mvType]; rw [typeIn] at h; exact .text (text_two h)
    | .selector x, h => by rw [mvType, mvType]; rw [typeIn] at h; exact .selector (selector_two h.2)
    | .line _, _ => by rw [mvType, mvType]; exact .line
    | .block l (.mk x ls y) r, h => by
      rw [mvType, mvType, mvContent, mvContent]; rw [typeIn] at h; exact .block (lines_two ls h.2.2.1) (by simp)
    | .inline o ns r, h => by
      rw [mvType, mvType]; unfold typeIn at h; exact .inline (nodes_two .top ns h.2.2.1) (by simp)
    | .special f o (.mk x ls y) r, h => by
      rw [mvType, mvType, mvContent, mvContent]; rw [typeIn] at h; exact .special (lines_two ls h.2.2.1) (by simp)
    | .code r, h => by
      rw [mvType, mvType]; rw [typeIn] at h
      exact .code (inner_two h.2)
  theorem nodes_two {lo hi : Nat} : ∀ (st : LineSt) (ns : List Ast.Node), nodesIn s lo hi ns →
      SameNodes c (p1 ++ (s ++ q1)) (p2 ++ (s ++ q2)) st (mvNodes (byteLen p1) ns) (mvNodes (byteLen p2) ns)
    | _, [], _ => by rw [mvNodes, mvNodes]; exact .nil
    | st, .mk sp a b ty :: ns, h => by
      rw [mvNodes, mvNodes, mvNode, mvNode]
      rw [nodesIn] at h
      unfold nodeIn at h
      obtain ⟨⟨h1, _, h2⟩, h3⟩ := h
      refine .cons (fun _ => ?_) (type_two ty h2) (nodes_two _ ns h3)
      cases sp with
      | none => trivial
      | some r => exact slice_two h1.1
  theorem lines_two {lo hi : Nat} : ∀ (ls : List Ast.Line), linesIn s lo hi ls →
      SameLines c (p1 ++ (s ++ q1)) (p2 ++ (s ++ q2)) (mvLines (byteLen p1) ls) (mvLines (byteLen p2) ls)
    | [], _ => by rw [mvLines, mvLines]; exact .nil
    | .mk a ns b :: ls, h => by
      rw [mvLines, mvLines, mvLine, mvLine]
      rw [linesIn] at h
      exact .cons (nodes_two .top ns h.2.1) (lines_two ls h.2.2)
end
end

/-! ## Blank lines of moved trees -/

section
variable {k : Nat}

mutual
  theorem squeeze_type_mv : ∀ ty : Ast.NodeType, squeezeType (mvType k ty) = mvType k (squeezeType ty)
    | .block l (.mk a lines b) r => by simp only [squeezeType, mvType, mvContent, squeeze_lines_mv]
    | .special f o (.mk a lines b) r => by simp only [squeezeType, mvType, mvContent, squeeze_lines_mv]
    | .inline o ns r => by simp only [squeezeType, mvType, squeeze_nodes_mv]
    | .multiline _ _ _ => by simp only [squeezeType, mvType]
    | .text _ => by simp only [squeezeType, mvType]
    | .selector _ => by simp only [squeezeType, mvType]
    | .line _ => by simp only [squeezeType, mvType]
    | .code _ => by simp only [squeezeType, mvType]
  theorem squeeze_nodes_mv : ∀ ns : List Ast.Node, squeezeNodes (mvNodes k ns) = mvNodes k (squeezeNodes ns)
    | [] => by simp only [squeezeNodes, mvNodes]
    | .mk sp a b ty :: ns => by simp only [squeezeNodes, mvNodes, mvNode, squeeze_type_mv, squeeze_nodes_mv]
  theorem squeeze_lines_mv : ∀ (ls : List Ast.Line) {p : Bool}, squeezeLines p (mvLines k ls) = mvLines k (squeezeLines p ls)
    | [], p => by cases p <;> simp only [squeezeLines, mvLines]
    | .mk a [] b :: ls, p => by
      cases p <;> simp only [squeezeLines, mvLines, mvLine, mvNodes, squeeze_lines_mv]
    | .mk a (n :: ns) b :: ls, p => by
      have h := squeeze_nodes_mv (n :: ns)
      have e : mvNodes k (n :: ns) = mvNode k n :: mvNodes k ns := by rw [mvNodes]
      cases p <;> (simp only [mvLines, mvLine, e, squeezeLines]; rw [← e, h, squeeze_lines_mv])
end

/-- Whether the line before the next one is blank. -/
def endsBlank : Bool → List Ast.Line → Bool
  | p, [] => p
  | _, .mk _ ns _ :: ls => endsBlank ns.isEmpty ls

theorem squeeze_append : ∀ (l m : List Ast.Line) (p : Bool), squeezeLines p (l ++ m) = squeezeLines p l ++ squeezeLines (endsBlank p l) m
  | [], m, p => by cases p <;> simp only [squeezeLines, endsBlank, List.nil_append]
  | .mk a [] b :: l, m, p => by
    cases p <;> simp only [List.cons_append, squeezeLines, endsBlank, squeeze_append l, List.isEmpty_nil]
  | .mk a (n :: ns) b :: l, m, p => by
    cases p <;> simp only [List.cons_append, squeezeLines, endsBlank, squeeze_append l, List.isEmpty_cons]

theorem squeeze_blanks_true : ∀ {B : List Ast.Line}, (∀ l ∈ B, ∃ x y, l = .mk x [] y) → squeezeLines true B = []
  | [], _ => by simp only [squeezeLines]
  | l :: B, h => by
    obtain ⟨x, y, rfl⟩ := h l (List.mem_cons_self ..)
    simp only [squeezeLines]
    exact squeeze_blanks_true fun l hl => h l (List.mem_cons_of_mem _ hl)

theorem endsBlank_blanks : ∀ {B : List Ast.Line} {p : Bool}, (∀ l ∈ B, ∃ x y, l = .mk x [] y) → (B = [] → p = true) → endsBlank p B = true
  | [], _, _, h => h rfl
  | l :: B, _, h, _ => by
    obtain ⟨x, y, rfl⟩ := h l (List.mem_cons_self ..)
    show endsBlank true B = true
    exact endsBlank_blanks (B := B) (p := true) (fun l hl => h l (List.mem_cons_of_mem _ hl)) (fun _ => rfl)

/-- Blank lines between two texts. -/
theorem gap_same {c : SpecialTagConfig} {s s' : Str} {L L' M M' B B' : List Ast.Line} {p : Bool}
    (hB : ∀ l ∈ B, ∃ x y, l = .mk x [] y) (hB' : ∀ l ∈ B', ∃ x y, l = .mk x [] y) (h1 : B ≠ []) (h2 : B' ≠ [])
    (hL : SameLines c s s' L L') (hM : SameLines c s s' M M') :
    SameLines c s s' (L ++ (squeezeLines p B ++ M)) (L' ++ (squeezeLines p B' ++ M')) := by
  have hb : SameLines c s s' (squeezeLines p B ++ M) (squeezeLines p B' ++ M') := by
    cases p with
    | true => rw [squeeze_blanks_true hB, squeeze_blanks_true hB']; exact hM
    | false =>
      cases B with
      | nil => exact absurd rfl h1
      | cons l B =>
        cases B' with
        | nil => exact absurd rfl h2
        | cons l' B' =>
          obtain ⟨x, y, rfl⟩ := hB l (List.mem_cons_self ..)
          obtain ⟨x', y', rfl⟩ := hB' l' (List.mem_cons_self ..)
          simp only [squeezeLines]
          rw [squeeze_blanks_true fun l hl => hB l (List.mem_cons_of_mem _ hl), squeeze_blanks_true fun l hl => hB' l (List.mem_cons_of_mem _ hl)]
          exact .cons .nil hM
  have key : ∀ {A A' N N' : List Ast.Line}, SameLines c s s' A A' → SameLines c s s' N N' → SameLines c s s' (A ++ N) (A' ++ N') := by
    intro A A' N N' h hn
    induction A generalizing A' with
    | nil => cases h; exact hn
    | cons a A ih => cases h with | cons h1 h2 => exact .cons h1 (ih h2)
  exact key hL hb

end

end Mty.Grammar
