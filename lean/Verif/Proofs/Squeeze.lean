import Verif.Proofs.SameBuild
import Verif.Spec.BlankLines

/-! # Documents of syntax trees without repeated blank lines (for C90) -/

set_option autoImplicit false

namespace Mty
open Spec

namespace Squeeze
open Same (SelSim tyKind tyKind_standard delimKind all_invisible exists_visible not_plain)

/-- The end of a paragraph. -/
def IsSep (n : Node) : Prop := ∃ r, n = .text r (.space .paragraphEnd)

section
variable (src : Str)

mutual
  /-- Nodes that are the same apart from positions and repeated ends of paragraphs inside. -/
  inductive Thin : Node → Node → Prop
    | text {r r' t} : Thin (.text r t) (.text r' t)
    | elem {r r' h h' ch ch'} : List.Forall₂ (SelSim src src) h.selectors h'.selectors → tyKind h.ty = tyKind h'.ty →
        h.formatInline = h'.formatInline → h.isRaw = h'.isRaw → Kids false ch ch' → Thin (.elem r h ch) (.elem r' h' ch')
  /-- The second list has fewer ends of paragraphs in a row. The first argument says whether there is an end of a paragraph before. -/
  inductive Kids : Bool → List Node → List Node → Prop
    | nil {p} : Kids p [] []
    | cons {p q n n' ns ns'} : (q = true → IsSep n) → Thin n n' → Kids q ns ns' → Kids p (n :: ns) (n' :: ns')
    | drop {r ns ns'} : Kids true ns ns' → Kids true (.text r (.space .paragraphEnd) :: ns) ns'
end

abbrev Thins := List.Forall₂ (Thin src)
end

section
variable {src : Str}

theorem kids_weaken {p : Bool} {a b : List Node} (h : Kids src false a b) : Kids src p a b := by
  generalize hq : false = q at h
  cases h with
  | nil => exact .nil
  | cons h1 h2 h3 => exact .cons h1 h2 h3
  | drop => cases hq

theorem kids_thins {a b : List Node} (h : Thins src a b) : ∀ p, Kids src p a b := by
  induction h with
  | nil => intro p; exact .nil
  | cons h1 _ ih => intro p; exact .cons (q := false) (by simp) h1 (ih false)

theorem kids_append_aux : ∀ {p : Bool} {a b : List Node}, Kids src p a b → ∀ {c d : List Node}, (∀ q, Kids src q c d) → Kids src p (a ++ c) (b ++ d)
  | _, _, _, .nil, _, _, h => h _
  | _, _, _, .cons h1 h2 h3, _, _, h => .cons h1 h2 (kids_append_aux h3 h)
  | _, _, _, .drop h1, _, _, h => .drop (kids_append_aux h1 h)

theorem thins_kids {a b c d : List Node} (h : Thins src a b) (h' : Kids src false c d) (p : Bool) : Kids src p (a ++ c) (b ++ d) :=
  kids_append_aux (kids_thins h p) fun _ => kids_weaken h'

theorem thin_visible {n n' : Node} (h : Thin src n n') : n.isVisible = n'.isVisible := by
  cases h with
  | @text _ _ t => cases t <;> rfl
  | elem => rfl

theorem thins_any {a a' : List Node} (h : Thins src a a') : a.any Node.isVisible = a'.any Node.isVisible := by
  induction h with
  | nil => rfl
  | cons h1 _ ih => simp [thin_visible h1, ih]

theorem thins_append {a b c d : List Node} (h : Thins src a b) (h' : Thins src c d) : Thins src (a ++ c) (b ++ d) := List.rel_append h h'

theorem thins_refl_space (sp : Option Range) : Thins src (spaceBefore sp) (spaceBefore sp) := by
  cases sp
  · exact .nil
  · exact .cons .text .nil

theorem thins_snoc {a a' : List Node} {x x' : Node} (h : Thins src (a ++ [x]) (a' ++ [x'])) : Thins src a a' ∧ Thin src x x' := by
  obtain ⟨h1, h2⟩ := Same.forall2_split h (by simpa using h.length_eq)
  cases h2 with
  | cons h2 _ => exact ⟨h1, h2⟩

theorem thins_split {pre post : List Node} {x : Node} : ∀ {l : List Node}, Thins src (pre ++ x :: post) l →
    ∃ pre' x' post', l = pre' ++ x' :: post' ∧ Thins src pre pre' ∧ Thin src x x' ∧ Thins src post post' := by
  induction pre with
  | nil => intro l h; cases h with | cons h1 h2 => exact ⟨[], _, _, rfl, .nil, h1, h2⟩
  | cons y pre ih =>
    intro l h
    cases h with
    | cons h1 h2 =>
      obtain ⟨p, x', q, rfl, h3, h4⟩ := ih h2
      exact ⟨_ :: p, x', q, rfl, .cons h1 h3, h4⟩

theorem thins_split' {pre post : List Node} {x : Node} : ∀ {l : List Node}, Thins src l (pre ++ x :: post) →
    ∃ pre' x' post', l = pre' ++ x' :: post' ∧ Thins src pre' pre ∧ Thin src x' x ∧ Thins src post' post := by
  induction pre with
  | nil => intro l h; cases h with | cons h1 h2 => exact ⟨[], _, _, rfl, .nil, h1, h2⟩
  | cons y pre ih =>
    intro l h
    cases h with
    | cons h1 h2 =>
      obtain ⟨p, x', q, rfl, h3, h4⟩ := ih h2
      exact ⟨_ :: p, x', q, rfl, .cons h1 h3, h4⟩

/-- The first visible node of two lists. -/
theorem thins_first {pre pre' post post' : List Node} {x x' : Node} (h : Thins src (pre ++ x :: post) (pre' ++ x' :: post'))
    (h1 : ∀ n ∈ pre, n.isVisible = false) (h2 : x.isVisible = true) (h3 : ∀ n ∈ pre', n.isVisible = false) (h4 : x'.isVisible = true) :
    Thins src pre pre' ∧ Thin src x x' ∧ Thins src post post' := by
  induction pre generalizing pre' with
  | nil =>
    cases pre' with
    | nil => cases h with | cons h5 h6 => exact ⟨.nil, h5, h6⟩
    | cons y pre' =>
      cases h with
      | cons h5 h6 =>
        have := h3 y (List.mem_cons_self ..)
        rw [← thin_visible h5, h2] at this
        cases this
  | cons z pre ih =>
    cases pre' with
    | nil =>
      cases h with
      | cons h5 h6 =>
        have := h1 z (List.mem_cons_self ..)
        rw [thin_visible h5, h4] at this
        cases this
    | cons y pre' =>
      cases h with
      | cons h5 h6 =>
        obtain ⟨h7, h8⟩ := ih h6 (fun n hn => h1 n (List.mem_cons_of_mem _ hn)) (fun n hn => h3 n (List.mem_cons_of_mem _ hn))
        exact ⟨.cons h5 h7, h8⟩

theorem thin_block {n n' : Node} (h : Thin src n n') : isBlockLevel n ↔ isBlockLevel n' := by
  cases h with
  | text => simp [isBlockLevel]
  | @elem r r' h h' _ _ _ h2 =>
    have : ∀ t t' : ElementType, tyKind t = tyKind t' →
        ((match t with | .standard _ => True | .multiline .code => True | _ => False : Prop) ↔
          (match t' with | .standard _ => True | .multiline .code => True | _ => False : Prop)) := by
      intro t t' h
      cases t <;> cases t' <;> simp_all [tyKind]
    exact this _ _ h2

theorem thin_continues {n n' : Node} (h : Thin src n n') : Continues n ↔ Continues n' := by
  cases h with
  | text => simp [Continues]
  | @elem r r' h h' _ _ _ h2 =>
    simp only [Continues]
    generalize h.ty = t at *
    generalize h'.ty = t' at *
    cases t with
    | standard d =>
      obtain ⟨d', rfl, hd⟩ := tyKind_standard h2
      cases d <;> cases d' <;> simp_all [delimKind]
    | _ => cases t' <;> simp_all [tyKind]

theorem thins_starts {a a' : List Node} (h : Thins src a a') : StartsWithElement a ↔ StartsWithElement a' := by
  constructor
  · rintro ⟨pre, n, post, rfl, h1, h2, h3⟩
    obtain ⟨pre', n', post', rfl, h4, h5, h6⟩ := thins_split h
    refine ⟨pre', n', post', rfl, ?_, by rw [← thin_visible h5]; exact h2, (thin_block h5).1 h3⟩
    rw [all_invisible, ← thins_any h4, ← all_invisible]
    exact h1
  · rintro ⟨pre, n, post, rfl, h1, h2, h3⟩
    obtain ⟨pre', n', post', rfl, h4, h5, h6⟩ := thins_split' h
    refine ⟨pre', n', post', rfl, ?_, by rw [thin_visible h5]; exact h2, (thin_block h5).2 h3⟩
    rw [all_invisible, thins_any h4, ← all_invisible]
    exact h1

/-! ## Layout -/

/-- The same lines, without blank lines after a blank line. The first argument says whether the line before is blank. -/
inductive LinesThin (src : Str) : Bool → List SrcLine → List SrcLine → Prop
  | nil {p} : LinesThin src p [] []
  | keep {a b ls ls'} : LinesThin src true ls ls' → LinesThin src false (.blank a :: ls) (.blank b :: ls')
  | drop {a ls ls'} : LinesThin src true ls ls' → LinesThin src true (.blank a :: ls) ls'
  | line {p a b a' b' ns ns' ls ls'} : Thins src ns ns' → LinesThin src false ls ls' → LinesThin src p (.line a b ns :: ls) (.line a' b' ns' :: ls')

theorem endsRun_blank {a : Nat} {ls : List SrcLine} : EndsRun (.blank a :: ls) := fun h => h

/-- The runs of two lists of lines. -/
theorem runs_thin : ∀ {run rest run' rest' : List SrcLine}, LinesThin src false (run ++ rest) (run' ++ rest') →
    (∀ l ∈ run, l.isText) → EndsRun rest → (∀ l ∈ run', l.isText) → EndsRun rest' →
    List.Forall₂ (fun l l' => ∃ a b a' b' ns ns', l = SrcLine.line a b ns ∧ l' = SrcLine.line a' b' ns' ∧ Thins src ns ns') run run' ∧
      LinesThin src false rest rest'
  | [], rest, [], rest', h, _, _, _, _ => ⟨.nil, h⟩
  | [], rest, y :: run', rest', h, _, h2, h3, _ => by
    exfalso
    have h3 := h3 y (List.mem_cons_self ..)
    generalize hp : false = p at h
    rw [List.nil_append, List.cons_append] at h
    cases h with
    | keep => exact h3
    | drop => cases hp
    | line h _ => exact h2 (fun k => h3 ((thins_starts h).1 k))
  | x :: run, rest, [], rest', h, h1, _, _, h4 => by
    exfalso
    have h1 := h1 x (List.mem_cons_self ..)
    generalize hp : false = p at h
    rw [List.nil_append, List.cons_append] at h
    cases h with
    | keep => exact h1
    | drop => cases hp
    | line h _ => exact h4 (fun k => h1 ((thins_starts h).2 k))
  | x :: run, rest, y :: run', rest', h, h1, h2, h3, h4 => by
    have t1 := h1 x (List.mem_cons_self ..)
    generalize hp : false = p at h
    rw [List.cons_append, List.cons_append] at h
    cases h with
    | keep => exact t1.elim
    | drop => cases hp
    | line h5 h6 =>
      obtain ⟨h7, h8⟩ := runs_thin h6 (fun l hl => h1 l (List.mem_cons_of_mem _ hl)) h2 (fun l hl => h3 l (List.mem_cons_of_mem _ hl)) h4
      exact ⟨.cons ⟨_, _, _, _, _, _, rfl, rfl, h5⟩ h7, hp ▸ h8⟩

theorem joined_thin {e e1 : Nat} {n m : Node} {run : List SrcLine} (h : Joined e n run e1 m) :
    ∀ {e' e1' : Nat} {n' m' : Node} {run' : List SrcLine}, Joined e' n' run' e1' m' → Thin src n n' →
      List.Forall₂ (fun l l' => ∃ a b a' b' ns ns', l = SrcLine.line a b ns ∧ l' = SrcLine.line a' b' ns' ∧ Thins src ns ns') run run' →
      Thin src m m' := by
  induction h with
  | nil =>
    intro e' e1' n' m' run' h' hn hr
    cases hr
    cases h'
    exact hn
  | @cons e e' r h ch a b nodes run n' hj ih =>
    intro e' e1' n' m' run' h' hn hr
    cases hr with
    | cons hl hr =>
      obtain ⟨_, _, _, _, _, _, hx, rfl, hl⟩ := hl
      cases hx
      cases h' with
      | cons hj' =>
        refine ih hj' ?_ hr
        cases hn with
        | elem h1 h2 h3 h4 h5 =>
          exact .elem h1 h2 h3 h4 (kids_append_aux h5 fun q => kids_thins (.cons .text hl) q)

theorem sep_thin (b : Bool) (e e' a a' : Nat) : Thins src (if b then [paragraphSep e a] else []) (if b then [paragraphSep e' a'] else []) := by
  cases b
  · exact .nil
  · exact .cons .text .nil

theorem plain_iff {a a' : List Node} (h : Thins src a a') :
    (StartsWithElement a ∨ ∀ n ∈ a, n.isVisible = false) ↔ (StartsWithElement a' ∨ ∀ n ∈ a', n.isVisible = false) := by
  rw [thins_starts h, all_invisible, all_invisible, thins_any h]

theorem paragraph_new {a b a' b' : Nat} {ns ns' : List Node} (h : Thins src ns ns') :
    Thin src (.elem ⟨a, b⟩ (EHead.new ⟨a, b⟩ .paragraph) ns) (.elem ⟨a', b'⟩ (EHead.new ⟨a', b'⟩ .paragraph) ns') :=
  .elem .nil rfl rfl rfl (kids_thins h _)

theorem line_inv {p : Bool} {a b : Nat} {ns : List Node} {ls ls' : List SrcLine} (h : LinesThin src p (.line a b ns :: ls) ls') :
    ∃ a' b' ns' l', ls' = .line a' b' ns' :: l' ∧ Thins src ns ns' ∧ LinesThin src false ls l' := by
  cases h with
  | line h1 h2 => exact ⟨_, _, _, _, rfl, h1, h2⟩

theorem thins_nil {b : List Node} (h : Thins src [] b) : b = [] := by cases h; rfl

theorem thins_nil' {a : List Node} (h : Thins src a []) : a = [] := by cases h; rfl

theorem layout_thin {par before : Bool} {e : Nat} {ls : List SrcLine} {out : List Node} (h : Layout par before e ls out) :
    ∀ {p : Bool} {e' : Nat} {ls' : List SrcLine} {out' : List Node}, Layout par before e' ls' out' → LinesThin src p ls ls' →
      Kids src p out out' := by
  induction h with
  | nil =>
    intro p e' ls' out' h' hf
    cases hf
    cases h'
    exact .nil
  | blank _ ih =>
    intro p e' ls' out' h' hf
    cases hf with
    | keep hf =>
      cases h' with
      | blank h' => exact .cons (q := true) (fun _ => ⟨_, rfl⟩) .text (ih h' hf)
    | drop hf => exact .drop (ih h' hf)
  | empty _ ih =>
    intro p e' ls' out' h' hf
    obtain ⟨a', b', ns', l', rfl, k1, k2⟩ := line_inv hf
    have := thins_nil k1
    subst this
    generalize hx : SrcLine.line a' b' [] :: l' = X at h'
    cases h' with
    | empty h' => cases hx; exact kids_weaken (ih h' k2)
    | nil => cases hx
    | blank _ => cases hx
    | paragraph _ _ hv =>
      rw [List.cons_append] at hx
      cases hx
      simp at hv
    | continued =>
      rw [List.cons_append] at hx
      have := (List.cons.inj hx).1
      simp at this
    | other =>
      have := (List.cons.inj hx).1
      simp at this
  | paragraph hp hs hv ht he hj _ ih =>
    intro p e' ls' out' h' hf
    rw [List.cons_append] at hf
    obtain ⟨a', b', ns', l', rfl, k1, k2⟩ := line_inv hf
    generalize hx : SrcLine.line a' b' ns' :: l' = X at h'
    cases h' with
    | paragraph hp' hs' hv' ht' he' hj' h' =>
      rw [List.cons_append] at hx
      cases hx
      obtain ⟨h1, h2⟩ := runs_thin k2 ht he ht' he'
      exact thins_kids (sep_thin ..) (.cons (q := false) (by simp) (joined_thin hj hj' (paragraph_new k1) h1) (ih h' h2)) _
    | nil => cases hx
    | blank _ => cases hx
    | empty _ => cases hx; rw [thins_nil' k1] at hv; simp at hv
    | continued hn =>
      rw [List.cons_append] at hx
      cases hx
      exact (not_plain hs hv ((plain_iff k1).2 (hn hp))).elim
    | other hn => cases hx; exact (not_plain hs hv ((plain_iff k1).2 (hn hp))).elim
  | continued hn hc ht he hj _ ih =>
    intro p e' ls' out' h' hf
    rw [List.cons_append] at hf
    obtain ⟨a', b', ns', l', rfl, k1, k2⟩ := line_inv hf
    generalize hx : SrcLine.line a' b' ns' :: l' = X at h'
    cases h' with
    | continued hn' hc' ht' he' hj' h' =>
      rw [List.cons_append] at hx
      cases hx
      obtain ⟨h1, h2⟩ := runs_thin k2 ht he ht' he'
      obtain ⟨h3, h4⟩ := thins_snoc k1
      exact thins_kids (thins_append (sep_thin ..) h3) (.cons (q := false) (by simp) (joined_thin hj hj' h4 h1) (ih h' h2)) _
    | nil => cases hx
    | blank _ => cases hx
    | empty _ => cases hx; have := thins_nil' k1; simp at this
    | paragraph hp hs hv =>
      rw [List.cons_append] at hx
      cases hx
      exact (not_plain hs hv ((plain_iff k1).1 (hn hp))).elim
    | other _ hc' => cases hx; exact absurd ((thin_continues (thins_snoc k1).2).1 hc) hc'
  | other hn hc _ ih =>
    intro p e' ls' out' h' hf
    obtain ⟨a', b', ns', l', rfl, k1, k2⟩ := line_inv hf
    generalize hx : SrcLine.line a' b' ns' :: l' = X at h'
    cases h' with
    | other hn' hc' h' =>
      cases hx
      rw [← thins_any k1] at h'
      obtain ⟨h3, h4⟩ := thins_snoc k1
      exact thins_kids (thins_append (sep_thin ..) h3) (.cons (q := false) (by simp) h4 (ih h' k2)) _
    | nil => cases hx
    | blank _ => cases hx
    | empty _ => cases hx; have := thins_nil' k1; simp at this
    | paragraph hp hs hv =>
      rw [List.cons_append] at hx
      cases hx
      exact (not_plain hs hv ((plain_iff k1).1 (hn hp))).elim
    | continued _ hc' =>
      rw [List.cons_append] at hx
      cases hx
      exact absurd ((thin_continues (thins_snoc k1).2).2 hc') hc

/-! ## Items and lines -/

theorem squeeze_item {ty : Ast.NodeType} (h : IsItem ty) : IsItem (squeezeType ty) := by
  cases ty with
  | block l c r => cases c; exact h
  | special f o c r => cases c; exact h
  | _ => exact h

theorem squeeze_begins {ns : List Ast.Node} (h : BeginsContent ns) : BeginsContent (squeezeNodes ns) := by
  cases ns with
  | nil => simp only [squeezeNodes]; exact h
  | cons n ns =>
    obtain ⟨sp, a, b, ty⟩ := n
    simp only [squeezeNodes]
    cases ty with
    | block l c r => cases c; exact h
    | special f o c r => cases c; exact h
    | _ => exact h

theorem selector_thin {s : Ast.Selector} {t t' : Selector} (h1 : SelectorIs src s t) (h2 : SelectorIs src s t') : SelSim src src t t' := by
  refine ⟨?_, ?_⟩
  · rw [Structure.selector_name h1, Structure.selector_name h2]
  · rw [h1.2.1, h2.2.1]; exact .of_eq rfl

theorem text_thin {t : Ast.InlineText} {n n' : Node} (h1 : TextIs t n) (h2 : TextIs t n') : Thin src n n' := by
  obtain rfl := h1
  obtain rfl := h2
  cases t <;> exact .text

mutual
  theorem item_thin : ∀ {rg : Range} {ty : Ast.NodeType} {ns : List Node}, ItemIs src rg ty ns →
      ∀ {rg' : Range} {ns' : List Node}, ItemIs src rg' (squeezeType ty) ns' → Thins src ns ns'
    | _, _, _, .text ht, _, _, h' => by
      simp only [squeezeType] at h'
      cases h' with | text ht' => exact .cons (text_thin ht ht') .nil
    | _, _, _, .multiline hl, _, _, h' => by
      simp only [squeezeType] at h'
      cases h' with
      | multiline hl' =>
        obtain rfl := hl
        obtain rfl := hl'
        exact .cons (.elem .nil rfl rfl rfl (.cons (q := false) (by simp) .text .nil)) .nil
    | _, _, _, .code hl, _, _, h' => by
      simp only [squeezeType] at h'
      cases h' with
      | code hl' =>
        obtain rfl := hl
        obtain rfl := hl'
        exact .cons (.elem .nil rfl rfl rfl (.cons (q := false) (by simp) .text .nil)) .nil
    | _, _, _, .special (.mk hl hlay), _, _, h' => by
      have ih1 := @lines_thin _ _ hl
      simp only [squeezeType] at h'
      cases h' with
      | special h' =>
        cases h' with
        | mk hl' hlay' => exact .cons (.elem .nil rfl rfl rfl (layout_thin hlay hlay' (ih1 hl'))) .nil
    | _, _, _, .block (.mk hl hlay), _, _, h' => by
      have ih1 := @lines_thin _ _ hl
      simp only [squeezeType] at h'
      cases h' with
      | block h' =>
        cases h' with
        | mk hl' hlay' => exact .cons (.elem .nil rfl rfl rfl (layout_thin hlay hlay' (ih1 hl'))) .nil
    | _, _, _, .inlineElement hl hpre hd, _, _, h' => by
      have ih := @line_thin _ _ _ hl
      simp only [squeezeType] at h'
      cases h' with
      | inlineElement hl' hpre' hd' =>
        have ih := (ih hl').1
        obtain ⟨h1, h2, h3⟩ := thins_first ih hpre rfl hpre' rfl
        refine thins_append h1 (.cons ?_ h3)
        cases h2 with
        | elem k1 k2 k3 k4 k5 =>
          rw [hd, hd'] at k2
          simp only [tyKind, ElementType.standard.injEq] at k2
          exact .elem k1 (by simp [tyKind, k2]) k3 k4 k5
      | inlineText hl' hno =>
        have ih := (ih hl').1
        obtain ⟨pre', x', post', rfl, h1, h2, h3⟩ := thins_split ih
        refine absurd ⟨?_, ?_⟩ (hno pre' x' post' rfl)
        · rw [all_invisible, ← thins_any h1, ← all_invisible]; exact hpre
        · cases h2 with
          | elem k1 k2 k3 k4 k5 =>
            rw [hd] at k2
            obtain ⟨d', hd', _⟩ := tyKind_standard k2
            exact ⟨_, _, _, _, rfl, hd'⟩
    | _, _, _, .inlineText hl hno, _, _, h' => by
      have ih := @line_thin _ _ _ hl
      simp only [squeezeType] at h'
      cases h' with
      | inlineElement hl' hpre' hd' =>
        have ih := (ih hl').1
        obtain ⟨pre', x', post', rfl, h1, h2, h3⟩ := thins_split' ih
        refine absurd ⟨?_, ?_⟩ (hno pre' x' post' rfl)
        · rw [all_invisible, thins_any h1, ← all_invisible]; exact hpre'
        · cases h2 with
          | elem k1 k2 k3 k4 k5 =>
            rw [hd'] at k2
            obtain ⟨d', hd', _⟩ := tyKind_standard k2.symm
            exact ⟨_, _, _, _, rfl, hd'⟩
      | inlineText hl' hno' => exact .cons (.elem .nil rfl rfl rfl (kids_thins (ih hl').1 _)) .nil
  theorem lines_thin : ∀ {lines : List Ast.Line} {ls : List SrcLine}, LinesAre src lines ls →
      ∀ {p : Bool} {ls' : List SrcLine}, LinesAre src (squeezeLines p lines) ls' → LinesThin src p ls ls'
    | _, _, .nil, p, _, h' => by cases p <;> (simp only [squeezeLines] at h'; cases h'; exact .nil)
    | _, _, .blank hl, p, _, h' => by
      have ih := @lines_thin _ _ hl
      cases p with
      | false =>
        simp only [squeezeLines] at h'
        cases h' with | blank hl' => exact .keep (ih hl')
      | true =>
        simp only [squeezeLines] at h'
        exact .drop (ih h')
    | _, _, .line (n := n) hn hl, p, _, h' => by
      have ih := @line_thin _ _ _ hn
      have ih2 := @lines_thin _ _ hl
      obtain ⟨sp, x, y, ty⟩ := n
      have e : ∀ a b ns ls, squeezeLines p (.mk a (.mk sp x y ty :: ns) b :: ls) = .mk a (squeezeNodes (.mk sp x y ty :: ns)) b :: squeezeLines false ls := by
        intro a b ns ls
        cases p <;> simp only [squeezeLines]
      rw [e] at h'
      simp only [squeezeNodes] at h' ih
      cases h' with
      | line hn' hl' => exact .line (ih hn').1 (ih2 hl')
  theorem line_thin : ∀ {ns : List Ast.Node} {out : List Node} {rest : List Ast.Node}, LineIs src ns out rest →
      ∀ {out' : List Node} {rest' : List Ast.Node}, LineIs src (squeezeNodes ns) out' rest' → Thins src out out' ∧ rest' = squeezeNodes rest
    | _, _, _, .nil, _, _, h' => by
      simp only [squeezeNodes] at h'
      cases h'
      exact ⟨.nil, by simp only [squeezeNodes]⟩
    | _, _, _, .item hi hit hl, _, _, h' => by
      have ih1 := @line_thin _ _ _ hl
      have ih2 := @item_thin _ _ _ hit
      have hi := squeeze_item hi
      simp only [squeezeNodes] at h'
      generalize squeezeType _ = ty' at *
      cases h' with
      | item hi' hit' hl' =>
        have i1 := ih1 hl'
        exact ⟨thins_append (thins_append (thins_refl_space _) (ih2 hit')) i1.1, i1.2⟩
      | selector => exact absurd hi (by simp [IsItem])
      | arrow => exact absurd hi (by simp [IsItem])
    | _, _, _, .selector hsel ha hl, _, _, h' => by
      have ih1 := @afterSelector_thin _ _ _ _ _ ha
      have ih2 := @line_thin _ _ _ hl
      simp only [squeezeNodes, squeezeType] at h'
      cases h' with
      | item hi' => exact absurd hi' (by simp [IsItem])
      | selector hsel' ha' hl' =>
        have i1 := ih1 (.cons (selector_thin hsel hsel') .nil) ha'
        rw [i1.2] at hl'
        have i2 := ih2 hl'
        exact ⟨thins_append (thins_append (thins_refl_space _) i1.1) i2.1, i2.2⟩
    | _, _, _, .arrow hsel ha, _, _, h' => by
      have ih1 := @afterArrow_thin _ _ _ _ _ _ ha
      simp only [squeezeNodes, squeezeType] at h'
      cases h' with
      | item hi' => exact absurd hi' (by simp [IsItem])
      | arrow hsel' ha' =>
        have i1 := ih1 (.cons (Same.noSelector_sim hsel hsel') .nil) ha'
        exact ⟨thins_append (thins_refl_space _) i1.1, i1.2⟩
  theorem afterSelector_thin : ∀ {chain : List Selector} {p : Range} {ns : List Ast.Node} {out : List Node} {rest : List Ast.Node},
      AfterSelector src chain p ns out rest →
      ∀ {chain' : List Selector} {p' : Range} {out' : List Node} {rest' : List Ast.Node},
      List.Forall₂ (SelSim src src) chain chain' → AfterSelector src chain' p' (squeezeNodes ns) out' rest' →
      Thins src out out' ∧ rest' = squeezeNodes rest
    | _, _, _, _, _, .dangling, _, _, _, _, hc, h' => by
      simp only [squeezeNodes] at h'
      cases h'
      exact ⟨.nil, by simp only [squeezeNodes]⟩
    | _, _, _, _, _, .comment ht ha, _, _, _, _, hc, h' => by
      have ih1 := @afterSelector_thin _ _ _ _ _ ha
      simp only [squeezeNodes, squeezeType] at h'
      cases h' with
      | comment ht' ha' =>
        have i1 := ih1 hc ha'
        exact ⟨.cons (text_thin ht ht') i1.1, i1.2⟩
    | _, _, _, _, _, .arrow ha, _, _, _, _, hc, h' => by
      have ih1 := @afterArrow_thin _ _ _ _ _ _ ha
      simp only [squeezeNodes, squeezeType] at h'
      cases h' with | arrow ha' => exact ih1 hc ha'
    | _, _, _, _, _, .block (.mk hl hlay), _, _, _, _, hc, h' => by
      have ih1 := @lines_thin _ _ hl
      simp only [squeezeNodes, squeezeType] at h'
      cases h' with
      | block h' =>
        cases h' with
        | mk hl' hlay' => exact ⟨.cons (.elem hc rfl rfl rfl (layout_thin hlay hlay' (ih1 hl'))) .nil, rfl⟩
  theorem afterArrow_thin : ∀ {chain : List Selector} {p gt : Range} {ns : List Ast.Node} {out : List Node} {rest : List Ast.Node},
      AfterArrow src chain p gt ns out rest →
      ∀ {chain' : List Selector} {p' gt' : Range} {out' : List Node} {rest' : List Ast.Node},
      List.Forall₂ (SelSim src src) chain chain' → AfterArrow src chain' p' gt' (squeezeNodes ns) out' rest' →
      Thins src out out' ∧ rest' = squeezeNodes rest
    | _, _, _, _, _, _, .selector hsel ha, _, _, _, _, _, hc, h' => by
      have ih1 := @afterSelector_thin _ _ _ _ _ ha
      simp only [squeezeNodes, squeezeType] at h'
      cases h' with
      | selector hsel' ha' => exact ih1 (List.rel_append hc (.cons (selector_thin hsel hsel') .nil)) ha'
      | line hb => exact absurd hb (by simp [BeginsContent])
    | _, _, _, _, _, _, .arrow hsel ha, _, _, _, _, _, hc, h' => by
      have ih1 := @afterArrow_thin _ _ _ _ _ _ ha
      simp only [squeezeNodes, squeezeType] at h'
      cases h' with
      | arrow hsel' ha' => exact ih1 (List.rel_append hc (.cons (Same.noSelector_sim hsel hsel') .nil)) ha'
      | line hb => exact absurd hb (by simp [BeginsContent])
    | _, _, _, _, _, _, .block (.mk hl hlay), _, _, _, _, _, hc, h' => by
      have ih1 := @lines_thin _ _ hl
      simp only [squeezeNodes, squeezeType] at h'
      cases h' with
      | block h' =>
        cases h' with
        | mk hl' hlay' => exact ⟨.cons (.elem hc rfl rfl rfl (layout_thin hlay hlay' (ih1 hl'))) .nil, rfl⟩
      | line hb => exact absurd hb (by simp [BeginsContent])
    | _, _, _, _, _, _, .line hb hl, _, _, _, _, _, hc, h' => by
      have hb' := squeeze_begins hb
      have ih := @line_thin _ _ _ hl
      generalize hx : squeezeNodes _ = X at h' hb'
      cases h' with
      | selector => exact absurd hb' (by simp [BeginsContent])
      | arrow => exact absurd hb' (by simp [BeginsContent])
      | block => exact absurd hb' (by simp [BeginsContent])
      | line _ hl' =>
        rw [← hx] at hl'
        have i1 := ih hl'
        exact ⟨.cons (.elem hc rfl rfl rfl (kids_thins i1.1 _)) .nil, i1.2⟩
end

theorem content_thin {q : Bool} {a a' : Nat} {lines : List Ast.Line} {ns ns' : List Node} (h : ContentIs src q a lines ns)
    (h' : ContentIs src q a' (squeezeLines false lines) ns') : Kids src false ns ns' := by
  cases h with
  | mk hl hlay => cases h' with | mk hl' hlay' => exact layout_thin hlay hlay' (lines_thin hl hl')

/-! ## Errors -/

theorem nothing_ok : LineOk [] := ⟨[], [], .nil, .inl (by simp)⟩

theorem shape_squeeze (ty : Ast.NodeType) : shapeOf (squeezeType ty) = shapeOf ty := by
  cases ty with
  | block l c r => cases c; rfl
  | special f o c r => cases c; rfl
  | _ => rfl

mutual
  theorem type_ok : ∀ ty : Ast.NodeType, TypeOk src (squeezeType ty) ↔ TypeOk src ty
    | .block l (.mk a lines b) r => by simp only [squeezeType, TypeOk]; rw [lines_ok lines]
    | .special f o (.mk a lines b) r => by simp only [squeezeType, TypeOk]; rw [lines_ok lines]
    | .inline o ns r => by simp only [squeezeType, TypeOk]; rw [items_same ns]
    | .multiline k a b => by simp only [squeezeType]
    | .text t => by simp only [squeezeType]
    | .selector s => by simp only [squeezeType]
    | .line r => by simp only [squeezeType]
    | .code r => by simp only [squeezeType]
  theorem items_same : ∀ ns : List Ast.Node, itemsOf src (squeezeNodes ns) = itemsOf src ns
    | [] => by simp only [squeezeNodes]
    | .mk sp a b ty :: ns => by
      have i1 := type_ok ty
      simp only [squeezeNodes, itemsOf, itemOf]
      rw [shape_squeeze, items_same ns, propext i1]
  theorem lines_ok : ∀ ls : List Ast.Line, ∀ {p : Bool}, LinesOk src (squeezeLines p ls) ↔ LinesOk src ls
    | [], p => by cases p <;> simp only [squeezeLines]
    | .mk a [] b :: ls, p => by
      cases p
      · simp only [squeezeLines, LinesOk]; rw [lines_ok ls]
      · simp only [squeezeLines, LinesOk]; rw [lines_ok ls]; simp [itemsOf, nothing_ok]
    | .mk a (n :: ns) b :: ls, p => by
      have i1 := items_same (n :: ns)
      cases p <;> (simp only [squeezeLines, LinesOk]; rw [i1, lines_ok ls])
end

end

end Squeeze
end Mty
