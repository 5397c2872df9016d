import Verif.Proofs.Usable

/-! # White space of a line in the document (for C76) -/

set_option autoImplicit false

namespace Mty
open Spec Grammar

namespace Parts

variable {src : Str}

/-- A space of the document is white space in the source. -/
def Sp (src : Str) (n : Node) : Prop := ∀ r t, n = .text r (.space (.inline (some t))) → ∀ c ∈ t.asStr src, isSpace c = true

/-- The space before a node of the syntax tree is white space in the source. -/
def SpNode (src : Str) : Ast.Node → Prop
  | .mk sp _ _ _ => ∀ r, sp = some r → ∀ c ∈ r.slice src, isSpace c = true

/-- The same for all nodes, at any depth. -/
def SpAll (src : Str) (ns : List Ast.Node) : Prop := ∀ n ∈ ns, SpNode src n

theorem sp_elem {r : Range} {h : EHead} {ch : List Node} : Sp src (.elem r h ch) := by intro r t h; cases h

theorem sp_element {r q : Range} {ty : ElementType} {ch : List Node} {chain : List Selector} : Sp src (element chain ty r q ch) := sp_elem

theorem sp_leaf {r : Range} {n : Node} {l : Leaf} (ht : IsLeaf r l n) : Sp src n := by
  obtain rfl := ht
  cases l <;> (intro r t h; cases h)

theorem sp_before {sp : Option Range} (h : ∀ r, sp = some r → ∀ c ∈ r.slice src, isSpace c = true) : ∀ n ∈ spaceBefore sp, Sp src n := by
  cases sp with
  | none => simp [spaceBefore]
  | some r =>
    simp only [spaceBefore, List.mem_singleton, forall_eq]
    intro r' t ht
    cases ht
    exact h r rfl

theorem sp_par {e a : Nat} : Sp src (paragraphSep e a) := by intro r t h; cases h

theorem sp_joined {e e' : Nat} {n n' : Node} {run : List SrcLine} (h : Joined e n run e' n') : Sp src n → Sp src n' := by
  induction h with
  | nil => exact id
  | cons _ ih => intro _; exact ih sp_elem

theorem sp_layout {p before : Bool} {e : Nat} {ls : List SrcLine} {out : List Node} (h : Layout p before e ls out) :
    (∀ a b ns, .line a b ns ∈ ls → ∀ x ∈ ns, Sp src x) → ∀ n ∈ out, Sp src n := by
  have hsep : ∀ (before : Bool) (e a : Nat), ∀ n ∈ (if before then [paragraphSep e a] else []), Sp src n := by
    intro before e a n hn
    cases before with
    | false => simp at hn
    | true =>
      simp only [if_true, List.mem_singleton] at hn
      subst hn
      exact sp_par
  induction h with
  | nil => intro _; simp
  | blank _ ih =>
    intro hl n hn
    simp only [List.mem_cons] at hn
    rcases hn with rfl | hn
    · exact sp_par
    · exact ih (fun a b ns hm => hl a b ns (List.mem_cons_of_mem _ hm)) n hn
  | empty _ ih =>
    intro hl n hn
    exact ih (fun a b ns hm => hl a b ns (List.mem_cons_of_mem _ hm)) n hn
  | @paragraph before e a b nodes run rest e' q out _ _ _ _ _ hj _ ih =>
    intro hl n hn
    simp only [List.mem_append, List.mem_cons, List.cons_append] at hn hl
    rcases hn with hn | rfl | hn
    · exact hsep _ _ _ n hn
    · exact sp_joined hj sp_elem
    · exact ih (fun a b ns hm => hl a b ns (.inr (.inr hm))) n hn
  | @continued before e a b nodes last run rest e' q out _ _ _ _ hj _ ih =>
    intro hl n hn
    simp only [List.mem_append, List.mem_cons, List.cons_append] at hn hl
    rcases hn with (hn | hn) | rfl | hn
    · exact hsep _ _ _ n hn
    · exact hl a b _ (.inl rfl) n (by simp [hn])
    · exact sp_joined hj (hl a b _ (.inl rfl) _ (by simp))
    · exact ih (fun a b ns hm => hl a b ns (.inr (.inr hm))) n hn
  | @other before e a b nodes last ls out _ _ _ ih =>
    intro hl n hn
    simp only [List.mem_append, List.mem_cons] at hn hl
    rcases hn with (hn | hn) | rfl | hn
    · exact hsep _ _ _ n hn
    · exact hl a b _ (.inl rfl) n (by simp [hn])
    · exact hl a b _ (.inl rfl) _ (by simp)
    · exact ih (fun a b ns hm => hl a b ns (.inr hm)) n hn

theorem spAll_cons {sp : Option Range} {a b : Nat} {ty : Ast.NodeType} {ns : List Ast.Node} (h : SpAll src (allOf (.mk sp a b ty :: ns))) :
    SpNode src (.mk sp a b ty) ∧ SpAll src (allOfType ty) ∧ SpAll src (allOf ns) := by
  rw [allOf] at h
  refine ⟨h _ (by simp), fun n hn => h n (by simp [hn]), fun n hn => h n (by simp [hn])⟩

mutual
  theorem sp_item {rg : Range} {ty : Ast.NodeType} {ns : List Node} (h : ItemIs src rg ty ns) (hg : SpAll src (allOfType ty)) :
      ∀ n ∈ ns, Sp src n :=
    match h with
    | .text h => by
      simp only [List.mem_singleton, forall_eq]
      exact sp_leaf h
    | .multiline hx | .code hx => by
      simp only [List.mem_singleton, forall_eq]
      exact sp_element
    | .special hc | .block hc => by
      simp only [List.mem_singleton, forall_eq]
      exact sp_element
    | .inlineElement hl _ _ => by
      have := (sp_line hl hg).1
      intro n hn
      simp only [List.mem_append, List.mem_cons] at hn this
      rcases hn with hn | rfl | hn
      · exact this n (.inl hn)
      · exact sp_elem
      · exact this n (.inr (.inr hn))
    | .inlineText hl _ => by
      simp only [List.mem_singleton, forall_eq]
      exact sp_element
  theorem sp_line {ns : List Ast.Node} {out : List Node} {rest : List Ast.Node} (h : LineIs src ns out rest) (hg : SpAll src (allOf ns)) :
      (∀ n ∈ out, Sp src n) ∧ SpAll src (allOf rest) :=
    match h with
    | .nil => by simpa using hg
    | .item _ hi hl => by
      obtain ⟨g1, g2, g3⟩ := spAll_cons hg
      have h1 := sp_item hi g2
      have h2 := sp_line hl g3
      refine ⟨fun n hn => ?_, h2.2⟩
      simp only [List.mem_append] at hn
      rcases hn with (hn | hn) | hn
      · exact sp_before g1 n hn
      · exact h1 n hn
      · exact h2.1 n hn
    | .selector hs ha hl => by
      obtain ⟨g1, g2, g3⟩ := spAll_cons hg
      have h1 := sp_after ha g3
      have h2 := sp_line hl h1.2
      refine ⟨fun n hn => ?_, h2.2⟩
      simp only [List.mem_append] at hn
      rcases hn with (hn | hn) | hn
      · exact sp_before g1 n hn
      · exact h1.1 n hn
      · exact h2.1 n hn
    | .arrow hs ha => by
      obtain ⟨g1, g2, g3⟩ := spAll_cons hg
      have h1 := sp_arrow ha g3
      refine ⟨fun n hn => ?_, h1.2⟩
      simp only [List.mem_append] at hn
      rcases hn with hn | hn
      · exact sp_before g1 n hn
      · exact h1.1 n hn
  theorem sp_after {chain : List Selector} {p : Range} {ns : List Ast.Node} {out : List Node} {rest : List Ast.Node} (h : AfterSelector src chain p ns out rest)
      (hg : SpAll src (allOf ns)) : (∀ n ∈ out, Sp src n) ∧ SpAll src (allOf rest) :=
    match h with
    | .dangling => by simpa using hg
    | .comment ht ha => by
      obtain ⟨g1, g2, g3⟩ := spAll_cons hg
      have h1 := sp_after ha g3
      refine ⟨fun n hn => ?_, h1.2⟩
      simp only [List.mem_cons] at hn
      rcases hn with rfl | hn
      · exact sp_leaf ht
      · exact h1.1 n hn
    | .arrow ha => sp_arrow ha (spAll_cons hg).2.2
    | .block hk => by
      obtain ⟨g1, g2, g3⟩ := spAll_cons hg
      refine ⟨?_, g3⟩
      simp only [List.mem_singleton, forall_eq]
      exact sp_element
  theorem sp_arrow {chain : List Selector} {p gt : Range} {ns : List Ast.Node} {out : List Node} {rest : List Ast.Node} (h : AfterArrow src chain p gt ns out rest)
      (hg : SpAll src (allOf ns)) : (∀ n ∈ out, Sp src n) ∧ SpAll src (allOf rest) :=
    match h with
    | .selector hs ha => sp_after ha (spAll_cons hg).2.2
    | .arrow hs ha => sp_arrow ha (spAll_cons hg).2.2
    | .block hk => by
      obtain ⟨g1, g2, g3⟩ := spAll_cons hg
      refine ⟨?_, g3⟩
      simp only [List.mem_singleton, forall_eq]
      exact sp_element
    | .line _ hl => by
      have := sp_line hl hg
      refine ⟨?_, this.2⟩
      simp only [List.mem_singleton, forall_eq]
      exact sp_element
end

theorem sp_lines : ∀ {lines : List Ast.Line} {ls : List SrcLine}, LinesAre src lines ls → SpAll src (allOfLines lines) →
      ∀ a b ns, .line a b ns ∈ ls → ∀ x ∈ ns, Sp src x
  | _, _, .nil, hg => by simp
  | _, _, .blank hl, hg => by
    have := sp_lines hl (fun n hn => hg n (by simp [allOfLines, hn]))
    intro a b ns hm
    simp only [List.mem_cons, reduceCtorEq, false_or] at hm
    exact this a b ns hm
  | _, _, .line hn hl, hg => by
    have h1 := sp_line hn (fun n hn => hg n (by simp [allOfLines, hn]))
    have h2 := sp_lines hl (fun n hn => hg n (by simp [allOfLines, hn]))
    intro a b ns hm
    simp only [List.mem_cons, SrcLine.line.injEq] at hm
    rcases hm with ⟨rfl, rfl, rfl⟩ | hm
    · exact h1.1
    · exact h2 a b ns hm

/-! ## Trees of the grammar -/

theorem spNode_ok {p : Nat} {sp : Option Range} {a b : Nat} {ty : Ast.NodeType} (h1 : spaceOk src p a sp = true) : SpNode src (.mk sp a b ty) := by
  rintro r rfl
  simp only [spaceOk, Bool.and_eq_true] at h1
  obtain ⟨b, a, hp⟩ := Usable.reads_slice h1.1.2
  rw [Lex.space, Pat.many1] at hp
  obtain ⟨m1, r1, m2, h1, h2, h3⟩ := seq_some hp
  obtain ⟨c, hc, rfl, -⟩ := chr_some h1
  have := many_all h2
  rw [h3]
  intro x hx
  rcases List.mem_append.1 hx with hx | hx
  · rw [List.mem_singleton.1 hx]; exact hc
  · exact this x hx

mutual
  theorem spAll_type (alnum : Char → Bool) (src : Str) : ∀ (ty : Ast.NodeType) (a b : Nat), typeOk alnum src a b ty = true →
      SpAll src (allOfType ty)
    | .multiline k s e, a, b, _ => by simp [allOfType, SpAll]
    | .text t, a, b, _ => by simp [allOfType, SpAll]
    | .selector s, a, b, _ => by simp [allOfType, SpAll]
    | .line c, a, b, _ => by simp [allOfType, SpAll]
    | .code c, a, b, _ => by simp [allOfType, SpAll]
    | .block l (.mk s lines e) r, a, b, h => by
      simp only [typeOk, Bool.and_eq_true] at h
      exact spAll_lines alnum src lines true s e h.1.2
    | .special f l (.mk s lines e) r, a, b, h => by
      simp only [typeOk, Bool.and_eq_true] at h
      exact spAll_lines alnum src lines true s e h.1.2
    | .inline o inner c, a, b, h => by
      simp only [typeOk, Bool.and_eq_true] at h
      exact spAll_nodes alnum src inner _ _ h.1.2
  theorem spAll_nodes (alnum : Char → Bool) (src : Str) : ∀ (ns : List Ast.Node) (p q : Nat),
      nodesOk alnum src p q ns = true → SpAll src (allOf ns)
    | [], p, q, h => by simp [allOf, SpAll]
    | .mk sp a b ty :: ns, p, q, h => by
      simp only [nodesOk, Bool.and_eq_true] at h
      have c1 := spAll_type alnum src ty a b h.1.2
      have c2 := spAll_nodes alnum src ns b q h.2
      have c3 : SpNode src (.mk sp a b ty) := spNode_ok h.1.1
      intro n hn
      rw [allOf] at hn
      simp only [List.mem_cons, List.mem_append] at hn
      rcases hn with rfl | hn | hn
      · exact c3
      · exact c1 n hn
      · exact c2 n hn
  theorem spAll_lines (alnum : Char → Bool) (src : Str) : ∀ (ls : List Ast.Line) (first : Bool) (p q : Nat),
      linesOk alnum src first p q ls = true → SpAll src (allOfLines ls)
    | [], first, p, q, _ => by simp [allOfLines, SpAll]
    | .mk s ns e :: ls, first, p, q, h => by
      simp only [linesOk, Bool.and_eq_true] at h
      have c1 := spAll_nodes alnum src ns _ _ h.1.1.2
      have c2 := spAll_lines alnum src ls false e q h.2
      intro n hn
      rw [allOfLines, List.mem_append] at hn
      rcases hn with hn | hn
      · exact c1 n hn
      · exact c2 n hn
end

/-- The spaces of the document are white space in the source. -/
theorem spaces_white {alnum : Char → Bool} {s t : Nat} {lines : List Ast.Line} {nodes : List Node}
    (hc : Conforms alnum src ⟨.mk s lines t⟩ = true) (hd : ContentIs src true s lines nodes) : ∀ n ∈ nodes, Sp src n := by
  simp only [Conforms, Bool.and_eq_true] at hc
  have hg := spAll_lines alnum src lines true s t hc.1.2
  cases hd with
  | mk hl hy => exact sp_layout hy (sp_lines hl hg)

end Parts
end Mty
