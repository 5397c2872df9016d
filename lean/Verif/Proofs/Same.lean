import Verif.Proofs.SameParts
import Verif.Proofs.Structure
import Verif.Proofs.Transform
import Mathlib.Data.List.Forall2

/-! # Documents of sources that say the same -/

set_option autoImplicit false

namespace Mty
open Spec

namespace Same

/-! ## Similar documents -/

section
variable (s1 s2 : Str)

/-- The same text, comment or space. -/
inductive TextSim : TextLike → TextLike → Prop
  | text {a b : Text} : (a.slice.asStr s1 = b.slice.asStr s2 ∨ a.multiline = true ∧ SameBlock (a.slice.asStr s1) (b.slice.asStr s2)) →
      a.multiline = b.multiline → a.unescapeIn = b.unescapeIn →
      a.escapeOut = b.escapeOut → a.raw = b.raw → TextSim (.text a) (.text b)
  | comment {a b : TextSlice} : a.asStr s1 = b.asStr s2 → TextSim (.comment a) (.comment b)
  | lineEnd : TextSim (.space .lineEnd) (.space .lineEnd)
  | paragraphEnd : TextSim (.space .paragraphEnd) (.space .paragraphEnd)
  | inline {a b : TextSlice} : a.asStr s1 = b.asStr s2 → TextSim (.space (.inline (some a))) (.space (.inline (some b)))

/-- The same name and parts. -/
def SelSim (a b : Selector) : Prop :=
  a.tag.name.map (·.asStr s1) = b.tag.name.map (·.asStr s2) ∧ SameParts (documentParts s1 a.items) (documentParts s2 b.items)

/-- The delimiter without positions. -/
def delimKind : Delim → Delim
  | .line _ => .line ⟨0, 0⟩
  | .block _ => .block ⟨0, 0⟩
  | .lineBlock _ _ => .lineBlock ⟨0, 0⟩ ⟨0, 0⟩

/-- The type without positions. -/
def tyKind : ElementType → ElementType
  | .standard d => .standard (delimKind d)
  | .inline d => .inline (d.map delimKind)
  | t => t

/-- Nodes that are white space. -/
def Spaces (l : List Node) : Prop := ∀ n ∈ l, n.isSpace = true

variable (S : EHead → EHead → Prop)

mutual
  /-- Nodes that are the same apart from positions and, as far as `S` allows it, their head. -/
  inductive Sim : Node → Node → Prop
    | text {r r' t t'} : TextSim s1 s2 t t' → Sim (.text r t) (.text r' t')
    | elem {r r' h h' ch ch'} : List.Forall₂ (SelSim s1 s2) h.selectors h'.selectors → tyKind h.ty = tyKind h'.ty →
        h.formatInline = h'.formatInline → h.isRaw = h'.isRaw → Sims ch ch' → Sim (.elem r h ch) (.elem r' h' ch')
    | short {r r' h h' l l' ch ch'} : S h h' → Spaces l → Spaces l' → ch ≠ [] → Sims ch ch' →
        Sim (.elem r h (l ++ ch)) (.elem r' h' (l' ++ ch'))
  inductive Sims : List Node → List Node → Prop
    | nil : Sims [] []
    | cons {n n' ns ns'} : Sim n n' → Sims ns ns' → Sims (n :: ns) (n' :: ns')
end
end

section
variable {c : SpecialTagConfig} {s1 s2 : Str} {S : EHead → EHead → Prop}

theorem sims_iff : ∀ {a b : List Node}, Sims s1 s2 S a b ↔ List.Forall₂ (Sim s1 s2 S) a b
  | [], b => by
    constructor
    · intro h; cases h; exact .nil
    · intro h; cases h; exact .nil
  | n :: ns, b => by
    constructor
    · intro h; cases h with | cons h1 h2 => exact .cons h1 (sims_iff.1 h2)
    · intro h; cases h with | cons h1 h2 => exact .cons h1 (sims_iff.2 h2)

theorem sims_append {a a' b b' : List Node} (h1 : Sims s1 s2 S a a') (h2 : Sims s1 s2 S b b') : Sims s1 s2 S (a ++ b) (a' ++ b') :=
  sims_iff.2 (List.rel_append (sims_iff.1 h1) (sims_iff.1 h2))

theorem sims_one {n n' : Node} (h : Sim s1 s2 S n n') : Sims s1 s2 S [n] [n'] := .cons h .nil

theorem sims_nil_left {b : List Node} (h : Sims s1 s2 S [] b) : b = [] := by cases h; rfl

theorem sims_nil_right {a : List Node} (h : Sims s1 s2 S a []) : a = [] := by cases h; rfl

theorem forall2_split {α β : Type} {R : α → β → Prop} : ∀ {a b : List α} {a' b' : List β}, List.Forall₂ R (a ++ b) (a' ++ b') →
    a.length = a'.length → List.Forall₂ R a a' ∧ List.Forall₂ R b b'
  | [], b, [], b', h, _ => ⟨.nil, h⟩
  | [], b, _ :: _, b', h, hl => by simp at hl
  | _ :: _, b, [], b', h, hl => by simp at hl
  | x :: a, b, y :: a', b', h, hl => by
    cases h with
    | cons h1 h2 =>
      obtain ⟨h3, h4⟩ := forall2_split h2 (by simpa using hl)
      exact ⟨.cons h1 h3, h4⟩

theorem sims_snoc {a a' : List Node} {x x' : Node} (h : Sims s1 s2 S (a ++ [x]) (a' ++ [x'])) : Sims s1 s2 S a a' ∧ Sim s1 s2 S x x' := by
  have h := sims_iff.1 h
  obtain ⟨h1, h2⟩ := forall2_split h (by simpa using h.length_eq)
  cases h2 with
  | cons h2 _ => exact ⟨sims_iff.2 h1, h2⟩

theorem sim_visible {n n' : Node} (h : Sim s1 s2 S n n') : n.isVisible = n'.isVisible := by
  cases h with
  | text h => cases h <;> rfl
  | elem => rfl
  | short => rfl

theorem sims_any {a a' : List Node} (h : Sims s1 s2 S a a') : a.any Node.isVisible = a'.any Node.isVisible := by
  have h' := sims_iff.1 h
  clear h
  induction h' with
  | nil => rfl
  | cons h1 _ ih => simp [sim_visible h1, ih]

theorem exists_visible (l : List Node) : (∃ n ∈ l, n.isVisible = true) ↔ l.any Node.isVisible = true := by simp

theorem all_invisible (l : List Node) : (∀ n ∈ l, n.isVisible = false) ↔ l.any Node.isVisible = false := by simp

/-- The first visible node of two similar lists. -/
theorem first_visible {pre pre' post post' : List Node} {x x' : Node} (h : Sims s1 s2 S (pre ++ x :: post) (pre' ++ x' :: post'))
    (h1 : ∀ n ∈ pre, n.isVisible = false) (h2 : x.isVisible = true) (h3 : ∀ n ∈ pre', n.isVisible = false) (h4 : x'.isVisible = true) :
    Sims s1 s2 S pre pre' ∧ Sim s1 s2 S x x' ∧ Sims s1 s2 S post post' := by
  induction pre generalizing pre' with
  | nil =>
    cases pre' with
    | nil => cases h with | cons h5 h6 => exact ⟨.nil, h5, h6⟩
    | cons y pre' =>
      cases h with
      | cons h5 h6 =>
        have := h3 y (List.mem_cons_self ..)
        rw [← sim_visible h5, h2] at this
        cases this
  | cons z pre ih =>
    cases pre' with
    | nil =>
      cases h with
      | cons h5 h6 =>
        have := h1 z (List.mem_cons_self ..)
        rw [sim_visible h5, h4] at this
        cases this
    | cons y pre' =>
      cases h with
      | cons h5 h6 =>
        obtain ⟨h7, h8⟩ := ih h6 (fun n hn => h1 n (List.mem_cons_of_mem _ hn)) (fun n hn => h3 n (List.mem_cons_of_mem _ hn))
        exact ⟨.cons h5 h7, h8⟩

/-- A list similar to one with a given first part. -/
theorem sims_split {pre post : List Node} {x : Node} : ∀ {l : List Node}, Sims s1 s2 S (pre ++ x :: post) l →
    ∃ pre' x' post', l = pre' ++ x' :: post' ∧ Sims s1 s2 S pre pre' ∧ Sim s1 s2 S x x' ∧ Sims s1 s2 S post post' := by
  induction pre with
  | nil => intro l h; cases h with | cons h1 h2 => exact ⟨[], _, _, rfl, .nil, h1, h2⟩
  | cons y pre ih =>
    intro l h
    cases h with
    | cons h1 h2 =>
      obtain ⟨p, x', q, rfl, h3, h4⟩ := ih h2
      exact ⟨_ :: p, x', q, rfl, .cons h1 h3, h4⟩

theorem sims_split' {pre post : List Node} {x : Node} : ∀ {l : List Node}, Sims s1 s2 S l (pre ++ x :: post) →
    ∃ pre' x' post', l = pre' ++ x' :: post' ∧ Sims s1 s2 S pre' pre ∧ Sim s1 s2 S x' x ∧ Sims s1 s2 S post' post := by
  induction pre with
  | nil => intro l h; cases h with | cons h1 h2 => exact ⟨[], _, _, rfl, .nil, h1, h2⟩
  | cons y pre ih =>
    intro l h
    cases h with
    | cons h1 h2 =>
      obtain ⟨p, x', q, rfl, h3, h4⟩ := ih h2
      exact ⟨_ :: p, x', q, rfl, .cons h1 h3, h4⟩

/-- A short form before the special tags have been applied. -/
structure ShortA (c : SpecialTagConfig) (s2 : Str) (h h' : EHead) : Prop where
  none_ : h.selectors = []
  inline_ : ∃ g, h'.ty = .inline (some (.line g))
  special_ : ∃ k, h.ty = .special k ∧ k ≠ .codeBlockContainer ∧ contextOfName (configuredTag c k) = some .paragraph ∧
    ∃ t, h'.selectors = [t] ∧ t.tag.name.map (·.asStr s2) = some (configuredTag c k) ∧ documentParts s2 t.items = []
  fmt : h.formatInline = false ∧ h'.formatInline = false
  raw : h.isRaw = false ∧ h'.isRaw = false

/-- Similar before special tags. -/
abbrev SimA (c : SpecialTagConfig) (s1 s2 : Str) := Sim s1 s2 (ShortA c s2)
abbrev SimsA (c : SpecialTagConfig) (s1 s2 : Str) := Sims s1 s2 (ShortA c s2)

theorem tyKind_standard {t : ElementType} {d : Delim} (h : tyKind (.standard d) = tyKind t) : ∃ d', t = .standard d' ∧ delimKind d = delimKind d' := by
  cases t <;> simp [tyKind] at h
  exact ⟨_, rfl, h⟩

theorem simA_block {n n' : Node} (h : SimA c s1 s2 n n') : isBlockLevel n ↔ isBlockLevel n' := by
  cases h with
  | text => simp [isBlockLevel]
  | @elem r r' h h' _ _ _ h2 =>
    have : ∀ t t' : ElementType, tyKind t = tyKind t' →
        ((match t with | .standard _ => True | .multiline .code => True | _ => False : Prop) ↔
          (match t' with | .standard _ => True | .multiline .code => True | _ => False : Prop)) := by
      intro t t' h
      cases t <;> cases t' <;> simp_all [tyKind]
    exact this _ _ h2
  | short h1 =>
    obtain ⟨g, hg⟩ := h1.inline_
    obtain ⟨k, hk, _⟩ := h1.special_
    simp [isBlockLevel, hg, hk]

theorem simA_continues {n n' : Node} (h : SimA c s1 s2 n n') : Continues n ↔ Continues n' := by
  cases h with
  | text => simp [Continues]
  | @elem r r' h h' _ _ _ h2 =>
    simp only [Continues]
    generalize h.ty = t at *
    generalize h'.ty = t' at *
    cases t with
    | standard d =>
      obtain ⟨d', rfl, hd⟩ := tyKind_standard h2
      cases d <;> cases d' <;> simp_all [delimKind]
    | _ => cases t' <;> simp_all [tyKind]
  | short h1 =>
    obtain ⟨g, hg⟩ := h1.inline_
    obtain ⟨k, hk, _⟩ := h1.special_
    simp [Continues, hg, hk]

theorem simsA_starts {a a' : List Node} (h : SimsA c s1 s2 a a') : StartsWithElement a ↔ StartsWithElement a' := by
  constructor
  · rintro ⟨pre, n, post, rfl, h1, h2, h3⟩
    obtain ⟨pre', n', post', rfl, h4, h5, h6⟩ := sims_split h
    refine ⟨pre', n', post', rfl, ?_, by rw [← sim_visible h5]; exact h2, (simA_block h5).1 h3⟩
    rw [all_invisible, ← sims_any h4, ← all_invisible]
    exact h1
  · rintro ⟨pre, n, post, rfl, h1, h2, h3⟩
    obtain ⟨pre', n', post', rfl, h4, h5, h6⟩ := sims_split' h
    refine ⟨pre', n', post', rfl, ?_, by rw [sim_visible h5]; exact h2, (simA_block h5).2 h3⟩
    rw [all_invisible, sims_any h4, ← all_invisible]
    exact h1

/-! ## Layout -/

/-- The same line. -/
inductive LineSim (c : SpecialTagConfig) (s1 s2 : Str) : SrcLine → SrcLine → Prop
  | blank {a b} : LineSim c s1 s2 (.blank a) (.blank b)
  | line {a b a' b' ns ns'} : SimsA c s1 s2 ns ns' → LineSim c s1 s2 (.line a b ns) (.line a' b' ns')

theorem lineSim_isText {l l' : SrcLine} (h : LineSim c s1 s2 l l') : l.isText ↔ l'.isText := by
  cases h with
  | blank => rfl
  | line h => simp [SrcLine.isText, simsA_starts h]

theorem endsRun_sim {l l' : List SrcLine} (h : List.Forall₂ (LineSim c s1 s2) l l') : EndsRun l ↔ EndsRun l' := by
  cases h with
  | nil => rfl
  | cons h _ => simp [EndsRun, lineSim_isText h]

theorem runs_sim : ∀ {run rest run' rest' : List SrcLine}, List.Forall₂ (LineSim c s1 s2) (run ++ rest) (run' ++ rest') →
    (∀ l ∈ run, l.isText) → EndsRun rest → (∀ l ∈ run', l.isText) → EndsRun rest' →
    List.Forall₂ (LineSim c s1 s2) run run' ∧ List.Forall₂ (LineSim c s1 s2) rest rest'
  | [], rest, [], rest', h, _, _, _, _ => ⟨.nil, h⟩
  | [], [], y :: run', rest', h, _, _, _, _ => by cases h
  | [], x :: rest, y :: run', rest', h, _, h2, h3, _ => by
    cases h with
    | cons h _ => exact absurd ((lineSim_isText h).2 (h3 y (List.mem_cons_self ..))) h2
  | x :: run, rest, [], [], h, _, _, _, _ => by cases h
  | x :: run, rest, [], y :: rest', h, h1, _, _, h4 => by
    cases h with
    | cons h _ => exact absurd ((lineSim_isText h).1 (h1 x (List.mem_cons_self ..))) h4
  | x :: run, rest, y :: run', rest', h, h1, h2, h3, h4 => by
    cases h with
    | cons h5 h6 =>
      obtain ⟨h7, h8⟩ := runs_sim h6 (fun l hl => h1 l (List.mem_cons_of_mem _ hl)) h2 (fun l hl => h3 l (List.mem_cons_of_mem _ hl)) h4
      exact ⟨.cons h5 h7, h8⟩

theorem joined_sim {e e1 : Nat} {n m : Node} {run : List SrcLine} (h : Joined e n run e1 m) :
    ∀ {e' e1' : Nat} {n' m' : Node} {run' : List SrcLine}, Joined e' n' run' e1' m' → Continues n → SimA c s1 s2 n n' →
      List.Forall₂ (LineSim c s1 s2) run run' → SimA c s1 s2 m m' := by
  induction h with
  | nil =>
    intro e' e1' n' m' run' h' _ hn hr
    cases hr
    cases h'
    exact hn
  | @cons e e' r h ch a b nodes run n' hj ih =>
    intro e' e1' n' m' run' h' hc hn hr
    cases hr with
    | cons hl hr =>
      cases hl with
      | line hl =>
        cases h' with
        | cons hj' =>
          refine ih hj' hc ?_ hr
          cases hn with
          | elem h1 h2 h3 h4 h5 =>
            exact .elem h1 h2 h3 h4 (sims_append h5 (.cons (.text .lineEnd) hl))
          | short h1 =>
            obtain ⟨k, hk, _⟩ := h1.special_
            simp [Continues, hk] at hc

theorem sep_sim (b : Bool) (e e' a a' : Nat) : SimsA c s1 s2 (if b then [paragraphSep e a] else []) (if b then [paragraphSep e' a'] else []) := by
  cases b
  · exact .nil
  · exact sims_one (.text .paragraphEnd)

/-- A line is not laid out as a paragraph. -/
theorem plain_iff {a a' : List Node} (h : SimsA c s1 s2 a a') :
    (StartsWithElement a ∨ ∀ n ∈ a, n.isVisible = false) ↔ (StartsWithElement a' ∨ ∀ n ∈ a', n.isVisible = false) := by
  rw [simsA_starts h, all_invisible, all_invisible, sims_any h]

theorem not_plain {a : List Node} (h1 : ¬ StartsWithElement a) (h2 : ∃ n ∈ a, n.isVisible = true)
    (h3 : StartsWithElement a ∨ ∀ n ∈ a, n.isVisible = false) : False := by
  obtain ⟨n, hn, hv⟩ := h2
  rcases h3 with h3 | h3
  · exact h1 h3
  · rw [h3 n hn] at hv; cases hv

theorem paragraph_new {a b a' b' : Nat} {ns ns' : List Node} (h : SimsA c s1 s2 ns ns') :
    SimA c s1 s2 (.elem ⟨a, b⟩ (EHead.new ⟨a, b⟩ .paragraph) ns) (.elem ⟨a', b'⟩ (EHead.new ⟨a', b'⟩ .paragraph) ns') :=
  .elem .nil rfl rfl rfl h

theorem layout_sim {par before : Bool} {e : Nat} {ls : List SrcLine} {out : List Node} (h : Layout par before e ls out) :
    ∀ {e' : Nat} {ls' : List SrcLine} {out' : List Node}, Layout par before e' ls' out' → List.Forall₂ (LineSim c s1 s2) ls ls' →
      SimsA c s1 s2 out out' := by
  induction h with
  | nil =>
    intro e' ls' out' h' hf
    cases hf
    cases h'
    exact .nil
  | blank _ ih =>
    intro e' ls' out' h' hf
    cases h' with
    | blank h' => cases hf with | cons _ hf => exact .cons (.text .paragraphEnd) (ih h' hf)
    | nil => cases hf
    | empty _ => cases hf with | cons h _ => cases h
    | paragraph => simp only [List.cons_append] at hf; cases hf with | cons h _ => cases h
    | continued => simp only [List.cons_append] at hf; cases hf with | cons h _ => cases h
    | other => cases hf with | cons h _ => cases h
  | empty _ ih =>
    intro e' ls' out' h' hf
    cases h' with
    | empty h' => cases hf with | cons _ hf => exact ih h' hf
    | nil => cases hf
    | blank _ => cases hf with | cons h _ => cases h
    | paragraph _ _ hv =>
      simp only [List.cons_append] at hf
      cases hf with
      | cons h _ => cases h with | line h => rw [sims_nil_left h] at hv; simp at hv
    | continued =>
      simp only [List.cons_append] at hf
      cases hf with
      | cons h _ => cases h with | line h => have := sims_nil_left h; simp at this
    | other => cases hf with | cons h _ => cases h with | line h => have := sims_nil_left h; simp at this
  | paragraph hp hs hv ht he hj _ ih =>
    intro e' ls' out' h' hf
    simp only [List.cons_append] at hf
    cases h' with
    | paragraph hp' hs' hv' ht' he' hj' h' =>
      simp only [List.cons_append] at hf
      cases hf with
      | cons h hf =>
        cases h with
        | line h =>
          obtain ⟨h1, h2⟩ := runs_sim hf ht he ht' he'
          exact sims_append (sep_sim ..) (.cons (joined_sim hj hj' trivial (paragraph_new h) h1) (ih h' h2))
    | nil => cases hf
    | blank _ => cases hf with | cons h _ => cases h
    | empty _ =>
      cases hf with
      | cons h _ => cases h with | line h => rw [sims_nil_right h] at hv; simp at hv
    | continued hn =>
      simp only [List.cons_append] at hf
      cases hf with
      | cons h _ => cases h with | line h => exact (not_plain hs hv ((plain_iff h).2 (hn hp))).elim
    | other hn => cases hf with | cons h _ => cases h with | line h => exact (not_plain hs hv ((plain_iff h).2 (hn hp))).elim
  | continued hn hc ht he hj _ ih =>
    intro e' ls' out' h' hf
    simp only [List.cons_append] at hf
    cases h' with
    | continued hn' hc' ht' he' hj' h' =>
      simp only [List.cons_append] at hf
      cases hf with
      | cons h hf =>
        cases h with
        | line h =>
          obtain ⟨h1, h2⟩ := runs_sim hf ht he ht' he'
          obtain ⟨h3, h4⟩ := sims_snoc h
          exact sims_append (sims_append (sep_sim ..) h3) (.cons (joined_sim hj hj' hc h4 h1) (ih h' h2))
    | nil => cases hf
    | blank _ => cases hf with | cons h _ => cases h
    | empty _ =>
      cases hf with
      | cons h _ => cases h with | line h => have := sims_nil_right h; simp at this
    | paragraph hp hs hv =>
      simp only [List.cons_append] at hf
      cases hf with
      | cons h _ => cases h with | line h => exact (not_plain hs hv ((plain_iff h).1 (hn hp))).elim
    | other _ hc' =>
      cases hf with
      | cons h _ => cases h with | line h => exact absurd ((simA_continues (sims_snoc h).2).1 hc) hc'
  | other hn hc _ ih =>
    intro e' ls' out' h' hf
    cases h' with
    | other hn' hc' h' =>
      cases hf with
      | cons h hf =>
        cases h with
        | line h =>
          rw [← sims_any h] at h'
          obtain ⟨h3, h4⟩ := sims_snoc h
          exact sims_append (sims_append (sep_sim ..) h3) (.cons h4 (ih h' hf))
    | nil => cases hf
    | blank _ => cases hf with | cons h _ => cases h
    | empty _ =>
      cases hf with
      | cons h _ => cases h with | line h => have := sims_nil_right h; simp at this
    | paragraph hp hs hv =>
      simp only [List.cons_append] at hf
      cases hf with
      | cons h _ => cases h with | line h => exact (not_plain hs hv ((plain_iff h).1 (hn hp))).elim
    | continued _ hc' =>
      simp only [List.cons_append] at hf
      cases hf with
      | cons h _ => cases h with | line h => exact absurd ((simA_continues (sims_snoc h).2).2 hc') hc

end

end Same
end Mty
