import Verif.Proofs.Tidy
import Verif.Proofs.Trail

/-! # Which selectors can be written, in any configuration (for C93) -/

set_option autoImplicit false

namespace Mty
open Spec

/-- A text in which all escapes are valid. -/
def Fine (s : Str) : Prop := ∃ u, Unescapes Accepted s u

theorem fine_of_plain {s : Str} (h : '\\' ∉ s) : Fine s := ⟨_, unescapes_self h⟩

/-- Name and value of an attribute have valid escapes. -/
def FineAttribute (src : Str) (a : Attribute) : Prop :=
  Fine (a.name.asStr src) ∧ ∀ v, a.value = some v → Fine (v.asStr src)

theorem forall2_exists {α β : Type} {R : α → β → Prop} {l : List α} : (∃ l', List.Forall₂ R l l') ↔ ∀ a ∈ l, ∃ b, R a b := by
  induction l with
  | nil => exact ⟨fun _ _ h => by simp at h, fun _ => ⟨[], .nil⟩⟩
  | cons a l ih =>
    constructor
    · rintro ⟨_, h⟩
      cases h with
      | cons h1 h2 =>
        intro x hx
        rcases List.mem_cons.1 hx with rfl | hx
        · exact ⟨_, h1⟩
        · exact ih.1 ⟨_, h2⟩ x hx
    · intro h
      obtain ⟨b, hb⟩ := h a (by simp)
      obtain ⟨l', hl⟩ := ih.2 fun x hx => h x (by simp [hx])
      exact ⟨b :: l', .cons hb hl⟩

/-- Which selectors can be written does not depend on XML. -/
theorem attrsRead_iff {xml : Bool} {src : Str} {items : List SelectorItem} :
    (∃ attrs, AttrsRead xml src items attrs) ↔
      (∀ i ∈ (idsOf items).take 1, Fine (i.asStr src)) ∧ (∀ i ∈ classesOf items, Fine (i.asStr src)) ∧
      ∀ a ∈ attributesOf items, FineAttribute src a := by
  constructor
  · rintro ⟨_, ⟨h1, h2, h3⟩⟩
    refine ⟨forall2_exists.1 ⟨_, h1⟩, forall2_exists.1 ⟨_, h2⟩, fun a ha => ?_⟩
    obtain ⟨p, hp, hv⟩ := forall2_exists.1 ⟨_, h3⟩ a ha
    refine ⟨⟨_, hp⟩, fun v e => ?_⟩
    rw [e] at hv
    obtain ⟨x, _, hx⟩ := hv
    exact ⟨x, hx⟩
  · rintro ⟨h1, h2, h3⟩
    obtain ⟨_, g1⟩ := forall2_exists.2 h1
    obtain ⟨_, g2⟩ := forall2_exists.2 h2
    obtain ⟨_, g3⟩ := (forall2_exists (R := fun (a : Attribute) (p : Str × Option Str) => Unescapes Accepted (a.name.asStr src) p.1 ∧
          match a.value with
          | some v => ∃ x, p.2 = some x ∧ Unescapes Accepted (v.asStr src) x
          | none => p.2 = if xml then some [] else none)).2 (fun a ha => by
      obtain ⟨⟨n, hn⟩, hv⟩ := h3 a ha
      cases e : a.value with
      | none => exact ⟨(n, _), hn, rfl⟩
      | some v =>
        obtain ⟨x, hx⟩ := hv v e
        exact ⟨(n, some x), hn, x, rfl, hx⟩)
    exact ⟨_, .mk g1 g2 g3⟩

/-- Attributes with valid escapes that are added make no difference. -/
theorem attrsRead_added {xml : Bool} {src : Str} {items : List SelectorItem} {r : Range} {as : List Attribute}
    (h : ∀ a ∈ as, FineAttribute src a) :
    (∃ attrs, AttrsRead xml src (items ++ [.attributes r as]) attrs) ↔ ∃ attrs, AttrsRead xml src items attrs := by
  rw [attrsRead_iff, attrsRead_iff]
  have e1 : idsOf (items ++ [.attributes r as]) = idsOf items := by simp [idsOf]
  have e2 : classesOf (items ++ [.attributes r as]) = classesOf items := by simp [classesOf]
  have e3 : attributesOf (items ++ [.attributes r as]) = attributesOf items ++ as := by simp [attributesOf]
  rw [e1, e2, e3]
  refine and_congr_right fun _ => and_congr_right fun _ => ⟨fun g a ha => g a (by simp [ha]), fun g a ha => ?_⟩
  rcases List.mem_append.1 ha with ha | ha
  · exact g a ha
  · exact h a ha

/-- A selector that can be written if its element has a name. -/
def FineSelector (src : Str) (s : Selector) : Prop := s.tag.name.isSome = true → ∃ attrs, AttrsRead false src s.items attrs

theorem named_iff {xml : Bool} {src : Str} {ns : List Node} :
    (∀ p ∈ namedSelectors ns, ∃ attrs, AttrsRead xml src p.2 attrs) ↔ ∀ s ∈ nodesSelectors ns, FineSelector src s := by
  unfold namedSelectors FineSelector
  constructor
  · intro h s hs hn
    obtain ⟨n, hn⟩ := Option.isSome_iff_exists.1 hn
    have := h (n, s.items) (List.mem_filterMap.2 ⟨s, hs, by simp [hn]⟩)
    rw [attrsRead_iff] at this ⊢
    exact this
  · intro h p hp
    obtain ⟨s, hs, e⟩ := List.mem_filterMap.1 hp
    cases hn : s.tag.name with
    | none => simp [hn] at e
    | some n =>
      rw [hn, Option.map_some] at e
      cases e
      have := h s hs (by simp [hn])
      rw [attrsRead_iff] at this ⊢
      exact this

/-! ## Language and metadata -/

theorem lang_fine {src lang : Str} (hl : Fine lang) : ∀ ss : List Selector,
    (∀ s ∈ langSelectors lang ss, FineSelector src s) ↔ ∀ s ∈ ss, FineSelector src s
  | [] => Iff.rfl
  | s :: ss => by
    rw [langSelectors]
    split
    · simp only [List.forall_mem_cons]
      refine and_congr_left fun _ => ?_
      unfold FineSelector
      refine imp_congr_right fun _ => attrsRead_added ?_
      intro a ha
      simp only [List.mem_singleton] at ha
      subst ha
      refine ⟨fine_of_plain (by simp only [TextSlice.asStr]; decide), fun v e => ?_⟩
      cases e
      exact hl
    · simp only [List.forall_mem_cons, lang_fine hl ss]

theorem langs_fine {src lang : Str} (hl : Fine lang) : ∀ ns : List Node,
    (∀ s ∈ nodesSelectors (ns.map (langNode lang)), FineSelector src s) ↔ ∀ s ∈ nodesSelectors ns, FineSelector src s
  | [] => Iff.rfl
  | .text r t :: ns => by
    simpa [langNode, nodesSelectors, nodeSelectors] using langs_fine hl ns
  | .elem r h ch :: ns => by
    simp only [List.map_cons, langNode, nodesSelectors, nodeSelectors, List.forall_mem_append, lang_fine hl h.selectors, langs_fine hl ns]

theorem metaAttr_fine {src : Str} {loc : Nat} {name : String} {value : Str} (h1 : '\\' ∉ name.toList) (h2 : '\\' ∉ value) :
    FineAttribute src (metaAttr loc name value) :=
  ⟨fine_of_plain h1, fun v e => by cases e; exact fine_of_plain h2⟩

theorem digits_plain (n : Nat) : '\\' ∉ Nat.toDigits 10 n := by
  intro h
  have := Nat.isDigit_of_mem_toDigits (by decide) (by decide) h
  revert this
  decide

theorem metaRange_fine {src : Str} {loc : Nat} {a b : String} {r : Range} (h1 : '\\' ∉ a.toList) (h2 : '\\' ∉ b.toList) :
    ∀ x ∈ metaRange loc a b r, FineAttribute src x := by
  intro x hx
  unfold metaRange at hx
  split at hx
  · simp only [List.mem_cons, List.not_mem_nil, or_false] at hx
    rcases hx with rfl | rfl
    · exact metaAttr_fine h1 (digits_plain _)
    · exact metaAttr_fine h2 (digits_plain _)
  · cases hx

theorem finish_fine {src : Str} {loc : Nat} {as : List Attribute} {s : Selector} (h : ∀ a ∈ as, FineAttribute src a) :
    FineSelector src (metaFinish loc as s) ↔ FineSelector src s := by
  unfold metaFinish FineSelector
  split
  · exact Iff.rfl
  · exact imp_congr_right fun _ => attrsRead_added h

theorem meta_fine {src : Str} {cx : MetaCx} (hc : cx.elements = false) : ∀ (i : Nat) (ss : List Selector),
    (∀ s ∈ (metaSelectors cx i ss).1, FineSelector src s) ↔ ∀ s ∈ ss, FineSelector src s
  | _, [] => Iff.rfl
  | i, s :: ss => by
    have ih := meta_fine (src := src) hc (i + 1) ss
    simp only [metaSelectors, hc, Bool.not_false, Bool.and_true]
    split
    · simp only [List.forall_mem_cons, ih]
    · simp only [List.forall_mem_cons, ih]
      refine and_congr_left fun _ => finish_fine fun a ha => ?_
      simp only [List.mem_append] at ha
      rcases ha with (ha | ha) | ha
      · split at ha
        · rcases List.mem_append.1 ha with ha | ha
          · split at ha
            · simp only [List.mem_singleton] at ha
              subst ha
              exact metaAttr_fine (by decide) (by decide)
            · cases ha
          · unfold metaBoolExcept at ha
            split at ha
            · simp only [List.mem_singleton] at ha
              subst ha
              exact metaAttr_fine (by decide) (by unfold boolString; split <;> decide)
            · cases ha
        · cases ha
      · exact metaRange_fine (by decide) (by decide) a ha
      · exact metaRange_fine (by decide) (by decide) a ha

theorem metaElement_fine {src : Str} {opts : MetadataConfig} (ho : opts.elements = false) (r : Range) (h : EHead) (root : Bool) :
    (∀ s ∈ (metaElement opts r h root).selectors, FineSelector src s) ↔ ∀ s ∈ h.selectors, FineSelector src s := by
  unfold metaElement
  by_cases ht : (h.selectors.any fun s => !s.uninferred) = true
  · simp only [ht, ho, Bool.not_true, Bool.false_and, Bool.false_eq_true, if_false]
    exact meta_fine rfl _ _
  · simp [ht, ho]

mutual
  theorem metaNode_fine {src : Str} {opts : MetadataConfig} (ho : opts.elements = false) : ∀ (n : Node) (root : Bool),
      (∀ s ∈ nodeSelectors (metaNode opts n root), FineSelector src s) ↔ ∀ s ∈ nodeSelectors n, FineSelector src s
    | .elem r h ch, root => by
      simp only [metaNode, nodeSelectors, List.forall_mem_append, metaElement_fine ho, metaNodes_fine ho ch false]
    | .text r (.text t), root => by simp [metaNode, ho, nodeSelectors]
    | .text r (.comment s), root => by simp [metaNode, ho, nodeSelectors]
    | .text r (.space s), root => by simp [metaNode, nodeSelectors]
  theorem metaNodes_fine {src : Str} {opts : MetadataConfig} (ho : opts.elements = false) : ∀ (ns : List Node) (root : Bool),
      (∀ s ∈ nodesSelectors (metaNodes opts ns root), FineSelector src s) ↔ ∀ s ∈ nodesSelectors ns, FineSelector src s
    | [], _ => Iff.rfl
    | n :: ns, root => by
      simp only [metaNodes, nodesSelectors, List.forall_mem_append, metaNode_fine ho n root, metaNodes_fine ho ns root]
end

end Mty
