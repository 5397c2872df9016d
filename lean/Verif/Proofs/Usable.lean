import Verif.Spec.Usable
import Verif.Proofs.Clean
import Verif.Proofs.Structure
import Verif.Proofs.Tokens

/-! # Documents of usable sources -/

set_option autoImplicit false

namespace Mty.Usable
open Spec Grammar

/-! ## From the syntax tree to the document -/

/-- A selector with usable names. -/
def GoodSel (xml : Bool) (src : Str) (t : Selector) : Prop :=
  (∀ n, (selOf src t).1 = some n → SafeName n ∧ rawName xml (some n) = false) ∧
  ∀ a ∈ attributesOf t.items, ∀ x, Unescapes Accepted (a.name.asStr src) x → SafeAttrName x

/-- A leaf that is escaped when written. -/
def LeafOk (xml : Bool) : Leaf → Prop
  | .comment _ => True
  | .text _ _ escaped interpolation _ => interpolation = false ∧ (xml = false → escaped = true)

/-- What is needed of a node of the syntax tree. -/
def GoodNode (xml : Bool) (src : Str) : Ast.Node → Prop
  | .mk sp _ _ ty => (∀ r, sp = some r → Blank (r.slice src) ∧ r.slice src ≠ []) ∧
    (∀ s, ty = .selector s → ∀ t, SelectorIs src s t → GoodSel xml src t) ∧
    ∀ t, ty = .text t → LeafOk xml (textLeaf t)

variable {xml : Bool} {src : Str}

/-- All selectors are usable, nothing is written raw. -/
inductive Ok (xml : Bool) (src : Str) : Node → Prop
  | text {r x} : Clean xml src false (.leaf x) → Ok xml src (.text r x)
  | elem {r h ch} : h.isRaw = false → (∀ t ∈ h.selectors, GoodSel xml src t) → (∀ n ∈ ch, Ok xml src n) → Ok xml src (.elem r h ch)

theorem Ok.clean {n : Node} (h : Ok xml src n) : Clean xml src false (treeOf src n) := by
  induction h with
  | text h => exact h
  | @elem r h ch hr hc _ ih =>
    rw [treeOf, chainTree_clean]
    refine ⟨fun s hs n hn => ((hc s hs).1 n hn).1, fun s hs => (hc s hs).2, ?_⟩
    have : chainRaw xml (false || h.isRaw) src h.selectors = false := by
      rw [hr]
      simp only [chainRaw, Bool.or_self, Bool.false_or, List.any_eq_false]
      intro s hs
      cases hn : (selOf src s).1 with
      | none => simp [rawName]
      | some n => simp [((hc s hs).1 n hn).2]
    rw [this]
    exact forest_clean_iff.2 ih

theorem elem_ok {r q : Range} {ty : ElementType} {ch : List Node} {chain : List Selector}
    (hc : ∀ t ∈ chain, GoodSel xml src t) (hk : ∀ n ∈ ch, Ok xml src n) : Ok xml src (element chain ty r q ch) :=
  .elem rfl hc hk

theorem leaf_ok {r : Range} {n : Node} {l : Leaf} (ht : IsLeaf r l n) (hl : LeafOk xml l) : Ok xml src n := by
  obtain rfl := ht
  cases l with
  | comment s => exact .text .comment
  | text => exact .text (.text hl.1 fun hx => ⟨hl.2 hx, rfl⟩)

theorem text_ok {t : Ast.InlineText} {n : Node} (h : TextIs t n) (hl : LeafOk xml (textLeaf t)) : Ok xml src n := leaf_ok h hl

theorem space_ok {sp : Option Range} (h : ∀ r, sp = some r → Blank (r.slice src) ∧ r.slice src ≠ []) :
    ∀ n ∈ spaceBefore sp, Ok xml src n := by
  cases sp with
  | none => simp [spaceBefore]
  | some r =>
    simp only [spaceBefore, List.mem_singleton, forall_eq]
    refine .text (.space ?_)
    intro t ht
    cases ht
    exact h r rfl

theorem sep_ok {r : Range} {s : Space} (h : s = .lineEnd ∨ s = .paragraphEnd) : Ok xml src (.text r (.space s)) := by
  refine .text (.space ?_)
  rintro t rfl
  rcases h with h | h <;> cases h

theorem joined_ok {e e' : Nat} {n n' : Node} {run : List SrcLine} (h : Joined e n run e' n') : Ok xml src n →
    (∀ a b ns, .line a b ns ∈ run → ∀ x ∈ ns, Ok xml src x) → Ok xml src n' := by
  induction h with
  | nil => intro h _; exact h
  | @cons e e' r h ch a b nodes run n' _ ih =>
    intro ho hl
    cases ho with
    | elem h1 h2 h3 =>
      refine ih (.elem h1 h2 ?_) fun a b ns hm => hl a b ns (List.mem_cons_of_mem _ hm)
      intro x hx
      simp only [List.mem_append, List.mem_cons] at hx
      rcases hx with hx | rfl | hx
      · exact h3 x hx
      · exact sep_ok (.inl rfl)
      · exact hl a b nodes List.mem_cons_self x hx

theorem layout_ok {p before : Bool} {e : Nat} {ls : List SrcLine} {out : List Node} (h : Layout p before e ls out) :
    (∀ a b ns, .line a b ns ∈ ls → ∀ x ∈ ns, Ok xml src x) → ∀ n ∈ out, Ok xml src n := by
  have hsep : ∀ (before : Bool) (e a : Nat), ∀ n ∈ (if before then [paragraphSep e a] else []), Ok xml src n := by
    intro before e a n hn
    cases before with
    | false => simp at hn
    | true =>
      simp only [if_true, List.mem_singleton] at hn
      subst hn
      exact sep_ok (.inr rfl)
  induction h with
  | nil => intro _; simp
  | blank _ ih =>
    intro hl n hn
    simp only [List.mem_cons] at hn
    rcases hn with rfl | hn
    · exact sep_ok (.inr rfl)
    · exact ih (fun a b ns hm => hl a b ns (List.mem_cons_of_mem _ hm)) n hn
  | empty _ ih =>
    intro hl n hn
    exact ih (fun a b ns hm => hl a b ns (List.mem_cons_of_mem _ hm)) n hn
  | @paragraph before e a b nodes run rest e' q out _ _ _ _ _ hj _ ih =>
    intro hl n hn
    simp only [List.mem_append, List.mem_cons, List.cons_append] at hn hl
    rcases hn with hn | rfl | hn
    · exact hsep _ _ _ n hn
    · refine joined_ok hj (.elem rfl (by simp [EHead.new]) fun x hx => hl a b nodes (.inl rfl) x hx) fun a b ns hm => hl a b ns (.inr (.inl hm))
    · exact ih (fun a b ns hm => hl a b ns (.inr (.inr hm))) n hn
  | @continued before e a b nodes last run rest e' q out _ _ _ _ hj _ ih =>
    intro hl n hn
    simp only [List.mem_append, List.mem_cons, List.cons_append] at hn hl
    rcases hn with (hn | hn) | rfl | hn
    · exact hsep _ _ _ n hn
    · exact hl a b _ (.inl rfl) n (by simp [hn])
    · exact joined_ok hj (hl a b _ (.inl rfl) _ (by simp)) fun a b ns hm => hl a b ns (.inr (.inl hm))
    · exact ih (fun a b ns hm => hl a b ns (.inr (.inr hm))) n hn
  | @other before e a b nodes last ls out _ _ _ ih =>
    intro hl n hn
    simp only [List.mem_append, List.mem_cons] at hn hl
    rcases hn with (hn | hn) | rfl | hn
    · exact hsep _ _ _ n hn
    · exact hl a b _ (.inl rfl) n (by simp [hn])
    · exact hl a b _ (.inl rfl) _ (by simp)
    · exact ih (fun a b ns hm => hl a b ns (.inr hm)) n hn

/-- All nodes, at any depth, are good. -/
def Good (xml : Bool) (src : Str) (ns : List Ast.Node) : Prop := ∀ n ∈ ns, GoodNode xml src n

theorem good_cons {sp : Option Range} {a b : Nat} {ty : Ast.NodeType} {ns : List Ast.Node} (h : Good xml src (allOf (.mk sp a b ty :: ns))) :
    GoodNode xml src (.mk sp a b ty) ∧ Good xml src (allOfType ty) ∧ Good xml src (allOf ns) := by
  rw [allOf] at h
  refine ⟨h _ (by simp), fun n hn => h n (by simp [hn]), fun n hn => h n (by simp [hn])⟩

theorem noSelector_good {p : Nat} {t : Selector} (h : NoSelector p t) : GoodSel xml src t := by
  obtain ⟨h1, h2, _⟩ := h
  constructor
  · intro n hn; simp [selOf, h1, Tag.name] at hn
  · rw [h2]; simp [attributesOf]

theorem chain_good {chain : List Selector} {t : Selector} (h1 : ∀ s ∈ chain, GoodSel xml src s) (h2 : GoodSel xml src t) :
    ∀ s ∈ chain ++ [t], GoodSel xml src s := by
  intro s hs
  simp only [List.mem_append, List.mem_singleton] at hs
  rcases hs with hs | rfl
  · exact h1 s hs
  · exact h2

mutual
  theorem item_ok {rg : Range} {ty : Ast.NodeType} {ns : List Node} (h : ItemIs src rg ty ns) (hg : Good xml src (allOfType ty))
      (ht : ∀ t, ty = .text t → LeafOk xml (textLeaf t)) : ∀ n ∈ ns, Ok xml src n :=
    match h with
    | .text h => by
      simp only [List.mem_singleton, forall_eq]
      exact text_ok h (ht _ rfl)
    | .multiline hx => by
      simp only [List.mem_singleton, forall_eq]
      refine elem_ok (by simp) ?_
      simp only [List.mem_singleton, forall_eq]
      exact leaf_ok hx ⟨rfl, fun _ => rfl⟩
    | .code hx => by
      simp only [List.mem_singleton, forall_eq]
      refine elem_ok (by simp) ?_
      simp only [List.mem_singleton, forall_eq]
      exact leaf_ok hx ⟨rfl, fun _ => rfl⟩
    | .special hc => by
      have := content_ok hc hg
      simp only [List.mem_singleton, forall_eq]
      exact elem_ok (by simp) this
    | .block hc => by
      have := content_ok hc hg
      simp only [List.mem_singleton, forall_eq]
      exact elem_ok (by simp) this
    | .inlineElement hl _ _ => by
      have := (line_ok hl hg).1
      intro n hn
      simp only [List.mem_append, List.mem_cons] at hn this
      rcases hn with hn | rfl | hn
      · exact this n (.inl hn)
      · cases this _ (.inr (.inl rfl)) with
        | elem h1 h2 h3 => exact .elem h1 h2 h3
      · exact this n (.inr (.inr hn))
    | .inlineText hl _ => by
      have := (line_ok hl hg).1
      simp only [List.mem_singleton, forall_eq]
      exact elem_ok (by simp) this
  theorem line_ok {ns : List Ast.Node} {out : List Node} {rest : List Ast.Node} (h : LineIs src ns out rest) (hg : Good xml src (allOf ns)) :
      (∀ n ∈ out, Ok xml src n) ∧ Good xml src (allOf rest) :=
    match h with
    | .nil => by simpa using hg
    | .item _ hi hl => by
      obtain ⟨g1, g2, g3⟩ := good_cons hg
      have h1 := item_ok hi g2 g1.2.2
      have h2 := line_ok hl g3
      refine ⟨fun n hn => ?_, h2.2⟩
      simp only [List.mem_append] at hn
      rcases hn with (hn | hn) | hn
      · exact space_ok g1.1 n hn
      · exact h1 n hn
      · exact h2.1 n hn
    | .selector hs ha hl => by
      obtain ⟨g1, g2, g3⟩ := good_cons hg
      have h1 := after_ok ha g3 (by simpa using g1.2.1 _ rfl _ hs)
      have h2 := line_ok hl h1.2
      refine ⟨fun n hn => ?_, h2.2⟩
      simp only [List.mem_append] at hn
      rcases hn with (hn | hn) | hn
      · exact space_ok g1.1 n hn
      · exact h1.1 n hn
      · exact h2.1 n hn
    | .arrow hs ha => by
      obtain ⟨g1, g2, g3⟩ := good_cons hg
      have h1 := arrow_ok ha g3 (by simpa using noSelector_good hs)
      refine ⟨fun n hn => ?_, h1.2⟩
      simp only [List.mem_append] at hn
      rcases hn with hn | hn
      · exact space_ok g1.1 n hn
      · exact h1.1 n hn
  theorem after_ok {chain : List Selector} {p : Range} {ns : List Ast.Node} {out : List Node} {rest : List Ast.Node} (h : AfterSelector src chain p ns out rest)
      (hg : Good xml src (allOf ns)) (hc : ∀ t ∈ chain, GoodSel xml src t) : (∀ n ∈ out, Ok xml src n) ∧ Good xml src (allOf rest) :=
    match h with
    | .dangling => by simpa using hg
    | .comment ht ha => by
      obtain ⟨g1, g2, g3⟩ := good_cons hg
      have h1 := after_ok ha g3 hc
      refine ⟨fun n hn => ?_, h1.2⟩
      simp only [List.mem_cons] at hn
      rcases hn with rfl | hn
      · exact text_ok ht (g1.2.2 _ rfl)
      · exact h1.1 n hn
    | .arrow ha => arrow_ok ha (good_cons hg).2.2 hc
    | .block hk => by
      obtain ⟨g1, g2, g3⟩ := good_cons hg
      have := content_ok hk g2
      refine ⟨?_, g3⟩
      simp only [List.mem_singleton, forall_eq]
      exact elem_ok hc this
  theorem arrow_ok {chain : List Selector} {p gt : Range} {ns : List Ast.Node} {out : List Node} {rest : List Ast.Node} (h : AfterArrow src chain p gt ns out rest)
      (hg : Good xml src (allOf ns)) (hc : ∀ t ∈ chain, GoodSel xml src t) : (∀ n ∈ out, Ok xml src n) ∧ Good xml src (allOf rest) :=
    match h with
    | .selector hs ha => by
      obtain ⟨g1, g2, g3⟩ := good_cons hg
      exact after_ok ha g3 (chain_good hc (g1.2.1 _ rfl _ hs))
    | .arrow hs ha => arrow_ok ha (good_cons hg).2.2 (chain_good hc (noSelector_good hs))
    | .block hk => by
      obtain ⟨g1, g2, g3⟩ := good_cons hg
      have := content_ok hk g2
      refine ⟨?_, g3⟩
      simp only [List.mem_singleton, forall_eq]
      exact elem_ok hc this
    | .line _ hl => by
      have := line_ok hl hg
      refine ⟨?_, this.2⟩
      simp only [List.mem_singleton, forall_eq]
      exact elem_ok hc this.1
  theorem content_ok {p : Bool} {a : Nat} {lines : List Ast.Line} {out : List Node} (h : ContentIs src p a lines out)
      (hg : Good xml src (allOfLines lines)) : ∀ n ∈ out, Ok xml src n :=
    match h with
    | .mk hl hy => layout_ok hy (lines_ok hl hg)
  theorem lines_ok {lines : List Ast.Line} {ls : List SrcLine} (h : LinesAre src lines ls) (hg : Good xml src (allOfLines lines)) :
      ∀ a b ns, .line a b ns ∈ ls → ∀ x ∈ ns, Ok xml src x :=
    match h with
    | .nil => by simp
    | .blank hl => by
      have := lines_ok hl (fun n hn => hg n (by simp [allOfLines, hn]))
      intro a b ns hm
      simp only [List.mem_cons, reduceCtorEq, false_or] at hm
      exact this a b ns hm
    | .line hn hl => by
      have h1 := line_ok hn (fun n hn => hg n (by simp [allOfLines, hn]))
      have h2 := lines_ok hl (fun n hn => hg n (by simp [allOfLines, hn]))
      intro a b ns hm
      simp only [List.mem_cons, SrcLine.line.injEq] at hm
      rcases hm with ⟨rfl, rfl, rfl⟩ | hm
      · exact h1.1
      · exact h2 a b ns hm
end

/-! ## Tokens of names -/

theorem reads_slice {pt : Pat} {r : Range} (h : reads src pt r = true) :
    ∃ b a, pt b (r.slice src ++ a) = some (r.slice src, a) := by
  obtain ⟨b, m, a, h1, h2, h3⟩ := reads_iff.mp h
  have : r.slice src = m := by rw [h1, h2]; exact slice_mid b m a
  rw [this]
  exact ⟨b, a, h3⟩

theorem reads_slice_take {pt : Pat} {r : Range} {q : Nat} (h : reads (takeBytes q src) pt r = true) :
    ∃ b a, pt b (r.slice src ++ a) = some (r.slice src, a) := by
  obtain ⟨b, m, a, h1, h2, h3⟩ := reads_iff.mp h
  obtain ⟨t, ht⟩ := takeBytes_prefix q src
  have : r.slice src = m := by
    rw [← ht, h1, h2, List.append_assoc, List.append_assoc]
    exact slice_mid b m (a ++ t)
  rw [this]
  exact ⟨b, a, h3⟩

open Lex Pat in
theorem escape_slash {b r m r' : Str} (h : escape b r = some (m, r')) : '\\' ∈ m := by
  rcases alt_some h with h | ⟨-, h⟩
  · obtain ⟨m1, r1, m2, h1, h2, rfl⟩ := seq_some h
    obtain ⟨rfl, -⟩ := exact_some h1
    simp
  · obtain ⟨m1, r1, m2, h1, h2, rfl⟩ := seq_some h
    obtain ⟨c, hc, rfl, -⟩ := chr_some h1
    simp only [decide_eq_true_eq] at hc
    simp [hc]

open Lex Pat in
theorem manyLoop_chars (p : Char → Bool) : ∀ (n : Nat) (b r : Str), '\\' ∉ (manyLoop (alt (chr p) escape) n b r).1 →
    ∀ c ∈ (manyLoop (alt (chr p) escape) n b r).1, p c = true
  | 0, _, _ => by simp [manyLoop]
  | n + 1, b, r => by
    rw [manyLoop]
    split
    · rename_i c m r1 h
      intro hs
      simp only [List.mem_append, not_or] at hs
      rcases alt_some h with h | ⟨-, h⟩
      · obtain ⟨c', hc', h1, -⟩ := chr_some h
        cases h1
        intro x hx
        simp only [List.cons_append, List.nil_append, List.mem_cons] at hx
        rcases hx with rfl | hx
        · exact hc'
        · exact manyLoop_chars p n _ _ hs.2 x hx
      · exact absurd (escape_slash h) hs.1
    · simp

open Lex Pat in
theorem many1_chars {p : Char → Bool} {b r m r' : Str} (h : many1 (alt (chr p) escape) b r = some (m, r')) (hs : '\\' ∉ m) :
    m ≠ [] ∧ ∀ c ∈ m, p c = true := by
  rw [many1] at h
  obtain ⟨m1, r1, m2, h1, h2, rfl⟩ := seq_some h
  simp only [List.mem_append, not_or] at hs
  rcases alt_some h1 with h1 | ⟨-, h1⟩
  · obtain ⟨c', hc', rfl, -⟩ := chr_some h1
    refine ⟨by simp, fun x hx => ?_⟩
    simp only [List.cons_append, List.nil_append, List.mem_cons] at hx
    rcases hx with rfl | hx
    · exact hc'
    · simp only [many, Option.some.injEq] at h2
      have := manyLoop_chars p r1.length (b ++ [c']) r1
      rw [h2] at this
      exact this hs.2 x hx
  · exact absurd (escape_slash h1) hs.1

/-! ## From the source to the syntax tree -/

theorem isLetter_nameStart {c : Char} (h : isLetter c) : nameStart c = true := by
  simpa [nameStart, isLetter] using h

theorem name_safe {xml : Bool} {b m a : Str} (h : Lex.elementName b (m ++ a) = some (m, a)) (hu : UsableName xml m) :
    SafeName m ∧ rawName xml (some m) = false := by
  obtain ⟨⟨c, s, rfl, hc⟩, hs, hx⟩ := hu
  obtain ⟨m1, r1, m2, h1, h2, h3⟩ := seq_some h
  have h1' : m1 = [] := by
    simp only [Pat.notPrecedes] at h1
    split at h1 <;> simp_all
  subst h1'
  simp only [List.nil_append] at h3
  subst h3
  have := (many1_chars h2 hs).2
  refine ⟨⟨c, s, rfl, isLetter_nameStart hc, fun d hd => ?_⟩, ?_⟩
  · have := this d (List.mem_cons_of_mem _ hd)
    simp only [isAsciiAlnum, Bool.or_eq_true, decide_eq_true_eq] at this
    simp only [nameChar, nameStart, Bool.or_eq_true, decide_eq_true_eq, List.mem_cons, List.not_mem_nil, or_false]
    tauto
  · cases xml with
    | true => rfl
    | false =>
      have := hx rfl
      simp only [rawName, Bool.not_false, Bool.true_and, Bool.or_eq_false_iff, decide_eq_false_iff_not, Option.some.injEq]
      exact this

theorem attrName_safe {b m a : Str} (h : Lex.attributeName b (m ++ a) = some (m, a)) (hu : UsableAttributeName m) : SafeAttrName m := by
  obtain ⟨h1, h2⟩ := many1_chars h fun hc => (hu _ hc).1 rfl
  refine ⟨h1, fun c hc => ?_⟩
  obtain ⟨-, u1, u2, u3, u4⟩ := hu c hc
  have := h2 c hc
  simp only [Bool.and_eq_true, Bool.not_eq_true', decide_eq_false_iff_not] at this
  obtain ⟨n1, n2⟩ := this
  have hw : c.toNat ≠ 32 := by
    intro he
    have : c = ' ' := Char.toNat_inj.1 he
    subst this
    revert n2
    decide
  have hm : ∀ d ∈ "=>'\"/[]\\".toList, c ≠ d := fun d hd he => n1 (he ▸ hd)
  simp only [attrChar, Bool.and_eq_true, decide_eq_true_eq, Bool.not_eq_true', decide_eq_false_iff_not, List.mem_cons, List.not_mem_nil,
    or_false, not_or]
  refine ⟨by omega, hm _ (by decide), hm _ (by decide), hm _ (by decide), u1, hm _ (by decide), hm _ (by decide), u2, ?_⟩
  rintro rfl
  exact u4 (by decide)

/-- The names of attributes. -/
theorem parts_names : ∀ {as : List Ast.Attribute} {p : Nat}, (partsOk src p as).1 = true → ∀ a ∈ as, attributeOk src a = true
  | [], _, _ => by simp
  | a :: as, p, h => by
    simp only [partsOk, Bool.and_eq_true] at h
    intro x hx
    rcases List.mem_cons.1 hx with rfl | hx
    · exact h.1.2
    · exact parts_names h.2 x hx

theorem attributes_names {a : Ast.AttributeSelector} (h : attributesOk src a = true) {n : Str} {v : Option Str}
    (hm : Part.attribute n v ∈ attributeParts src a) (hu : UsableAttributeName n) : SafeAttrName n := by
  rw [attributesOk] at h
  simp only [Bool.and_eq_true, beq_iff_eq] at h
  simp only [attributeParts, List.mem_map, Part.attribute.injEq] at hm
  obtain ⟨x, hx, rfl, -⟩ := hm
  have := parts_names h.1.2 x hx
  rw [attributeOk] at this
  simp only [Bool.and_eq_true] at this
  obtain ⟨b, a, hr⟩ := reads_slice this.1.2
  exact attrName_safe hr hu

theorem classParts_attribute {l : List Ast.ClassLike} {n : Str} {v : Option Str} : Part.attribute n v ∉ classParts src l := by
  induction l with
  | nil => simp [classParts]
  | cons c l ih => cases c <;> simp [classParts, ih]

theorem segments_names {alnum : Char → Bool} : ∀ {gs : List Ast.SelectorSegment} {p q : Nat}, segmentsOk alnum src p q gs = true →
    ∀ (n : Str) (v : Option Str), Part.attribute n v ∈ gs.flatMap (segmentParts src) → UsableAttributeName n → SafeAttrName n
  | [], _, _, _ => by simp
  | .attributes a :: gs, p, q, h => by
    simp only [segmentsOk, Bool.and_eq_true] at h
    intro n v hm hu
    simp only [List.flatMap_cons, List.mem_append] at hm
    rcases hm with hm | hm
    · exact attributes_names h.1.2 hm hu
    · exact segments_names h.2 n v hm hu
  | .classLike cs :: gs, p, q, h => by
    simp only [segmentsOk, Bool.and_eq_true] at h
    intro n v hm hu
    simp only [List.flatMap_cons, List.mem_append] at hm
    rcases hm with hm | hm
    · exact absurd hm classParts_attribute
    · exact segments_names h.2 n v hm hu

theorem selector_names {alnum : Char → Bool} {s : Ast.Selector} (h : selectorOk alnum src s = true) :
    (∀ n, writtenName src s = some n → UsableName xml n → SafeName n ∧ rawName xml (some n) = false) ∧
    ∀ n v, Part.attribute n v ∈ writtenParts src s → UsableAttributeName n → SafeAttrName n := by
  obtain ⟨a, first, segs, b⟩ := s
  rw [selectorOk] at h
  simp only [Bool.and_eq_true] at h
  obtain ⟨h1, h2⟩ := h
  constructor
  · intro n hn hu
    cases first with
    | attributes x => simp [writtenName] at hn
    | tag e cs =>
      cases e with
      | none => simp [writtenName] at hn
      | some e =>
        cases e with
        | star r => simp [writtenName] at hn
        | name r =>
          simp only [writtenName, Option.some.injEq] at hn
          subst hn
          simp only [chainOk.eq_def] at h1
          simp only [Bool.and_eq_true, beq_iff_eq] at h1
          obtain ⟨b, a, hr⟩ := reads_slice_take h1.2.1.2
          exact name_safe hr hu
  · intro n v hm hu
    simp only [writtenParts, List.mem_append] at hm
    rcases hm with hm | hm
    · cases first with
      | attributes x =>
        simp only [Bool.and_eq_true] at h1
        exact attributes_names h1.2 hm hu
      | tag e cs => exact absurd hm classParts_attribute
    · exact segments_names h2 n v hm hu

theorem documentParts_attribute : ∀ {items : List SelectorItem} {a : Attribute}, a ∈ attributesOf items →
    Part.attribute (a.name.asStr src) (a.value.map (·.asStr src)) ∈ documentParts src items
  | [], a, h => by simp [attributesOf] at h
  | .id _ v :: l, a, h => by
    simp only [documentParts, List.mem_cons, reduceCtorEq, false_or]
    exact documentParts_attribute (by simpa [attributesOf] using h)
  | .cls _ v :: l, a, h => by
    simp only [documentParts, List.mem_cons, reduceCtorEq, false_or]
    exact documentParts_attribute (by simpa [attributesOf] using h)
  | .attributes _ as :: l, a, h => by
    simp only [attributesOf, List.flatMap_cons, List.mem_append] at h
    simp only [documentParts, List.mem_append, List.mem_map]
    rcases h with h | h
    · exact .inl ⟨a, h, rfl⟩
    · exact .inr (documentParts_attribute h)

theorem selector_good {alnum : Char → Bool} {s : Ast.Selector} (h : selectorOk alnum src s = true)
    (h1 : ∀ n, writtenName src s = some n → UsableName xml n)
    (h2 : ∀ n v, Part.attribute n v ∈ writtenParts src s → UsableAttributeName n) {t : Selector} (ht : SelectorIs src s t) :
    GoodSel xml src t := by
  have t1 := Structure.selector_name ht
  obtain ⟨_, t2, _⟩ := ht
  obtain ⟨n1, n2⟩ := selector_names (xml := xml) h
  constructor
  · intro n hn
    have : writtenName src s = some n := by rw [← t1]; exact hn
    exact n1 n this (h1 n this)
  · intro a ha x hx
    have := documentParts_attribute (src := src) ha
    rw [t2] at this
    have hu := h2 _ _ this
    rw [unescapes_plain hx fun hc => (hu _ hc).1 rfl]
    exact n2 _ _ this hu

theorem space_blank {r : Range} (h : reads src Lex.space r = true) (hr : '\r' ∉ r.slice src) : Blank (r.slice src) ∧ r.slice src ≠ [] := by
  obtain ⟨b, a, hp⟩ := reads_slice h
  rw [Lex.space, Pat.many1] at hp
  obtain ⟨m1, r1, m2, h1, h2, h3⟩ := seq_some hp
  obtain ⟨c, hc, rfl, -⟩ := chr_some h1
  have := many_all h2
  rw [h3] at hr ⊢
  refine ⟨fun x hx => ⟨?_, fun he => hr (he ▸ hx)⟩, by simp⟩
  have hx' : isSpace x = true := by
    rcases List.mem_append.1 hx with hx | hx
    · rw [List.mem_singleton.1 hx]; exact hc
    · exact this x hx
  exact (white_iff x).1 (isSpace_white hx')

theorem node_good {alnum : Char → Bool} {p : Nat} {sp : Option Range} {a b : Nat} {ty : Ast.NodeType}
    (h1 : spaceOk src p a sp = true) (h2 : typeOk alnum src a b ty = true) (hu : UsableNode xml src (.mk sp a b ty)) :
    GoodNode xml src (.mk sp a b ty) := by
  obtain ⟨u1, u2⟩ := hu
  refine ⟨?_, ?_, ?_⟩
  · rintro r rfl
    simp only [spaceOk, Bool.and_eq_true] at h1
    exact space_blank h1.1.2 (u1 r rfl)
  · rintro s rfl t ht
    simp only [typeOk, Bool.and_eq_true] at h2
    exact selector_good h2.2 u2.1 u2.2 ht
  · rintro t rfl
    cases t with
    | segment r => exact ⟨rfl, fun _ => rfl⟩
    | comment c => trivial
    | interpolation r => exact u2.elim
    | verbatim o raw tail =>
      cases raw with
      | none => exact ⟨rfl, fun _ => rfl⟩
      | some k => exact ⟨rfl, fun hx => by rw [show xml = true from u2] at hx; cases hx⟩

mutual
  theorem type_good (xml : Bool) (alnum : Char → Bool) (src : Str) : ∀ (ty : Ast.NodeType) (a b : Nat), typeOk alnum src a b ty = true →
      (∀ n ∈ allOfType ty, UsableNode xml src n) → Good xml src (allOfType ty)
    | .multiline k s e, a, b, _, _ => by simp [allOfType, Good]
    | .text t, a, b, _, _ => by simp [allOfType, Good]
    | .selector s, a, b, _, _ => by simp [allOfType, Good]
    | .line c, a, b, _, _ => by simp [allOfType, Good]
    | .code c, a, b, _, _ => by simp [allOfType, Good]
    | .block l (.mk s lines e) r, a, b, h, hu => by
      simp only [typeOk, Bool.and_eq_true] at h
      exact lines_good xml alnum src lines true s e h.1.2 hu
    | .special f l (.mk s lines e) r, a, b, h, hu => by
      simp only [typeOk, Bool.and_eq_true] at h
      exact lines_good xml alnum src lines true s e h.1.2 hu
    | .inline o inner c, a, b, h, hu => by
      simp only [typeOk, Bool.and_eq_true] at h
      exact nodes_good xml alnum src inner _ _ h.1.2 hu
  theorem nodes_good (xml : Bool) (alnum : Char → Bool) (src : Str) : ∀ (ns : List Ast.Node) (p q : Nat),
      nodesOk alnum src p q ns = true → (∀ n ∈ allOf ns, UsableNode xml src n) → Good xml src (allOf ns)
    | [], p, q, h, hu => by simp [allOf, Good]
    | .mk sp a b ty :: ns, p, q, h, hu => by
      simp only [nodesOk, Bool.and_eq_true] at h
      rw [allOf] at hu
      have c1 := type_good xml alnum src ty a b h.1.2 fun n hn => hu n (by simp [hn])
      have c2 := nodes_good xml alnum src ns b q h.2 fun n hn => hu n (by simp [hn])
      have c3 := node_good h.1.1 h.1.2 (hu _ (by simp))
      intro n hn
      rw [allOf] at hn
      simp only [List.mem_cons, List.mem_append] at hn
      rcases hn with rfl | hn | hn
      · exact c3
      · exact c1 n hn
      · exact c2 n hn
  theorem lines_good (xml : Bool) (alnum : Char → Bool) (src : Str) : ∀ (ls : List Ast.Line) (first : Bool) (p q : Nat),
      linesOk alnum src first p q ls = true → (∀ n ∈ allOfLines ls, UsableNode xml src n) → Good xml src (allOfLines ls)
    | [], first, p, q, _, _ => by simp [allOfLines, Good]
    | .mk s ns e :: ls, first, p, q, h, hu => by
      simp only [linesOk, Bool.and_eq_true] at h
      rw [allOfLines] at hu
      have c1 := nodes_good xml alnum src ns _ _ h.1.1.2 fun n hn => hu n (by simp [hn])
      have c2 := lines_good xml alnum src ls false e q h.2 fun n hn => hu n (by simp [hn])
      intro n hn
      rw [allOfLines, List.mem_append] at hn
      rcases hn with hn | hn
      · exact c1 n hn
      · exact c2 n hn
end

/-- The document of a usable source can be read back. -/
theorem usable_clean {alnum : Char → Bool} {s t : Nat} {lines : List Ast.Line} {nodes : List Node}
    (hc : Conforms alnum src ⟨.mk s lines t⟩ = true) (hu : Usable xml src ⟨.mk s lines t⟩) (hd : ContentIs src true s lines nodes) :
    ∀ t ∈ forestOf src nodes, Clean xml src false t := by
  simp only [Conforms, Bool.and_eq_true] at hc
  have hg := lines_good xml alnum src lines true s t hc.1.2 hu
  exact forest_clean_iff.2 fun n hn => (content_ok hd hg n hn).clean

end Mty.Usable
