import Verif.Model.Infer
import Verif.Spec.Infer

/-! # The inference engine gives the names of the specification -/

set_option autoImplicit false

namespace Mty
open Spec Infer

/-- The context that corresponds to an implementation of `Infer`. -/
def ctxOf : Method → Context
  | .standard => .section
  | .phrasing => .paragraph
  | .raw => .raw
  | .root => .html
  | .list => .list
  | .descriptionList => .descriptionList
  | .optGroup => .dataList
  | .select => .select
  | .map => .imageMap
  | .details => .details
  | .label => .label
  | .fieldSet => .fieldset
  | .picture => .picture
  | .table => .table
  | .row => .row
  | .colGroup => .columnGroup

/-- The written name of the first selector. -/
def headName (src : Str) (h : EHead) : Option Str :=
  (h.selectors.head?.bind fun s => s.tag.name).map fun n => n.asStr src

/-- The name of the element a context is about. -/
def cxName (src : Str) (cx : Option PredCx) : Option Str :=
  (cx.bind PredCx.this).bind (headName src)

/-! ## Predicates -/

def holds (p : Pred) (src : Str) (cx : PredCx) : Bool := p src cx == some true

theorem holds_orP (p q : Pred) (src : Str) (cx : PredCx) :
    holds (orP p q) src cx = (holds p src cx || holds q src cx) := by
  unfold holds orP
  cases p src cx with
  | none => cases q src cx with
    | none => rfl
    | some b => cases b <;> rfl
  | some a => cases a <;> cases q src cx with
    | none => rfl
    | some b => cases b <;> rfl

theorem holds_tagWhere (f : Str → Bool) (src : Str) (cx : PredCx) (h : EHead) (hc : cx.this = some h) :
    holds (tagWhere f) src cx = ((headName src h).map f).getD false := by
  unfold holds tagWhere headName
  rw [hc]
  cases hs : h.selectors with
  | nil => simp [hs]
  | cons s ss => cases ht : s.tag <;> simp [Tag.name, ht, hs]

theorem holds_elementWhere (f : EHead → Bool) (src : Str) (cx : PredCx) (h : EHead) (hc : cx.this = some h) :
    holds (elementWhere f) src cx = f h := by
  unfold holds elementWhere
  rw [hc]
  cases hf : f h <;> simp [hf]

theorem holds_line (src : Str) (cx : PredCx) (h : EHead) (hc : cx.this = some h) :
    holds line src cx = decide (formOf h.ty = some .line) := by
  unfold line
  rw [holds_elementWhere _ _ _ _ hc]
  unfold formOf
  split <;> simp_all
  split <;> simp_all

theorem holds_block (src : Str) (cx : PredCx) (h : EHead) (hc : cx.this = some h) :
    holds block src cx = decide (formOf h.ty = some .block) := by
  unfold block
  rw [holds_elementWhere _ _ _ _ hc]
  unfold formOf
  split <;> simp_all
  split <;> simp_all

theorem holds_paragraph (src : Str) (cx : PredCx) (h : EHead) (hc : cx.this = some h) :
    holds paragraph src cx = decide (formOf h.ty = some .paragraph) := by
  unfold paragraph
  rw [holds_elementWhere _ _ _ _ hc]
  unfold formOf
  split <;> simp_all
  split <;> simp_all

/-! ## Finding the method -/

theorem defTest_drop {α : Type} (src : Str) (cx : PredCx) : ∀ (l : List (Pred × α)) (i start : Nat), i ≤ start →
    defTest src cx l i start = defTest src cx (l.drop (start - i)) start start
  | [], i, start, _ => by simp [defTest]
  | (p, v) :: l, i, start, h => by
    by_cases he : i = start
    · subst he; simp
    · rw [defTest, if_neg (by omega), defTest_drop src cx l (i + 1) start (by omega)]
      rw [show start - i = (start - (i + 1)) + 1 by omega, List.drop_succ_cons]

/-- The definition that is used: the first one whose predicate holds. -/
def firstHolds {α : Type} (src : Str) (cx : PredCx) (l : List (Pred × α)) : Option α :=
  (l.find? fun d => holds d.1 src cx).map (·.2)

theorem defTest_le {α : Type} (src : Str) (cx : PredCx) : ∀ (l : List (Pred × α)) (i start : Nat), start ≤ i →
    (∃ j, j < l.length ∧ defTest src cx l i start = .error (i + j) ∧
      firstHolds src cx l = firstHolds src cx (l.drop (j + 1))) ∨
    defTest src cx l i start = .ok (firstHolds src cx l)
  | [], i, start, _ => by right; rfl
  | (p, v) :: l, i, start, h => by
    rw [defTest, if_pos h]
    have hf : ∀ b, p src cx = b → b ≠ some true → firstHolds src cx ((p, v) :: l) = firstHolds src cx l := by
      intro b hb hne
      simp [firstHolds, holds, hb, hne]
    cases hp : p src cx with
    | none =>
      left
      exact ⟨0, by simp, rfl, by simpa using hf _ hp (by simp)⟩
    | some b =>
      cases b with
      | true => right; simp [firstHolds, holds, hp]
      | false =>
        simp only
        rw [hf _ hp (by simp)]
        rcases defTest_le src cx l (i + 1) start (by omega) with ⟨j, h1, h2, h3⟩ | h2
        · left
          refine ⟨j + 1, by simp; omega, ?_, ?_⟩
          · rw [h2]; congr 1; omega
          · rw [h3]; simp
        · right; exact h2

theorem methodLoop_eq (src : Str) (cx : PredCx) (l : List (Pred × Method)) :
    ∀ (fuel start : Nat), l.length < fuel + start → start ≤ l.length + fuel →
      0 < fuel →
      methodLoop src cx l fuel start = (firstHolds src cx (l.drop start)).getD .standard
  | 0, _, _, _, h => by omega
  | fuel + 1, start, h1, h2, _ => by
    rw [methodLoop, defTest_drop _ _ _ _ _ (Nat.zero_le _), Nat.sub_zero]
    rcases defTest_le src cx (l.drop start) start start (Nat.le_refl _) with ⟨j, e1, e2, e3⟩ | e2
    · rw [e2]
      simp only [List.length_drop] at e1
      simp only
      rw [methodLoop_eq src cx l fuel (start + j + 1) (by omega) (by omega) (by omega), e3,
        List.drop_drop]
      rfl
    · rw [e2]

/-! ## Names -/

/-- All names that determine a context. -/
def knownNames : List String :=
  phrasingNames ++ sectionNames ++
    ["ul", "ol", "menu", "table", "thead", "tbody", "tfoot", "tr", "details", "fieldset", "dl", "label",
     "datalist", "optgroup", "select", "colgroup", "map", "picture", "html", "script", "style"]

/-- The method by name, as in `commonMethods`. -/
def nameMethod (n : Str) : Option Method :=
  let is (l : List String) : Bool := l.any fun t => n == t.toList
  if containsPhrasing n || isVoid n then some .phrasing
  else if n == "html".toList then some .root
  else if containsBlocks n then some .standard
  else if is ["ul", "ol", "menu"] then some .list
  else if is ["table", "thead", "tbody", "tfoot"] then some .table
  else if is ["tr"] then some .row
  else if is ["colgroup"] then some .colGroup
  else if n == "dl".toList then some .descriptionList
  else if is ["optgroup", "datalist"] then some .optGroup
  else if n == "select".toList then some .select
  else if n == "map".toList then some .map
  else if n == "details".toList then some .details
  else if n == "label".toList then some .label
  else if n == "fieldset".toList then some .fieldSet
  else if n == "picture".toList then some .picture
  else if is ["style", "script"] then some .raw
  else none

theorem nameMethod_known : ∀ n ∈ knownNames, (nameMethod n.toList).map ctxOf = contextOfName n.toList := by
  decide +kernel

theorem any_false {n : Str} (h : ∀ t ∈ knownNames, n ≠ t.toList) {l : List String} (hl : ∀ t ∈ l, t ∈ knownNames) :
    (l.any fun t => n == t.toList) = false := by
  rw [List.any_eq_false]
  intro t ht
  simp [h t (hl t ht)]

theorem nameMethod_ctx (n : Str) : (nameMethod n).map ctxOf = contextOfName n := by
  by_cases hk : ∃ t ∈ knownNames, n = t.toList
  · obtain ⟨t, ht, rfl⟩ := hk
    exact nameMethod_known t ht
  · have hk' : ∀ t ∈ knownNames, n ≠ t.toList := fun t ht e => hk ⟨t, ht, e⟩
    have eq1 : ∀ t ∈ knownNames, (n == t.toList) = false := fun t ht => by simp [hk' t ht]
    have e2 : ∀ l : List String, (∀ t ∈ l, t ∈ knownNames) → (l.any fun t => decide (n = t.toList)) = false := by
      intro l hl
      have := any_false hk' hl
      simpa using this
    have a1 : containsPhrasing n = false := any_false hk' (by decide)
    have a2 : isVoid n = false := any_false hk' (by decide)
    have a3 : containsBlocks n = false := any_false hk' (by decide)
    unfold nameMethod contextOfName
    simp only [a1, a2, a3,
      any_false hk' (l := ["ul", "ol", "menu"]) (by decide),
      any_false hk' (l := ["table", "thead", "tbody", "tfoot"]) (by decide),
      any_false hk' (l := ["tr"]) (by decide), any_false hk' (l := ["colgroup"]) (by decide),
      any_false hk' (l := ["optgroup", "datalist"]) (by decide),
      any_false hk' (l := ["style", "script"]) (by decide),
      eq1 "html" (by decide), eq1 "dl" (by decide), eq1 "select" (by decide), eq1 "map" (by decide),
      eq1 "details" (by decide), eq1 "label" (by decide), eq1 "fieldset" (by decide),
      eq1 "picture" (by decide),
      e2 phrasingNames (by decide), e2 sectionNames (by decide), e2 ["ul", "ol", "menu"] (by decide),
      e2 ["table", "thead", "tbody", "tfoot"] (by decide), e2 ["tr"] (by decide), e2 ["details"] (by decide),
      e2 ["fieldset"] (by decide), e2 ["dl"] (by decide), e2 ["label"] (by decide),
      e2 ["datalist", "optgroup"] (by decide), e2 ["select"] (by decide), e2 ["colgroup"] (by decide),
      e2 ["map"] (by decide), e2 ["picture"] (by decide), e2 ["html"] (by decide),
      e2 ["script", "style"] (by decide)]
    rfl

theorem nameMethod_none {n : Str} (hm : nameMethod n = none) :
    containsPhrasing n = false ∧ containsBlocks n = false := by
  unfold nameMethod at hm
  dsimp only at hm
  by_cases c1 : (containsPhrasing n || isVoid n) = true
  · rw [if_pos c1] at hm; cases hm
  rw [if_neg c1] at hm
  by_cases c2 : (n == "html".toList) = true
  · rw [if_pos c2] at hm; cases hm
  rw [if_neg c2] at hm
  by_cases c3 : containsBlocks n = true
  · rw [if_pos c3] at hm; cases hm
  rw [Bool.or_eq_true, not_or] at c1
  exact ⟨Bool.eq_false_iff.2 c1.1, Bool.eq_false_iff.2 c3⟩

theorem firstHolds_append {α : Type} (src : Str) (cx : PredCx) (a b : List (Pred × α)) :
    firstHolds src cx (a ++ b) = (firstHolds src cx a).or (firstHolds src cx b) := by
  unfold firstHolds
  rw [List.find?_append]
  cases List.find? (fun d => holds d.1 src cx) a <;> simp

theorem firstHolds_cons {α : Type} (src : Str) (cx : PredCx) (p : Pred) (v : α) (l : List (Pred × α)) :
    firstHolds src cx ((p, v) :: l) = if holds p src cx then some v else firstHolds src cx l := by
  unfold firstHolds
  simp only [List.find?_cons]
  cases holds p src cx <;> rfl

theorem firstHolds_nil {α : Type} (src : Str) (cx : PredCx) : firstHolds src cx ([] : List (Pred × α)) = none := rfl

theorem common_eq (src : Str) (cx : PredCx) (h : EHead) (hc : cx.this = some h) :
    firstHolds src cx commonMethods = (headName src h).bind nameMethod := by
  unfold commonMethods tagIn tag
  simp only [firstHolds_cons, holds_orP, holds_tagWhere _ src cx h hc, firstHolds_nil]
  cases headName src h with
  | none =>
    simp only [Option.map_none, Option.getD_none, Bool.or_self, Bool.false_eq_true, if_false, Option.bind_none]
  | some n =>
    simp only [Option.map_some, Option.getD_some, Option.bind_some, nameMethod]

theorem method_ctx (src : Str) (cx : PredCx) (h : EHead) (hc : cx.this = some h) (m : Method) :
    ctxOf (methodLoop src cx m.methods (m.methods.length + 1) 0) =
      contextInside (headName src h) (formOf h.ty) := by
  rw [methodLoop_eq _ _ _ _ _ (by omega) (by omega) (by omega), List.drop_zero]
  have hd : holds defaultP src cx = (decide (formOf h.ty = some .line) || decide (formOf h.ty = some .block)
      || decide (formOf h.ty = some .paragraph)) := by
    simp only [defaultP, holds_orP, holds_line _ _ _ hc, holds_block _ _ _ hc, holds_paragraph _ _ _ hc]
  have key : ∀ ms, (ms = standardMethods ∨ ms = phrasingMethods) →
      ctxOf ((firstHolds src cx ms).getD .standard) = contextInside (headName src h) (formOf h.ty) := by
    intro ms hms
    have hcn : ∀ n, headName src h = some n → nameMethod n = none →
        holds (tagWhere containsPhrasing) src cx = false ∧ holds (tagWhere containsBlocks) src cx = false := by
      intro n hn hm
      rw [holds_tagWhere _ _ _ _ hc, holds_tagWhere _ _ _ _ hc, hn]
      obtain ⟨h1, h2⟩ := nameMethod_none hm
      simp [h1, h2]
    have hcn' : headName src h = none →
        holds (tagWhere containsPhrasing) src cx = false ∧ holds (tagWhere containsBlocks) src cx = false := by
      intro hn
      rw [holds_tagWhere _ _ _ _ hc, holds_tagWhere _ _ _ _ hc, hn]
      simp
    rcases hms with rfl | rfl
    · unfold standardMethods contextInside
      rw [firstHolds_append, common_eq _ _ _ hc]
      simp only [firstHolds_cons, firstHolds_nil, holds_orP, hd, holds_line _ _ _ hc, holds_paragraph _ _ _ hc]
      cases hn : headName src h with
      | none => cases hf : formOf h.ty with
        | none => rfl
        | some f => cases f <;> rfl
      | some n =>
        simp only [Option.bind_some]
        rw [← nameMethod_ctx]
        cases nameMethod n with
        | some m => simp
        | none => cases hf : formOf h.ty with
          | none => rfl
          | some f => cases f <;> rfl
    · unfold phrasingMethods contextInside
      rw [firstHolds_append, common_eq _ _ _ hc]
      simp only [firstHolds_cons, firstHolds_nil, holds_orP, hd, holds_block _ _ _ hc]
      cases hn : headName src h with
      | none =>
        obtain ⟨a, b⟩ := hcn' hn
        simp only [a, b]
        cases hf : formOf h.ty with
        | none => rfl
        | some f => cases f <;> rfl
      | some n =>
        simp only [Option.bind_some]
        rw [← nameMethod_ctx]
        cases hm : nameMethod n with
        | some m => simp
        | none =>
          obtain ⟨a, b⟩ := hcn n hn hm
          simp only [a, b]
          cases hf : formOf h.ty with
          | none => rfl
          | some f => cases f <;> rfl
  cases m <;> exact key _ (by simp [Method.methods])

/-! ## Tags -/

/-- The node type of a node. -/
def nodeForm (n : Node) : Option Form := n.asElement.bind fun h => formOf h.ty

theorem elementWhere_eq (f : EHead → Bool) (src : Str) (nodes : List Node) (i : Nat) (parent : Option PredCx)
    (n : Node) (hn : nodes[i]? = some n) :
    elementWhere f src (.mk nodes i parent) = some ((n.asElement.map f).getD false) := by
  have : (PredCx.mk nodes i parent).this = n.asElement := by
    simp [PredCx.this, PredCx.nodes, PredCx.index, hn]
  unfold elementWhere
  rw [this]
  cases n.asElement <;> rfl

theorem line_eq (src : Str) (nodes : List Node) (i : Nat) (parent : Option PredCx)
    (n : Node) (hn : nodes[i]? = some n) :
    line src (.mk nodes i parent) = some (decide (nodeForm n = some .line)) := by
  unfold line
  rw [elementWhere_eq _ _ _ _ _ _ hn]
  cases n with
  | text r t => rfl
  | elem r h ch =>
    obtain ⟨_, _, _, ty, _, _⟩ := h
    rcases ty with _ | d | d | _ | _ | _
    · rfl
    · cases d <;> rfl
    · rcases d with _ | d
      · rfl
      · cases d <;> rfl
    all_goals rfl

theorem block_eq (src : Str) (nodes : List Node) (i : Nat) (parent : Option PredCx)
    (n : Node) (hn : nodes[i]? = some n) :
    block src (.mk nodes i parent) = some (decide (nodeForm n = some .block)) := by
  unfold block
  rw [elementWhere_eq _ _ _ _ _ _ hn]
  cases n with
  | text r t => rfl
  | elem r h ch =>
    obtain ⟨_, _, _, ty, _, _⟩ := h
    rcases ty with _ | d | d | _ | _ | _
    · rfl
    · cases d <;> rfl
    · rcases d with _ | d
      · rfl
      · cases d <;> rfl
    all_goals rfl

theorem paragraph_eq (src : Str) (nodes : List Node) (i : Nat) (parent : Option PredCx)
    (n : Node) (hn : nodes[i]? = some n) :
    paragraph src (.mk nodes i parent) = some (decide (nodeForm n = some .paragraph)) := by
  unfold paragraph
  rw [elementWhere_eq _ _ _ _ _ _ hn]
  cases n with
  | text r t => rfl
  | elem r h ch =>
    obtain ⟨_, _, _, ty, _, _⟩ := h
    rcases ty with _ | d | d | _ | _ | _
    · rfl
    · cases d <;> rfl
    · rcases d with _ | d
      · rfl
      · cases d <;> rfl
    all_goals rfl

theorem first_eq (src : Str) (nodes : List Node) (i : Nat) (parent : Option PredCx) :
    first src (.mk nodes i parent) = some (decide (i = 0)) := by
  unfold first notP after
  cases i with
  | zero => rfl
  | succ k =>
    simp only [PredCx.index, List.range_succ_eq_map, relativeLoop, any]
    rfl

theorem last_eq (src : Str) (nodes : List Node) (i : Nat) (parent : Option PredCx) (hi : i < nodes.length) :
    last src (.mk nodes i parent) = some (decide (i + 1 = nodes.length)) := by
  unfold last notP before
  simp only [PredCx.index, PredCx.nodes]
  cases hd : (List.range nodes.length).drop (i + 1) with
  | nil =>
    have : i + 1 = nodes.length := by
      have := congrArg List.length hd
      simp at this; omega
    simp [relativeLoop, this]
  | cons a l =>
    have : i + 1 ≠ nodes.length := by
      have := congrArg List.length hd
      simp at this; omega
    simp [relativeLoop, any, this]

theorem tag_getD (t : String) (src : Str) (cx : PredCx) :
    (tag t src cx).getD false = decide ((cx.this.bind (headName src)) = some t.toList) := by
  unfold tag tagWhere headName
  cases cx.this with
  | none => simp
  | some h =>
    cases hs : h.selectors with
    | nil => simp [hs]
    | cons s ss => cases ht : s.tag <;> simp [hs, ht, Tag.name, Bool.beq_eq_decide_eq]

theorem tag_getD_opt (t : String) (src : Str) (g : Option PredCx) :
    (g.bind fun cx => tag t src cx).getD false = decide (cxName src g = some t.toList) := by
  cases g with
  | none => simp [cxName]
  | some g => exact tag_getD t src g

theorem thead_eq (src : Str) (nodes : List Node) (i : Nat) (parent : Option PredCx) :
    childOf (childOf (tag "thead")) src (.mk nodes i parent) =
      some (decide (cxName src (parent.bind PredCx.parent) = some "thead".toList)) := by
  unfold childOf
  cases parent with
  | none => rfl
  | some p =>
    exact congrArg some (tag_getD_opt "thead" src p.parent)

theorem tags_aux (src : Str) (m : Method) (cx : PredCx) (f : Option Form) (fi la th : Bool)
    (e1 : line src cx = some (decide (f = some .line)))
    (e2 : block src cx = some (decide (f = some .block)))
    (e3 : paragraph src cx = some (decide (f = some .paragraph)))
    (e4 : first src cx = some fi) (e5 : last src cx = some la)
    (e6 : childOf (childOf (tag "thead")) src cx = some th) :
    defTest src cx m.tags 0 0 = .ok (nameIn (ctxOf m) f fi la th) := by
  cases m <;> simp only [Method.tags, standardTags, defTest, defaultP, orP, andP, e1, e2, e3, e4, e5, e6, ctxOf] <;>
    rcases f with _ | (_ | _ | _) <;> cases fi <;> cases la <;> cases th <;> rfl

/-- The tag definitions give the name of the tables. -/
theorem tags_eq (src : Str) (m : Method) (nodes : List Node) (i : Nat) (parent : Option PredCx)
    (n : Node) (hn : nodes[i]? = some n) :
    defTest src (.mk nodes i parent) m.tags 0 0 =
      .ok (nameIn (ctxOf m) (nodeForm n) (decide (i = 0)) (decide (i + 1 = nodes.length))
        (decide (cxName src (parent.bind PredCx.parent) = some "thead".toList))) :=
  tags_aux src m _ _ _ _ _ (line_eq src nodes i parent n hn) (block_eq src nodes i parent n hn)
    (paragraph_eq src nodes i parent n hn) (first_eq src nodes i parent)
    (last_eq src nodes i parent (List.getElem?_eq_some_iff.1 hn).1) (thead_eq src nodes i parent)

/-! ## One pass over the siblings -/

/-- The node with the name of the tables. -/
def tagNode (src : Str) (m : Method) (parent : Option PredCx) (len i : Nat) (n : Node) : Node :=
  if ((n.asElement.bind fun h => h.selectors.head?).bind fun s => s.tag.name).isSome then n
  else match nameIn (ctxOf m) (nodeForm n) (decide (i = 0)) (decide (i + 1 = len))
      (decide (cxName src (parent.bind PredCx.parent) = some "thead".toList)) with
    | some t => applyTag t n
    | none => n

theorem set_self {α : Type} {l : List α} {i : Nat} {a : α} (h : l[i]? = some a) : l.set i a = l := by
  apply List.ext_getElem?
  intro j
  rw [List.getElem?_set]
  split
  · rename_i e; subst e
    split
    · exact h.symm
    · rename_i hl; simp at hl; rw [List.getElem?_eq_none hl]
  · rfl

theorem inferTagNode_eq (src : Str) (m : Method) (parent : Option PredCx) (nodes : List Node)
    (states : List (Option Nat)) (i : Nat) (n : Node) (hn : nodes[i]? = some n)
    (hs : states[i]? = some (some 0)) :
    inferTagNode src m.tags parent nodes states i =
      (nodes.set i (tagNode src m parent nodes.length i n), states.set i none, true) := by
  unfold inferTagNode tagNode
  simp only [hs, hn]
  by_cases hc : ((n.asElement.bind fun h => h.selectors.head?).bind fun s => s.tag.name).isSome = true
  · rw [if_pos hc, if_pos hc, set_self hn]
  · rw [if_neg hc, if_neg hc, tags_eq src m nodes i parent n hn]
    generalize nameIn (ctxOf m) (nodeForm n) _ _ _ = t
    cases t with
    | none => simp only [set_self hn]
    | some t => rfl

theorem inferTagPass_eq (src : Str) (m : Method) (parent : Option PredCx) :
    ∀ (is : List Nat) (nodes : List Node) (states : List (Option Nat)), is.Nodup →
      (∀ i ∈ is, i < nodes.length ∧ states[i]? = some (some 0)) →
      ∃ ns st, inferTagPass src m.tags parent is nodes states = (ns, st, is.length) ∧
        ns.length = nodes.length ∧
        (∀ j, ns[j]? = if j ∈ is then nodes[j]?.map (tagNode src m parent nodes.length j) else nodes[j]?)
  | [], nodes, states, _, _ => ⟨nodes, states, rfl, rfl, by simp⟩
  | i :: is, nodes, states, hnd, hall => by
    obtain ⟨hi, hsi⟩ := hall i (by simp)
    obtain ⟨n, hn⟩ : ∃ n, nodes[i]? = some n := ⟨nodes[i], by simp [hi]⟩
    rw [List.nodup_cons] at hnd
    have hall' : ∀ j ∈ is, j < (nodes.set i (tagNode src m parent nodes.length i n)).length ∧
        (states.set i none)[j]? = some (some 0) := by
      intro j hj
      obtain ⟨h1, h2⟩ := hall j (by simp [hj])
      have : i ≠ j := fun e => hnd.1 (e ▸ hj)
      exact ⟨by simpa using h1, by rw [List.getElem?_set_ne this]; exact h2⟩
    obtain ⟨ns, st, e1, e2, e3⟩ := inferTagPass_eq src m parent is _ _ hnd.2 hall'
    refine ⟨ns, st, ?_, by simpa using e2, ?_⟩
    · simp only [inferTagPass, inferTagNode_eq src m parent nodes states i n hn hsi, e1]
      simp [Nat.add_comm]
    · intro j
      rw [e3 j, List.length_set]
      by_cases hji : j = i
      · subst hji
        rw [if_neg hnd.1, if_pos (by simp), List.getElem?_set_self hi, hn]; rfl
      · rw [List.getElem?_set_ne (fun e => hji e.symm)]
        simp [hji]

theorem inferTagNodes_eq (src : Str) (m : Method) (parent : Option PredCx) (nodes : List Node) :
    (inferTagNodes src m.tags parent nodes).length = nodes.length ∧
    ∀ j, (inferTagNodes src m.tags parent nodes)[j]? = nodes[j]?.map (tagNode src m parent nodes.length j) := by
  obtain ⟨ns, st, e1, e2, e3⟩ := inferTagPass_eq src m parent (List.range nodes.length) nodes
    (List.replicate nodes.length (some 0)) List.nodup_range
    (by intro i hi; simp at hi; exact ⟨hi, by simp [hi]⟩)
  have : inferTagNodes src m.tags parent nodes = ns := by
    unfold inferTagNodes
    rw [inferTagLoop]
    simp only [Bool.false_eq_true, if_false, e1]
    rw [if_pos (by simp [e2])]
  rw [this]
  refine ⟨e2, fun j => ?_⟩
  rw [e3 j]
  by_cases hj : j < nodes.length
  · rw [if_pos (by simp [hj])]
  · rw [if_neg (by simp [hj]), List.getElem?_eq_none (by omega)]; rfl

/-- Updating the positions of a list one by one. -/
theorem foldl_positions {α : Type} (step : List α → Nat → List α)
    (hstep : ∀ ns i, (step ns i).length = ns.length ∧ ∀ j, j ≠ i → (step ns i)[j]? = ns[j]?) :
    ∀ (is : List Nat) (ns : List α), is.Nodup →
      (is.foldl step ns).length = ns.length ∧
      (∀ j, j ∉ is → (is.foldl step ns)[j]? = ns[j]?) ∧
      (∀ j, j ∈ is → ∃ ns', ns'.length = ns.length ∧ ns'[j]? = ns[j]? ∧
        (is.foldl step ns)[j]? = (step ns' j)[j]?)
  | [], ns, _ => ⟨rfl, fun _ _ => rfl, by simp⟩
  | i :: is, ns, hnd => by
    rw [List.nodup_cons] at hnd
    obtain ⟨h1, h2, h3⟩ := foldl_positions step hstep is (step ns i) hnd.2
    obtain ⟨s1, s2⟩ := hstep ns i
    simp only [List.foldl_cons]
    refine ⟨h1.trans s1, ?_, ?_⟩
    · intro j hj
      simp at hj
      rw [h2 j hj.2, s2 j hj.1]
    · intro j hj
      by_cases hji : j = i
      · subst hji
        exact ⟨ns, rfl, rfl, h2 j hnd.1⟩
      · obtain ⟨ns', e1, e2, e3⟩ := h3 j (by simpa [hji] using hj)
        exact ⟨ns', e1.trans s1, e2.trans (s2 j hji), e3⟩

/-! ## The whole tree -/

theorem forestOf_eq (src : Str) (l : List Node) : forestOf src l = l.map (treeOf src) := by
  induction l with
  | nil => rfl
  | cons n l ih => simp [forestOf, ih]

theorem inferForest_getElem? (c : Context) (p g : Option Str) : ∀ (ts : List Tree) (first : Bool) (j : Nat),
    (inferForest c p g first ts)[j]? =
      ts[j]?.map (inferTree c p g (first && decide (j = 0)) (decide (j + 1 = ts.length)))
  | [], first, j => by simp [inferForest]
  | t :: ts, first, 0 => by
    simp only [inferForest, List.getElem?_cons_zero, Option.map_some, decide_true, Bool.and_true]
    congr 2
    cases ts <;> simp
  | t :: ts, first, j + 1 => by
    simp only [inferForest, List.getElem?_cons_succ]
    rw [inferForest_getElem? c p g ts false j]
    simp

theorem inferForest_length (c : Context) (p g : Option Str) : ∀ (ts : List Tree) (first : Bool),
    (inferForest c p g first ts).length = ts.length
  | [], _ => rfl
  | t :: ts, _ => by simp [inferForest, inferForest_length c p g ts]

theorem nodesDepth_pos (ns : List Node) : 1 ≤ nodesDepth ns := by
  induction ns with
  | nil => simp [nodesDepth]
  | cons n ns ih => simp only [nodesDepth]; omega

theorem nodeDepth_le {n : Node} {ns : List Node} (h : n ∈ ns) : nodeDepth n ≤ nodesDepth ns := by
  induction ns with
  | nil => simp at h
  | cons m ns ih =>
    simp only [nodesDepth]
    rcases List.mem_cons.1 h with rfl | h
    · omega
    · have := ih h; omega

theorem nodesDepth_single (n : Node) : nodesDepth [n] = max (nodeDepth n) 1 := rfl

theorem provided_isEmpty (t : String) (h : t ≠ "") : (TextSlice.provided t.toList).isEmpty = false := by
  simp [TextSlice.isEmpty, h]

theorem nameIn_empty {c : Context} {f : Option Form} {fi la th : Bool} (h : nameIn c f fi la th = some "") :
    f = some .paragraph := by
  revert h
  unfold nameIn
  split <;> (try split) <;> simp

/-- What is left of an element after naming it and splitting off the first selector. -/
structure Stepped (src : Str) (c : Context) (fi la th : Bool) (r : Range) (h h2 : EHead) (ch ch2 : List Node) :
    Prop where
  tree : ∃ fmt sel, treeOf src (.elem r h ch) = .elem (formOf h.ty) h.isRaw fmt sel (forestOf src ch2) ∧
    onOneLine h2 = fmt ∧ h2.selectors.head?.map (selOf src) = namedSel c (formOf h.ty) fi la th sel
  ty : h2.ty = h.ty
  raw : h2.isRaw = h.isRaw
  single : h2.selectors.length ≤ 1
  depth : nodesDepth ch2 < nodeDepth (.elem r h ch)
  plain : ∀ c ∈ ch2, PlainParagraphs c

/-- The head after naming. -/
def tagHead (t : Option String) (h : EHead) : EHead :=
  match t with
  | some t => h.applyTags [.provided t.toList]
  | none => h

theorem namedSel_fill {c : Context} {f : Option Form} {fi la th : Bool} {t : String}
    (ht : nameIn c f fi la th = some t) (h0 : t ≠ "") {sel : Option (Option Str × List SelectorItem)}
    (hs : sel.bind (·.1) = none) :
    namedSel c f fi la th sel = some (some t.toList, (sel.map (·.2)).getD []) := by
  unfold namedSel
  split
  · simp at hs
  · rw [ht]
    split
    · rename_i h'; simp at h'
    · rename_i h'; exact absurd (Option.some.inj h') h0
    · rename_i h'; cases h'; rfl

theorem chainTree_congr (src : Str) {h h' : EHead} (h1 : h.ty = h'.ty) (h2 : h.isRaw = h'.isRaw)
    (h3 : h.formatInline = h'.formatInline) : ∀ (ss : List Selector) (kids : List Tree),
    chainTree src h ss kids = chainTree src h' ss kids
  | [], kids => by simp [chainTree, h1, h2, h3, onOneLine]
  | [s], kids => by simp [chainTree, h1, h2, h3, onOneLine]
  | s :: s2 :: ss, kids => by
    simp only [chainTree, h1, h2]
    rw [chainTree_congr src h1 h2 h3 (s2 :: ss) kids]

theorem treeOf_chain (src : Str) (r : Range) (h h1 : EHead) (s s2 : Selector) (ss : List Selector) (ch : List Node)
    (hs : h.selectors = s :: s2 :: ss) (e1 : h1.ty = h.ty) (e2 : h1.isRaw = h.isRaw)
    (e3 : h1.formatInline = h.formatInline) (e4 : h1.selectors = s2 :: ss) :
    treeOf src (.elem r h ch) = .elem (formOf h.ty) h.isRaw true (some (selOf src s))
      (forestOf src [Node.ofElem h1 ch]) := by
  simp only [treeOf, hs, chainTree, forestOf, Node.ofElem, e4]
  rw [chainTree_congr src e1 e2 e3]

theorem stepped (src : Str) (c : Context) (fi la th : Bool) (r : Range) (h : EHead) (ch : List Node)
    (hp : PlainParagraphs (.elem r h ch)) :
    Stepped src c fi la th r h
      (splitFirst (if (h.selectors.head?.bind fun s => s.tag.name).isSome then h
        else tagHead (nameIn c (formOf h.ty) fi la th) h) ch).1 ch
      (splitFirst (if (h.selectors.head?.bind fun s => s.tag.name).isSome then h
        else tagHead (nameIn c (formOf h.ty) fi la th) h) ch).2 := by
  have hpara : ∀ t, nameIn c (formOf h.ty) fi la th = some t → t = "" → h.selectors = [] := by
    rintro t ht rfl
    have := nameIn_empty ht
    cases hp with
    | elem h1 _ =>
      apply h1
      revert this
      unfold formOf
      split <;> simp_all
  have hch : ∀ c ∈ ch, PlainParagraphs c := by cases hp; assumption
  have hinner : ∀ h' : EHead, h'.ty = h.ty → h.selectors ≠ [] → ∀ c ∈ [Node.ofElem h' ch], PlainParagraphs c := by
    intro h' e1 e2 c hc
    rw [List.mem_singleton] at hc
    subst hc
    refine .elem (fun e => ?_) hch
    rw [e1] at e
    cases hp with
    | elem h1 _ => exact absurd (h1 e) e2
  generalize ht : nameIn c (formOf h.ty) fi la th = t at *
  obtain ⟨hr, sels, hcr, ty, hfi, hraw⟩ := h
  match sels with
  | [] =>
    simp only [List.head?_nil, Option.bind_none, Option.isSome_none, Bool.false_eq_true, if_false]
    cases t with
    | none =>
      exact ⟨⟨_, _, rfl, rfl, by simp [tagHead, splitFirst, namedSel, ht]⟩, rfl, rfl, by simp [tagHead, splitFirst],
        by simp [nodeDepth, tagHead, splitFirst], hch⟩
    | some t =>
      by_cases h0 : t = ""
      · subst h0
        exact ⟨⟨_, _, rfl, rfl, by simp [tagHead, splitFirst, namedSel, ht, EHead.applyTags, TextSlice.isEmpty]⟩, rfl, rfl,
          by simp [tagHead, splitFirst, EHead.applyTags, TextSlice.isEmpty],
          by simp [nodeDepth, tagHead, splitFirst, EHead.applyTags, TextSlice.isEmpty], hch⟩
      · have e := provided_isEmpty t h0
        have e2 : tagHead (some t) ⟨hr, [], hcr, ty, hfi, hraw⟩ =
            ⟨hr, [(Selector.empty hr.start).withTag (.provided t.toList)], hcr, ty, hfi, hraw⟩ := by
          simp [tagHead, EHead.applyTags, e]
        rw [e2]
        refine ⟨⟨_, _, rfl, rfl, ?_⟩, rfl, rfl, by simp [splitFirst], by simp [nodeDepth, splitFirst], hch⟩
        rw [namedSel_fill ht h0 rfl]
        rfl
  | [s] =>
    by_cases hs : (s.tag.name).isSome = true
    · simp only [List.head?_cons, Option.bind_some, hs, if_true]
      refine ⟨⟨_, _, rfl, rfl, ?_⟩, rfl, rfl, by simp [splitFirst], by simp [nodeDepth, splitFirst], hch⟩
      obtain ⟨n, hn⟩ := Option.isSome_iff_exists.1 hs
      simp [splitFirst, selOf, hn, namedSel]
    · simp only [List.head?_cons, Option.bind_some, hs, if_false]
      have hs' : s.tag.name = none := by simpa using hs
      cases t with
      | none =>
        refine ⟨⟨_, _, rfl, rfl, ?_⟩, rfl, rfl, by simp [tagHead, splitFirst],
          by simp [nodeDepth, tagHead, splitFirst], hch⟩
        simp [tagHead, splitFirst, selOf, hs', namedSel, ht]
      | some t =>
        have h0 : t ≠ "" := fun e => by have := hpara t rfl e; simp at this
        have e := provided_isEmpty t h0
        have e2 : tagHead (some t) ⟨hr, [s], hcr, ty, hfi, hraw⟩ =
            ⟨hr, [{ s with tag := .explicit (.provided t.toList) }], hcr, ty, hfi, hraw⟩ := by
          simp [tagHead, EHead.applyTags, e]
        rw [e2]
        refine ⟨⟨_, _, rfl, rfl, ?_⟩, rfl, rfl, by simp [splitFirst], by simp [nodeDepth, splitFirst], hch⟩
        rw [namedSel_fill ht h0 (by simp [selOf, hs'])]
        rfl
  | s :: s2 :: ss =>
    by_cases hs : (s.tag.name).isSome = true
    · simp only [List.head?_cons, Option.bind_some, hs, if_true]
      refine ⟨⟨_, _, treeOf_chain _ _ _ _ s s2 ss _ rfl rfl rfl rfl rfl, rfl, ?_⟩, rfl, rfl, by simp [splitFirst],
        ?_, hinner _ rfl (by simp)⟩
      · obtain ⟨n, hn⟩ := Option.isSome_iff_exists.1 hs
        simp [splitFirst, selOf, hn, namedSel]
      · simp [nodeDepth, nodesDepth_single, splitFirst, Node.ofElem]
        omega
    · simp only [List.head?_cons, Option.bind_some, hs, if_false]
      have hs' : s.tag.name = none := by simpa using hs
      cases t with
      | none =>
        refine ⟨⟨_, _, treeOf_chain _ _ _ _ s s2 ss _ rfl rfl rfl rfl rfl, rfl, ?_⟩, rfl, rfl,
          by simp [tagHead, splitFirst], ?_, hinner _ rfl (by simp)⟩
        · simp [tagHead, splitFirst, selOf, hs', namedSel, ht]
        · simp [nodeDepth, nodesDepth_single, splitFirst, Node.ofElem, tagHead]
          omega
      | some t =>
        have h0 : t ≠ "" := fun e => by have := hpara t rfl e; simp at this
        have e := provided_isEmpty t h0
        have e2 : tagHead (some t) ⟨hr, s :: s2 :: ss, hcr, ty, hfi, hraw⟩ =
            ⟨hr, { s with tag := .explicit (.provided t.toList) } :: s2 :: ss, hcr, ty, hfi, hraw⟩ := by
          simp [tagHead, EHead.applyTags, e]
        rw [e2]
        refine ⟨⟨_, _, treeOf_chain _ _ _ _ s s2 ss _ rfl rfl rfl rfl rfl, rfl, ?_⟩, rfl, rfl,
          by simp [splitFirst], ?_, hinner _ rfl (by simp)⟩
        · rw [namedSel_fill ht h0 (by simp [selOf, hs'])]
          rfl
        · simp [nodeDepth, nodesDepth_single, splitFirst, Node.ofElem]
          omega


theorem rootIsRaw_ctx (m : Method) : m.rootIsRaw = decide (ctxOf m = .raw) := by cases m <;> rfl

theorem inferenceLevel_step (rec : Method → Option PredCx → List Node → List Node) (src : Str)
    (methods : List (Pred × Method)) (parent : Option PredCx) (ns : List Node) (i : Nat) :
    (inferenceLevel rec src methods parent ns i).length = ns.length ∧
      ∀ j, j ≠ i → (inferenceLevel rec src methods parent ns i)[j]? = ns[j]? := by
  unfold inferenceLevel
  split
  · refine ⟨by simp, fun j hj => ?_⟩
    simp [List.getElem?_set_ne (Ne.symm hj)]
  · exact ⟨rfl, fun _ _ => rfl⟩

theorem tagNode_elem (src : Str) (m : Method) (parent : Option PredCx) (len i : Nat) (r : Range) (h : EHead)
    (ch : List Node) :
    tagNode src m parent len i (.elem r h ch) =
      .elem r (if (h.selectors.head?.bind fun s => s.tag.name).isSome then h
        else tagHead (nameIn (ctxOf m) (formOf h.ty) (decide (i = 0)) (decide (i + 1 = len))
          (decide (cxName src (parent.bind PredCx.parent) = some "thead".toList))) h) ch := by
  unfold tagNode
  have hf : nodeForm (.elem r h ch) = formOf h.ty := rfl
  rw [hf]
  generalize nameIn (ctxOf m) (formOf h.ty) (decide (i = 0)) (decide (i + 1 = len))
          (decide (cxName src (parent.bind PredCx.parent) = some "thead".toList)) = t
  by_cases hc : (h.selectors.head?.bind fun s => s.tag.name).isSome = true
  · rw [if_pos hc, if_pos (show (((Node.elem r h ch).asElement.bind fun h => h.selectors.head?).bind
      fun s => s.tag.name).isSome = true from hc)]
  · rw [if_neg hc, if_neg (show ¬(((Node.elem r h ch).asElement.bind fun h => h.selectors.head?).bind
      fun s => s.tag.name).isSome = true from hc)]
    cases t <;> rfl

theorem tagNode_text (src : Str) (m : Method) (parent : Option PredCx) (len i : Nat) (r : Range) (t : TextLike) :
    tagNode src m parent len i (.text r t) = .text r t := by
  unfold tagNode
  split
  · rfl
  · split <;> rfl

theorem useMethod_main (src : Str) : ∀ (fuel : Nat) (m : Method) (parent : Option PredCx) (nodes : List Node),
    nodesDepth nodes ≤ fuel → (∀ n ∈ nodes, PlainParagraphs n) →
    (useMethod src fuel m parent nodes).length = nodes.length ∧
    ∀ j n, nodes[j]? = some n → ∃ n', (useMethod src fuel m parent nodes)[j]? = some n' ∧
      treeOf src n' = inferTree (ctxOf m) (cxName src parent) (cxName src (parent.bind PredCx.parent))
        (decide (j = 0)) (decide (j + 1 = nodes.length)) (treeOf src n) ∧ SingleSelectors n'
  | 0, m, parent, nodes, hd, _ => by have := nodesDepth_pos nodes; omega
  | fuel + 1, m, parent, nodes, hd, hp => by
    obtain ⟨t1, t2⟩ := inferTagNodes_eq src m parent nodes
    rw [useMethod]
    obtain ⟨f1, _, f3⟩ := foldl_positions
      (fun nodes i => inferenceLevel (useMethod src fuel) src m.methods parent nodes i)
      (fun ns i => inferenceLevel_step _ _ _ _ ns i)
      (List.range (inferTagNodes src m.tags parent nodes).length) (inferTagNodes src m.tags parent nodes)
      List.nodup_range
    refine ⟨f1.trans t1, fun j n hj => ?_⟩
    have hlt : j < nodes.length := (List.getElem?_eq_some_iff.1 hj).1
    obtain ⟨ns', g1, g2, g3⟩ := f3 j (by simp [t1, hlt])
    rw [g3]
    rw [t2 j, hj, Option.map_some] at g2
    have hjn : j < ns'.length := by rw [g1, t1]; exact hlt
    have hmem : n ∈ nodes := List.mem_of_getElem? hj
    match n, hj, hmem, g2 with
    | .text r t, hj, hmem, g2 =>
      rw [tagNode_text] at g2
      refine ⟨.text r t, ?_, rfl, .text⟩
      unfold inferenceLevel
      rw [g2]
      exact g2
    | .elem r h ch, hj, hmem, g2 =>
      rw [tagNode_elem] at g2
      have st := stepped src (ctxOf m) (decide (j = 0)) (decide (j + 1 = nodes.length))
        (decide (cxName src (parent.bind PredCx.parent) = some "thead".toList)) r h ch (hp _ hmem)
      unfold inferenceLevel
      simp only [g2]
      generalize (if (h.selectors.head?.bind fun s => s.tag.name).isSome then h
        else tagHead (nameIn (ctxOf m) (formOf h.ty) (decide (j = 0)) (decide (j + 1 = nodes.length))
          (decide (cxName src (parent.bind PredCx.parent) = some "thead".toList))) h) = h1 at *
      generalize splitFirst h1 ch = sp at *
      obtain ⟨h2, ch2⟩ := sp
      obtain ⟨⟨fmt, sel, tree, hfmt, hsel⟩, hty, hraw, hsingle, hdepth, hplain⟩ := st
      dsimp only at *
      have hthis : (PredCx.mk (ns'.set j (.elem r h2 [])) j parent).this = some h2 := by
        simp [PredCx.this, PredCx.nodes, PredCx.index, List.getElem?_set_self hjn, Node.asElement]
      have hname : headName src h2 =
          (namedSel (ctxOf m) (formOf h.ty) (decide (j = 0)) (decide (j + 1 = nodes.length))
            (decide (cxName src (parent.bind PredCx.parent) = some "thead".toList)) sel).bind (·.1) := by
        rw [← hsel]
        unfold headName
        cases h2.selectors.head? <;> rfl
      have hmc := method_ctx src _ h2 hthis m
      rw [hty] at hmc
      generalize methodLoop src _ m.methods (m.methods.length + 1) 0 = m2 at *
      have hdep : nodesDepth ch2 ≤ fuel := by
        have := nodeDepth_le hmem
        omega
      obtain ⟨u1, u2⟩ := useMethod_main src fuel m2 (some (.mk (ns'.set j (.elem r h2 [])) j parent)) ch2 hdep hplain
      generalize useMethod src fuel m2 (some (.mk (ns'.set j (.elem r h2 [])) j parent)) ch2 = out at *
      refine ⟨_, by rw [List.getElem?_set_self (by simpa using hjn)], ?_, ?_⟩
      · have hf : forestOf src out = inferForest (ctxOf m2) (headName src h2) (cxName src parent) true
            (forestOf src ch2) := by
          apply List.ext_getElem?
          intro k
          rw [inferForest_getElem?, forestOf_eq, forestOf_eq, List.getElem?_map, List.getElem?_map]
          cases hk : ch2[k]? with
          | none =>
            have : out[k]? = none := by
              rw [List.getElem?_eq_none_iff] at hk ⊢; omega
            rw [this]; rfl
          | some c =>
            obtain ⟨c', v1, v2, _⟩ := u2 k c hk
            rw [v1, Option.map_some, Option.map_some, Option.map_some, v2]
            simp [cxName, hthis, PredCx.parent]
        rw [tree, inferTree, ← hname, ← hmc, ← hf, ← hsel]
        simp only [treeOf]
        match hh : h2.selectors, hsingle with
        | [], _ => simp [chainTree, hty, hraw, rootIsRaw_ctx, ← hfmt, onOneLine]
        | [s], _ => simp [chainTree, hty, hraw, rootIsRaw_ctx, ← hfmt, onOneLine]
      · refine .elem hsingle fun c hc => ?_
        obtain ⟨k, hk⟩ := List.mem_iff_getElem?.1 hc
        have hk2 : k < ch2.length := by rw [← u1]; exact (List.getElem?_eq_some_iff.1 hk).1
        obtain ⟨c', v1, _, v3⟩ := u2 k _ (List.getElem?_eq_getElem hk2)
        rw [hk] at v1
        cases v1
        exact v3

/-- Inference is the inference of the tables. -/
theorem infer_tree (src : Str) (nodes : List Node) (hp : ∀ n ∈ nodes, PlainParagraphs n) :
    forestOf src (infer src nodes) = inferForest .section none none true (forestOf src nodes) ∧
      ∀ n ∈ infer src nodes, SingleSelectors n := by
  obtain ⟨u1, u2⟩ := useMethod_main src (nodesDepth nodes + 1) .standard none nodes (by omega) hp
  unfold infer
  generalize useMethod src (nodesDepth nodes + 1) .standard none nodes = out at *
  constructor
  · apply List.ext_getElem?
    intro k
    rw [inferForest_getElem?, forestOf_eq, forestOf_eq, List.getElem?_map, List.getElem?_map]
    cases hk : nodes[k]? with
    | none =>
      have : out[k]? = none := by
        rw [List.getElem?_eq_none_iff] at hk ⊢; omega
      rw [this]; rfl
    | some c =>
      obtain ⟨c', v1, v2, _⟩ := u2 k c hk
      rw [v1, Option.map_some, Option.map_some, Option.map_some, v2]
      simp [cxName, ctxOf]
  · intro c hc
    obtain ⟨k, hk⟩ := List.mem_iff_getElem?.1 hc
    have hk2 : k < nodes.length := by rw [← u1]; exact (List.getElem?_eq_some_iff.1 hk).1
    obtain ⟨c', v1, _, v3⟩ := u2 k _ (List.getElem?_eq_getElem hk2)
    rw [hk] at v1
    cases v1
    exact v3

end Mty
