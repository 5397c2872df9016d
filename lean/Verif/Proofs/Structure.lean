import Verif.Spec.Structure
import Verif.Proofs.BuildOk
import Verif.Proofs.Paragraphs

/-! # The structure of built documents -/

set_option autoImplicit false

namespace Mty
open Build Spec

namespace Structure

variable {src : Str}

/-- What a prepared node does. -/
def Kind (src : Str) (rg : Range) (ty : Ast.NodeType) : PKind → Prop
  | .text m => (∃ t, ty = .text t) ∧ IsItem ty ∧ Run m fun n es => es = [] → ItemIs src rg ty [n]
  | .comment m => ∃ c, ty = .text (.comment c) ∧ Run m fun n es => es = [] → TextIs (.comment c) n
  | .selector _ m => ∃ s, ty = .selector s ∧ Run m fun t es => es = [] → SelectorIs src s t
  | .line c => ty = .line c
  | .block m => ∃ l s lines e c, ty = .block l (.mk s lines e) c ∧ ∀ r q, Run (m r q) fun x es =>
      x.1 = { range := r, contentRange := ⟨s, e⟩, ty := .standard (.block r) } ∧ (es = [] → ContentIs src q s lines x.2)
  | .other m => IsItem ty ∧ (∀ l c r, ty ≠ .block l c r) ∧ Run m fun ns es => es = [] → ItemIs src rg ty ns

def tyOf : Ast.Node → Ast.NodeType
  | .mk _ _ _ ty => ty

/-- A prepared node is the one of a syntax node. -/
inductive Prep (src : Str) : PNode → Ast.Node → Prop
  | mk {sp a b ty k} : Kind src ⟨a, b⟩ ty k → Prep src ⟨sp, a, b, k⟩ (.mk sp a b ty)

def Preps (src : Str) : List PNode → List Ast.Node → Prop := List.Forall₂ (Prep src)

/-- Result of the line functions: relation to syntax nodes, remaining nodes no longer than before. -/
def Res (src : Str) (n : Nat) (R : List Node → List Ast.Node → Prop) (x : LineRes) (es : List SyntaxError) : Prop :=
  ∃ rest, Preps src x.2 rest ∧ rest.length ≤ n ∧ (es = [] → R x.1 rest)

theorem sp_eq (sp : Option Range) : (sp.map exactSpace).toList = spaceBefore sp := by cases sp <;> rfl

theorem noSelector_empty (p : Nat) : NoSelector p (Selector.empty p) := ⟨rfl, rfl, rfl⟩

theorem line_structure (fuel : Nat) :
    (∀ ps ns, Preps src ps ns → 3 * ps.length + 1 ≤ fuel → Run (extendLine fuel ps) (Res src ns.length (LineIs src ns))) ∧
    (∀ ps ns, Preps src ps ns → 3 * ps.length + 2 ≤ fuel → Run (buildLine fuel ps) (Res src ns.length (LineIs src ns))) ∧
    (∀ ps ns pr sels lr, Preps src ps ns → 3 * ps.length + 3 ≤ fuel →
      Run (postChildCombinator fuel pr ps sels lr) (Res src ns.length (AfterArrow src sels pr lr ns))) ∧
    (∀ ps ns pr sels lr, Preps src ps ns → 3 * ps.length + 1 ≤ fuel →
      Run (postSelector fuel pr ps sels lr) (Res src ns.length (AfterSelector src sels pr ns))) := by
  induction fuel with
  | zero => refine ⟨?_, ?_, ?_, ?_⟩ <;> intros <;> omega
  | succ fuel ih =>
    obtain ⟨ihE, ihB, ihC, ihS⟩ := ih
    refine ⟨?_, ?_, ?_, ?_⟩
    · intro ps ns h hf
      cases h with
      | nil => rw [extendLine.eq_def]; exact Run.pure ⟨[], .nil, Nat.le_refl _, fun _ => .nil⟩
      | @cons p n ps ns hp h =>
        cases hp with
        | @mk sp a b ty kind hk =>
        simp only [List.length_cons] at hf ⊢
        have hps := h.length_eq
        rw [extendLine.eq_def]; dsimp only
        rw [sp_eq]
        have item : ∀ {α : Type} (m : BM α) (g : α → List Node), IsItem ty →
            Run m (fun x es => es = [] → ItemIs src ⟨a, b⟩ ty (g x)) →
            Run (do let x ← m; let (out, rest) ← extendLine fuel ps; return (spaceBefore sp ++ g x ++ out, rest) : BM LineRes)
              (Res src (ns.length + 1) (LineIs src (.mk sp a b ty :: ns))) := by
          intro α m g hi hm
          refine Run.bind' (hm.mono fun x es hx => ?_)
          refine Run.bind' ((ihE ps ns h (by omega)).mono fun y es' ⟨rest, h1, h2, h3⟩ => Run.pure' ⟨rest, h1, by omega, fun he => ?_⟩)
          simp only [List.append_nil, List.append_eq_nil_iff] at he
          exact .item hi (hx he.1) (h3 he.2)
        cases kind with
        | text m => simpa using item m (fun n => [n]) hk.2.1 hk.2.2
        | comment m =>
          obtain ⟨c, rfl, hm⟩ := hk
          simpa using item m (fun n => [n]) trivial (hm.mono fun n es hn he => .text (hn he))
        | other m => exact item m id hk.1 hk.2.2
        | block m =>
          obtain ⟨l, s, lines, e, c, rfl, hm⟩ := hk
          simpa using item (m ⟨a, b⟩ true) (fun x => [Node.ofElem x.1 x.2]) trivial
            ((hm _ _).mono fun x es hx he => by rw [hx.1]; exact .block (hx.2 he))
        | line c =>
          cases hk
          refine Run.bind' ((ihC ps ns _ _ _ h (by omega)).mono fun y es' ⟨rest, h1, h2, h3⟩ =>
            Run.pure' ⟨rest, h1, by omega, fun he => ?_⟩)
          simp only [List.append_nil] at he
          exact .arrow (noSelector_empty _) (h3 he)
        | selector r m =>
          obtain ⟨s, rfl, hm⟩ := hk
          refine Run.bind' (hm.mono fun t es ht => ?_)
          refine Run.bind' ((ihS ps ns _ _ _ h (by omega)).mono fun y es' ⟨rest, h1, h2, h3⟩ => ?_)
          have hl := h1.length_eq
          refine Run.bind' ((ihE y.2 rest h1 (by omega)).mono fun z es2 ⟨rest2, k1, k2, k3⟩ =>
            Run.pure' ⟨rest2, k1, by omega, fun he => ?_⟩)
          simp only [List.append_nil, List.append_eq_nil_iff] at he
          exact .selector (ht he.1) (h3 he.2.1) (k3 he.2.2)
    · intro ps ns h hf
      rw [buildLine]
      refine Run.bind' ((ihE ps ns h (by omega)).mono fun y es' ⟨rest, h1, h2, h3⟩ => ?_)
      refine Run.bind' ((NodeInv.validate_true none y.1).mono fun _ es2 _ => Run.pure' ⟨rest, h1, h2, fun he => ?_⟩)
      exact h3 (List.append_eq_nil_iff.1 he).1
    · intro ps ns pr sels lr h hf
      have hother : BeginsContent ns → Run (do
          let (children, rest) ← buildLine fuel ps
          let range := match children.getLast? with
            | some n => pr.combine n.range
            | none => pr
          let contentRange : Range := ⟨pr.stop, range.stop⟩
          let h : EHead := { EHead.new range (.standard (.line lr)) with
            selectors := sels, contentRange }
          return ([Node.ofElem h children], rest) : BM LineRes) (Res src ns.length (AfterArrow src sels pr lr ns)) := by
        intro hb
        refine Run.bind' ((ihB ps ns h (by omega)).mono fun y es' ⟨rest, h1, h2, h3⟩ => Run.pure' ⟨rest, h1, h2, fun he => ?_⟩)
        simp only [List.append_nil] at he
        exact .line hb (h3 he)
      cases h with
      | nil => rw [postChildCombinator.eq_def]; exact hother trivial
      | @cons p n ps ns hp h =>
        cases hp with
        | @mk sp a b ty kind hk =>
        simp only [List.length_cons] at hf ⊢
        have hps := h.length_eq
        rw [postChildCombinator.eq_def]; dsimp only
        cases kind with
        | text m => obtain ⟨⟨t, rfl⟩, _⟩ := hk; exact hother trivial
        | comment m => obtain ⟨t, rfl, _⟩ := hk; exact hother trivial
        | other m =>
          obtain ⟨h1, h2, _⟩ := hk
          refine hother ?_
          cases ty <;> first | trivial | exact h1 | exact absurd rfl (h2 _ _ _)
        | line c =>
          cases hk
          exact (ihC ps ns _ _ _ h (by omega)).mono fun y es' ⟨rest, h1, h2, h3⟩ =>
            ⟨rest, h1, by omega, fun he => .arrow (noSelector_empty _) (h3 he)⟩
        | selector r m =>
          obtain ⟨s, rfl, hm⟩ := hk
          refine Run.bind' (hm.mono fun t es ht => ?_)
          refine (ihS ps ns _ _ _ h (by omega)).mono fun y es' ⟨rest, h1, h2, h3⟩ => ⟨rest, h1, by omega, fun he => ?_⟩
          simp only [List.append_eq_nil_iff] at he
          exact .selector (ht he.1) (h3 he.2)
        | block m =>
          obtain ⟨l, s, lines, e, c, rfl, hm⟩ := hk
          refine Run.bind' ((hm _ _).mono fun x es hx => Run.pure' ⟨ns, h, by omega, fun he => ?_⟩)
          simp only [List.append_nil] at he
          rw [hx.1]; exact .block (hx.2 he)
    · intro ps ns pr sels lr h hf
      cases h with
      | nil => rw [postSelector.eq_def]; exact Run.pure ⟨[], .nil, Nat.le_refl _, fun _ => .dangling⟩
      | @cons p n ps ns hp h =>
        have hall : Preps src (p :: ps) (n :: ns) := .cons hp h
        cases hp with
        | @mk sp a b ty kind hk =>
        simp only [List.length_cons] at hf ⊢
        have hps := h.length_eq
        rw [postSelector.eq_def]; dsimp only
        cases kind with
        | text m => exact Run.bind' (Run.syntaxErr (Run.pure' ⟨_, hall, Nat.le_refl _, fun he => by simp at he⟩))
        | other m => exact Run.bind' (Run.syntaxErr (Run.pure' ⟨_, hall, Nat.le_refl _, fun he => by simp at he⟩))
        | selector r m => exact Run.bind' (Run.syntaxErr (Run.pure' ⟨_, hall, Nat.le_refl _, fun he => by simp at he⟩))
        | comment m =>
          obtain ⟨c, rfl, hm⟩ := hk
          refine Run.bind' (hm.mono fun t es ht => ?_)
          refine Run.bind' ((ihS ps ns _ _ _ h (by omega)).mono fun y es' ⟨rest, h1, h2, h3⟩ =>
            Run.pure' ⟨rest, h1, by omega, fun he => ?_⟩)
          simp only [List.append_nil, List.append_eq_nil_iff] at he
          exact .comment (ht he.1) (h3 he.2)
        | line c =>
          cases hk
          exact (ihC ps ns _ _ _ h (by omega)).mono fun y es' ⟨rest, h1, h2, h3⟩ => ⟨rest, h1, by omega, fun he => .arrow (h3 he)⟩
        | block m =>
          obtain ⟨l, s, lines, e, c, rfl, hm⟩ := hk
          refine Run.bind' ((hm _ _).mono fun x es hx => Run.pure' ⟨ns, h, by omega, fun he => ?_⟩)
          simp only [List.append_nil] at he
          rw [hx.1]; exact .block (hx.2 he)

theorem buildLine_structure {ps : List PNode} {ns : List Ast.Node} (h : Preps src ps ns) :
    Run (buildLine (lineFuel ps) ps) fun x es => es = [] → ∃ rest, LineIs src ns x.1 rest :=
  ((line_structure (lineFuel ps)).2.1 ps ns h (by simp [lineFuel])).mono fun _ _ ⟨rest, _, _, h⟩ he => ⟨rest, h he⟩

inductive PrepLine (src : Str) : PLine → Ast.Line → Prop
  | mk {a b ps ns} : Preps src ps ns → PrepLine src ⟨a, ps, b⟩ (.mk a ns b)

theorem contentLoop_structure (fp : Bool) {ls : List PLine} {lines : List Ast.Line} (h : List.Forall₂ (PrepLine src) ls lines) :
    ∀ (out : List Node) (e : Nat), Run (contentLoop fp out e ls) fun ns es =>
      es = [] → ∃ sl, LinesAre src lines sl ∧ ns = foldLines fp out e sl := by
  induction h with
  | nil => intro out e; exact Run.pure fun _ => ⟨[], .nil, rfl⟩
  | @cons l line ls lines hl _ ih =>
    intro out e
    cases hl with
    | @mk a b ps ns hp =>
    rw [contentLoop]
    cases hp with
    | nil =>
      rw [if_pos (show ([] : List PNode).isEmpty = true from rfl)]
      exact (ih _ _).mono fun ns es h he => by
        obtain ⟨sl, h1, h2⟩ := h he
        exact ⟨.blank b :: sl, .blank h1, h2⟩
    | @cons p n ps ns hp hps =>
      rw [if_neg (by simp)]
      refine Run.bind' ((buildLine_structure (.cons hp hps)).mono fun x es hx => ?_)
      refine (ih _ _).mono fun ns' es' h he => ?_
      simp only [List.append_eq_nil_iff] at he
      obtain ⟨rest, h0⟩ := hx he.1
      obtain ⟨sl, h1, h2⟩ := h he.2
      exact ⟨.line a b x.1 :: sl, .line h0 h1, h2⟩

theorem buildContent_structure (fp : Bool) {ls : List PLine} {lines : List Ast.Line} (h : List.Forall₂ (PrepLine src) ls lines) (a : Nat) :
    Run (buildContent a ls fp) fun ns es => es = [] → ContentIs src fp a lines ns :=
  (contentLoop_structure fp h [] a).mono fun ns es h he => by
    obtain ⟨sl, h1, h2⟩ := h he
    obtain ⟨x, h3, h4⟩ := (foldLines_layout fp sl).1 [] a (by simp)
    rw [h2, h3]
    exact .mk h1 (by simpa using h4)

/-! ## Selectors -/

theorem selector_name {s : Ast.Selector} {t : Selector} (h : SelectorIs src s t) : t.tag.name.map (·.asStr src) = writtenName src s := by
  obtain ⟨h1, _⟩ := h
  obtain ⟨a, first, segments, b⟩ := s
  rcases first with l | ⟨_ | (r | r), l⟩
  · rw [show t.tag = .implicit from h1]; rfl
  · rw [show t.tag = .implicit from h1]; rfl
  · obtain ⟨x, h2, h3⟩ := h1
    rw [h2]; simp [Tag.name, writtenName, h3]
  · rw [show t.tag = .wildcard r from h1]; rfl

theorem documentParts_append (a b : List SelectorItem) : documentParts src (a ++ b) = documentParts src a ++ documentParts src b := by
  induction a with
  | nil => rfl
  | cons i a ih => cases i <;> simp [documentParts, ih]

theorem documentParts_classLike (l : List Ast.ClassLike) : documentParts src (l.flatMap classLikeItem) = classParts src l := by
  induction l with
  | nil => rfl
  | cons c l ih =>
    rw [List.flatMap_cons, documentParts_append, ih]
    cases c <;> simp [classLikeItem, documentParts, classParts, TextSlice.asStr]

theorem attribute_part (a : Ast.Attribute) : (Part.attribute ((buildAttribute a).name.asStr src) ((buildAttribute a).value.map (·.asStr src))) =
    .attribute (a.name.slice src) (a.value.map (valueText src)) := by
  obtain ⟨s, n, v, e⟩ := a
  rcases v with _ | (r | r) <;> rfl

theorem documentParts_attributes (r : Range) (a : Ast.AttributeSelector) :
    documentParts src [.attributes r (a.parts.map buildAttribute)] = attributeParts src a := by
  simp only [documentParts, List.append_nil, List.map_map, attributeParts]
  exact List.map_congr_left fun a _ => attribute_part a

theorem documentParts_segments (l : List Ast.SelectorSegment) :
    documentParts src (l.flatMap segmentItems) = l.flatMap (segmentParts src) := by
  induction l with
  | nil => rfl
  | cons c l ih =>
    rw [List.flatMap_cons, documentParts_append, ih, List.flatMap_cons]
    cases c with
    | attributes a => rw [segmentItems, documentParts_attributes, segmentParts]
    | classLike l => rw [segmentItems, documentParts_classLike, segmentParts]

theorem selectorOf_is (s : Ast.Selector) : SelectorIs src s (selectorOf s) := by
  obtain ⟨a, first, segments, b⟩ := s
  cases first with
  | tag el cl =>
    refine ⟨?_, ?_, rfl⟩
    · rcases el with _ | (r | r)
      · rfl
      · exact ⟨_, rfl, rfl⟩
      · rfl
    · simp only [selectorOf, writtenParts]
      rw [documentParts_append, documentParts_classLike, documentParts_segments]
  | attributes l =>
    refine ⟨rfl, ?_, rfl⟩
    simp only [selectorOf, writtenParts]
    rw [← documentParts_attributes ⟨l.start, l.stop⟩, ← documentParts_segments, ← documentParts_append]
    rfl

/-! ## The tree -/

theorem inlineFirst_some {r : Range} : ∀ {ns ns' : List Node}, inlineFirst r ns = some ns' →
    ∃ pre r0 h ch post d, ns = pre ++ .elem r0 h ch :: post ∧ (∀ x ∈ pre, x.isVisible = false) ∧ h.ty = .standard d ∧
      ns' = pre ++ .elem r { h with ty := .inline (some d), range := r } ch :: post
  | [], _, h => by simp [inlineFirst] at h
  | n :: ns, ns', h => by
    rw [inlineFirst.eq_def] at h
    dsimp only at h
    split at h
    · split at h
      · split at h
        · rename_i d hty
          cases h
          exact ⟨[], _, _, _, ns, d, rfl, by simp, hty, rfl⟩
        · cases h
      · cases h
    · rename_i hv
      cases hrec : inlineFirst r ns with
      | none => simp [hrec] at h
      | some ns2 =>
        simp [hrec] at h
        subst h
        obtain ⟨pre, r0, hd, ch, post, d, rfl, h1, h2, rfl⟩ := inlineFirst_some hrec
        exact ⟨n :: pre, r0, hd, ch, post, d, rfl, by simpa using ⟨by simpa using hv, h1⟩, h2, rfl⟩

theorem inlineFirst_no {r : Range} : ∀ {ns : List Node}, inlineFirst r ns = none →
    ∀ pre n post, ns = pre ++ n :: post → ¬ FirstIsElement pre n
  | [], _, pre, n, post, h => by simp at h
  | m :: ns, h, pre, n, post, he => by
    rintro ⟨h1, rg, hd, ch, d, rfl, h2⟩
    rw [inlineFirst.eq_def] at h
    dsimp only at h
    cases pre with
    | nil =>
      cases he
      simp [Node.isVisible, h2] at h
    | cons p pre =>
      cases he
      have hv : m.isVisible = false := h1 m (by simp)
      rw [if_neg (by simp [hv])] at h
      simp only [Option.map_eq_none_iff] at h
      exact inlineFirst_no h pre _ post rfl ⟨fun x hx => h1 x (by simp [hx]), rg, hd, ch, d, rfl, h2⟩

theorem unclosed_nil {α : Type} {c : Option Range} (o : Range) (k : UnclosedKind) {m : Unit → BM α} {R : α → Prop}
    (h : Run (m ()) fun a es => es = [] → R a) :
    Run (do
      if c.isNone then unclosed o k
      m ()) fun a es => es = [] → R a :=
  unclosedIf_run (c := c) o k fun es _ => h.mono fun a es' hx he => hx (List.append_eq_nil_iff.1 he).2

mutual
  theorem prepType_is : ∀ (ty : Ast.NodeType) (rg : Range), Kind src rg ty (prepType src rg ty)
    | .multiline k s e, rg => by
      refine ⟨trivial, by simp, ?_⟩
      refine Run.bind' ((buildTextNode_run _ _ _ _ _ _).mono fun n es ⟨hn, _⟩ => Run.pure' fun _ => ?_)
      subst hn
      exact .multiline (by cases k <;> rfl)
    | .text (.comment c), rg =>
      ⟨c, rfl, (buildCommentNode_run c).mono fun n es ⟨hn, _⟩ _ => by subst hn; rfl⟩
    | .text (.segment r), rg =>
      ⟨⟨_, rfl⟩, trivial, (buildTextNode_run _ _ _ _ _ _).mono fun n es ⟨hn, _⟩ _ => by subst hn; exact .text rfl⟩
    | .text (.interpolation r), rg =>
      ⟨⟨_, rfl⟩, trivial, (buildTextNode_run _ _ _ _ _ _).mono fun n es ⟨hn, _⟩ _ => by subst hn; exact .text rfl⟩
    | .text (.verbatim o raw tail), rg =>
      ⟨⟨_, rfl⟩, trivial, Run.pure fun _ => .text (by cases tail <;> rfl)⟩
    | .selector s, rg => ⟨s, rfl, (buildSelector_run s).mono fun t es ⟨ht, _⟩ _ => by subst ht; exact selectorOf_is s⟩
    | .line c, rg => rfl
    | .block l (.mk s lines e) c, rg => by
      refine ⟨l, s, lines, e, c, rfl, fun r q => ?_⟩
      have hc := buildContent_structure (src := src) q (prepLines_are lines) s
      refine unclosedIf_run (c := c) l .block (m := fun _ => do
        let nodes ← buildContent s (prepLines src lines) q
        let h : EHead := { EHead.new r (.standard (.block r)) with contentRange := ⟨s, e⟩ }
        return (h, nodes)) fun e0 h0 => ?_
      refine Run.bind' (hc.mono fun x es h => Run.pure' ⟨rfl, fun he => ?_⟩)
      simp only [List.append_nil, List.append_eq_nil_iff] at he
      exact h he.2
    | .special f o (.mk s lines e) c, rg => by
      have hc := buildContent_structure (src := src) false (prepLines_are lines) s
      refine ⟨trivial, by simp, ?_⟩
      refine unclosed_nil (c := c) o (.specialInline (specialKind f)) (m := fun _ => do
        let nodes ← buildContent s (prepLines src lines) false
        let h : EHead := { EHead.new rg (.special (specialKind f)) with contentRange := ⟨s, e⟩ }
        return [Node.ofElem h nodes]) ?_
      refine Run.bind' (hc.mono fun x es h => Run.pure' fun he => ?_)
      simp only [List.append_nil] at he
      have : specialKind f = formKind f := by cases f <;> rfl
      rw [this]; exact .special (h he)
    | .code r, rg => by
      refine ⟨trivial, by simp, ?_⟩
      refine Run.bind' ((buildTextNode_run _ _ _ _ _ _).mono fun n es ⟨hn, _⟩ => Run.pure' fun _ => ?_)
      subst hn
      exact .code rfl
    | .inline o inner c, rg => by
      have hi := buildLine_structure (src := src) (prepNodes_are inner)
      refine ⟨trivial, by simp, ?_⟩
      refine unclosed_nil (c := c) o .inline (m := fun _ => do
        let (line, _) ← buildLine (lineFuel (prepNodes src inner)) (prepNodes src inner)
        validateLine line
        match Build.inlineFirst rg line with
        | some line => return line
        | none =>
          let h : EHead := { EHead.new rg (.inline none) with
            contentRange := ⟨o.stop, (c.map Range.start).getD rg.stop⟩ }
          return [Node.ofElem h line]) ?_
      refine Run.bind' (hi.mono fun x es1 h1 => ?_)
      refine Run.bind' ((NodeInv.validate_true none x.1).mono fun _ es2 _ => ?_)
      cases hf : Build.inlineFirst rg x.1 with
      | some l =>
        refine Run.pure' fun he => ?_
        obtain ⟨rest, hl⟩ := h1 (List.append_eq_nil_iff.1 he).1
        obtain ⟨pre, r0, hd, ch, post, d, h2, h3, h4, rfl⟩ := inlineFirst_some hf
        rw [h2] at hl
        exact .inlineElement hl h3 h4
      | none =>
        refine Run.pure' fun he => ?_
        obtain ⟨rest, hl⟩ := h1 (List.append_eq_nil_iff.1 he).1
        exact .inlineText hl (inlineFirst_no hf)
  theorem prepNodes_are : ∀ (ns : List Ast.Node), Preps src (prepNodes src ns) ns
    | [] => .nil
    | .mk sp a b ty :: ns => .cons (.mk (prepType_is ty ⟨a, b⟩)) (prepNodes_are ns)
  theorem prepLines_are : ∀ (ls : List Ast.Line), List.Forall₂ (PrepLine src) (prepLines src ls) ls
    | [] => .nil
    | .mk _ ns _ :: ls => .cons (.mk (prepNodes_are ns)) (prepLines_are ls)
end

theorem fromAst_structure (src : Str) (s e : Nat) (lines : List Ast.Line) :
    Run (fromAst src ⟨.mk s lines e⟩) fun doc es => es = [] → ContentIs src true s lines doc.nodes := by
  unfold fromAst
  exact Run.bind' ((buildContent_structure true (prepLines_are lines) s).mono fun ns es h => Run.pure' fun he => h (by simpa using he))

end Structure

end Mty
