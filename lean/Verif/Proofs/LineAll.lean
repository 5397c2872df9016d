import Verif.Proofs.BuildOk
import Verif.Spec.Usable

/-!
# Properties of every node of the built document

Given a property `Q` of nodes and `QB` of block contents that the building functions establish, every
node of the built document has `Q` (in the case `G` of the logged errors, e.g. none).
-/

set_option autoImplicit false

namespace Mty
open Build Spec

structure NodeInv where
  /-- Property of every built node of a line. -/
  Q : Node → Prop
  /-- Property of built content; with paragraphs if the argument is `true`. -/
  QC : Bool → List Node → Prop
  /-- The errors for which the property is claimed. -/
  G : List SyntaxError → Prop
  split : ∀ {a b}, G (a ++ b) → G a ∧ G b
  /-- `>` element with the rest of the line. -/
  line : ∀ h ch c, h.ty = .standard (.line c) → h.isRaw = false → (∀ n ∈ ch, Q n) → Q (Node.ofElem h ch)
  lineBlock : ∀ h ch c b, h.ty = .standard (.lineBlock c b) → h.isRaw = false → QC false ch → Q (Node.ofElem h ch)
  block : ∀ h ch b, h.ty = .standard (.block b) → h.isRaw = false → QC true ch → Q (Node.ofElem h ch)
  space : ∀ r, Q (exactSpace r)

namespace NodeInv

variable (I : NodeInv)

def PK : PKind → Prop
  | .text m | .comment m => Run m fun n es => I.G es → I.Q n
  | .selector _ m => Run m fun _ _ => True
  | .line _ => True
  | .block m => ∀ r q, Run (m r q) fun x es => (x.1.ty = .standard (.block r) ∧ x.1.isRaw = false) ∧ (I.G es → I.QC q x.2)
  | .other m => Run m fun ns es => I.G es → ∀ n ∈ ns, I.Q n

def PS (ps : List PNode) : Prop := ∀ p ∈ ps, I.PK p.kind

def LR (x : LineRes) (es : List SyntaxError) : Prop := (I.G es → ∀ n ∈ x.1, I.Q n) ∧ I.PS x.2

variable {I}

theorem sp_mem {sp : Option Range} {n : Node} (h : n ∈ (sp.map exactSpace).toList) : I.Q n := by
  cases sp with
  | none => simp at h
  | some s => simp at h; subst h; exact I.space s

theorem validate_true (l : Option (ItemType × Range)) (ns : List Node) :
    Run (validateLoop l ns) fun _ _ => True := (validateLoop_run ns l).mono fun _ _ _ => trivial

theorem line_inv (fuel : Nat) :
    (∀ ps, I.PS ps → Run (extendLine fuel ps) I.LR) ∧
    (∀ ps, I.PS ps → Run (buildLine fuel ps) I.LR) ∧
    (∀ ps pr sels lr, I.PS ps → Run (postChildCombinator fuel pr ps sels lr) I.LR) ∧
    (∀ ps pr sels lr, I.PS ps → Run (postSelector fuel pr ps sels lr) I.LR) := by
  induction fuel with
  | zero =>
    refine ⟨fun ps h => ?_, fun ps h => ?_, fun ps pr sels lr h => ?_, fun ps pr sels lr h => ?_⟩
    · rw [extendLine.eq_def]; exact Run.pure ⟨by simp, h⟩
    · rw [buildLine]; exact Run.pure ⟨by simp, h⟩
    · rw [postChildCombinator.eq_def]; exact Run.pure ⟨by simp, h⟩
    · rw [postSelector.eq_def]; exact Run.pure ⟨by simp, h⟩
  | succ fuel ih =>
    obtain ⟨ihE, ihB, ihC, ihS⟩ := ih
    refine ⟨?_, ?_, ?_, ?_⟩
    · intro ps h
      cases ps with
      | nil => rw [extendLine.eq_def]; exact Run.pure ⟨by simp, h⟩
      | cons p ps =>
        obtain ⟨sp, a, b, kind⟩ := p
        have hk : I.PK kind := h _ (List.mem_cons_self ..)
        have hps : I.PS ps := fun q hq => h q (List.mem_cons_of_mem _ hq)
        rw [extendLine.eq_def]; dsimp only
        cases kind with
        | text m =>
          refine Run.bind' (Run.mono hk fun n es hn => ?_)
          refine Run.bind' ((ihE ps hps).mono fun x es' ⟨h1, h2⟩ => Run.pure' ⟨fun hg => ?_, h2⟩)
          have g := I.split hg
          have g' := I.split g.2
          intro y hy
          simp only [List.mem_append, List.mem_cons] at hy
          rcases hy with hy | rfl | hy
          · exact sp_mem hy
          · exact hn g.1
          · exact h1 g'.1 y hy
        | comment m =>
          refine Run.bind' (Run.mono hk fun n es hn => ?_)
          refine Run.bind' ((ihE ps hps).mono fun x es' ⟨h1, h2⟩ => Run.pure' ⟨fun hg => ?_, h2⟩)
          have g := I.split hg
          have g' := I.split g.2
          intro y hy
          simp only [List.mem_append, List.mem_cons] at hy
          rcases hy with hy | rfl | hy
          · exact sp_mem hy
          · exact hn g.1
          · exact h1 g'.1 y hy
        | other m =>
          refine Run.bind' (Run.mono hk fun n es hn => ?_)
          refine Run.bind' ((ihE ps hps).mono fun x es' ⟨h1, h2⟩ => Run.pure' ⟨fun hg => ?_, h2⟩)
          have g := I.split hg
          have g' := I.split g.2
          intro y hy
          simp only [List.mem_append] at hy
          rcases hy with (hy | hy) | hy
          · exact sp_mem hy
          · exact hn g.1 y hy
          · exact h1 g'.1 y hy
        | block m =>
          refine Run.bind' (Run.mono (hk _ _) fun n es ⟨hty, hn⟩ => ?_)
          refine Run.bind' ((ihE ps hps).mono fun x es' ⟨h1, h2⟩ => Run.pure' ⟨fun hg => ?_, h2⟩)
          have g := I.split hg
          have g' := I.split g.2
          intro y hy
          simp only [List.mem_append, List.mem_cons] at hy
          rcases hy with hy | rfl | hy
          · exact sp_mem hy
          · exact I.block _ _ _ hty.1 hty.2 (hn g.1)
          · exact h1 g'.1 y hy
        | line c =>
          refine Run.bind' ((ihC ps _ _ _ hps).mono fun x es' ⟨h1, h2⟩ => Run.pure' ⟨fun hg => ?_, h2⟩)
          have g := I.split hg
          intro y hy
          simp only [List.mem_append] at hy
          rcases hy with hy | hy
          · exact sp_mem hy
          · exact h1 g.1 y hy
        | selector r m =>
          refine Run.bind' (Run.mono hk fun s es _ => ?_)
          refine Run.bind' ((ihS ps _ _ _ hps).mono fun x es' ⟨h1, h2⟩ => ?_)
          refine Run.bind' ((ihE x.2 h2).mono fun x' es2 ⟨k1, k2⟩ => Run.pure' ⟨fun hg => ?_, k2⟩)
          have g := I.split (I.split hg).2
          have g' := I.split g.2
          intro y hy
          simp only [List.mem_append] at hy
          rcases hy with (hy | hy) | hy
          · exact sp_mem hy
          · exact h1 g.1 y hy
          · exact k1 g'.1 y hy
    · intro ps h
      rw [buildLine]
      refine Run.bind' ((ihE ps h).mono fun x es ⟨h1, h2⟩ => ?_)
      refine Run.bind' ((validate_true none x.1).mono fun _ es' hv => Run.pure' ⟨fun hg => h1 (I.split hg).1, h2⟩)
    · intro ps pr sels lr h
      have hother : Run (do
          let (children, rest) ← buildLine fuel ps
          let range := match children.getLast? with
            | some n => pr.combine n.range
            | none => pr
          let contentRange : Range := ⟨pr.stop, range.stop⟩
          let h : EHead := { EHead.new range (.standard (.line lr)) with
            selectors := sels, contentRange }
          return ([Node.ofElem h children], rest) : BM LineRes) I.LR := by
        refine Run.bind' ((ihB ps h).mono fun x es ⟨h1, h2⟩ => Run.pure' ⟨fun hg => ?_, h2⟩)
        intro y hy
        simp only [List.mem_singleton] at hy
        subst hy
        exact I.line _ _ lr rfl rfl (h1 (I.split hg).1)
      cases ps with
      | nil => rw [postChildCombinator.eq_def]; dsimp only; exact hother
      | cons p ps =>
        obtain ⟨sp, a, b, kind⟩ := p
        have hk : I.PK kind := h _ (List.mem_cons_self ..)
        have hps : I.PS ps := fun q hq => h q (List.mem_cons_of_mem _ hq)
        rw [postChildCombinator.eq_def]; dsimp only
        cases kind with
        | text m => exact hother
        | comment m => exact hother
        | other m => exact hother
        | line c => exact ihC ps _ _ _ hps
        | selector r m =>
          refine Run.bind' (Run.mono hk fun s es _ => ?_)
          exact (ihS ps _ _ _ hps).mono fun x es' ⟨h1, h2⟩ => ⟨fun hg => h1 (I.split hg).2, h2⟩
        | block m =>
          refine Run.bind' (Run.mono (hk _ _) fun n es ⟨hty, hn⟩ => Run.pure' ⟨fun hg => ?_, hps⟩)
          intro y hy
          simp only [List.mem_singleton] at hy
          subst hy
          exact I.lineBlock _ _ lr ⟨a, b⟩ rfl hty.2 (hn (I.split hg).1)
    · intro ps pr sels lr h
      cases ps with
      | nil => rw [postSelector.eq_def]; exact Run.pure ⟨by simp, h⟩
      | cons p ps =>
        have hall := h
        obtain ⟨sp, a, b, kind⟩ := p
        have hk : I.PK kind := h _ (List.mem_cons_self ..)
        have hps : I.PS ps := fun q hq => h q (List.mem_cons_of_mem _ hq)
        rw [postSelector.eq_def]; dsimp only
        cases kind with
        | text m => exact Run.bind' (Run.syntaxErr (Run.pure' ⟨by simp, hall⟩))
        | other m => exact Run.bind' (Run.syntaxErr (Run.pure' ⟨by simp, hall⟩))
        | selector r m => exact Run.bind' (Run.syntaxErr (Run.pure' ⟨by simp, hall⟩))
        | comment m =>
          refine Run.bind' (Run.mono hk fun n es hn => ?_)
          refine Run.bind' ((ihS ps _ _ _ hps).mono fun x es' ⟨h1, h2⟩ => Run.pure' ⟨fun hg => ?_, h2⟩)
          have g := I.split hg
          have g' := I.split g.2
          intro y hy
          rcases List.mem_cons.1 hy with rfl | hy
          · exact hn g.1
          · exact h1 g'.1 y hy
        | line c => exact ihC ps _ _ _ hps
        | block m =>
          refine Run.bind' (Run.mono (hk _ _) fun n es ⟨hty, hn⟩ => Run.pure' ⟨fun hg => ?_, hps⟩)
          intro y hy
          simp only [List.mem_singleton] at hy
          subst hy
          exact I.block _ _ _ hty.1 hty.2 (hn (I.split hg).1)

end NodeInv

theorem buildLine_vis (fuel : Nat) (ps : List PNode) (h : Run (extendLine fuel ps) fun _ _ => True) :
    Run (buildLine (fuel + 1) ps) fun x es => es = [] → OneOrInline (visKinds x.1) := by
  rw [buildLine]
  refine Run.bind' (h.mono fun x es _ => ?_)
  refine Run.bind' ((validateLine_run x.1).mono fun _ es' hv => Run.pure' fun hn => ?_)
  simp only [List.append_nil, List.append_eq_nil_iff] at hn
  exact hv.1 hn.2

end Mty

namespace Mty
open Build Spec

/-- What is known about the texts of a built document. -/
structure BuiltText (src : Str) (es : List SyntaxError) (t : Text) : Prop where
  fromSource : ∃ r, t.slice = .fromSource r
  escapes : (∀ x ∈ es, x.kind ≠ .invalidEscape) → t.unescapeIn = true → EscapesOk (t.slice.asStr src)
  raw : t.raw = true → t.unescapeIn = false ∧ t.multiline = false

/-- A property that all building functions establish. -/
structure DocInv (src : Str) extends NodeInv where
  /-- The types of the elements with special forms that the syntax tree may have. -/
  A : ElementType → Prop := fun _ => True
  nil : ∀ fp, QC fp []
  blank : ∀ fp out a b, QC fp out → QC fp (out ++ [paragraphEnd a b])
  addLine : ∀ fp out line r e es, G es → (es = [] → OneOrInline (visKinds line)) → QC fp out →
    (∀ n ∈ line, Q n) → QC fp (addLine out line r e fp)
  text : ∀ r t es, G es → BuiltText src es t → Q (.text r (.text t))
  comment : ∀ r s, Q (.text r (.comment (.fromSource s)))
  multiline : ∀ h r t k es, G es → BuiltText src es t → h.ty = .multiline k → A h.ty → h.selectors = [] ∧ h.isRaw = false → Q (Node.ofElem h [.text r (.text t)])
  code : ∀ h r t es, G es → BuiltText src es t → h.ty = .special .code → A h.ty → h.selectors = [] ∧ h.isRaw = false → Q (Node.ofElem h [.text r (.text t)])
  special : ∀ h ch k, h.ty = .special k → A h.ty → h.selectors = [] ∧ h.isRaw = false ∧ k ≠ .codeBlockContainer → QC false ch → Q (Node.ofElem h ch)
  inline : ∀ h ch, h.ty = .inline none → h.selectors = [] ∧ h.isRaw = false → (∀ n ∈ ch, Q n) → Q (Node.ofElem h ch)
  inlineFirst : ∀ r r' h ch d, h.ty = .standard d → Q (.elem r h ch) →
    Q (.elem r' { h with ty := .inline (some d), range := r' } ch)

namespace DocInv

variable {src : Str} {I : DocInv src}

def PLs (I : DocInv src) (ls : List PLine) : Prop := ∀ l ∈ ls, I.PS l.nodes

theorem contentLoop_inv (fp : Bool) : ∀ (ls : List PLine) (out : List Node) (e : Nat), I.PLs ls →
    Run (contentLoop fp out e ls) fun ns es => I.G es → I.QC fp out → I.QC fp ns
  | [], out, e, _ => by
    rw [contentLoop]; exact Run.pure fun _ h => h
  | ⟨a, ns, b⟩ :: ls, out, e, h => by
    have hns : I.PS ns := h _ (List.mem_cons_self ..)
    have hls : I.PLs ls := fun l hl => h l (List.mem_cons_of_mem _ hl)
    rw [contentLoop]
    split
    · exact (contentLoop_inv fp ls _ _ hls).mono fun x es hx hg ho => hx hg (I.blank _ _ _ _ ho)
    · have hr := (NodeInv.line_inv (lineFuel ns)).2.1 ns hns
      have hv : Run (buildLine (lineFuel ns) ns) fun x es => es = [] → OneOrInline (visKinds x.1) :=
        buildLine_vis _ _ (((NodeInv.line_inv (3 * ns.length + 2)).1 ns hns).mono fun _ _ _ => trivial)
      refine Run.bind' ((hr.and hv).mono fun x es ⟨⟨h1, _⟩, h2⟩ => ?_)
      refine (contentLoop_inv fp ls _ _ hls).mono fun y es' hy hg ho => ?_
      have g := I.split hg
      exact hy g.2 (I.addLine _ _ _ _ _ es g.1 h2 ho (h1 g.1))

theorem buildContent_inv (fp : Bool) (ls : List PLine) (a : Nat) (h : I.PLs ls) :
    Run (buildContent a ls fp) fun ns es => I.G es → I.QC fp ns :=
  (contentLoop_inv fp ls [] a h).mono fun _ _ hx hg => hx hg (I.nil fp)

theorem buildTextNode_inv (src : Str) (r : Range) (u e raw ml : Bool) (hr : raw = true → u = false ∧ ml = false) :
    Run (buildTextNode src r u e raw ml) fun n es => ∃ t, n = .text r (.text t) ∧ BuiltText src es t :=
  ((buildTextNode_run src r u e raw ml).and (buildTextNode_esc src r u e raw ml)).mono fun _ _ h =>
    ⟨_, h.1.1, ⟨_, rfl⟩, fun he => h.1.2.1 (List.eq_nil_iff_forall_not_mem.2 fun x hx => he x hx (h.2 x hx)), hr⟩

theorem unclosed_split {α : Type} {c : Option Range} (o : Range) (k : UnclosedKind) {m : Unit → BM α}
    {R : α → Prop} (h : Run (m ()) fun a es => I.G es → R a) :
    Run (do
      if c.isNone then unclosed o k
      m ()) fun a es => I.G es → R a := by
  cases c
  · exact Run.bind' (Run.syntaxErr (h.mono fun a es hx hg => hx (I.split hg).2))
  · exact Run.bind' (Run.pure' (h.mono fun a es hx hg => hx hg))

theorem inlineFirst_inv {r : Range} : ∀ {ns ns' : List Node}, Build.inlineFirst r ns = some ns' →
    (∀ n ∈ ns, I.Q n) → ∀ n ∈ ns', I.Q n
  | [], _, h, _ => by simp [Build.inlineFirst] at h
  | n :: ns, ns', h, hg => by
    rw [inlineFirst.eq_def] at h
    dsimp only at h
    split at h
    · split at h
      · rename_i rg hd ch
        split at h
        · rename_i d hty
          cases h
          intro y hy
          rcases List.mem_cons.1 hy with rfl | hy
          · exact I.inlineFirst _ _ _ _ _ hty (hg _ (List.mem_cons_self ..))
          · exact hg y (List.mem_cons_of_mem _ hy)
        · cases h
      · cases h
    · cases hrec : Build.inlineFirst r ns with
      | none => simp [hrec] at h
      | some ns2 =>
        simp [hrec] at h
        subst h
        intro y hy
        rcases List.mem_cons.1 hy with rfl | hy
        · exact hg _ (List.mem_cons_self ..)
        · exact inlineFirst_inv hrec (fun z hz => hg z (List.mem_cons_of_mem _ hz)) y hy

variable (I)

/-- The type of the element is allowed, if the node is one with a special form. -/
def AType : Ast.NodeType → Prop
  | .special f _ _ _ => I.A (.special (specialKind f))
  | .code _ => I.A (.special .code)
  | .multiline k _ _ => I.A (.multiline k)
  | _ => True

/-- The same for all nodes. -/
def ANodes (ns : List Ast.Node) : Prop := ∀ sp a b ty, Ast.Node.mk sp a b ty ∈ ns → I.AType ty

mutual
  theorem invNode : ∀ (n : Ast.Node), I.ANodes (allOf [n]) → I.PK (prepNode src n).kind
    | .mk sp a b ty, hA => invType ty ⟨a, b⟩ (hA sp a b ty (by simp [allOf])) fun sp a b ty h => hA sp a b ty (by simp [allOf, h])
  theorem invType : ∀ (ty : Ast.NodeType) (rg : Range), I.AType ty → I.ANodes (allOfType ty) → I.PK (prepType src rg ty)
    | .multiline k s e, rg, hT, hA => by
      simp only [prepType, NodeInv.PK, buildMultiline]
      refine Run.bind' ((buildTextNode_inv _ _ _ _ _ _ (by simp)).mono fun n es ⟨t, hn, ht⟩ => Run.pure' fun hg => ?_)
      intro y hy
      simp only [List.mem_singleton] at hy
      subst hy hn
      exact I.multiline _ _ _ k _ (I.split hg).1 ht rfl hT ⟨rfl, rfl⟩
    | .text (.comment c), rg, _, _ => by
      refine (buildCommentNode_run c).mono fun n es h _ => ?_
      rw [h.1]; exact I.comment _ _
    | .text (.segment c), rg, _, _ =>
      (buildTextNode_inv _ _ _ _ _ _ (by simp)).mono fun n es ⟨t, hn, ht⟩ hg => hn ▸ I.text _ _ _ hg ht
    | .text (.verbatim o r t), rg, _, _ => Run.pure fun hg => I.text _ _ _ hg ⟨⟨_, rfl⟩, by cases t <;> simp, by cases t <;> simp⟩
    | .text (.interpolation c), rg, _, _ =>
      (buildTextNode_inv _ _ _ _ _ _ (by simp)).mono fun n es ⟨t, hn, ht⟩ hg => hn ▸ I.text _ _ _ hg ht
    | .selector s, rg, _, _ => (buildSelector_run s).mono fun _ _ _ => trivial
    | .line c, rg, _, _ => trivial
    | .block l (.mk s lines e) r, rg, _, hA => by
      intro rg q
      have h := buildContent_inv (I := I) q _ s (invLines lines hA)
      have : ∀ h : EHead, (h.ty = .standard (.block rg) ∧ h.isRaw = false) →
          Run (do let nodes ← buildContent s (prepLines src lines) q; return (h, nodes) : BM (EHead × List Node))
            fun x es => (x.1.ty = .standard (.block rg) ∧ x.1.isRaw = false) ∧ (I.G es → I.QC q x.2) := fun hd hty =>
        Run.bind' (h.mono fun ns es hx => Run.pure' ⟨hty, fun hg => hx (I.split hg).1⟩)
      cases r with
      | none =>
        exact Run.bind' (Run.syntaxErr ((this _ ⟨rfl, rfl⟩).mono fun x es hx => ⟨hx.1, fun hg => hx.2 (I.split hg).2⟩))
      | some r =>
        exact this _ ⟨rfl, rfl⟩
    | .special f o (.mk s lines e) r, rg, hT, hA => by
      refine unclosed_split (I := I) (c := r) o (.specialInline (specialKind f))
        (R := fun ns => ∀ n ∈ ns, I.Q n) (m := fun _ => do
        let nodes ← buildContent s (prepLines src lines) false
        let h : EHead := { EHead.new rg (.special (specialKind f)) with
          contentRange := ⟨s, e⟩ }
        return [Node.ofElem h nodes]) ?_
      refine Run.bind' ((buildContent_inv (I := I) false _ s (invLines lines hA)).mono
        fun ns es' hn => Run.pure' fun hg => ?_)
      intro y hy
      simp only [List.mem_singleton] at hy
      subst hy
      exact I.special _ _ _ rfl hT ⟨rfl, rfl, by cases f <;> simp [specialKind]⟩ (hn (I.split hg).1)
    | .code r, rg, hT, _ => by
      simp only [prepType, NodeInv.PK, buildInlineCode]
      refine Run.bind' ((buildTextNode_inv _ _ _ _ _ _ (by simp)).mono fun n es ⟨t, hn, ht⟩ => Run.pure' fun hg => ?_)
      intro y hy
      simp only [List.mem_singleton] at hy
      subst hy hn
      exact I.code _ _ _ _ (I.split hg).1 ht rfl hT ⟨rfl, rfl⟩
    | .inline o inner c, rg, _, hA => by
      refine unclosed_split (I := I) (c := c) o .inline
        (R := fun ns => ∀ n ∈ ns, I.Q n) (m := fun _ => do
        let (line, _) ← buildLine (lineFuel (prepNodes src inner)) (prepNodes src inner)
        validateLine line
        match Build.inlineFirst rg line with
        | some line => return line
        | none =>
          let h : EHead := { EHead.new rg (.inline none) with
            contentRange := ⟨o.stop, (c.map Range.start).getD rg.stop⟩ }
          return [Node.ofElem h line]) ?_
      refine Run.bind' (((NodeInv.line_inv _).2.1 _ (invNodes inner hA)).mono fun x es1 ⟨h1, _⟩ => ?_)
      refine Run.bind' ((NodeInv.validate_true none x.1).mono fun _ es2 _ => ?_)
      cases hf : Build.inlineFirst rg x.1 with
      | some l => exact Run.pure' fun hg => inlineFirst_inv hf (h1 (I.split hg).1)
      | none =>
        refine Run.pure' fun hg y hy => ?_
        simp only [List.mem_singleton] at hy
        subst hy
        exact I.inline _ _ rfl ⟨rfl, rfl⟩ (h1 (I.split hg).1)
  theorem invNodes : ∀ (ns : List Ast.Node), I.ANodes (allOf ns) → I.PS (prepNodes src ns)
    | [], _ => by intro p hp; simp [prepNodes] at hp
    | .mk sp a b ty :: ns, hA => by
      intro p hp
      simp only [prepNodes, List.mem_cons] at hp
      rcases hp with rfl | hp
      · exact invNode (.mk sp a b ty) fun sp' a' b' ty' h => hA sp' a' b' ty' (by
          simp only [allOf, List.append_nil, List.mem_cons, List.mem_append] at h ⊢
          rcases h with h | h
          · exact .inl h
          · exact .inr (.inl h))
      · exact invNodes ns (fun sp a b ty h => hA sp a b ty (by simp [allOf, h])) p hp
  theorem invLines : ∀ (ls : List Ast.Line), I.ANodes (allOfLines ls) → I.PLs (prepLines src ls)
    | [], _ => by intro p hp; simp [prepLines] at hp
    | .mk s ns e :: ls, hA => by
      intro p hp
      simp only [prepLines, prepLine, List.mem_cons] at hp
      rcases hp with rfl | hp
      · exact invNodes ns fun sp a b ty h => hA sp a b ty (by simp [allOfLines, h])
      · exact invLines ls (fun sp a b ty h => hA sp a b ty (by simp [allOfLines, h])) p hp
end

theorem fromAst_inv_of (d : Ast.Document) (hA : I.ANodes (allNodes d)) :
    Run (fromAst src d) fun doc es => I.G es → I.QC true doc.nodes := by
  obtain ⟨⟨s, lines, e⟩⟩ := d
  unfold fromAst
  exact Run.bind' ((buildContent_inv (I := I) true _ s (invLines I lines hA)).mono
    fun ns es hn => Run.pure' fun hg => hn (I.split hg).1)

theorem fromAst_inv (hA : ∀ ty, I.A ty) (d : Ast.Document) :
    Run (fromAst src d) fun doc es => I.G es → I.QC true doc.nodes :=
  I.fromAst_inv_of d fun _ _ _ ty _ => by cases ty <;> first | exact trivial | exact hA _

end DocInv

end Mty
