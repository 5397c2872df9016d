import Verif.Spec.Selectors
import Verif.Proofs.Transform
import Verif.Proofs.Structure
import Verif.Proofs.InferTree

/-! # Selectors of the source, of the document and of the output -/

set_option autoImplicit false

namespace Mty.Selectors
open Spec

variable (src : Str)

/-- Signatures that say something. -/
def sigs (l : List Selector) : List (Option Str × List Spec.Part) := (l.map (sigOf src)).filter (· ≠ (none, []))

/-- The same for selectors of the syntax tree. -/
def asts (l : List Ast.Selector) : List (Option Str × List Spec.Part) :=
  (l.map fun s => (writtenName src s, writtenParts src s)).filter (· ≠ (none, []))

variable {src}

theorem sigs_append (a b : List Selector) : sigs src (a ++ b) = sigs src a ++ sigs src b := by simp [sigs]

theorem asts_append (a b : List Ast.Selector) : asts src (a ++ b) = asts src a ++ asts src b := by simp [asts]

theorem sigs_is {s : Ast.Selector} {t : Selector} (h : SelectorIs src s t) : sigs src [t] = asts src [s] := by
  have h1 := Structure.selector_name h
  obtain ⟨_, h2, _⟩ := h
  have : sigOf src t = (writtenName src s, writtenParts src s) := by rw [sigOf, h1, h2]
  simp [sigs, asts, this]

theorem sigs_no {p : Nat} {t : Selector} (h : NoSelector p t) : sigs src [t] = [] := by
  obtain ⟨h1, h2, _⟩ := h
  simp [sigs, sigOf, h1, Tag.name, h2, documentParts]

/-- Signatures of nodes. -/
def dsigs (src : Str) (ns : List Node) : List (Option Str × List Spec.Part) := sigs src (nodesSelectors ns)

theorem dsigs_append (a b : List Node) : dsigs src (a ++ b) = dsigs src a ++ dsigs src b := by
  rw [dsigs, nodesSelectors_append, sigs_append]; rfl

theorem dsigs_cons (n : Node) (b : List Node) : dsigs src (n :: b) = dsigs src [n] ++ dsigs src b :=
  dsigs_append [n] b

theorem dsigs_nil : dsigs src [] = [] := rfl

theorem dsigs_text (r : Range) (t : TextLike) : dsigs src [.text r t] = [] := rfl

theorem dsigs_elem (r : Range) (h : EHead) (ch : List Node) : dsigs src [.elem r h ch] = sigs src h.selectors ++ dsigs src ch := by
  simp [dsigs, nodesSelectors, nodeSelectors, sigs_append]

theorem dsigs_element (chain : List Selector) (ty : ElementType) (r q : Range) (ch : List Node) :
    dsigs src [element chain ty r q ch] = sigs src chain ++ dsigs src ch := dsigs_elem _ _ _

theorem dsigs_space (sp : Option Range) : dsigs src (spaceBefore sp) = [] := by cases sp <;> rfl

theorem dsigs_textIs {t : Ast.InlineText} {n : Node} (h : TextIs t n) : dsigs src [n] = [] := by
  obtain rfl := h; rfl

/-! ## The ignored end of a line -/

/-- `rest` is what is ignored. -/
def Rest (st : LineSt) (ns rest : List Ast.Node) : Prop :=
  ignoredFrom nodeShape st 0 ns = rest ∧ ∀ k, ignoredFrom nodeShape st (k + 1) ns = ignoredFrom nodeShape .top k rest

theorem rest_nil (st : LineSt) : Rest st [] [] := by
  constructor
  · simp [ignoredFrom]
  · intro k; simp [ignoredFrom]

theorem item_shape {sp : Option Range} {a b : Nat} {ty : Ast.NodeType} (h : IsItem ty) :
    nodeShape (.mk sp a b ty) ≠ .selector ∧ nodeShape (.mk sp a b ty) ≠ .arrow := by
  rw [nodeShape]
  cases ty with
  | text t => cases t <;> simp [shapeOf]
  | selector => exact h.elim
  | line => exact h.elim
  | _ => simp [shapeOf]

theorem top_item {sp : Option Range} {a b : Nat} {ty : Ast.NodeType} (h : IsItem ty) (k : Nat) (ns : List Ast.Node) :
    ignoredFrom nodeShape .top k (.mk sp a b ty :: ns) = ignoredFrom nodeShape .top k ns := by
  obtain ⟨h1, h2⟩ := item_shape (sp := sp) (a := a) (b := b) h
  rw [ignoredFrom]
  split
  · exact absurd ‹_› h1
  · exact absurd ‹_› h2
  · rfl

theorem arrow_begins {ns : List Ast.Node} (h : BeginsContent ns) (k : Nat) :
    ignoredFrom nodeShape .arrow k ns = ignoredFrom nodeShape .top k ns := by
  match ns, h with
  | [], _ => simp [ignoredFrom]
  | .mk sp a b ty :: ns, h =>
    have hi : IsItem ty := by cases ty <;> first | trivial | exact h.elim
    have hb : nodeShape (.mk sp a b ty) ≠ .block := by
      rw [nodeShape]
      cases ty with
      | text t => cases t <;> simp [shapeOf]
      | block => exact h.elim
      | _ => simp [shapeOf]
    obtain ⟨h1, h2⟩ := item_shape (sp := sp) (a := a) (b := b) hi
    rw [top_item hi, ignoredFrom.eq_def]
    dsimp only
    split
    · exact absurd ‹_› h1
    · exact absurd ‹_› h2
    · exact absurd ‹_› hb
    · exact absurd ‹_› hb
    · rfl

theorem step_rest {sp : Option Range} {a b : Nat} {ty : Ast.NodeType} {ns rest : List Ast.Node} {st st' : LineSt}
    (h : ∀ k, ignoredFrom nodeShape st k (.mk sp a b ty :: ns) = ignoredFrom nodeShape st' k ns) (hr : Rest st' ns rest) :
    Rest st (.mk sp a b ty :: ns) rest := ⟨by rw [h]; exact hr.1, fun k => by rw [h]; exact hr.2 k⟩

mutual
  theorem line_rest {ns : List Ast.Node} {out : List Node} {rest : List Ast.Node} (h : LineIs src ns out rest) : Rest .top ns rest :=
    match h with
    | .nil => rest_nil _
    | .item hi _ hl => step_rest (top_item hi · _) (line_rest hl)
    | .selector _ ha hl => by
      have h1 := after_rest ha
      have h2 := line_rest hl
      refine ⟨?_, fun k => ?_⟩
      · rw [ignoredFrom.eq_def]; simp only [nodeShape, shapeOf]
        rw [h1.2 0]; exact h2.1
      · rw [ignoredFrom.eq_def]; simp only [nodeShape, shapeOf]
        rw [h1.2 (k + 1)]; exact h2.2 k
    | .arrow _ ha => by
      have h1 := arrow_rest ha
      refine step_rest (st' := .arrow) (fun k => ?_) h1
      rw [ignoredFrom.eq_def]; simp only [nodeShape, shapeOf]
  theorem after_rest {chain : List Selector} {p : Range} {ns : List Ast.Node} {out : List Node} {rest : List Ast.Node}
      (h : AfterSelector src chain p ns out rest) : Rest .selector ns rest :=
    match h with
    | .dangling => rest_nil _
    | .comment _ ha => by
      have h1 := after_rest ha
      refine step_rest (st' := .selector) (fun k => ?_) h1
      rw [ignoredFrom.eq_def]; simp only [nodeShape, shapeOf]
    | .arrow ha => by
      have h1 := arrow_rest ha
      refine step_rest (st' := .arrow) (fun k => ?_) h1
      rw [ignoredFrom.eq_def]; simp only [nodeShape, shapeOf]
    | .block _ => by
      refine ⟨?_, fun k => ?_⟩ <;> · rw [ignoredFrom.eq_def]; simp only [nodeShape, shapeOf]
  theorem arrow_rest {chain : List Selector} {p gt : Range} {ns : List Ast.Node} {out : List Node} {rest : List Ast.Node}
      (h : AfterArrow src chain p gt ns out rest) : Rest .arrow ns rest :=
    match h with
    | .selector _ ha => by
      have h1 := after_rest ha
      refine step_rest (st' := .selector) (fun k => ?_) h1
      rw [ignoredFrom.eq_def]; simp only [nodeShape, shapeOf]
    | .arrow _ ha => by
      have h1 := arrow_rest ha
      refine step_rest (st' := .arrow) (fun k => ?_) h1
      rw [ignoredFrom.eq_def]; simp only [nodeShape, shapeOf]
    | .block _ => by
      refine ⟨?_, fun k => ?_⟩ <;> · rw [ignoredFrom.eq_def]; simp only [nodeShape, shapeOf]
    | .line hb hl => by
      have h1 := line_rest hl
      exact ⟨by rw [arrow_begins hb]; exact h1.1, fun k => by rw [arrow_begins hb]; exact h1.2 k⟩
end

/-! ## Layout -/

/-- Signatures of lines. -/
def lsigs (src : Str) : List SrcLine → List (Option Str × List Spec.Part)
  | [] => []
  | .blank _ :: ls => lsigs src ls
  | .line _ _ ns :: ls => dsigs src ns ++ lsigs src ls

theorem lsigs_append (a b : List SrcLine) : lsigs src (a ++ b) = lsigs src a ++ lsigs src b := by
  induction a with
  | nil => rfl
  | cons l ls ih => cases l <;> simp [lsigs, ih]

theorem joined_sigs {e e' : Nat} {n n' : Node} {run : List SrcLine} (h : Joined e n run e' n') :
    dsigs src [n'] = dsigs src [n] ++ lsigs src run := by
  induction h with
  | nil => simp [lsigs]
  | @cons e e' r h ch a b nodes run n' _ ih =>
    rw [ih, dsigs_elem, dsigs_elem, dsigs_append, dsigs_cons (lineSep e a)]
    simp only [lsigs, lineSep, dsigs_text, List.nil_append, List.append_assoc]

theorem layout_sigs {p before : Bool} {e : Nat} {ls : List SrcLine} {out : List Node} (h : Layout p before e ls out) :
    dsigs src out = lsigs src ls := by
  have hsep : ∀ (before : Bool) (e a : Nat), dsigs src (if before then [paragraphSep e a] else []) = [] := by
    intro before e a; cases before <;> rfl
  induction h with
  | nil => rfl
  | blank _ ih => rw [dsigs_cons, ih]; rfl
  | empty _ ih => rw [ih]; rfl
  | paragraph _ _ _ _ _ hj _ ih =>
    rw [dsigs_append, hsep, dsigs_cons, joined_sigs hj, ih, dsigs_elem, lsigs_append, lsigs]
    simp [EHead.new, sigs]
  | continued _ _ _ _ hj _ ih =>
    rw [dsigs_append, dsigs_append, hsep, dsigs_cons, joined_sigs hj, ih, lsigs_append, lsigs, dsigs_append]
    simp
  | other _ _ _ ih =>
    rw [dsigs_append, dsigs_append, hsep, dsigs_cons, ih, lsigs, dsigs_append]
    simp

/-! ## From the source to the document -/

theorem lineSelectors_item {sp : Option Range} {a b : Nat} {ty : Ast.NodeType} (h : IsItem ty) (ns : List Ast.Node) :
    lineSelectors (.mk sp a b ty :: ns) = typeSelectors ty ++ lineSelectors ns := by
  rw [lineSelectors]
  rintro s rfl
  exact h

theorem lineSelectors_arrow {sp : Option Range} {a b : Nat} {c : Range} (ns : List Ast.Node) :
    lineSelectors (.mk sp a b (.line c) :: ns) = lineSelectors ns := by
  rw [lineSelectors.eq_def]
  simp only [typeSelectors.eq_def, List.nil_append]

theorem typeSelectors_text (t : Ast.InlineText) : typeSelectors (.text t) = [] := by rw [typeSelectors.eq_def]

theorem completes_begins {ns : List Ast.Node} (h : BeginsContent ns) : completes .arrow ns = true := by
  match ns, h with
  | [], _ => simp [completes]
  | .mk sp a b ty :: ns, h => cases ty <;> first | exact h.elim | simp [completes]

/-- With the selectors of the chain if the element is completed. -/
def chainSigs (src : Str) (st : LineSt) (chain : List Selector) (ns : List Ast.Node) : List (Option Str × List Spec.Part) :=
  if completes st ns then sigs src chain else []

mutual
  theorem item_sigs {rg : Range} {ty : Ast.NodeType} {out : List Node} (h : ItemIs src rg ty out) (ha : TypeAll ty) :
      dsigs src out = asts src (typeSelectors ty) :=
    match h with
    | .text ht => by rw [dsigs_textIs ht]; simp [typeSelectors, asts]
    | .multiline hx => by rw [dsigs_element, show _ = _ from hx]; simp [typeSelectors, asts, sigs, dsigs_text]
    | .code hx => by rw [dsigs_element, show _ = _ from hx]; simp [typeSelectors, asts, sigs, dsigs_text]
    | .special hc => by
      have := content_sigs hc (by simpa [TypeAll] using ha)
      rw [dsigs_element, this]; simp [typeSelectors, sigs]
    | .block hc => by
      have := content_sigs hc (by simpa [TypeAll] using ha)
      rw [dsigs_element, this]; simp [typeSelectors, sigs]
    | .inlineElement (h := hd) (ch := ch) (post := post) hl _ _ => by
      rw [TypeAll] at ha
      have h1 := line_sigs hl ha.2
      have h2 := (line_rest hl).1
      rw [show ignoredFrom nodeShape .top 0 _ = _ from ha.1] at h2
      rw [← h2] at h1
      rw [typeSelectors, ← h1.1, dsigs_append, dsigs_append, dsigs_cons, dsigs_cons (.elem _ hd ch) post, dsigs_elem, dsigs_elem]
      simp [lineSelectors, asts]
    | .inlineText hl _ => by
      rw [TypeAll] at ha
      have h1 := line_sigs hl ha.2
      have h2 := (line_rest hl).1
      rw [show ignoredFrom nodeShape .top 0 _ = _ from ha.1] at h2
      rw [← h2] at h1
      rw [typeSelectors, ← h1.1, dsigs_element]
      simp [lineSelectors, asts, sigs]
  theorem line_sigs {ns : List Ast.Node} {out : List Node} {rest : List Ast.Node} (h : LineIs src ns out rest) (ha : NodesAll ns) :
      dsigs src out ++ asts src (lineSelectors rest) = asts src (lineSelectors ns) ∧ NodesAll rest :=
    match h with
    | .nil => ⟨rfl, trivial⟩
    | .item hi hty hl => by
      rw [NodesAll, NodeAll] at ha
      have h1 := item_sigs hty ha.1
      have h2 := line_sigs hl ha.2
      refine ⟨?_, h2.2⟩
      rw [lineSelectors_item hi, asts_append, ← h2.1, dsigs_append, dsigs_append, dsigs_space, h1]
      simp
    | .selector (nodes := nodes) hs hf hl => by
      rw [NodesAll] at ha
      have h1 := after_sigs hf ha.2
      have h2 := line_sigs hl h1.2
      refine ⟨?_, h2.2⟩
      rw [lineSelectors, asts_append, dsigs_append, dsigs_append, dsigs_space, List.nil_append, List.append_assoc, h2.1, h1.1, chainSigs]
      congr 1
      cases completes .selector nodes
      · rfl
      · simp only [if_true]; exact sigs_is hs
    | .arrow (nodes := nodes) hn hf => by
      rw [NodesAll] at ha
      have h1 := arrow_sigs hf ha.2
      refine ⟨?_, h1.2⟩
      rw [lineSelectors_arrow, dsigs_append, dsigs_space, List.nil_append, h1.1, chainSigs, sigs_no hn]
      simp
  theorem after_sigs {chain : List Selector} {p : Range} {ns : List Ast.Node} {out : List Node} {rest : List Ast.Node}
      (h : AfterSelector src chain p ns out rest) (ha : NodesAll ns) :
      dsigs src out ++ asts src (lineSelectors rest) = chainSigs src .selector chain ns ++ asts src (lineSelectors ns) ∧ NodesAll rest :=
    match h with
    | .dangling => by
      refine ⟨?_, trivial⟩
      simp [chainSigs, completes, dsigs_nil]
    | .comment ht hf => by
      rw [NodesAll] at ha
      have h1 := after_sigs hf ha.2
      refine ⟨?_, h1.2⟩
      rw [dsigs_cons, dsigs_textIs ht, List.nil_append, h1.1, lineSelectors_item (by trivial), typeSelectors_text]
      rw [chainSigs, chainSigs, completes.eq_def .selector (_ :: _)]
      rfl
    | .arrow hf => by
      rw [NodesAll] at ha
      have h1 := arrow_sigs hf ha.2
      refine ⟨?_, h1.2⟩
      rw [h1.1, lineSelectors_arrow, chainSigs, chainSigs, completes.eq_def .selector]
    | .block hc => by
      rw [NodesAll, NodeAll, TypeAll] at ha
      have h1 := content_sigs hc ha.1
      refine ⟨?_, ha.2⟩
      rw [dsigs_element, h1, lineSelectors_item (by trivial), typeSelectors, asts_append]
      simp [chainSigs, completes]
  theorem arrow_sigs {chain : List Selector} {p gt : Range} {ns : List Ast.Node} {out : List Node} {rest : List Ast.Node}
      (h : AfterArrow src chain p gt ns out rest) (ha : NodesAll ns) :
      dsigs src out ++ asts src (lineSelectors rest) = chainSigs src .arrow chain ns ++ asts src (lineSelectors ns) ∧ NodesAll rest :=
    match h with
    | .selector (nodes := nodes) hs hf => by
      rw [NodesAll] at ha
      have h1 := after_sigs hf ha.2
      refine ⟨?_, h1.2⟩
      rw [h1.1, lineSelectors, asts_append, chainSigs, chainSigs, sigs_append, sigs_is hs]
      cases hc : completes .selector nodes <;> simp [completes, hc, asts]
    | .arrow hn hf => by
      rw [NodesAll] at ha
      have h1 := arrow_sigs hf ha.2
      refine ⟨?_, h1.2⟩
      rw [h1.1, lineSelectors_arrow, chainSigs, chainSigs, sigs_append, sigs_no hn, List.append_nil]
      rw [completes.eq_def .arrow (_ :: _)]
    | .block hc => by
      rw [NodesAll, NodeAll, TypeAll] at ha
      have h1 := content_sigs hc ha.1
      refine ⟨?_, ha.2⟩
      rw [dsigs_element, h1, lineSelectors_item (by trivial), typeSelectors, asts_append]
      simp [chainSigs, completes]
    | .line hb hl => by
      have h1 := line_sigs hl ha
      refine ⟨?_, h1.2⟩
      rw [dsigs_element, chainSigs, completes_begins hb, List.append_assoc, h1.1]
      simp
  theorem content_sigs {p : Bool} {a : Nat} {lines : List Ast.Line} {out : List Node} (h : ContentIs src p a lines out)
      (ha : LinesAll lines) : dsigs src out = asts src (linesSelectors lines) :=
    match h with
    | .mk hl hy => by rw [layout_sigs hy]; exact lines_sigs hl ha
  theorem lines_sigs {lines : List Ast.Line} {ls : List SrcLine} (h : LinesAre src lines ls) (ha : LinesAll lines) :
      lsigs src ls = asts src (linesSelectors lines) :=
    match h with
    | .nil => rfl
    | .blank hl => by
      rw [LinesAll] at ha
      have := lines_sigs hl ha.2
      rw [lsigs, this, linesSelectors, lineSelectors, List.nil_append]
    | .line hn hl => by
      rw [LinesAll] at ha
      have h1 := line_sigs hn ha.1.2
      have h2 := lines_sigs hl ha.2
      have h3 := (line_rest hn).1
      rw [show ignoredFrom nodeShape .top 0 _ = _ from ha.1.1] at h3
      rw [← h3] at h1
      rw [lsigs, h2, linesSelectors, asts_append, ← h1.1]
      simp [lineSelectors, asts]
end

/-! ## From the document to the output -/

theorem carried_added {a c : List (Option Str × List Spec.Part)} (pre : List (Option Str × List Spec.Part)) (hp : ∀ x ∈ pre, x.2 = [])
    (h : Carried a c) : Carried a (pre ++ c) := by
  induction pre with
  | nil => exact h
  | cons x l ih =>
    obtain ⟨n, ps⟩ := x
    have : ps = [] := hp (n, ps) List.mem_cons_self
    subst this
    exact .added (ih fun y hy => hp y (List.mem_cons_of_mem _ hy))

theorem carried_append {a b c d : List (Option Str × List Spec.Part)} (h : Carried a b) (h' : Carried c d) :
    Carried (a ++ c) (b ++ d) := by
  induction h with
  | nil => exact h'
  | written h1 _ ih => exact .written h1 ih
  | added _ ih => exact .added ih

theorem carried_cons {x : Option Str × List Spec.Part} {r c : List (Option Str × List Spec.Part)} (h : Carried (x :: r) c) :
    ∃ pre n c', c = pre ++ (n, x.2) :: c' ∧ (∀ y ∈ pre, y.2 = []) ∧ (x.1 = none ∨ n = x.1) ∧ Carried r c' := by
  generalize hl : x :: r = l at h
  induction h with
  | nil => cases hl
  | @written m n ps l l' h1 h2 _ => cases hl; exact ⟨[], n, l', rfl, by simp, h1, h2⟩
  | @added n l l' _ ih =>
    obtain ⟨pre, n', c', h1, h2, h3, h4⟩ := ih hl
    refine ⟨(n, []) :: pre, n', c', by rw [h1]; rfl, ?_, h3, h4⟩
    intro y hy
    rcases List.mem_cons.1 hy with rfl | hy
    · rfl
    · exact h2 y hy

theorem carried_trans {a b c : List (Option Str × List Spec.Part)} (h : Carried a b) (ha : ∀ x ∈ a, x ≠ (none, []))
    (h' : Carried (b.filter (· ≠ (none, []))) c) : Carried a c := by
  induction h generalizing c with
  | nil => exact h'
  | @written m n ps l l' h1 _ ih =>
    have hm := ha (m, ps) List.mem_cons_self
    have hn : (n, ps) ≠ (none, []) := by
      rintro e
      injection e with e1 e2
      subst e1 e2
      rcases h1 with rfl | rfl <;> exact hm rfl
    rw [List.filter_cons_of_pos (by exact decide_eq_true hn)] at h'
    obtain ⟨pre, n', c', rfl, h3, h4, h5⟩ := carried_cons h'
    refine carried_added pre h3 (.written ?_ (ih (fun x hx => ha x (List.mem_cons_of_mem _ hx)) h5))
    rcases h1 with rfl | rfl
    · exact .inl rfl
    · exact h4
  | @added n l l' _ ih =>
    by_cases hn : (n, ([] : List Spec.Part)) = (none, [])
    · rw [List.filter_cons_of_neg (by simpa using hn)] at h'
      exact ih ha h'
    · rw [List.filter_cons_of_pos (by exact decide_eq_true hn)] at h'
      obtain ⟨pre, n', c', rfl, h3, h4, h5⟩ := carried_cons h'
      exact carried_added pre h3 (.added (ih ha h5))

mutual
  /-- The selectors of a tree. -/
  def treeSels : Tree → List (Option Str × List SelectorItem)
    | .leaf _ => []
    | .elem _ _ _ sel ch => sel.toList ++ forestSels ch
  def forestSels : List Tree → List (Option Str × List SelectorItem)
    | [] => []
    | t :: ts => treeSels t ++ forestSels ts
end

theorem chain_sels (h : EHead) (kids : List Tree) : ∀ ss : List Selector,
    treeSels (chainTree src h ss kids) = ss.map (selOf src) ++ forestSels kids
  | [] => by simp [chainTree, treeSels]
  | [s] => by simp [chainTree, treeSels]
  | s :: s2 :: ss => by
    rw [chainTree, treeSels, forestSels, forestSels, chain_sels h kids (s2 :: ss)]
    simp

mutual
  theorem node_sels : ∀ n : Node, treeSels (treeOf src n) = (nodeSelectors n).map (selOf src)
    | .text _ _ => by simp [treeOf, treeSels, nodeSelectors]
    | .elem _ h ch => by rw [treeOf, chain_sels, nodes_sels ch, nodeSelectors, List.map_append]
  theorem nodes_sels : ∀ ns : List Node, forestSels (forestOf src ns) = (nodesSelectors ns).map (selOf src)
    | [] => rfl
    | n :: ns => by rw [forestOf, forestSels, node_sels n, nodes_sels ns, nodesSelectors, List.map_append]
end

variable (src) in
/-- Items as parts. -/
def withParts (p : Option Str × List SelectorItem) : Option Str × List Spec.Part := (p.1, documentParts src p.2)

theorem sigOf_eq (s : Selector) : sigOf src s = withParts src (selOf src s) := rfl

/-- Only what says something. -/
def said (l : List (Option Str × List Spec.Part)) : List (Option Str × List Spec.Part) := l.filter (· ≠ (none, []))

theorem said_append (a b : List (Option Str × List Spec.Part)) : said (a ++ b) = said a ++ said b := by simp [said]

mutual
  theorem kept_carried : ∀ (t t' : Tree), Kept t t' → Carried (said ((treeSels t).map (withParts src))) ((treeSels t').map (withParts src))
    | .leaf t, _, h => by cases h; exact .nil
    | .elem f raw fmt sel ch, _, h => by
      cases h with
      | @elem _ _ raw' _ _ sel' _ ch' h1 h2 h3 h4 =>
        have ih := keptAll_carried ch ch' h4
        rw [treeSels, treeSels, List.map_append, List.map_append, said_append]
        refine carried_append ?_ ih
        match sel, h1, h2, h3 with
        | none, _, _, h3 =>
          rcases h3 rfl with rfl | ⟨n, rfl⟩
          · exact .nil
          · exact .added .nil
        | some (some n, items), h1, _, _ =>
          rw [h1 n items rfl]
          simp only [Option.toList, List.map_cons, List.map_nil, said, withParts]
          rw [List.filter_cons_of_pos (by simp)]
          exact .written (.inr rfl) .nil
        | some (none, items), _, h2, _ =>
          obtain ⟨n, rfl⟩ := h2 items rfl
          simp only [Option.toList, List.map_cons, List.map_nil, said, withParts]
          by_cases hp : documentParts src items = []
          · rw [hp, List.filter_cons_of_neg (by simp)]
            exact .added .nil
          · rw [List.filter_cons_of_pos (by simpa using hp)]
            exact .written (.inl rfl) .nil
  theorem keptAll_carried : ∀ (ts ts' : List Tree), List.Forall₂ Kept ts ts' →
      Carried (said ((forestSels ts).map (withParts src))) ((forestSels ts').map (withParts src))
    | [], _, h => by cases h; exact .nil
    | t :: ts, _, h => by
      cases h with
      | @cons _ t' _ ts' h1 h2 =>
        have ih1 := kept_carried t t' h1
        have ih2 := keptAll_carried ts ts' h2
        rw [forestSels, forestSels, List.map_append, List.map_append, said_append]
        exact carried_append ih1 ih2
end

theorem carried_refl (l : List (Option Str × List Spec.Part)) : Carried (said l) l := by
  induction l with
  | nil => exact .nil
  | cons x l ih =>
    obtain ⟨n, ps⟩ := x
    rw [said]
    by_cases h : (n, ps) = (none, [])
    · rw [List.filter_cons_of_neg (by simpa using h)]
      injection h with h1 h2
      subst h2
      exact .added ih
    · rw [List.filter_cons_of_pos (by exact decide_eq_true h)]
      exact .written (.inr rfl) ih

theorem special_carried (c : SpecialTagConfig) {n : Node} (hf : Fresh n) :
    Carried (said ((nodeSelectors n).map (sigOf src))) ((nodeSelectors (specialNode c n)).map (sigOf src)) := by
  induction hf with
  | text => rw [specialNode]; exact .nil
  | @elem r h ch h1 h2 h4 h3 ih =>
    have ht := specialNode_tagged src c _ (Fresh.elem (r := r) h1 h2 h4 h3)
    rw [specialNode] at ht ⊢
    have kids : Carried (said ((nodesSelectors ch).map (sigOf src))) ((nodesSelectors (specialNodes c ch)).map (sigOf src)) := by
      clear ht h1 h3
      induction ch with
      | nil => exact .nil
      | cons m ms ih2 =>
        rw [specialNodes, nodesSelectors, nodesSelectors, List.map_append, List.map_append, said_append]
        exact carried_append (ih m List.mem_cons_self) (ih2 fun x hx => ih x (List.mem_cons_of_mem _ hx))
    generalize hh : specialHead c h = h' at ht
    rw [nodeSelectors, nodeSelectors, List.map_append, List.map_append, said_append]
    refine carried_append ?_ kids
    cases ht with
    | elem t1 t2 t3 t4 _ =>
      have wrap : ∀ names : List Str, h'.selectors.map (selOf src) = wrapIn names → h.selectors = [] →
          Carried (said (h.selectors.map (sigOf src))) (h'.selectors.map (sigOf src)) := by
        intro names hw hs
        rw [hs]
        have := carried_added (a := []) (c := []) (h'.selectors.map (sigOf src)) ?_ .nil
        · rw [List.append_nil] at this; exact this
        · have e : h'.selectors.map (sigOf src) = (h'.selectors.map (selOf src)).map (withParts src) := by
            rw [List.map_map]; rfl
          rw [e, hw, wrapIn]
          simp [withParts, documentParts]
      by_cases hsp : ∃ k, h.ty = .special k
      · obtain ⟨k, hk⟩ := hsp
        exact wrap _ (t1 k hk) (h1 (.inl ⟨k, hk⟩))
      · by_cases hm : h.ty = .multiline .code
        · exact wrap _ (t2 hm) (h1 (.inr ⟨_, hm⟩))
        · rw [t3 (fun k hk => hsp ⟨k, hk⟩) hm]
          exact carried_refl _

theorem specials_carried (c : SpecialTagConfig) {ns : List Node} (hf : ∀ n ∈ ns, Fresh n) :
    Carried (said ((nodesSelectors ns).map (sigOf src))) ((nodesSelectors (specialNodes c ns)).map (sigOf src)) := by
  induction ns with
  | nil => exact .nil
  | cons m ms ih =>
    rw [specialNodes, nodesSelectors, nodesSelectors, List.map_append, List.map_append, said_append]
    exact carried_append (special_carried c (hf m List.mem_cons_self)) (ih fun x hx => hf x (List.mem_cons_of_mem _ hx))

/-- Special tags and inference keep the selectors. -/
theorem nodes_carried (c : SpecialTagConfig) {ns ns' : List Node} (hf : ∀ n ∈ ns, Fresh n)
    (hk : List.Forall₂ Kept (forestOf src (specialNodes c ns)) (forestOf src ns')) :
    Carried (said ((nodesSelectors ns).map (sigOf src))) ((nodesSelectors ns').map (sigOf src)) := by
  refine carried_trans (specials_carried c hf) (fun x hx => by simpa using (List.mem_filter.1 hx).2) ?_
  have := keptAll_carried (src := src) _ _ hk
  rw [nodes_sels, nodes_sels, List.map_map, List.map_map] at this
  exact this

/-! ## Attributes -/

theorem partIds_append (a b : List Spec.Part) : partIds (a ++ b) = partIds a ++ partIds b := by simp [partIds]

theorem partIds_attributes (as : List Attribute) :
    partIds (as.map fun a => Spec.Part.attribute (a.name.asStr src) (a.value.map (·.asStr src))) = [] := by
  simp [partIds]

theorem partIds_eq (items : List SelectorItem) : partIds (documentParts src items) = (idsOf items).map (·.asStr src) := by
  induction items with
  | nil => rfl
  | cons i l ih =>
    cases i with
    | attributes r as =>
      rw [documentParts, partIds_append, ih, partIds_attributes]
      simp [idsOf]
    | _ =>
      unfold partIds idsOf at *
      simp [documentParts, ih]

theorem partClasses_append (a b : List Spec.Part) : partClasses (a ++ b) = partClasses a ++ partClasses b := by simp [partClasses]

theorem partClasses_attributes (as : List Attribute) :
    partClasses (as.map fun a => Spec.Part.attribute (a.name.asStr src) (a.value.map (·.asStr src))) = [] := by
  simp [partClasses]

theorem partClasses_eq (items : List SelectorItem) : partClasses (documentParts src items) = (classesOf items).map (·.asStr src) := by
  induction items with
  | nil => rfl
  | cons i l ih =>
    cases i with
    | attributes r as =>
      rw [documentParts, partClasses_append, ih, partClasses_attributes]
      simp [classesOf]
    | _ =>
      unfold partClasses classesOf at *
      simp [documentParts, ih]

theorem partAttributes_append (a b : List Spec.Part) : partAttributes (a ++ b) = partAttributes a ++ partAttributes b := by
  simp [partAttributes]

theorem partAttributes_attributes (as : List Attribute) :
    partAttributes (as.map fun a => Spec.Part.attribute (a.name.asStr src) (a.value.map (·.asStr src))) =
      as.map fun a => (a.name.asStr src, a.value.map (·.asStr src)) := by
  unfold partAttributes
  induction as <;> simp [*]

theorem partAttributes_eq (items : List SelectorItem) :
    partAttributes (documentParts src items) = (attributesOf items).map fun a => (a.name.asStr src, a.value.map (·.asStr src)) := by
  induction items with
  | nil => rfl
  | cons i l ih =>
    cases i with
    | attributes r as =>
      rw [documentParts, partAttributes_append, ih, partAttributes_attributes]
      simp [attributesOf]
    | _ =>
      unfold partAttributes attributesOf at *
      simp [documentParts, ih]

theorem partsRead_of {xml : Bool} {items : List SelectorItem} {attrs : List (Str × Option Str)} (h : AttrsRead xml src items attrs) :
    PartsRead xml (documentParts src items) attrs := by
  cases h with
  | mk h1 h2 h3 =>
    refine .mk ?_ ?_ ?_
    · rw [partIds_eq, ← List.map_take, List.forall₂_map_left_iff]; exact h1
    · rw [partClasses_eq, List.forall₂_map_left_iff]; exact h2
    · rw [partAttributes_eq, List.forall₂_map_left_iff]
      refine h3.imp ?_
      intro a p h
      refine ⟨h.1, ?_, ?_⟩
      · intro v hv
        have h2 := h.2
        cases ha : a.value with
        | none => rw [ha] at hv; cases hv
        | some w =>
          rw [ha] at hv h2
          cases hv
          exact h2
      · intro hv
        have h2 := h.2
        cases ha : a.value with
        | none => rw [ha] at h2; exact h2
        | some w => rw [ha] at hv; cases hv

end Mty.Selectors
