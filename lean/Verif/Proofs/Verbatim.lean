import Verif.Proofs.Tidy

/-! # Which texts are written verbatim -/

set_option autoImplicit false

namespace Mty
open Build Spec

/-! ## Before inference -/

/-- No element is raw. -/
inductive NoRaw : Node → Prop
  | text {r t} : NoRaw (.text r t)
  | elem {r h ch} : h.isRaw = false → (∀ c ∈ ch, NoRaw c) → NoRaw (.elem r h ch)

theorem fresh_noRaw {n : Node} (h : Fresh n) : NoRaw n := by
  induction h with
  | text => exact .text
  | elem _ h _ _ ih => exact .elem h ih

theorem applyTags_raw (h : EHead) (tags : List TextSlice) : (h.applyTags tags).isRaw = h.isRaw := by
  unfold EHead.applyTags
  split
  · rfl
  · split <;> rfl

theorem specialHead_raw (c : SpecialTagConfig) (h : EHead) : (specialHead c h).isRaw = h.isRaw := by
  unfold specialHead
  split <;> first | rfl | exact applyTags_raw ..

theorem specialNode_noRaw (c : SpecialTagConfig) {n : Node} (h : NoRaw n) : NoRaw (specialNode c n) := by
  induction h with
  | text => exact .text
  | elem h _ ih =>
    rw [specialNode]
    refine .elem (by rw [specialHead_raw, h]) ?_
    intro n hn
    rw [specialNodes_eq] at hn
    obtain ⟨m, hm, rfl⟩ := List.mem_map.1 hn
    exact ih m hm

theorem completePage_noRaw (src : Str) (doc : Document) (h : ∀ n ∈ doc.nodes, NoRaw n) :
    ∀ n ∈ (completePage src doc).nodes, NoRaw n := by
  have hsub : ∀ n ∈ doc.nodes, ∀ c ∈ childrenOf n, NoRaw c := by
    intro n hn c hc
    cases h n hn with
    | text => simp [childrenOf] at hc
    | elem _ h => exact h c hc
  have hb : ∀ (name : Str) (ch : List Node), (∀ c ∈ ch, NoRaw c) → NoRaw (Node.ofElem (pageElement name) ch) :=
    fun _ _ h => .elem (applyTags_raw ..) h
  rcases completePage_cases src doc with ⟨_, e⟩ | ⟨_, _, hd, hh, e⟩ | ⟨_, _, hd, hh, e⟩
  · rw [e]; exact h
  · rw [e]
    simp only [List.mem_singleton, forall_eq]
    exact .elem (by rw [hh]; exact applyTags_raw ..) h
  · rw [e]
    simp only [List.mem_singleton, forall_eq]
    refine .elem (by rw [hh]; exact applyTags_raw ..) ?_
    simp only [List.mem_cons, List.not_mem_nil, or_false, forall_eq_or_imp, forall_eq]
    refine ⟨hb _ _ ?_, .text, hb _ _ ?_⟩
    · intro n hn
      obtain ⟨m, hm, hn⟩ := List.mem_flatMap.1 hn
      split at hn
      · exact hsub m hm n hn
      · split at hn
        · rw [List.mem_singleton.1 hn]; exact h m hm
        · simp at hn
    · intro n hn
      exact h n (List.mem_filter.1 hn).1

theorem toInfer_noRaw {src : Str} {ast : Ast.Document} {e e' : Errors} {doc : Document} (cfg : OutputConfig)
    (h : fromAst src ast e = (some doc, e')) : ∀ n ∈ toInfer cfg src doc, NoRaw n := by
  have h1 : ∀ n ∈ (applySpecialTags cfg doc).nodes, NoRaw n := by
    intro n hn
    rw [applySpecialTags, specialNodes_eq] at hn
    obtain ⟨m, hm, rfl⟩ := List.mem_map.1 hn
    exact specialNode_noRaw _ (fresh_noRaw (fromAst_fresh h m hm))
  unfold toInfer
  split
  · exact completePage_noRaw src _ h1
  · exact h1

/-! ## Inference -/

inductive TreeNoRaw : Tree → Prop
  | leaf {t} : TreeNoRaw (.leaf t)
  | elem {f fmt sel ch} : (∀ c ∈ ch, TreeNoRaw c) → TreeNoRaw (.elem f false fmt sel ch)

/-- Exactly the elements `script` and `style` are raw. -/
inductive RawByName : Tree → Prop
  | leaf {t} : RawByName (.leaf t)
  | elem {f raw fmt sel ch} : raw = unparsed (sel.bind (·.1)) → (∀ c ∈ ch, RawByName c) → RawByName (.elem f raw fmt sel ch)

theorem chain_noRaw (src : Str) (h : EHead) (hr : h.isRaw = false) : ∀ (ss : List Selector) (kids : List Tree),
    (∀ t ∈ kids, TreeNoRaw t) → TreeNoRaw (chainTree src h ss kids)
  | [], kids, hk => by rw [chainTree, hr]; exact .elem hk
  | [s], kids, hk => by rw [chainTree, hr]; exact .elem hk
  | s :: s2 :: ss, kids, hk => by
    rw [chainTree, hr]
    refine .elem ?_
    simp only [List.mem_singleton, forall_eq]
    exact chain_noRaw src h hr (s2 :: ss) kids hk

theorem tree_noRaw (src : Str) {n : Node} (h : NoRaw n) : TreeNoRaw (treeOf src n) := by
  induction h with
  | text => exact .leaf
  | elem h _ ih =>
    rw [treeOf]
    refine chain_noRaw src _ h _ _ ?_
    intro t ht
    rw [forestOf_eq] at ht
    obtain ⟨m, hm, rfl⟩ := List.mem_map.1 ht
    exact ih m hm

theorem contextInside_raw_iff (n : Option Str) (f : Option Form) : contextInside n f = .raw ↔ unparsed n = true := by
  constructor
  · intro h
    simpa [rawName, unparsed] using contextInside_raw n f false rfl h
  · intro h
    simp only [unparsed, Bool.or_eq_true, decide_eq_true_eq] at h
    rcases h with rfl | rfl <;> rfl

theorem inferTree_rawByName (t : Tree) : TreeNoRaw t → ∀ (c : Context) (p g : Option Str) (fi la : Bool),
    RawByName (inferTree c p g fi la t) := by
  refine Tree.ind (P := fun t => TreeNoRaw t → ∀ (c : Context) (p g : Option Str) (fi la : Bool),
    RawByName (inferTree c p g fi la t)) ?_ ?_ t
  · intro t _ c p g fi la; rw [inferTree]; exact .leaf
  · intro f raw fmt sel ch ih h c p g fi la
    cases h with
    | elem h =>
      rw [inferTree]
      refine .elem ?_ ?_
      · rw [Bool.false_or, Bool.eq_iff_iff, decide_eq_true_eq]
        exact contextInside_raw_iff _ _
      · exact inferForest_forall _ _ _ _ _ fun t ht fi la => ih t ht (h t ht) _ _ _ _ _

/-! ## After inference -/

/-- The name of an element. -/
def elemName (src : Str) (h : EHead) : Option Str := (namedBy h).map fun p => p.1.asStr src

/-- The same for nodes. -/
inductive NodeRaw (src : Str) : Node → Prop
  | text {r t} : NodeRaw src (.text r t)
  | elem {r h ch} : h.isRaw = unparsed (elemName src h) → (∀ c ∈ ch, NodeRaw src c) → NodeRaw src (.elem r h ch)

theorem node_of_tree (src : Str) {n : Node} (hs : SingleSelectors n) : RawByName (treeOf src n) → NodeRaw src n := by
  induction hs with
  | text => exact fun _ => .text
  | @elem r h ch hl _ ih =>
    intro hr
    have key : ∀ sel fmt, RawByName (.elem (formOf h.ty) h.isRaw fmt sel (forestOf src ch)) → sel.bind (·.1) = elemName src h →
        NodeRaw src (.elem r h ch) := by
      intro sel fmt hr he
      cases hr with
      | elem h1 h2 =>
        refine .elem (by rw [← he]; exact h1) fun c hc => ih c hc (h2 _ ?_)
        rw [forestOf_eq]
        exact List.mem_map.2 ⟨c, hc, rfl⟩
    rw [treeOf] at hr
    unfold elemName namedBy at key
    rcases hsel : h.selectors with _ | ⟨s, _ | ⟨s2, ss⟩⟩
    · rw [hsel, chainTree] at hr
      exact key _ _ hr (by simp [hsel])
    · rw [hsel, chainTree] at hr
      exact key _ _ hr (by cases hn : s.tag.name <;> simp [hsel, selOf, hn])
    · rw [hsel] at hl; simp at hl

theorem elemName_tags {src : Str} {h h' : EHead} (e : h'.selectors.map (·.tag) = h.selectors.map (·.tag)) :
    elemName src h' = elemName src h := by
  unfold elemName namedBy
  rcases h1 : h.selectors with _ | ⟨s, ss⟩ <;> rcases h2 : h'.selectors with _ | ⟨s', ss'⟩
  · rfl
  · rw [h1, h2] at e; simp at e
  · rw [h1, h2] at e; simp at e
  · rw [h1, h2] at e
    simp only [List.map_cons, List.cons.injEq] at e
    simp [e.1, Option.map_map, Function.comp_def]

theorem metaFinish_tag (loc : Nat) (as : List Attribute) (s : Selector) : (metaFinish loc as s).tag = s.tag := by
  unfold metaFinish; split <;> rfl

theorem metaSelectors_tags (cx : MetaCx) (hc : cx.elements = false) : ∀ (l : List Selector) (i : Nat),
    (metaSelectors cx i l).1.map (·.tag) = l.map (·.tag)
  | [], _ => rfl
  | s :: ss, i => by
    have ih := metaSelectors_tags cx hc ss (i + 1)
    rw [metaSelectors]
    cases hu : s.uninferred with
    | true => simp [hc, ih]
    | false => simp [hc, ih, metaFinish_tag]

theorem metaElement_tags (m : MetadataConfig) (hm : m.elements = false) (r : Range) (h : EHead) (root : Bool) :
    (metaElement m r h root).selectors.map (·.tag) = h.selectors.map (·.tag) := by
  unfold metaElement
  dsimp only
  split
  · rfl
  · rename_i hh
    simp only [hm, Bool.not_false, Bool.and_true, Bool.not_eq_true', Bool.not_eq_false] at hh
    rw [hh]
    simp only [Bool.not_true, Bool.false_and, Bool.false_eq_true, if_false]
    exact metaSelectors_tags _ hm _ _

mutual
  theorem metaNode_nodeRaw {src : Str} (m : MetadataConfig) (hm : m.elements = false) : ∀ (n : Node) (root : Bool), NodeRaw src n →
      NodeRaw src (metaNode m n root)
    | .elem r h ch, root, hr => by
      have hr' : h.isRaw = unparsed (elemName src h) ∧ ∀ c ∈ ch, NodeRaw src c := by
        cases hr with | elem h1 h2 => exact ⟨h1, h2⟩
      have := metaNodes_nodeRaw m hm ch false hr'.2
      rw [metaNode]
      refine .elem ?_ this
      rw [(metaElement_mem m r h root).1, elemName_tags (metaElement_tags m hm r h root)]
      exact hr'.1
    | .text r (.text t), root, _ => by rw [metaNode, hm]; exact .text
    | .text r (.comment s), root, _ => by rw [metaNode, hm]; exact .text
    | .text r (.space s), root, _ => by rw [metaNode]; exact .text
  theorem metaNodes_nodeRaw {src : Str} (m : MetadataConfig) (hm : m.elements = false) : ∀ (ns : List Node) (root : Bool),
      (∀ n ∈ ns, NodeRaw src n) → ∀ n ∈ metaNodes m ns root, NodeRaw src n
    | [], _, _ => by simp [metaNodes]
    | n :: ns, root, h => by
      have h1 := metaNode_nodeRaw m hm n root (h n (List.mem_cons_self ..))
      have h2 := metaNodes_nodeRaw m hm ns root fun x hx => h x (List.mem_cons_of_mem _ hx)
      rw [metaNodes]
      intro x hx
      rcases List.mem_cons.1 hx with rfl | hx
      · exact h1
      · exact h2 x hx
end

theorem langSelectors_tags (l : Str) : ∀ ss : List Selector, (langSelectors l ss).map (·.tag) = ss.map (·.tag)
  | [] => rfl
  | s :: ss => by
    rw [langSelectors]
    split
    · rfl
    · rw [List.map_cons, List.map_cons, langSelectors_tags l ss]

theorem langNode_raw {src : Str} (l : Str) {n : Node} (h : NodeRaw src n) : NodeRaw src (langNode l n) := by
  cases h with
  | text => exact .text
  | elem h1 h2 =>
    refine .elem ?_ h2
    refine h1.trans (congrArg unparsed (elemName_tags ?_).symm)
    exact langSelectors_tags l _

theorem transform_nodeRaw {src : Str} {ast : Ast.Document} {e e' : Errors} {doc : Document} (cfg : OutputConfig)
    (h : fromAst src ast e = (some doc, e')) (hm : ∀ m, cfg.metadata = some m → m.elements = false) :
    ∀ n ∈ (transformDocument doc src cfg).nodes, NodeRaw src n := by
  rw [transformDocument_eq]
  have h1 : ∀ n ∈ Infer.infer src (toInfer cfg src doc), NodeRaw src n := by
    obtain ⟨ht, hs⟩ := infer_tree src _ (toInfer_plain cfg h)
    intro n hn
    refine node_of_tree src (hs n hn) ?_
    have : treeOf src n ∈ forestOf src (Infer.infer src (toInfer cfg src doc)) := by
      rw [forestOf_eq]; exact List.mem_map.2 ⟨n, hn, rfl⟩
    rw [ht] at this
    refine inferForest_forall _ _ _ _ _ (fun t ht fi la => inferTree_rawByName t ?_ _ _ _ _ _) _ this
    rw [forestOf_eq] at ht
    obtain ⟨m, hm, rfl⟩ := List.mem_map.1 ht
    exact tree_noRaw src (toInfer_noRaw cfg h m hm)
  generalize Infer.infer src (toInfer cfg src doc) = ns at *
  have h2 : ∀ m, cfg.metadata = some m → ∀ n ∈ metaNodes m ns true, NodeRaw src n :=
    fun m hc => metaNodes_nodeRaw m (hm m hc) ns true h1
  have h3 : ∀ l (ns : List Node), (∀ n ∈ ns, NodeRaw src n) → ∀ n ∈ ns.map (langNode l), NodeRaw src n := by
    intro l ns h n hn
    obtain ⟨n', hn', rfl⟩ := List.mem_map.1 hn
    exact langNode_raw l (h n' hn')
  cases hc : cfg.metadata with
  | none =>
    cases cfg.lang with
    | none => exact h1
    | some l => exact h3 l _ h1
  | some m =>
    cases cfg.lang with
    | none => exact h2 m hc
    | some l => exact h3 l _ (h2 m hc)

mutual
  theorem nodeVerbatim_eq (xml : Bool) (src : Str) : ∀ (raw : Bool) (n : Node), NodeRaw src n →
      nodeTextModes xml raw n = nodeVerbatim xml src raw n
    | raw, .text _ (.text t), _ => rfl
    | raw, .text _ (.comment _), _ => rfl
    | raw, .text _ (.space _), _ => rfl
    | raw, .elem r h ch, hr => by
      have hr' : h.isRaw = unparsed (elemName src h) ∧ ∀ c ∈ ch, NodeRaw src c := by
        cases hr with | elem h1 h2 => exact ⟨h1, h2⟩
      rw [nodeTextModes, nodeVerbatim, nodesVerbatim_eq xml src _ ch hr'.2, hr'.1]
      rfl
  theorem nodesVerbatim_eq (xml : Bool) (src : Str) : ∀ (raw : Bool) (ns : List Node), (∀ n ∈ ns, NodeRaw src n) →
      nodesTextModes xml raw ns = nodesVerbatim xml src raw ns
    | _, [], _ => rfl
    | raw, n :: ns, h => by
      rw [nodesTextModes, nodesVerbatim, nodeVerbatim_eq xml src raw n (h n (List.mem_cons_self ..)),
        nodesVerbatim_eq xml src raw ns fun x hx => h x (List.mem_cons_of_mem _ hx)]
end

/-! ## Leaves of converted documents -/

/-- The leaf of a text or comment. -/
def leafOf : TextLike → Option Leaf
  | .text t => some (.text (sliceRange t.slice) t.unescapeIn t.escapeOut t.raw t.multiline)
  | .comment s => some (.comment (sliceRange s))
  | .space _ => none

mutual
  theorem nodeLeaves_texts : ∀ n : Node, docNodeLeaves n = (nodeTexts n).filterMap leafOf
    | .text _ (.text t) => rfl
    | .text _ (.comment _) => rfl
    | .text _ (.space _) => rfl
    | .elem _ _ ch => by rw [docNodeLeaves, nodeTexts, docLeaves_texts ch]
  theorem docLeaves_texts : ∀ ns : List Node, docLeaves ns = (nodesTexts ns).filterMap leafOf
    | [] => rfl
    | n :: ns => by rw [docLeaves, nodesTexts, List.filterMap_append, nodeLeaves_texts n, docLeaves_texts ns]
end

theorem transform_leaves {src : Str} {ast : Ast.Document} {e e' : Errors} {doc : Document} (cfg : OutputConfig)
    (h : fromAst src ast e = (some doc, e')) (hm : ∀ m, cfg.metadata = some m → m.elements = false) :
    (docLeaves (transformDocument doc src cfg).nodes).Perm (docLeaves doc.nodes) ∧
    (cfg.completePage.getD false = false → docLeaves (transformDocument doc src cfg).nodes = docLeaves doc.nodes) := by
  have hid : (nodesTexts (toInfer cfg src doc)).map (metaTextLike cfg.metadata) = nodesTexts (toInfer cfg src doc) := by
    have : metaTextLike cfg.metadata = id := by
      cases hc : cfg.metadata with
      | none => exact metaTextLike_none
      | some m => funext x; cases x <;> simp [metaTextLike, hm m hc]
    rw [this, List.map_id]
  rw [docLeaves_texts, docLeaves_texts, transform_texts cfg h, hid]
  refine ⟨?_, fun hc => ?_⟩
  · rcases toInfer_texts src cfg doc with ⟨-, h1⟩ | h1 | h1
    · rw [h1]
    · exact h1.filterMap _
    · exact h1.filterMap _
  · have : nodesTexts (toInfer cfg src doc) = nodesTexts doc.nodes := by
      rw [toInfer, hc]; exact specialNodes_texts _ _
    rw [this]

end Mty
