import Verif.Proofs.InferTree
import Verif.Proofs.OutEscape
import Verif.Spec.Transform

/-! # Special tags, completed pages, `lang` and metadata -/

set_option autoImplicit false

namespace Mty
open Build Spec

/-! ## Elements of built documents -/

/-- Elements written without selectors have none, no element is raw, and code block containers are not
elements of their own. -/
inductive Fresh : Node → Prop
  | text {r t} : Fresh (.text r t)
  | elem {r h ch} : ((∃ k, h.ty = .special k) ∨ (∃ k, h.ty = .multiline k) → h.selectors = []) →
      h.isRaw = false → h.ty ≠ .special .codeBlockContainer → (∀ c ∈ ch, Fresh c) → Fresh (.elem r h ch)

theorem fresh_addLine (fp : Bool) (out line : List Node) (r : Range) (e : Nat)
    (ho : ∀ n ∈ out, Fresh n) (hl : ∀ n ∈ line, Fresh n) :
    ∀ n ∈ Build.addLine out line r e fp, Fresh n := by
  have hsp : ∀ n, n = paragraphSep e r.start → Fresh n := by
    rintro n rfl; exact .text
  rcases addLine_cases fp out line r e with ⟨o, rg, hd, ch, rfl, hc, h⟩ | h | ⟨hfp, sep, hsep, h⟩ | ⟨hs, sep, hsep, h⟩
  · rw [h]
    intro n hn
    rcases List.mem_append.1 hn with hn | hn
    · exact ho n (List.mem_append_left _ hn)
    · simp only [List.mem_singleton] at hn
      subst hn
      have hlast := ho _ (List.mem_append_right _ (List.mem_singleton.2 rfl))
      cases hlast with
      | elem k1 k2 k2' k3 =>
        refine .elem (fun e => k1 e) k2 k2' fun x hx => ?_
        rcases List.mem_append.1 hx with hx | hx
        · exact k3 x hx
        · rcases List.mem_cons.1 hx with rfl | hx
          · exact .text
          · exact hl x hx
  · rw [h]; exact ho
  · rw [h]
    intro n hn
    simp only [List.mem_append, List.mem_singleton] at hn
    rcases hn with (hn | hn) | rfl
    · exact ho n hn
    · exact hsp n (hsep n hn)
    · exact .elem (fun _ => rfl) rfl (by simp [EHead.new]) hl
  · rw [h]
    intro n hn
    simp only [List.mem_append] at hn
    rcases hn with (hn | hn) | hn
    · exact ho n hn
    · exact hsp n (hsep n hn)
    · exact hl n hn

def freshInv (src : Str) : DocInv src where
  Q n := Fresh n
  QC _ ns := ∀ n ∈ ns, Fresh n
  G _ := True
  split _ := ⟨trivial, trivial⟩
  line h ch c hty hr hch := .elem (by simp [hty]) hr (by simp [hty]) hch
  lineBlock h ch c b hty hr hch := .elem (by simp [hty]) hr (by simp [hty]) hch
  block h ch b hty hr hch := .elem (by simp [hty]) hr (by simp [hty]) hch
  space r := .text
  nil fp := by simp
  blank fp out a b h := by
    intro n hn
    rcases List.mem_append.1 hn with hn | hn
    · exact h n hn
    · simp only [List.mem_singleton] at hn
      subst hn
      exact .text
  addLine fp out line r e es _ _ ho hl := fresh_addLine fp out line r e ho hl
  text r t _ _ _ := .text
  comment r t := .text
  multiline h r t k _ _ _ hty _ hs :=
    .elem (fun _ => hs.1) hs.2 (by simp [hty]) (by simp only [List.mem_singleton, forall_eq]; exact .text)
  code h r t _ _ _ hty _ hs := .elem (fun _ => hs.1) hs.2 (by simp [hty]) (by simp only [List.mem_singleton, forall_eq]; exact .text)
  special h ch k hty _ hs hch := .elem (fun _ => hs.1) hs.2.1 (by simp [hty, hs.2.2]) hch
  inline h ch hty hs hch := .elem (by simp [hty]) hs.2 (by simp [hty]) hch
  inlineFirst r r' h ch d hty h' := by
    cases h' with
    | elem k1 k2 k2' k3 => exact .elem (by simp) k2 (by simp) k3

theorem fromAst_fresh {src : Str} {ast : Ast.Document} {e e' : Errors} {doc : Document}
    (h : fromAst src ast e = (some doc, e')) : ∀ n ∈ doc.nodes, Fresh n :=
  (((freshInv src).fromAst_inv (fun _ => trivial) ast).document h).choose_spec.1 trivial

/-! ## Special tags -/

theorem applyTags_wrap (src : Str) (h : EHead) (tags : List Str) (hs : h.selectors = []) :
    (h.applyTags (tags.map .provided)).selectors.map (selOf src) = wrapIn tags ∧
      h.applyTags (tags.map .provided) = { h with selectors := (h.applyTags (tags.map .provided)).selectors } := by
  have hf : (tags.map TextSlice.provided).filter (fun t => !t.isEmpty) = (tags.filter (· ≠ [])).map .provided := by
    rw [List.filter_map]
    congr 1
    refine List.filter_congr fun t _ => ?_
    cases t <;> simp [TextSlice.isEmpty]
  unfold EHead.applyTags wrapIn
  rw [hf]
  cases tags.filter (· ≠ []) with
  | nil => simp [hs]
  | cons t ts =>
    simp only [List.map_cons, hs]
    simp [selOf, Selector.withTag, Selector.empty, Tag.name, TextSlice.asStr, Function.comp_def]

theorem specialTagName_eq (c : SpecialTagConfig) (k : SpecialKind) (hk : k ≠ .codeBlockContainer) :
    specialTagName c k = configuredTag c k := by
  cases k <;> first | rfl | exact absurd rfl hk

theorem specialNode_tagged (src : Str) (c : SpecialTagConfig) (n : Node) (hf : Fresh n) :
    SpecialTagged src c (c.emphasis.getD "pre".toList) n (specialNode c n) := by
  induction hf with
  | text => exact .text
  | @elem r h ch h1 h2 hc1 h3 ih =>
    rw [specialNode]
    refine .elem ?_ ?_ ?_ ?_ ?_
    · intro k hk
      have hs := h1 (.inl ⟨k, hk⟩)
      have hne : k ≠ .codeBlockContainer := by rintro rfl; exact hc1 hk
      simp only [specialHead, hk]
      rw [← specialTagName_eq c k hne]
      exact (applyTags_wrap src h [specialTagName c k] hs).1
    · intro hk
      have hs := h1 (.inr ⟨_, hk⟩)
      simp only [specialHead, hk]
      exact (applyTags_wrap src h [specialTagName c .codeBlockContainer, specialTagName c .code] hs).1
    · intro k1 k2
      unfold specialHead
      split
      · rename_i k hk; exact absurd hk (k1 k)
      · rename_i hk; exact absurd hk k2
      · rfl
    · unfold specialHead
      split
      · rename_i k hk
        exact (applyTags_wrap src h [specialTagName c k] (h1 (.inl ⟨k, hk⟩))).2
      · rename_i hk
        exact (applyTags_wrap src h [specialTagName c .codeBlockContainer, specialTagName c .code]
          (h1 (.inr ⟨_, hk⟩))).2
      · rfl
    · rw [specialNodes_eq, List.forall₂_map_right_iff]
      exact List.forall₂_same.2 fun x hx => ih x hx

/-! ## Completed pages -/

theorem asciiLowerChar_eq (c : Char) : asciiLowerChar c = c.toLower := by
  unfold asciiLowerChar Char.toLower
  by_cases h : 'A' ≤ c ∧ c ≤ 'Z'
  · rw [if_pos h, dif_pos (by exact ⟨h.1, h.2⟩)]
    have h1 : 65 ≤ c.toNat := h.1
    have h2 : c.toNat ≤ 90 := h.2
    apply ofNat_eq
    show c.toNat + 32 = (c.val + ('a'.val - 'A'.val)).toNat
    rw [UInt32.toNat_add]
    have h3 : c.val.toNat = c.toNat := rfl
    rw [h3]
    show c.toNat + 32 = (c.toNat + 32) % 2 ^ 32
    omega
  · rw [if_neg h, dif_neg (by exact fun h' => h ⟨h'.1, h'.2⟩)]

theorem treeOf_page (src : Str) (name : String) (hn : name.toList ≠ []) (h : EHead)
    (hh : h = { pageElement name.toList with contentRange := h.contentRange }) (kids : List Node) :
    treeOf src (Node.ofElem h kids) = plainTree name (forestOf src kids) := by
  rw [hh]
  cases hl : name.toList with
  | nil => exact absurd hl hn
  | cons c cs =>
    simp [pageElement, EHead.applyTags, TextSlice.isEmpty, Node.ofElem, treeOf, EHead.new, chainTree, plainTree, selOf,
      Selector.withTag, Selector.empty, Tag.name, TextSlice.asStr, hl, formOf, EHead.fmtInline, onOneLine]

theorem hasTagIn_eq (src : Str) (n : Node) (names : List String)
    (hl : ∀ m ∈ names, m.toList.map Char.toLower = m.toList) :
    hasTagIn src n (names.map String.toList) = isNamed src names n := by
  cases n with
  | text => rfl
  | elem r h ch =>
    unfold hasTagIn isNamed
    dsimp only
    cases h.selectors.head?.bind fun s => s.tag.name with
    | none => rfl
    | some t =>
      dsimp only
      rw [List.any_map]
      have : ∀ m ∈ names, ((fun t_1 => eqIgnoreAsciiCase (t.asStr src) t_1) ∘ String.toList) m =
          decide ((t.asStr src).map Char.toLower = m.toList) := by
        intro m hm
        have hf : asciiLowerChar = Char.toLower := funext asciiLowerChar_eq
        simp only [Function.comp, eqIgnoreAsciiCase, hf, hl m hm]
        rw [Bool.eq_iff_iff]
        simp
      rw [Bool.eq_iff_iff, List.any_eq_true, List.any_eq_true]
      constructor
      · rintro ⟨m, hm, e⟩
        exact ⟨m, hm, by rw [← this m hm]; exact e⟩
      · rintro ⟨m, hm, e⟩
        exact ⟨m, hm, by rw [this m hm]; exact e⟩

theorem splitPage_eq (src : Str) (ns : List Node) :
    splitPage src ns = (headNodes src ns, bodyNodes src ns) := by
  have e1 : ∀ n, hasTagIn src n ["head".toList] = isNamed src ["head"] n := fun n =>
    hasTagIn_eq src n ["head"] (by decide)
  have e2 : ∀ n, hasTagIn src n metadataTags = isNamed src headContentNames n := fun n =>
    hasTagIn_eq src n headContentNames (by decide)
  induction ns with
  | nil => rfl
  | cons n ns ih =>
    rw [splitPage, ih]
    dsimp only
    rw [e1, e2]
    unfold headNodes bodyNodes
    rw [List.flatMap_cons, List.filter_cons]
    by_cases h1 : isNamed src ["head"] n
    · have : n.children = childrenOf n := by cases n <;> rfl
      simp [h1, this]
    · by_cases h2 : isNamed src headContentNames n <;> simp [h1, h2]

theorem isNamed_cons (src : Str) (a b : String) (n : Node) :
    isNamed src [a, b] n = (isNamed src [a] n || isNamed src [b] n) := by
  cases n with
  | text => rfl
  | elem r h ch =>
    unfold isNamed
    dsimp only
    cases h.selectors.head?.bind fun s => s.tag.name <;> simp

/-- The three cases of `completePage`. -/
theorem completePage_cases (src : Str) (doc : Document) :
    (doc.nodes.any (isNamed src ["html"]) = true ∧ completePage src doc = doc) ∨
    (doc.nodes.any (isNamed src ["html"]) = false ∧ doc.nodes.any (isNamed src ["body"]) = true ∧
      ∃ h : EHead, h = { pageElement "html".toList with contentRange := h.contentRange } ∧
        (completePage src doc).nodes = [Node.ofElem h doc.nodes]) ∨
    (doc.nodes.any (isNamed src ["html"]) = false ∧ doc.nodes.any (isNamed src ["body"]) = false ∧
      ∃ h : EHead, h = { pageElement "html".toList with contentRange := h.contentRange } ∧
        (completePage src doc).nodes =
          [Node.ofElem h [Node.ofElem (pageElement "head".toList) (headNodes src doc.nodes),
            .text Range.INVALID (.space .paragraphEnd),
            Node.ofElem (pageElement "body".toList) (bodyNodes src doc.nodes)]]) := by
  have e1 : ∀ n, hasTagIn src n ["html".toList] = isNamed src ["html"] n := fun n =>
    hasTagIn_eq src n ["html"] (by decide)
  have e2 : ∀ n, hasTagIn src n ["body".toList] = isNamed src ["body"] n := fun n =>
    hasTagIn_eq src n ["body"] (by decide)
  unfold completePage
  simp only [e1, e2, splitPage_eq]
  cases h1 : doc.nodes.any (isNamed src ["html"])
  · cases h2 : doc.nodes.any (isNamed src ["body"])
    · exact .inr (.inr ⟨rfl, rfl, _, rfl, rfl⟩)
    · exact .inr (.inl ⟨rfl, rfl, _, rfl, rfl⟩)
  · exact .inl ⟨rfl, rfl⟩


theorem nodesTexts_append (a b : List Node) : nodesTexts (a ++ b) = nodesTexts a ++ nodesTexts b := by
  induction a with
  | nil => rfl
  | cons n ns ih => simp [nodesTexts, ih]

theorem nodesSelectors_append (a b : List Node) : nodesSelectors (a ++ b) = nodesSelectors a ++ nodesSelectors b := by
  induction a with
  | nil => rfl
  | cons n ns ih => simp [nodesSelectors, ih]

theorem nodeTexts_children {src : Str} {names : List String} {n : Node} (h : isNamed src names n = true) :
    nodeTexts n = nodesTexts (childrenOf n) := by
  cases n with
  | text => simp [isNamed] at h
  | elem => rfl

theorem split_texts (src : Str) (ns : List Node) :
    (nodesTexts (headNodes src ns) ++ nodesTexts (bodyNodes src ns)).Perm (nodesTexts ns) := by
  induction ns with
  | nil => simp [headNodes, bodyNodes, nodesTexts]
  | cons n ns ih =>
    have e1 : headNodes src (n :: ns) = (if isNamed src ["head"] n then childrenOf n
        else if isNamed src headContentNames n then [n] else []) ++ headNodes src ns := by
      simp [headNodes]
    have e2 : bodyNodes src (n :: ns) = (if !isNamed src ["head"] n && !isNamed src headContentNames n then [n] else [])
        ++ bodyNodes src ns := by
      unfold bodyNodes
      rw [List.filter_cons]
      split <;> rfl
    rw [e1, e2, nodesTexts_append, nodesTexts_append]
    by_cases h1 : isNamed src ["head"] n = true
    · simp only [h1, if_true, Bool.not_true, Bool.false_and, Bool.false_eq_true, if_false, nodesTexts, List.nil_append,
        nodeTexts_children h1, List.append_assoc]
      exact ih.append_left _
    · by_cases h2 : isNamed src headContentNames n = true
      · simp only [h1, h2, if_true, Bool.not_true, Bool.and_false, Bool.false_eq_true, if_false, nodesTexts,
          List.nil_append, List.append_nil, List.append_assoc]
        exact ih.append_left _
      · simp only [Bool.not_eq_true] at h1 h2
        simp only [h1, h2, Bool.not_false, Bool.and_true, if_true, Bool.false_eq_true, if_false, nodesTexts,
          List.nil_append, List.append_nil]
        refine List.Perm.trans ?_ (ih.append_left _)
        rw [← List.append_assoc, ← List.append_assoc]
        exact List.Perm.append_right _ List.perm_append_comm

theorem split_selectors (src : Str) (ns : List Node)
    (hs : ∀ r h ch, Node.elem r h ch ∈ ns → isNamed src ["head"] (.elem r h ch) = true →
      ∀ s ∈ h.selectors, isPagePart (selOf src s) = true) :
    (((nodesSelectors (headNodes src ns) ++ nodesSelectors (bodyNodes src ns)).map (selOf src)).filter
      (fun s => !isPagePart s)).Perm (((nodesSelectors ns).map (selOf src)).filter fun s => !isPagePart s) := by
  induction ns with
  | nil => simp [headNodes, bodyNodes, nodesSelectors]
  | cons n ns ih =>
    have ih := ih (fun r h ch hn => hs r h ch (List.mem_cons_of_mem _ hn))
    have e1 : headNodes src (n :: ns) = (if isNamed src ["head"] n then childrenOf n
        else if isNamed src headContentNames n then [n] else []) ++ headNodes src ns := by
      simp [headNodes]
    have e2 : bodyNodes src (n :: ns) = (if !isNamed src ["head"] n && !isNamed src headContentNames n then [n] else [])
        ++ bodyNodes src ns := by
      unfold bodyNodes
      rw [List.filter_cons]
      split <;> rfl
    rw [e1, e2, nodesSelectors_append, nodesSelectors_append]
    simp only [List.map_append, List.filter_append, nodesSelectors] at ih ⊢
    by_cases h1 : isNamed src ["head"] n = true
    · simp only [h1, if_true, Bool.not_true, Bool.false_and, Bool.false_eq_true, if_false, nodesSelectors,
        List.map_nil, List.filter_nil, List.nil_append, List.append_assoc]
      have : ((nodeSelectors n).map (selOf src)).filter (fun s => !isPagePart s) =
          ((nodesSelectors (childrenOf n)).map (selOf src)).filter (fun s => !isPagePart s) := by
        cases n with
        | text => simp [isNamed] at h1
        | elem r h ch =>
          rw [nodeSelectors, List.map_append, List.filter_append, childrenOf]
          rw [List.filter_eq_nil_iff.2, List.nil_append]
          intro a ha
          obtain ⟨s, hs', rfl⟩ := List.mem_map.1 ha
          simp [hs r h ch (List.mem_cons_self ..) h1 s hs']
      rw [this]
      exact ih.append_left _
    · by_cases h2 : isNamed src headContentNames n = true
      · simp only [h1, h2, if_true, Bool.not_true, Bool.and_false, Bool.false_eq_true, if_false, nodesSelectors,
          List.map_nil, List.filter_nil, List.nil_append, List.append_nil, List.append_assoc]
        exact ih.append_left _
      · simp only [Bool.not_eq_true] at h1 h2
        simp only [h1, h2, Bool.not_false, Bool.and_true, if_true, Bool.false_eq_true, if_false, nodesSelectors,
          List.map_nil, List.filter_nil, List.nil_append, List.append_nil]
        refine List.Perm.trans ?_ (ih.append_left _)
        rw [← List.append_assoc, ← List.append_assoc]
        exact List.Perm.append_right _ List.perm_append_comm

/-! ## Metadata -/

theorem eraseItems_append (a b : List SelectorItem) : eraseItems (a ++ b) = eraseItems a ++ eraseItems b := by
  simp [eraseItems]

theorem eraseItems_meta (a : List SelectorItem) (r : Range) (as : List Attribute) (h : ∀ x ∈ as, isMetadata x = true) :
    eraseItems (a ++ [.attributes r as]) = eraseItems a := by
  rw [eraseItems_append]
  have : as.filter (fun a => !isMetadata a) = [] := List.filter_eq_nil_iff.2 fun x hx => by simp [h x hx]
  simp [eraseItems, this]

theorem metaAttr_isMetadata (loc : Nat) (name : String) (v : Str)
    (h : (name.toList = "xmlns:mty".toList || "mty:".toList.isPrefixOf name.toList) = true) :
    isMetadata (metaAttr loc name v) = true := h

theorem metaRange_isMetadata (loc : Nat) (a b : String) (r : Range)
    (ha : (a.toList = "xmlns:mty".toList || "mty:".toList.isPrefixOf a.toList) = true)
    (hb : (b.toList = "xmlns:mty".toList || "mty:".toList.isPrefixOf b.toList) = true) :
    ∀ x ∈ metaRange loc a b r, isMetadata x = true := by
  unfold metaRange
  split
  · intro x hx
    simp only [List.mem_cons, List.not_mem_nil, or_false] at hx
    rcases hx with rfl | rfl
    · exact metaAttr_isMetadata _ _ _ ha
    · exact metaAttr_isMetadata _ _ _ hb
  · simp

def eraseSel (s : Selector) : Selector := { s with items := eraseItems s.items }

theorem metaFinish_erase (loc : Nat) (as : List Attribute) (s : Selector) (h : ∀ x ∈ as, isMetadata x = true) :
    eraseSel (metaFinish loc as s) = eraseSel s := by
  unfold metaFinish
  split
  · rfl
  · simp only [eraseSel, eraseItems_meta _ _ _ h]

theorem metaSelectors_erase (cx : MetaCx) (hc : cx.elements = false) (ss : List Selector) : ∀ i,
    (metaSelectors cx i ss).1.map eraseSel = ss.map eraseSel := by
  induction ss with
  | nil => intro i; rfl
  | cons s rest ih =>
    intro i
    have ih := ih (i + 1)
    rw [metaSelectors]
    generalize metaSelectors cx (i + 1) rest = p at *
    obtain ⟨rest', cr⟩ := p
    dsimp only at *
    cases hu : s.uninferred with
    | true => simp [hc, ih]
    | false =>
      simp only [Bool.false_and, Bool.false_eq_true, if_false, List.map_cons, ih, List.cons.injEq, and_true]
      apply metaFinish_erase
      intro x hx
      simp only [List.mem_append] at hx
      rcases hx with (hx | hx) | hx
      · split at hx
        · rcases List.mem_append.1 hx with hx | hx
          · split at hx
            · rw [List.mem_singleton.1 hx]; rfl
            · simp at hx
          · unfold metaBoolExcept at hx
            split at hx
            · rw [List.mem_singleton.1 hx]; rfl
            · simp at hx
        · simp at hx
      · exact metaRange_isMetadata _ _ _ _ rfl rfl x hx
      · exact metaRange_isMetadata _ _ _ _ rfl rfl x hx

theorem metaElement_erase (opts : MetadataConfig) (ho : opts.elements = false) (r : Range) (h : EHead) (root : Bool) :
    { metaElement opts r h root with selectors := (metaElement opts r h root).selectors.map eraseSel } =
      { h with selectors := h.selectors.map eraseSel } := by
  unfold metaElement
  cases ht : h.selectors.any fun s => !s.uninferred with
  | false => simp [ho]
  | true => simp only [ho, Bool.not_true, Bool.false_and, Bool.false_eq_true, if_false, metaSelectors_erase]

mutual
  theorem metaNode_erase (opts : MetadataConfig) (ho : opts.elements = false) : ∀ (n : Node) (root : Bool),
      eraseNode (metaNode opts n root) = eraseNode n
    | .elem r h ch, root => by
      rw [metaNode, eraseNode, eraseNode, metaNodes_erase opts ho]
      congr 1
      exact metaElement_erase opts ho r h root
    | .text r (.text t), root => by simp [metaNode, ho]
    | .text r (.comment s), root => by simp [metaNode, ho]
    | .text r (.space s), root => by simp [metaNode]
  theorem metaNodes_erase (opts : MetadataConfig) (ho : opts.elements = false) : ∀ (ns : List Node) (root : Bool),
      eraseNodes (metaNodes opts ns root) = eraseNodes ns
    | [], _ => by rw [metaNodes]
    | n :: ns, root => by
      rw [metaNodes, eraseNodes, eraseNodes, metaNode_erase opts ho, metaNodes_erase opts ho]
end

theorem langSelectors_erase (l : Str) (ss : List Selector) :
    (langSelectors l ss).map eraseSel = langSelectors l (ss.map eraseSel) := by
  induction ss with
  | nil => rfl
  | cons s ss ih =>
    rw [List.map_cons, langSelectors, langSelectors]
    have hu : (eraseSel s).uninferred = s.uninferred := rfl
    rw [hu]
    split
    · simp only [List.map_cons]
      congr 1
      simp only [eraseSel, eraseItems_append]
      rfl
    · simp [ih]

theorem langNode_erase (l : Str) (n : Node) : eraseNode (langNode l n) = langNode l (eraseNode n) := by
  cases n with
  | text => rfl
  | elem r h ch =>
    simp only [langNode, eraseNode]
    congr 1
    exact congrArg (fun x => { h with selectors := x }) (langSelectors_erase l h.selectors)

theorem eraseNodes_eq (ns : List Node) : eraseNodes ns = ns.map eraseNode := by
  induction ns with
  | nil => rfl
  | cons n ns ih => rw [eraseNodes, ih, List.map_cons]

mutual
  theorem nodeTextModes_erase (xml : Bool) : ∀ (raw : Bool) (n : Node),
      nodeTextModes xml raw (eraseNode n) = nodeTextModes xml raw n
    | _, .text r t => by rw [eraseNode]
    | raw, .elem r h ch => by
      rw [eraseNode, nodeTextModes, nodeTextModes, nodesTextModes_erase]
  theorem nodesTextModes_erase (xml : Bool) : ∀ (raw : Bool) (ns : List Node),
      nodesTextModes xml raw (eraseNodes ns) = nodesTextModes xml raw ns
    | _, [] => by rw [eraseNodes]
    | raw, n :: ns => by
      rw [eraseNodes, nodesTextModes, nodesTextModes, nodeTextModes_erase, nodesTextModes_erase]
end


/-- The attributes that `metaSelectors` adds to the only selector of an element. -/
def metaAttrs (loc : Nat) (root raw : Bool) (range content : Range) : List Attribute :=
  ((if root then [metaAttr loc "xmlns:mty" xmlnsUri] else []) ++ metaBoolExcept loc "mty:raw" raw false) ++
    metaRange loc "mty:start" "mty:end" range ++ metaRange loc "mty:content-start" "mty:content-end" content

theorem metaElement_named (opts : MetadataConfig) (ho : opts.elements = false) (r : Range) (h : EHead) (root : Bool)
    (s : Selector) (hs : h.selectors = [s]) (hu : s.uninferred = false) :
    metaElement opts r h root =
      { h with selectors := [metaFinish s.range.stop (metaAttrs s.range.stop root h.isRaw r h.contentRange) s] } := by
  unfold metaElement
  simp [hs, hu, ho, metaSelectors, metaAttrs, List.findIdx?_cons]

theorem metaElement_unnamed (opts : MetadataConfig) (ho : opts.elements = false) (r : Range) (h : EHead) (root : Bool)
    (hs : ∀ s ∈ h.selectors, s.uninferred = true) : metaElement opts r h root = h := by
  unfold metaElement
  have : h.selectors.any (fun s => !s.uninferred) = false := by
    rw [List.any_eq_false]; intro s h'; simp [hs s h']
  simp [this, ho]

theorem toDigits_toString (n : Nat) : Nat.toDigits 10 n = (toString n).toList := by
  show _ = (Nat.repr n).toList
  unfold Nat.repr
  simp

theorem metaRange_pairs (loc : Nat) (a b : String) (r : Range) :
    (metaRange loc a b r).map (fun x => (x.name, x.value)) =
      (if r.start ≤ r.stop then [(a, (toString r.start).toList), (b, (toString r.stop).toList)] else []).map
        fun p => (TextSlice.provided p.1.toList, some (TextSlice.provided p.2)) := by
  unfold metaRange
  split
  · simp only [metaAttr, List.map_cons, List.map_nil, toDigits_toString]
  · rfl

theorem metaAttrs_pairs (loc : Nat) (root raw : Bool) (range content : Range) :
    (metaAttrs loc root raw range content).map (fun x => (x.name, x.value)) =
      (metadataOf root raw range content).map fun p => (TextSlice.provided p.1.toList, some (TextSlice.provided p.2)) := by
  unfold metaAttrs metadataOf
  rw [List.map_append, List.map_append, List.map_append, metaRange_pairs, metaRange_pairs, List.map_append, List.map_append,
    List.map_append]
  congr 3
  · cases root <;> rfl
  · cases raw <;> rfl

theorem metaAttrs_isMetadata (loc : Nat) (root raw : Bool) (range content : Range) :
    ∀ x ∈ metaAttrs loc root raw range content, isMetadata x = true := by
  intro x hx
  simp only [metaAttrs, List.mem_append] at hx
  rcases hx with ((hx | hx) | hx) | hx
  · split at hx
    · rw [List.mem_singleton.1 hx]; rfl
    · simp at hx
  · unfold metaBoolExcept at hx
    split at hx
    · rw [List.mem_singleton.1 hx]; rfl
    · simp at hx
  · exact metaRange_isMetadata _ _ _ _ rfl rfl x hx
  · exact metaRange_isMetadata _ _ _ _ rfl rfl x hx

theorem metaFinish_attributes (loc : Nat) (as : List Attribute) (s : Selector) :
    (metaFinish loc as s).attributes = s.attributes ++ as.map (fun x => (x.name, x.value)) := by
  unfold metaFinish
  split
  · rename_i h; simp [List.isEmpty_iff.1 h]
  · simp [Selector.attributes]

theorem uninferred_iff (s : Selector) : s.uninferred = true ↔ s.tag.name = none := by
  unfold Selector.uninferred Tag.name
  cases s.tag <;> simp

mutual
  theorem metaNode_added (opts : MetadataConfig) (ho : opts.elements = false) : ∀ (n : Node) (root : Bool),
      SingleSelectors n → MetadataAdded root n (metaNode opts n root)
    | .elem r h ch, root, hs => by
      rw [metaNode]
      cases hs with
      | elem h1 h2 =>
      have hch := metaNodes_added opts ho ch false h2
      by_cases hu : ∀ s ∈ h.selectors, s.uninferred = true
      · rw [metaElement_unnamed opts ho r h root hu]
        exact .unnamed (fun s hs => (uninferred_iff s).1 (hu s hs)) hch
      · obtain ⟨s, hs⟩ : ∃ s, h.selectors = [s] := by
          match hsel : h.selectors with
          | [] => simp [hsel] at hu
          | [s] => exact ⟨s, rfl⟩
          | a :: b :: c => simp [hsel] at h1
        have hus : s.uninferred = false := by simpa [hs] using hu
        rw [metaElement_named opts ho r h root s hs hus]
        refine .named hs ?_ ?_ ?_ ?_ hch
        · cases hn : s.tag.name with
          | none => rw [(uninferred_iff s).2 hn] at hus; simp at hus
          | some => rfl
        · unfold metaFinish; split <;> rfl
        · exact congrArg Selector.items (metaFinish_erase s.range.stop _ s (metaAttrs_isMetadata _ _ _ _ _))
        · rw [metaFinish_attributes, metaAttrs_pairs]
    | .text r (.text t), root, _ => by simp only [metaNode, ho, Bool.false_and, Bool.false_eq_true, if_false]; exact .text
    | .text r (.comment s), root, _ => by simp only [metaNode, ho, Bool.false_eq_true, if_false]; exact .text
    | .text r (.space s), root, _ => by simp only [metaNode]; exact .text
  theorem metaNodes_added (opts : MetadataConfig) (ho : opts.elements = false) : ∀ (ns : List Node) (root : Bool),
      (∀ n ∈ ns, SingleSelectors n) → List.Forall₂ (MetadataAdded root) ns (metaNodes opts ns root)
    | [], _, _ => by rw [metaNodes]; exact .nil
    | n :: ns, root, h => by
      rw [metaNodes]
      exact .cons (metaNode_added opts ho n root (h n (List.mem_cons_self ..)))
        (metaNodes_added opts ho ns root fun x hx => h x (List.mem_cons_of_mem _ hx))
end

mutual
  theorem metaNode_raw (opts : MetadataConfig) : ∀ (raw raw' : Bool) (n : Node) (root : Bool),
      (nodeTextModes true raw (metaNode opts n root)).filter (·.2) = (nodeTextModes true raw' n).filter (·.2)
    | raw, raw', .elem r h ch, root => by
      rw [metaNode, nodeTextModes, nodeTextModes]
      exact metaNodes_raw opts _ _ ch false
    | raw, raw', .text r (.text t), root => by
      rw [metaNode]
      split
      · rename_i h
        simp only [Bool.and_eq_true, Bool.not_eq_true'] at h
        simp [metaText, Node.ofElem, nodeTextModes, nodesTextModes, h.2]
      · simp [nodeTextModes]
    | raw, raw', .text r (.comment s), root => by
      rw [metaNode]
      split
      · simp [metaComment, Node.ofElem, nodeTextModes, nodesTextModes]
      · simp [nodeTextModes]
    | raw, raw', .text r (.space s), root => by simp [metaNode, nodeTextModes]
  theorem metaNodes_raw (opts : MetadataConfig) : ∀ (raw raw' : Bool) (ns : List Node) (root : Bool),
      (nodesTextModes true raw (metaNodes opts ns root)).filter (·.2) = (nodesTextModes true raw' ns).filter (·.2)
    | _, _, [], _ => by simp [metaNodes, nodesTextModes]
    | raw, raw', n :: ns, root => by
      rw [metaNodes, nodesTextModes, nodesTextModes, List.filter_append, List.filter_append, metaNode_raw opts raw raw' n root,
        metaNodes_raw opts raw raw' ns root]
end

/-! ## `lang` -/

theorem langNode_added (l : Str) (n : Node) (h : SingleSelectors n) : LangAdded l n (langNode l n) := by
  cases h with
  | text => exact .text
  | @elem r h ch h1 h2 =>
    rw [langNode]
    match hs : h.selectors with
    | [] =>
      have : { h with selectors := langSelectors l [] } = h := by rw [langSelectors, ← hs]
      rw [this]
      exact .unnamed (by simp [hs])
    | [s] =>
      cases hu : s.uninferred with
      | true =>
        have : { h with selectors := langSelectors l [s] } = h := by
          simp only [langSelectors, hu, Bool.not_true, Bool.false_eq_true, if_false, ← hs]
        rw [this]
        exact .unnamed (by simp [hs, (uninferred_iff s).1 hu])
      | false =>
        simp only [langSelectors, hu, Bool.not_false, if_true]
        refine .named hs ?_
        cases hn : s.tag.name with
        | none => rw [(uninferred_iff s).2 hn] at hu; simp at hu
        | some => rfl
    | a :: b :: c => simp [hs] at h1

theorem langNode_textModes (xml : Bool) (l : Str) (ns : List Node) :
    ∀ raw, nodesTextModes xml raw (ns.map (langNode l)) = nodesTextModes xml raw ns := by
  intro raw
  induction ns with
  | nil => rfl
  | cons n ns ih =>
    rw [List.map_cons, nodesTextModes, nodesTextModes, ih]
    congr 1
    cases n <;> rfl

/-! ## Names of page parts -/

theorem nameIn_page (c : Context) (f : Option Form) (fi la th : Bool) (hc : c ≠ .html) (n : String)
    (h : nameIn c f fi la th = some n) : n ≠ "html" ∧ n ≠ "head" ∧ n ≠ "body" := by
  rcases f with _ | f <;> cases c <;> (try cases f) <;> cases fi <;> cases la <;> cases th <;> simp [nameIn] at h hc <;>
    subst h <;> decide

theorem contextOfName_html (n : Str) (h : contextOfName n = some .html) : n = "html".toList := by
  unfold contextOfName at h
  dsimp only at h
  iterate 14 (rw [ite_eq_iff] at h; rcases h with ⟨_, h⟩ | ⟨_, h⟩; · cases h)
  rw [ite_eq_iff] at h
  rcases h with ⟨h, _⟩ | ⟨_, h⟩
  · simpa using h
  · rw [ite_eq_iff] at h
    rcases h with ⟨_, h⟩ | ⟨_, h⟩ <;> cases h

theorem contextInside_html (n : Option Str) (f : Option Form) (h : n ≠ some "html".toList) :
    contextInside n f ≠ .html := by
  unfold contextInside
  intro e
  split at e
  · rename_i c hc
    subst e
    cases n with
    | none => simp at hc
    | some n => exact h (congrArg some (contextOfName_html n hc))
  · split at e <;> cases e

theorem inferTree_pageParts : ∀ (t : Tree), NoneNamed "html".toList t → ∀ (c : Context) (p g : Option Str) (fi la : Bool),
    c ≠ .html → NotIntroduced ["html".toList, "head".toList, "body".toList] t (inferTree c p g fi la t) := by
  refine Tree.ind (fun t _ c p g fi la _ => by rw [inferTree]; exact .leaf) ?_
  intro f raw fmt sel ch ih hn c p g fi la hc
  cases hn with
  | elem h1 h2 =>
    have key : ∀ n ∈ ["html".toList, "head".toList, "body".toList],
        (namedSel c f fi la (decide (g = some "thead".toList)) sel).bind (·.1) = some n → sel.bind (·.1) = some n := by
      intro n hn h
      cases hs : sel.bind (·.1) with
      | some m =>
        obtain ⟨⟨m', items⟩, rfl⟩ : ∃ x, sel = some x := by
          cases sel with
          | none => simp at hs
          | some x => exact ⟨x, rfl⟩
        simp only [Option.bind_some] at hs
        subst hs
        exact h
      | none =>
        exfalso
        rcases namedSel_cases c f fi la (decide (g = some "thead".toList)) sel hs with ⟨_, e⟩ | ⟨_, e⟩ | ⟨t, _, ht, e⟩
        · rw [e, hs] at h; simp at h
        · rw [e] at h; simp at h
        · rw [e] at h
          simp only [Option.bind_some, Option.some.injEq] at h
          obtain ⟨k1, k2, k3⟩ := nameIn_page c f fi la _ hc t ht
          simp only [List.mem_cons, List.not_mem_nil, or_false] at hn
          rcases hn with hn | hn | hn
          · exact k1 (String.toList_inj.1 (h.trans hn))
          · exact k2 (String.toList_inj.1 (h.trans hn))
          · exact k3 (String.toList_inj.1 (h.trans hn))
    rw [inferTree]
    refine .elem key (inferForest_forall₂ _ _ _ _ _ fun t ht fi la => ih t ht (h2 t ht) _ _ _ _ _ ?_)
    exact contextInside_html _ _ fun e => h1 (key _ (by simp) e)

end Mty
