import Verif.Spec.Metadata
import Verif.Proofs.Transform
import Verif.Proofs.Infer
import Verif.Proofs.Ranges
import Verif.Proofs.Plain

/-! # Metadata elements and positions -/

set_option autoImplicit false

namespace Mty
open Spec Infer

/-! ## Metadata elements -/

theorem metaElement_elements (opts : MetadataConfig) (ho : opts.elements = true) (r : Range) (h : EHead) (root : Bool)
    (s : Selector) (hs : h.selectors = [s] ∨ h.selectors = [] ∧ s = Selector.empty r.start) :
    metaElement opts r h root =
      { h with selectors := [metaFinish s.range.stop (metaAttrs s.range.stop root h.isRaw r h.contentRange)
        (if s.uninferred then { s with tag := .explicit (.provided "mty:element".toList) } else s)] } := by
  unfold metaElement
  rcases hs with hs | ⟨hs, rfl⟩
  · cases hu : s.uninferred <;> simp [hs, hu, ho, metaSelectors, metaAttrs]
  · simp [hs, ho, metaSelectors, metaAttrs, Selector.empty, Selector.uninferred]

theorem metaFinish_head {name : String} {loc : Nat} {as : List Attribute} {l : List (String × Str)} {s : Selector}
    (hn : s.tag = .explicit (.provided name.toList)) (hi : s.items = [])
    (h1 : as.map (fun x => (x.name, x.value)) = metadataAttributes l) (h2 : ∀ x ∈ as, isMetadata x = true) :
    (metaFinish loc as s).tag = .explicit (.provided name.toList) ∧ (metaFinish loc as s).attributes = metadataAttributes l ∧
      eraseItems (metaFinish loc as s).items = [] := by
  refine ⟨?_, ?_, ?_⟩
  · unfold metaFinish; split <;> exact hn
  · rw [metaFinish_attributes, h1, Selector.attributes, hi]; rfl
  · have := congrArg Selector.items (metaFinish_erase loc as s h2)
    simp only [eraseSel] at this
    rw [this, hi]; rfl

theorem metadataAttributes_append (a b : List (String × Str)) :
    metadataAttributes (a ++ b) = metadataAttributes a ++ metadataAttributes b := List.map_append

theorem metaAttrs_invalid (loc : Nat) (root raw : Bool) (range : Range) :
    metaAttrs loc root raw range Range.INVALID = metaAttrs loc root raw range ⟨1, 0⟩ := rfl

theorem finish_twice {loc loc' : Nat} {as bs : List Attribute} {l k : List (String × Str)} {s : Selector} {name : String}
    (hn : s.tag = .explicit (.provided name.toList)) (hi : s.items = [])
    (h1 : as.map (fun x => (x.name, x.value)) = metadataAttributes l) (h2 : ∀ x ∈ as, isMetadata x = true)
    (k1 : bs.map (fun x => (x.name, x.value)) = metadataAttributes k) (k2 : ∀ x ∈ bs, isMetadata x = true) :
    (metaFinish loc' bs (metaFinish loc as s)).tag = .explicit (.provided name.toList) ∧
    (metaFinish loc' bs (metaFinish loc as s)).attributes = metadataAttributes (l ++ k) ∧
      eraseItems (metaFinish loc' bs (metaFinish loc as s)).items = [] := by
  obtain ⟨e1, e2, e3⟩ := metaFinish_head (loc := loc) hn hi h1 h2
  refine ⟨?_, ?_, ?_⟩
  · rw [← e1]; exact (by unfold metaFinish; split <;> rfl : (metaFinish loc' bs (metaFinish loc as s)).tag = (metaFinish loc as s).tag)
  · rw [metaFinish_attributes, e2, k1, metadataAttributes_append]
  · have := congrArg Selector.items (metaFinish_erase loc' bs (metaFinish loc as s) k2)
    simp only [eraseSel] at this
    rw [this, e3]

theorem metaText_elements (opts : MetadataConfig) (ho : opts.elements = true) (r : Range) (t : Text) (root : Bool) :
    ∃ h, metaText opts r t root = .elem r h [.text r (.text t)] ∧
      MetadataHead "mty:text" (textMetadata root t.escapeOut t r) h ∧ h.isRaw = t.escapeOut ∧ h.fmtInline = true := by
  unfold metaText Node.ofElem
  dsimp only
  rw [metaElement_elements opts ho _ _ _ _ (.inl rfl)]
  have hu : ∀ loc as, (metaFinish loc as ((Selector.empty r.start).withTag (.provided "mty:text".toList))).uninferred = false := by
    intro loc as; unfold metaFinish; split <;> rfl
  rw [hu]
  refine ⟨_, rfl, ⟨_, rfl, ?_⟩, rfl, rfl⟩
  simp only [Bool.false_eq_true, if_false, EHead.new]
  rw [metaAttrs_invalid]
  refine finish_twice rfl rfl (l := (if t.unescapeIn then [] else [("mty:verbatim", "true".toList)]) ++
    (if t.multiline then [("mty:multiline", "true".toList)] else [])) ?_ ?_ (metaAttrs_pairs _ _ _ _ _) (metaAttrs_isMetadata _ _ _ _ _)
  · cases t.unescapeIn <;> cases t.multiline <;> rfl
  · cases t.unescapeIn <;> cases t.multiline <;> simp [metaBoolExcept, metaAttr, isMetadata]

theorem metaComment_elements (opts : MetadataConfig) (ho : opts.elements = true) (r : Range) (s : TextSlice) (root : Bool) :
    ∃ h, metaComment opts r s root = .elem r h
        [.text r (.text { slice := s, multiline := false, unescapeIn := false, escapeOut := true, raw := false })] ∧
      MetadataHead "mty:comment" (metadataOf root false r r) h ∧ h.isRaw = false ∧ h.fmtInline = true := by
  unfold metaComment Node.ofElem
  dsimp only
  have hh : (EHead.new r .unknown).applyTags [.provided "mty:comment".toList] =
      { EHead.new r .unknown with selectors := [(Selector.empty r.start).withTag (.provided "mty:comment".toList)] } := rfl
  rw [hh, metaElement_elements opts ho _ _ _ _ (.inl rfl)]
  refine ⟨_, rfl, ⟨_, rfl, ?_⟩, rfl, rfl⟩
  exact metaFinish_head rfl rfl (metaAttrs_pairs _ _ _ _ _) (metaAttrs_isMetadata _ _ _ _ _)

mutual
  theorem metaNode_elements (opts : MetadataConfig) (ho : opts.elements = true) : ∀ (n : Node) (root : Bool),
      SingleSelectors n → MetadataElements Text.escapeOut root n (metaNode opts n root)
    | .elem r h ch, root, hs => by
      rw [metaNode]
      cases hs with
      | elem h1 h2 =>
      have hch := metaNodes_elements opts ho ch false h2
      have key : ∀ s : Selector, s.uninferred = true →
          (metaFinish s.range.stop (metaAttrs s.range.stop root h.isRaw r h.contentRange)
            { s with tag := .explicit (.provided "mty:element".toList) }).tag = .explicit (.provided "mty:element".toList) := by
        intro s hu; unfold metaFinish; split <;> rfl
      match hsel : h.selectors, h1 with
      | [], _ =>
        rw [metaElement_elements opts ho r h root _ (.inr ⟨hsel, rfl⟩)]
        refine .unnamed (by simp [hsel]) (by simp [hsel]) (key _ rfl) ?_ ?_ hch
        · rw [hsel]
          exact congrArg Selector.items (metaFinish_erase _ _ _ (metaAttrs_isMetadata _ _ _ _ _))
        · rw [if_pos (show (Selector.empty r.start).uninferred = true from rfl), metaFinish_attributes, metaAttrs_pairs, hsel]; rfl
      | [s], _ =>
        rw [metaElement_elements opts ho r h root s (.inl hsel)]
        cases hu : s.uninferred with
        | true =>
          rw [if_pos rfl]
          refine .unnamed (by simp [hsel]) (by simpa [hsel] using (uninferred_iff s).1 hu) (key s hu) ?_ ?_ hch
          · rw [hsel]
            have := congrArg Selector.items (metaFinish_erase s.range.stop (metaAttrs s.range.stop root h.isRaw r h.contentRange)
              { s with tag := .explicit (.provided "mty:element".toList) } (metaAttrs_isMetadata _ _ _ _ _))
            simpa [eraseSel] using this
          · rw [metaFinish_attributes, metaAttrs_pairs, hsel]; simp [metadataAttributes, Selector.attributes]
        | false =>
          rw [if_neg (by simp)]
          refine .named hsel ?_ ?_ ?_ ?_ hch
          · cases hn : s.tag.name with
            | none => rw [(uninferred_iff s).2 hn] at hu; simp at hu
            | some => rfl
          · unfold metaFinish; split <;> rfl
          · exact congrArg Selector.items (metaFinish_erase s.range.stop _ s (metaAttrs_isMetadata _ _ _ _ _))
          · rw [metaFinish_attributes, metaAttrs_pairs]; rfl
      | a :: b :: c, h1 => simp at h1
    | .text r (.text t), root, _ => by
      rw [metaNode]
      cases hr : t.raw with
      | true => simp only [ho, Bool.not_true, Bool.and_false, Bool.false_eq_true, if_false]; exact .interpolation hr
      | false =>
        simp only [ho, Bool.not_false, Bool.and_self, if_true]
        obtain ⟨h, e, h1, h2, h3⟩ := metaText_elements opts ho r t root
        rw [e]
        exact .text hr h1 h2 h3
    | .text r (.comment s), root, _ => by
      rw [metaNode, if_pos ho]
      obtain ⟨h, e, h1, h2, h3⟩ := metaComment_elements opts ho r s root
      rw [e]
      exact .comment h1 h2 h3
    | .text r (.space s), root, _ => by rw [metaNode]; exact .space
  theorem metaNodes_elements (opts : MetadataConfig) (ho : opts.elements = true) : ∀ (ns : List Node) (root : Bool),
      (∀ n ∈ ns, SingleSelectors n) → List.Forall₂ (MetadataElements Text.escapeOut root) ns (metaNodes opts ns root)
    | [], _, _ => by rw [metaNodes]; exact .nil
    | n :: ns, root, h => by
      rw [metaNodes]
      exact .cons (metaNode_elements opts ho n root (h n (List.mem_cons_self ..)))
        (metaNodes_elements opts ho ns root fun x hx => h x (List.mem_cons_of_mem _ hx))
end

/-! ## Places -/

theorem placesOf_eq (l : List Node) : placesOf l = l.map placeOf := by
  induction l with
  | nil => rfl
  | cons n l ih => simp [placesOf, ih]

theorem splitFirst_place (r : Range) (h : EHead) (ch : List Node) :
    placeOf (.elem r h ch) = .elem r (splitFirst h ch).1.contentRange (placesOf (splitFirst h ch).2) := by
  rw [placeOf]
  unfold splitFirst
  match h.selectors with
  | [] => rfl
  | [s] => rfl
  | s :: s2 :: ss => simp only [chainPlace, placesOf, placeOf, Node.ofElem]; rfl

theorem single_place {r : Range} {h : EHead} {ch : List Node} (hs : h.selectors.length ≤ 1) :
    placeOf (.elem r h ch) = .elem r h.contentRange (placesOf ch) := by
  rw [placeOf]
  match h.selectors, hs with
  | [], _ => rfl
  | [s], _ => rfl

theorem applyTags_place (r : Range) (h : EHead) (t : TextSlice) (ch : List Node) (ht : t.isEmpty = true → h.selectors = []) :
    placeOf (.elem r (h.applyTags [t]) ch) = placeOf (.elem r h ch) := by
  rw [placeOf, placeOf]
  unfold EHead.applyTags
  cases he : t.isEmpty with
  | true => simp [he, ht he]
  | false =>
    simp only [List.filter_cons, he, Bool.not_false, if_true, List.filter_nil]
    match hs : h.selectors with
    | [] => rfl
    | [s] => rfl
    | s :: s2 :: ss => rfl

/-- What naming and splitting does to places. -/
theorem step_place (c : Context) (fi la th : Bool) (r : Range) (h : EHead) (ch : List Node) (hp : PlainParagraphs (.elem r h ch)) :
    placeOf (.elem r h ch) = placeOf (.elem r (if (h.selectors.head?.bind fun s => s.tag.name).isSome then h
        else tagHead (nameIn c (formOf h.ty) fi la th) h) ch) := by
  split
  · rfl
  · unfold tagHead
    split
    · rename_i t ht
      refine (applyTags_place _ _ _ _ fun he => ?_).symm
      have h0 : t = "" := by
        by_contra hne
        rw [provided_isEmpty t hne] at he
        cases he
      subst h0
      have := nameIn_empty ht
      cases hp with
      | elem h1 _ =>
        apply h1
        revert this
        unfold formOf
        split <;> simp_all
    · rfl

theorem useMethod_place (src : Str) : ∀ (fuel : Nat) (m : Method) (parent : Option PredCx) (nodes : List Node),
    nodesDepth nodes ≤ fuel → (∀ n ∈ nodes, PlainParagraphs n) →
    (useMethod src fuel m parent nodes).length = nodes.length ∧
    ∀ (j : Nat) (n : Node), nodes[j]? = some n → ∃ n', (useMethod src fuel m parent nodes)[j]? = some n' ∧ placeOf n' = placeOf n
  | 0, m, parent, nodes, hd, _ => by have := nodesDepth_pos nodes; omega
  | fuel + 1, m, parent, nodes, hd, hp => by
    obtain ⟨t1, t2⟩ := inferTagNodes_eq src m parent nodes
    rw [useMethod]
    obtain ⟨f1, _, f3⟩ := foldl_positions
      (fun nodes i => inferenceLevel (useMethod src fuel) src m.methods parent nodes i)
      (fun ns i => inferenceLevel_step _ _ _ _ ns i)
      (List.range (inferTagNodes src m.tags parent nodes).length) (inferTagNodes src m.tags parent nodes)
      List.nodup_range
    refine ⟨f1.trans t1, fun j n hj => ?_⟩
    have hlt : j < nodes.length := (List.getElem?_eq_some_iff.1 hj).1
    obtain ⟨ns', g1, g2, g3⟩ := f3 j (by simp [t1, hlt])
    rw [g3]
    rw [t2 j, hj, Option.map_some] at g2
    have hjn : j < ns'.length := by rw [g1, t1]; exact hlt
    have hmem : n ∈ nodes := List.mem_of_getElem? hj
    match n, hj, hmem, g2 with
    | .text r t, hj, hmem, g2 =>
      rw [tagNode_text] at g2
      refine ⟨.text r t, ?_, rfl⟩
      unfold inferenceLevel
      rw [g2]
      exact g2
    | .elem r h ch, hj, hmem, g2 =>
      rw [tagNode_elem] at g2
      have st := stepped src (ctxOf m) (decide (j = 0)) (decide (j + 1 = nodes.length))
        (decide (cxName src (parent.bind PredCx.parent) = some "thead".toList)) r h ch (hp _ hmem)
      have hstep := step_place (ctxOf m) (decide (j = 0)) (decide (j + 1 = nodes.length))
        (decide (cxName src (parent.bind PredCx.parent) = some "thead".toList)) r h ch (hp _ hmem)
      unfold inferenceLevel
      simp only [g2]
      generalize (if (h.selectors.head?.bind fun s => s.tag.name).isSome then h
        else tagHead (nameIn (ctxOf m) (formOf h.ty) (decide (j = 0)) (decide (j + 1 = nodes.length))
          (decide (cxName src (parent.bind PredCx.parent) = some "thead".toList))) h) = h1 at *
      rw [hstep, splitFirst_place]
      generalize splitFirst h1 ch = sp at *
      obtain ⟨h2, ch2⟩ := sp
      have hsingle := st.single
      have hdepth := st.depth
      have hplain := st.plain
      dsimp only at *
      generalize methodLoop src _ m.methods (m.methods.length + 1) 0 = m2 at *
      have hdep : nodesDepth ch2 ≤ fuel := by
        have := nodeDepth_le hmem
        omega
      obtain ⟨u1, u2⟩ := useMethod_place src fuel m2 (some (.mk (ns'.set j (.elem r h2 [])) j parent)) ch2 hdep hplain
      generalize useMethod src fuel m2 (some (.mk (ns'.set j (.elem r h2 [])) j parent)) ch2 = out at *
      refine ⟨_, by rw [List.getElem?_set_self (by simpa using hjn)], ?_⟩
      rw [single_place (by exact hsingle)]
      congr 1
      rw [placesOf_eq, placesOf_eq]
      apply List.ext_getElem?
      intro k
      rw [List.getElem?_map, List.getElem?_map]
      cases hk : ch2[k]? with
      | none =>
        have : out[k]? = none := by
          rw [List.getElem?_eq_none_iff] at hk ⊢; omega
        rw [this]
      | some c =>
        obtain ⟨c', v1, v2⟩ := u2 k c hk
        rw [v1, Option.map_some, Option.map_some, v2]

theorem infer_places (src : Str) (nodes : List Node) (hp : ∀ n ∈ nodes, PlainParagraphs n) :
    placesOf (infer src nodes) = placesOf nodes := by
  obtain ⟨u1, u2⟩ := useMethod_place src (nodesDepth nodes + 1) .standard none nodes (by omega) hp
  unfold infer
  generalize useMethod src (nodesDepth nodes + 1) .standard none nodes = out at *
  rw [placesOf_eq, placesOf_eq]
  apply List.ext_getElem?
  intro k
  rw [List.getElem?_map, List.getElem?_map]
  cases hk : nodes[k]? with
  | none =>
    have : out[k]? = none := by
      rw [List.getElem?_eq_none_iff] at hk ⊢; omega
    rw [this]
  | some c =>
    obtain ⟨c', v1, v2⟩ := u2 k c hk
    rw [v1, Option.map_some, Option.map_some, v2]


/-! ## Valid places -/

section
variable {src : Str}

/-- A range that exists is valid. -/
def Exists (src : Str) (r : Range) : Prop := r.start ≤ r.stop → ValidRange src r

theorem cover_valid {a b : Range} (ha : ValidRange src a) (h1 : isBoundary src b.start) (h2 : isBoundary src b.stop) :
    ValidRange src (cover a b) := by
  obtain ⟨a1, a2, a3⟩ := ha
  have e1 : min a.start b.start = a.start ∨ min a.start b.start = b.start := by omega
  have e2 : max a.stop b.stop = a.stop ∨ max a.stop b.stop = b.stop := by omega
  refine ValidRange.mk' ?_ ?_ (by omega)
  · rcases e1 with e | e <;> rw [e] <;> assumption
  · rcases e2 with e | e <;> rw [e] <;> assumption

theorem chainPlace_valid : ∀ (ss : List Selector) (r : Range) (stop : Nat) (c : Range) (kids : List Place), Exists src r →
    isBoundary src stop → ValidRange src c → (∀ s ∈ ss, ValidRange src s.range) → (∀ x ∈ placesRanges kids, Exists src x) →
    ∀ x ∈ placeRanges (chainPlace r stop c ss kids), Exists src x
  | [], r, stop, c, kids, hr, _, hc, _, hk => by
    simp only [chainPlace, placeRanges, List.mem_cons]
    rintro x (rfl | rfl | hx)
    · exact hr
    · exact fun _ => hc
    · exact hk x hx
  | [s], r, stop, c, kids, hr, _, hc, _, hk => by
    simp only [chainPlace, placeRanges, List.mem_cons]
    rintro x (rfl | rfl | hx)
    · exact hr
    · exact fun _ => hc
    · exact hk x hx
  | s :: s2 :: ss, r, stop, c, kids, hr, hst, hc, hs, hk => by
    have h2 := hs s2 (by simp)
    have hi := cover_valid (b := ⟨s2.range.start, stop⟩) hc h2.2.1 hst
    have ih := chainPlace_valid (s2 :: ss) (cover c ⟨s2.range.start, stop⟩) (cover c ⟨s2.range.start, stop⟩).stop c kids
      (fun _ => hi) hi.2.2 hc (fun x hx => hs x (List.mem_cons_of_mem _ hx)) hk
    simp only [chainPlace, placeRanges, placesRanges, List.mem_cons, List.append_nil]
    rintro x (rfl | rfl | hx)
    · exact hr
    · exact fun _ => cover_valid hc hi.2.1 hi.2.2
    · exact ih x hx

mutual
  theorem placeOf_valid : ∀ n : Node, GR src (nodeRanges n) → ∀ x ∈ placeRanges (placeOf n), Exists src x
    | .text r t, h => by
      simp only [placeOf, placeRanges, List.mem_singleton]
      rintro x rfl
      exact fun _ => nodeRanges_range h
    | .elem r h ch, hg => by
      rw [nodeRanges] at hg
      simp only [headRanges, List.cons_append, GR_cons, GR_append] at hg
      obtain ⟨h1, h2, h3, ⟨_, h4⟩, h5⟩ := hg
      rw [placeOf]
      refine chainPlace_valid _ _ _ _ _ (fun _ => h1) h2.2.2 h3 (fun s hs => ?_) (placesOf_valid ch h5)
      exact h4 s.range (List.mem_flatMap.2 ⟨s, hs, by simp [selectorRanges]⟩)
  theorem placesOf_valid : ∀ ns : List Node, GR src (nodesRanges ns) → ∀ x ∈ placesRanges (placesOf ns), Exists src x
    | [], _ => by simp [placesOf, placesRanges]
    | n :: ns, h => by
      rw [nodesRanges, GR_append] at h
      have a := placeOf_valid n h.1
      have b := placesOf_valid ns h.2
      simp only [placesOf, placesRanges, List.mem_append]
      rintro x (hx | hx)
      · exact a x hx
      · exact b x hx
end

theorem selectorRanges_tag {s : Selector} {t : Str} (h : GR src (selectorRanges s)) :
    GR src (selectorRanges { s with tag := .explicit (.provided t) }) := by
  simp only [selectorRanges, List.cons_append, GR_cons, GR_append] at h ⊢
  exact ⟨h.1, by simp [tagRanges, sliceRanges], h.2.2⟩

theorem applyTags_ranges {h : EHead} {tags : List Str} (hg : GR src (headRanges h)) :
    GR src (headRanges (h.applyTags (tags.map .provided))) := by
  have hg0 := hg
  simp only [headRanges, List.cons_append, GR_cons, GR_append] at hg
  obtain ⟨h1, h2, h3, h4⟩ := hg
  have hsel := GR_flatMap.1 h4
  have new : ∀ a, isBoundary src a → ∀ ts : List Str, GR src ((ts.map TextSlice.provided).map (fun t => (Selector.empty a).withTag t) |>.flatMap selectorRanges) := by
    intro a ha ts
    refine GR_flatMap.2 fun s hs => ?_
    simp only [List.map_map, List.mem_map] at hs
    obtain ⟨t, _, rfl⟩ := hs
    exact selectorRanges_tag (selectors_empty ha)
  have hf : ∃ ts : List Str, (tags.map TextSlice.provided).filter (fun t => !t.isEmpty) = ts.map .provided :=
    ⟨tags.filter (fun t => !(TextSlice.provided t).isEmpty), by rw [List.filter_map]; rfl⟩
  obtain ⟨ts, hts⟩ := hf
  unfold EHead.applyTags
  rw [hts]
  simp only [headRanges, List.cons_append]
  cases ts with
  | nil =>
    simp only [List.map_nil, GR_cons, GR_append]
    exact ⟨h1, h2, h3, GR_flatMap.2 fun s hs => hsel s (List.mem_of_mem_drop hs)⟩
  | cons t ts =>
    simp only [List.map_cons]
    match hs : h.selectors with
    | [] =>
      simp only [List.flatMap_cons, GR_cons, GR_append]
      exact ⟨h1, h2, h3, selectorRanges_tag (selectors_empty h1.2.1), new _ h1.2.1 ts⟩
    | s :: ss =>
      rw [hs] at hsel
      simp only [List.cons_append, List.flatMap_cons, List.flatMap_append, GR_cons, GR_append]
      have hs0 := hsel s (List.mem_cons_self ..)
      exact ⟨h1, h2, h3, selectorRanges_tag hs0, new _ (hs0 s.range (by simp [selectorRanges])).2.2 ts,
        GR_flatMap.2 fun x hx => hsel x (List.mem_cons_of_mem _ hx)⟩

theorem specialHead_ranges (c : SpecialTagConfig) {h : EHead} (hg : GR src (headRanges h)) :
    GR src (headRanges (specialHead c h)) := by
  unfold specialHead
  split
  · exact applyTags_ranges (tags := [_]) hg
  · exact applyTags_ranges (tags := [_, _]) hg
  · exact hg

mutual
  theorem specialNode_ranges (c : SpecialTagConfig) : ∀ n : Node, GR src (nodeRanges n) → GR src (nodeRanges (specialNode c n))
    | .text r t, h => by rw [specialNode]; exact h
    | .elem r h ch, hg => by
      rw [specialNode, nodeRanges]
      rw [nodeRanges] at hg
      simp only [List.cons_append, GR_cons, GR_append] at hg ⊢
      exact ⟨hg.1, specialHead_ranges c hg.2.1, specialNodes_ranges c ch hg.2.2⟩
  theorem specialNodes_ranges (c : SpecialTagConfig) : ∀ ns : List Node, GR src (nodesRanges ns) →
      GR src (nodesRanges (specialNodes c ns))
    | [], _ => by rw [specialNodes]; exact GR.nil
    | n :: ns, h => by
      rw [specialNodes, nodesRanges]
      rw [nodesRanges] at h
      rw [GR_append] at h ⊢
      exact ⟨specialNode_ranges c n h.1, specialNodes_ranges c ns h.2⟩
end

theorem children_ranges {n : Node} (h : GR src (nodeRanges n)) : GR src (nodesRanges n.children) := by
  cases n with
  | text r t => exact GR.nil
  | elem r hd ch =>
    rw [nodeRanges] at h
    simp only [List.cons_append, GR_cons, GR_append] at h
    exact h.2.2

theorem nodesRanges_append (a b : List Node) : nodesRanges (a ++ b) = nodesRanges a ++ nodesRanges b := by
  simp [nodesRanges_eq]

theorem splitPage_ranges : ∀ ns : List Node, GR src (nodesRanges ns) →
    GR src (nodesRanges (splitPage src ns).1) ∧ GR src (nodesRanges (splitPage src ns).2)
  | [], _ => by simp [splitPage, nodesRanges]
  | n :: ns, h => by
    rw [nodesRanges, GR_append] at h
    have ih := splitPage_ranges ns h.2
    rw [splitPage]
    split
    rename_i head body heq
    rw [heq] at ih
    dsimp only at *
    split
    · exact ⟨by rw [nodesRanges_append, GR_append]; exact ⟨children_ranges h.1, ih.1⟩, ih.2⟩
    · split
      · exact ⟨by rw [nodesRanges, GR_append]; exact ⟨h.1, ih.1⟩, ih.2⟩
      · exact ⟨ih.1, by rw [nodesRanges, GR_append]; exact ⟨h.1, ih.2⟩⟩

theorem invalid_exists : Exists src Range.INVALID := fun h => absurd h (by decide)

theorem pageElement_place (tag : String) (ht : tag.toList ≠ []) (content : Range) (ch : List Node) :
    placeOf (Node.ofElem { pageElement tag.toList with contentRange := content } ch) =
      .elem Range.INVALID content (placesOf ch) := by
  have : (TextSlice.provided tag.toList).isEmpty = false := by
    cases h : tag.toList with
    | nil => exact absurd h ht
    | cons a l => rfl
  simp [pageElement, EHead.applyTags, this, Node.ofElem, placeOf, chainPlace, EHead.new]

theorem toInfer_places_valid (cfg : OutputConfig) {doc : Document} (h : GR src (docRanges doc)) :
    ∀ x ∈ placesRanges (placesOf (beforeInference cfg src doc).nodes), Exists src x := by
  simp only [docRanges, GR_cons] at h
  have h1 : GR src (nodesRanges (applySpecialTags cfg doc).nodes) := specialNodes_ranges _ _ h.2.2
  unfold beforeInference
  split
  · unfold completePage
    split
    · exact placesOf_valid _ h1
    · have hk : ∀ inner : List Node, (∀ x ∈ placesRanges (placesOf inner), Exists src x) →
          ∀ x ∈ placesRanges (placesOf [Node.ofElem { pageElement "html".toList with contentRange := (applySpecialTags cfg doc).contentRange } inner]),
            Exists src x := by
        intro inner hi
        simp only [placesOf, placesRanges, List.append_nil]
        rw [pageElement_place "html" (by decide)]
        simp only [placeRanges, List.mem_cons]
        rintro x (rfl | rfl | hx)
        · exact invalid_exists
        · exact fun _ => h.2.1
        · exact hi x hx
      refine hk _ ?_
      split
      · exact placesOf_valid _ h1
      · have sp := splitPage_ranges _ h1
        have e1 := pageElement_place "head" (by decide) Range.INVALID (splitPage src (applySpecialTags cfg doc).nodes).1
        have e2 := pageElement_place "body" (by decide) Range.INVALID (splitPage src (applySpecialTags cfg doc).nodes).2
        simp only [placesOf, placesRanges, List.append_nil, placeOf]
        have f1 : ({ pageElement "head".toList with contentRange := Range.INVALID } : EHead) = pageElement "head".toList := rfl
        have f2 : ({ pageElement "body".toList with contentRange := Range.INVALID } : EHead) = pageElement "body".toList := rfl
        rw [f1] at e1
        rw [f2] at e2
        rw [e1, e2]
        simp only [placeRanges, List.mem_append, List.mem_cons, List.not_mem_nil, or_false]
        rintro x ((rfl | rfl | hx) | rfl | rfl | rfl | hx)
        · exact invalid_exists
        · exact invalid_exists
        · exact placesOf_valid _ sp.1 x hx
        · exact invalid_exists
        · exact invalid_exists
        · exact invalid_exists
        · exact placesOf_valid _ sp.2 x hx
  · exact placesOf_valid _ h1

/-- `lang` does not move anything. -/
theorem langSelectors_place (l : Str) (r : Range) (stop : Nat) (c : Range) (kids : List Place) (ss : List Selector) (h : ss.length ≤ 1) :
    chainPlace r stop c (langSelectors l ss) kids = chainPlace r stop c ss kids := by
  match ss, h with
  | [], _ => rfl
  | [s], _ => simp only [langSelectors]; split <;> rfl

theorem langNode_place (l : Str) {n : Node} (h : SingleSelectors n) : placeOf (langNode l n) = placeOf n := by
  cases h with
  | text => rfl
  | elem h1 h2 => simp only [langNode, placeOf]; exact langSelectors_place _ _ _ _ _ _ h1

end

end Mty
