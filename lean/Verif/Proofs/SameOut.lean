import Verif.Proofs.SameTree

/-! # Output of documents of sources that say the same -/

set_option autoImplicit false

namespace Mty
open Spec

namespace Same

section
variable {s1 s2 : Str}

/-! ## `lang` -/

theorem chainTree_top (src : Str) (h : EHead) (l : List Selector) (kids : List Tree) :
    ∃ f raw fmt ch, chainTree src h l kids = .elem f raw fmt (l.head?.map (selOf src)) ch := by
  match l with
  | [] => exact ⟨_, _, _, _, rfl⟩
  | [s] => exact ⟨_, _, _, _, rfl⟩
  | s :: t :: l => exact ⟨_, _, _, _, rfl⟩

theorem parts_append (src : Str) (a b : List SelectorItem) : documentParts src (a ++ b) = documentParts src a ++ documentParts src b := by
  induction a with
  | nil => rfl
  | cons i a ih => cases i <;> simp [documentParts, ih]

theorem tree_sel {f f' : Option Form} {raw raw' fmt fmt' : Bool} {sel sel' : Option (Option Str × List SelectorItem)} {ch ch' : List Tree}
    (h : TreeSim s1 s2 (.elem f raw fmt sel ch) (.elem f' raw' fmt' sel' ch')) : TSel s1 s2 sel sel' ∧ raw = raw' ∧ fmt = fmt' := by
  cases h with
  | elem h => exact ⟨h, rfl, rfl⟩
  | short _ h => exact ⟨.some h, rfl, rfl⟩

theorem tree_resel {f f' : Option Form} {raw raw' fmt fmt' : Bool} {n : Str} {i i' j j' : List SelectorItem} {ch ch' : List Tree}
    (h : TreeSim s1 s2 (.elem f raw fmt (some (some n, i)) ch) (.elem f' raw' fmt' (some (some n, i')) ch'))
    (hj : SameParts (documentParts s1 j) (documentParts s2 j')) :
    TreeSim s1 s2 (.elem f raw fmt (some (some n, j)) ch) (.elem f' raw' fmt' (some (some n, j')) ch') := by
  cases h with
  | elem _ h => exact .elem (.some hj) h
  | short h1 _ h2 h3 h4 h5 => exact .short h1 hj h2 h3 h4 h5

theorem not_leaf {f : Option Form} {raw fmt : Bool} {sel : Option (Option Str × List SelectorItem)} {ch : List Tree} {t : TextLike} :
    ¬ TreeSim s1 s2 (.elem f raw fmt sel ch) (.leaf t) := by
  intro h; cases h

theorem not_elem {f : Option Form} {raw fmt : Bool} {sel : Option (Option Str × List SelectorItem)} {ch : List Tree} {t : TextLike} :
    ¬ TreeSim s1 s2 (.leaf t) (.elem f raw fmt sel ch) := by
  intro h; cases h

theorem unnamed_sel {src : Str} {h : EHead} (hn : ∀ s ∈ h.selectors, s.tag.name = none) :
    (h.selectors.head?.map (selOf src)).bind (·.1) = none := by
  cases hs : h.selectors with
  | nil => rfl
  | cons s l =>
    have := hn s (by rw [hs]; exact List.mem_cons_self ..)
    simp [selOf, this]

theorem lang_sim {l : Str} {n n' m m' : Node} (h : TreeSim s1 s2 (treeOf s1 n) (treeOf s2 n')) (hm : LangAdded l n m) (hm' : LangAdded l n' m') :
    TreeSim s1 s2 (treeOf s1 m) (treeOf s2 m') := by
  cases hm with
  | text =>
    cases hm' with
    | text => exact h
    | named hs _ =>
      simp only [treeOf, hs, chainTree] at h
      exact absurd h not_elem
    | unnamed => exact h
  | unnamed hu =>
    cases hm' with
    | text => exact h
    | unnamed => exact h
    | @named r' h' s' ch' loc' hs' hn' =>
      rename_i r hd ch
      simp only [treeOf, hs', chainTree] at h
      obtain ⟨f, raw, fmt, k, e⟩ := chainTree_top s1 hd hd.selectors (forestOf s1 ch)
      rw [e] at h
      have := tsel_name (tree_sel h).1
      rw [unnamed_sel hu] at this
      simp only [selOf, Option.bind_some] at this
      cases hx : s'.tag.name with
      | none => simp [hx] at hn'
      | some x => simp [hx] at this
  | @named r hd s ch loc hs hn =>
    cases hm' with
    | text =>
      simp only [treeOf, hs, chainTree] at h
      exact absurd h not_leaf
    | unnamed hu =>
      rename_i r' hd' ch'
      simp only [treeOf, hs, chainTree] at h
      obtain ⟨f, raw, fmt, k, e⟩ := chainTree_top s2 hd' hd'.selectors (forestOf s2 ch')
      rw [e] at h
      have := tsel_name (tree_sel h).1
      rw [unnamed_sel hu] at this
      simp only [selOf, Option.bind_some] at this
      cases hx : s.tag.name with
      | none => simp [hx] at hn
      | some x => simp [hx] at this
    | @named r' hd' s' ch' loc' hs' hn' =>
      simp only [treeOf, hs, hs', chainTree] at h ⊢
      obtain ⟨k1, k2, k3⟩ := tree_sel h
      have k4 := tsel_name k1
      simp only [selOf, Option.bind_some] at k1 k4 h ⊢
      cases hx : s.tag.name with
      | none => simp [hx] at hn
      | some x =>
        rw [hx, Option.map_some] at k4 k1 h
        rw [← k4] at k1 h
        have hp : SameParts (documentParts s1 s.items) (documentParts s2 s'.items) := by cases k1 with | some h => exact h
        have e : s'.tag.name.map (fun n => n.asStr s2) = some (x.asStr s1) := k4.symm
        simp only [hx, Option.map_some]
        rw [e]
        exact tree_resel h (by rw [parts_append, parts_append]; exact hp.append (.of_eq rfl))

theorem langs_sim {l : Str} : ∀ {ns ns' : List Node}, TreesSim s1 s2 (forestOf s1 ns) (forestOf s2 ns') → (∀ n ∈ ns, SingleSelectors n) →
    (∀ n ∈ ns', SingleSelectors n) → TreesSim s1 s2 (forestOf s1 (ns.map (langNode l))) (forestOf s2 (ns'.map (langNode l)))
  | [], [], _, _, _ => .nil
  | [], _ :: _, h, _, _ => by simp only [forestOf] at h; cases h
  | _ :: _, [], h, _, _ => by simp only [forestOf] at h; cases h
  | n :: ns, n' :: ns', h, h1, h2 => by
    simp only [forestOf, List.map_cons] at h ⊢
    cases h with
    | cons k1 k2 =>
      exact .cons (lang_sim k1 (langNode_added l n (h1 n (List.mem_cons_self ..))) (langNode_added l n' (h2 n' (List.mem_cons_self ..))))
        (langs_sim k2 (fun x hx => h1 x (List.mem_cons_of_mem _ hx)) (fun x hx => h2 x (List.mem_cons_of_mem _ hx)))

/-! ## Tags -/

/-- The context with another source. -/
def withSrc (cx : OutCx) (s : Str) : OutCx := { cx with src := s }

theorem firstId_attributes (a b : List Spec.Part) (h : ∀ p ∈ a, ∃ n v, p = .attribute n v) : firstId (a ++ b) = firstId b := by
  induction a with
  | nil => rfl
  | cons p a ih =>
    obtain ⟨n, v, rfl⟩ := h p (List.mem_cons_self ..)
    exact ih fun x hx => h x (List.mem_cons_of_mem _ hx)

theorem selector_id (src : Str) (s : Selector) : s.id.map (·.asStr src) = firstId (documentParts src s.items) := by
  unfold Selector.id
  induction s.items with
  | nil => rfl
  | cons i l ih =>
    cases i with
    | id r v => rfl
    | cls r v => exact ih
    | attributes r as =>
      rw [documentParts, firstId_attributes _ _ (by intro p hp; obtain ⟨a, _, rfl⟩ := List.mem_map.1 hp; exact ⟨_, _, rfl⟩)]
      exact ih

theorem selector_classes (src : Str) (s : Selector) : s.classNames.map (·.asStr src) = classList (documentParts src s.items) := by
  unfold Selector.classNames
  induction s.items with
  | nil => rfl
  | cons i l ih =>
    cases i with
    | id r v => simpa [documentParts, classList] using ih
    | cls r v => simpa [documentParts, classList] using ih
    | attributes r as =>
      rw [documentParts, classList_append]
      have : classList (as.map fun a => Spec.Part.attribute (a.name.asStr src) (a.value.map (·.asStr src))) = [] := by
        rw [classList, List.filterMap_eq_nil_iff]
        intro p hp
        obtain ⟨a, _, rfl⟩ := List.mem_map.1 hp
        rfl
      rw [this]
      exact ih

theorem selector_attributes (src : Str) (s : Selector) :
    s.attributes.map (fun p => (p.1.asStr src, p.2.map (·.asStr src))) = attributeList (documentParts src s.items) := by
  unfold Selector.attributes
  induction s.items with
  | nil => rfl
  | cons i l ih =>
    cases i with
    | id r v => simpa [documentParts, attributeList] using ih
    | cls r v => simpa [documentParts, attributeList] using ih
    | attributes r as =>
      rw [documentParts, attributeList_append, List.flatMap_cons, List.map_append, List.map_append]
      refine congr (congrArg _ ?_) ih
      induction as with
      | nil => rfl
      | cons a as ih' => simpa [attributeList] using ih'

theorem writeAttributes_same (cx : OutCx) : ∀ {l l' : List (TextSlice × Option TextSlice)},
    l.map (fun p => (p.1.asStr s1, p.2.map (·.asStr s1))) = l'.map (fun p => (p.1.asStr s2, p.2.map (·.asStr s2))) →
    writeAttributes (withSrc cx s1) l = writeAttributes (withSrc cx s2) l'
  | [], [], _ => rfl
  | [], _ :: _, h => by simp at h
  | _ :: _, [], h => by simp at h
  | (n, v) :: l, (n', v') :: l', h => by
    simp only [List.map_cons, List.cons.injEq, Prod.mk.injEq] at h
    obtain ⟨⟨h1, h2⟩, h3⟩ := h
    have ih := writeAttributes_same cx h3
    rw [writeAttributes.eq_def, writeAttributes.eq_def (withSrc cx s2)]
    dsimp only
    rw [ih]
    simp only [withSrc] at h1 ⊢
    rw [h1]
    cases v with
    | none =>
      cases v' with
      | none => rfl
      | some => simp at h2
    | some v =>
      cases v' with
      | none => simp at h2
      | some v' => simp only [Option.map_some, Option.some.injEq] at h2; simp only [h2]

theorem writeMoreClasses_same (cx : OutCx) : ∀ {l l' : List TextSlice}, l.map (·.asStr s1) = l'.map (·.asStr s2) →
    writeMoreClasses (withSrc cx s1) l = writeMoreClasses (withSrc cx s2) l'
  | [], [], _ => rfl
  | [], _ :: _, h => by simp at h
  | _ :: _, [], h => by simp at h
  | v :: l, v' :: l', h => by
    simp only [List.map_cons, List.cons.injEq] at h
    rw [writeMoreClasses, writeMoreClasses, writeMoreClasses_same cx h.2]
    simp only [withSrc]
    rw [h.1]

theorem writeOpenTag_same (cx : OutCx) (tag : Str) {s s' : Selector} (h : SameParts (documentParts s1 s.items) (documentParts s2 s'.items)) (b : Bool) :
    writeOpenTag (withSrc cx s1) tag s b = writeOpenTag (withSrc cx s2) tag s' b := by
  have h1 : s.id.map (·.asStr s1) = s'.id.map (·.asStr s2) := by rw [selector_id, selector_id, h.1]
  have h2 : s.classNames.map (·.asStr s1) = s'.classNames.map (·.asStr s2) := by rw [selector_classes, selector_classes, h.2.1]
  have h3 := writeAttributes_same cx (s1 := s1) (s2 := s2) (l := s.attributes) (l' := s'.attributes)
    (by rw [selector_attributes, selector_attributes, h.2.2])
  have h4 := @writeMoreClasses_same s1 s2 cx
  unfold writeOpenTag
  rw [h3]
  congr 2
  · cases hx : s.id <;> cases hy : s'.id <;> simp only [hx, hy, Option.map_some, Option.map_none, Option.some.injEq] at h1
    · rfl
    · cases h1
    · cases h1
    · simp only [withSrc, h1]
  · congr 1
    cases hx : s.classNames <;> cases hy : s'.classNames <;> simp only [hx, hy, List.map_nil, List.map_cons, List.cons.injEq] at h2
    · rfl
    · cases h2
    · cases h2
    · have := h4 h2.2
      simp only [withSrc] at this ⊢
      rw [h2.1, this]

/-! ## Texts -/

/-- The range of a text is empty if the text is. -/
def Good (src : Str) : TextLike → Prop
  | .text t => (t.slice.isEmpty = true ↔ t.slice.asStr src = [])
  | _ => True

theorem splitInclusive_lines : ∀ (ls : List Str) (l : Str), (∀ x ∈ ls ++ [l], '\n' ∉ x) → l ≠ [] →
    splitInclusive '\n' (joinLines (ls ++ [l])) = ls.map (· ++ ['\n']) ++ [l]
  | [], l, h, hl => by
    rw [List.nil_append, joinLines, splitInclusive_one (h l (by simp)), if_neg hl]; rfl
  | x :: ls, l, h, hl => by
    rw [List.cons_append, joinLines_cons (by simp), splitInclusive_append (h x (by simp)),
      splitInclusive_lines ls l (fun y hy => h y (by simp at hy ⊢; tauto)) hl]
    rfl

/-- The lines of a block without its indentation. -/
theorem trimMultiline_indented {p : Str} {ls : List Str} {l : Str} (hp : ∀ c ∈ p, c = ' ' ∨ c = '\t') (h : ∀ x ∈ ls ++ [l], '\n' ∉ x)
    (hl : l ≠ []) (hr : l.getLast? ≠ some '\r') :
    trimMultiline (joinLines ([] :: (ls ++ [l]).map (p ++ ·) ++ [p])) = ls.map (· ++ ['\n']) ++ [l] := by
  have hn : '\n' ∉ p := fun e => by rcases hp _ e with h | h <;> revert h <;> decide
  have hw : p.takeWhile isWhitespace = p := by
    have h := List.takeWhile_append_of_pos (p := isWhitespace) (l₁ := p) (l₂ := []) fun c hc => by rcases hp c hc with rfl | rfl <;> decide
    simpa using h
  have hn' : ∀ x ∈ ls.map (p ++ ·) ++ [p ++ l], '\n' ∉ x := by
    intro x hx hm
    rw [show ls.map (p ++ ·) ++ [p ++ l] = (ls ++ [l]).map (p ++ ·) by simp, List.mem_map] at hx
    obtain ⟨y, hy, rfl⟩ := hx
    rcases List.mem_append.1 hm with hm | hm
    · exact hn hm
    · exact h y hy hm
  have hcr : stripCr (p ++ l) = p ++ l := by
    rw [stripCr, if_neg]
    rw [List.getLast?_append, Option.or_eq_some_iff]
    rintro (h | ⟨h, _⟩)
    · exact hr h
    · exact hl (by simpa using h)
  rw [List.cons_append, joinLines_cons (by simp), joinLines_snoc (by simp), trimMultiline, List.nil_append, splitOnce, if_pos rfl]
  simp only [rsplitOnce_append hn, hw]
  rw [List.map_append, List.map_singleton, stripCr_joinLines, hcr, splitInclusive_lines _ _ hn' (by simp [hl])]
  simp [stripPrefix, List.append_assoc, Function.comp_def]

theorem sameBlock_lines {x y : Str} (h : SameBlock x y) : x = y ∨
    x ≠ [] ∧ y ≠ [] ∧ trimMultiline x = trimMultiline y ∧ (trimMultiline y).getLast?.isSome = true := by
  cases h with
  | same => exact .inl rfl
  | indented h1 h2 h3 h4 h5 =>
    refine .inr ⟨?_, ?_, ?_, ?_⟩
    · rw [List.cons_append, joinLines_cons (by simp)]; simp
    · rw [List.cons_append, joinLines_cons (by simp)]; simp
    · rw [trimMultiline_indented h1 h3 h4 h5, trimMultiline_indented h2 h3 h4 h5]
    · rw [trimMultiline_indented h2 h3 h4 h5]; simp

theorem good_empty {a b : Text} (ha : Good s1 (.text a)) (hb : Good s2 (.text b)) (h : a.slice.asStr s1 = [] ↔ b.slice.asStr s2 = []) :
    a.slice.isEmpty = b.slice.isEmpty := by
  simp only [Good] at ha hb
  rw [h, ← hb] at ha
  cases hx : a.slice.isEmpty <;> cases hy : b.slice.isEmpty <;> simp_all

theorem writeTextLike_same (cx : OutCx) {t t' : TextLike} (h : TextSim s1 s2 t t') (ha : Good s1 t) (hb : Good s2 t') :
    writeTextLike (withSrc cx s1) t = writeTextLike (withSrc cx s2) t' := by
  cases h with
  | @text a b h1 h2 h3 h4 h5 =>
    simp only [writeTextLike, writeText, withSrc]
    have hw : ∀ r, textWriter { cx with src := s1 } a r = textWriter { cx with src := s2 } b r := by
      intro r
      funext v
      simp only [textWriter]
      rw [h3]
    have h1 : a.slice.asStr s1 = b.slice.asStr s2 ∨ a.multiline = true ∧ a.slice.asStr s1 ≠ [] ∧ b.slice.asStr s2 ≠ [] ∧
        trimMultiline (a.slice.asStr s1) = trimMultiline (b.slice.asStr s2) ∧ (trimMultiline (b.slice.asStr s2)).getLast?.isSome = true := by
      rcases h1 with h1 | ⟨h0, h1⟩
      · exact .inl h1
      · rcases sameBlock_lines h1 with h1 | h1
        · exact .inl h1
        · exact .inr ⟨h0, h1⟩
    rcases h1 with h1 | ⟨h0, n1, n2, h1, h6⟩
    · rw [good_empty ha hb (by rw [h1]), h1, h2, h4, h5, hw]
    · rw [good_empty ha hb (by simp [n1, n2]), ← h2, h0, h4, h5, hw, h1]
      obtain ⟨z, hz⟩ := Option.isSome_iff_exists.1 h6
      simp only [hz, Option.getD_some, if_true]
  | comment h => simp only [writeTextLike, writeComment, withSrc, h]
  | lineEnd => rfl
  | paragraphEnd => rfl
  | @inline a b h =>
    simp only [writeTextLike, withSrc]
    have : space { cx with src := s1 } (.inline (some a)) = space { cx with src := s2 } (.inline (some b)) := by
      funext fs
      simp only [space]
      rw [h]
    rw [this]

/-! ## Elements -/

theorem inContent_withSrc (cx : OutCx) (s : Str) (h : EHead) : (withSrc cx s).inContent h = withSrc (cx.inContent h) s := rfl

theorem indent_withSrc (cx : OutCx) (s : Str) (n : Nat) : (withSrc cx s).indent n = withSrc (cx.indent n) s := by
  unfold OutCx.indent withSrc
  dsimp only
  split <;> rfl

theorem line_withSrc (cx : OutCx) (s s' : Str) : line (withSrc cx s) = line (withSrc cx s') := rfl

theorem inContent_same (cx : OutCx) {h h' : EHead} (hr : h.isRaw = h'.isRaw) (hf : (onOneLine h) = (onOneLine h')) :
    cx.inContent h = cx.inContent h' := by
  unfold OutCx.inContent
  rw [hr, show h.fmtInline = h'.fmtInline from hf]

theorem elementAct_same {h h' : EHead} (b : Bool) {content content' : OutCx → Act} (l1 : h.selectors.length ≤ 1) (l2 : h'.selectors.length ≤ 1)
    (hs : TSel s1 s2 (h.selectors.head?.map (selOf s1)) (h'.selectors.head?.map (selOf s2)))
    (hr : h.isRaw = h'.isRaw) (hf : (onOneLine h) = (onOneLine h')) (hc : ∀ cx, content (withSrc cx s1) = content' (withSrc cx s2)) (cx : OutCx) :
    elementAct (withSrc cx s1) h b content = elementAct (withSrc cx s2) h' b content' := by
  have key : (validTags h = [] ∧ validTags h' = []) ∨
      ∃ n n' s s', validTags h = [(n, s)] ∧ validTags h' = [(n', s')] ∧ n.asStr s1 = n'.asStr s2 ∧
        SameParts (documentParts s1 s.items) (documentParts s2 s'.items) := by
    unfold validTags
    match hx : h.selectors, hy : h'.selectors with
    | [], [] => exact .inl ⟨rfl, rfl⟩
    | [], s :: l => rw [hx, hy] at hs; cases hs
    | s :: l, [] => rw [hx, hy] at hs; cases hs
    | s :: t :: l, _ => rw [hx] at l1; simp at l1
    | _, s :: t :: l => rw [hy] at l2; simp at l2
    | [s], [s'] =>
      rw [hx, hy] at hs
      have e := tsel_name hs
      simp only [List.head?_cons, Option.map_some, selOf, Option.bind_some] at hs e
      cases hn : s.tag.name with
      | none =>
        cases hn' : s'.tag.name with
        | none => left; simp [hn, hn']
        | some => simp [hn, hn'] at e
      | some n =>
        cases hn' : s'.tag.name with
        | none => simp [hn, hn'] at e
        | some n' =>
          right
          refine ⟨n, n', s, s', by simp [hn], by simp [hn'], by simpa [hn, hn'] using e, ?_⟩
          rw [e] at hs
          cases hs with
          | some h => exact h
  unfold elementAct
  rcases key with ⟨e1, e2⟩ | ⟨n, n', s, s', e1, e2, e3, e4⟩
  · rw [e1, e2]
    simp only [List.isEmpty_nil, if_true, inContent_withSrc, inContent_same cx hr hf, hc]
  · rw [e1, e2]
    simp only [List.isEmpty_cons, Bool.false_eq_true, if_false, inContent_withSrc, inContent_same cx hr hf, indent_withSrc, hc,
      List.getLast?_singleton, Option.map_some, Option.getD_some, writeOpenTags, List.isEmpty_nil, Bool.true_and,
      List.reverse_cons, List.reverse_nil, List.nil_append]
    have k1 : (withSrc cx s1).src = s1 := rfl
    have k2 : (withSrc cx s2).src = s2 := rfl
    have k3 : ∀ s, (withSrc cx s).cfg = cx.cfg := fun _ => rfl
    simp only [k1, k2, k3, e3, writeOpenTag_same cx _ e4]
    have k4 : ∀ m, writeCloseTags (withSrc (cx.inContent h') s1) (b && cx.cfg.isXml) (List.drop m [(n, s)]) =
        writeCloseTags (withSrc (cx.inContent h') s2) (b && cx.cfg.isXml) (List.drop m [(n', s')]) := by
      intro m
      cases m with
      | zero =>
        simp only [List.drop_zero, writeCloseTags]
        have k1 : (withSrc (cx.inContent h') s1).src = s1 := rfl
        have k2 : (withSrc (cx.inContent h') s2).src = s2 := rfl
        rw [k1, k2, e3]
        rfl
      | succ m => simp [writeCloseTags]
    rw [k4]
    rfl

/-! ## Nodes -/

theorem nodeActs_append (a b : List Node) (cx : OutCx) : nodeActs (a ++ b) cx = nodeActs a cx ++ nodeActs b cx := by
  induction a with
  | nil => rfl
  | cons n a ih => simp [nodeActs, ih]

theorem contentActs_spaces {a : List Node} (ha : Spaces a) (b : List Node) (cx : OutCx) :
    contentActs (nodeActs (a ++ b) cx) = contentActs (nodeActs b cx) := by
  rw [nodeActs_append]
  unfold contentActs
  have : ((nodeActs a cx ++ nodeActs b cx).dropWhile (·.1)) = (nodeActs b cx).dropWhile (·.1) := by
    induction a with
    | nil => rfl
    | cons n a ih =>
      have h1 := ha n (List.mem_cons_self ..)
      simp only [nodeActs, List.cons_append, List.dropWhile_cons, h1, if_true]
      exact ih fun x hx => ha x (List.mem_cons_of_mem _ hx)
  rw [this]

theorem forest_split {src : Str} {ns : List Node} {l k : List Tree} (h : forestOf src ns = l ++ k) :
    ∃ a b, ns = a ++ b ∧ forestOf src a = l ∧ forestOf src b = k := by
  rw [forestOf_eq] at h
  obtain ⟨a, b, h1, h2, h3⟩ := List.map_eq_append_iff.1 h
  exact ⟨a, b, h1, by rw [forestOf_eq, h2], by rw [forestOf_eq, h3]⟩

theorem spaces_of {src : Str} {a : List Node} (h : SpaceLeaves (forestOf src a)) : Spaces a := by
  intro n hn
  rw [forestOf_eq] at h
  obtain ⟨s, hs⟩ := h _ (List.mem_map_of_mem hn)
  cases n with
  | text r t => simp only [treeOf, Tree.leaf.injEq] at hs; subst hs; rfl
  | elem r h ch =>
    rw [treeOf] at hs
    obtain ⟨f, raw, fmt, k, e⟩ := chainTree_top src h h.selectors (forestOf src ch)
    rw [e] at hs
    cases hs

theorem single_tree {src : Str} {h : EHead} (hl : h.selectors.length ≤ 1) (kids : List Tree) :
    chainTree src h h.selectors kids = .elem (formOf h.ty) h.isRaw (onOneLine h) (h.selectors.head?.map (selOf src)) kids := by
  match hs : h.selectors with
  | [] => rfl
  | [s] => rfl
  | s :: t :: l => rw [hs] at hl; simp at hl

mutual
  theorem act_same : ∀ {t t' : Tree}, TreeSim s1 s2 t t' → ∀ {n n' : Node}, t = treeOf s1 n → t' = treeOf s2 n' → SingleSelectors n →
      SingleSelectors n' → (∀ x ∈ nodeTexts n, Good s1 x) → (∀ x ∈ nodeTexts n', Good s2 x) →
      (∀ cx, processNode n (withSrc cx s1) = processNode n' (withSrc cx s2)) ∧ n.isSpace = n'.isSpace
    | _, _, .leaf h, n, n', e, e', h1, h2, g1, g2 => by
      cases n with
      | elem r hd ch =>
        obtain ⟨_, _, _, _, k⟩ := chainTree_top s1 hd hd.selectors (forestOf s1 ch)
        rw [treeOf, k] at e; cases e
      | text r t =>
        cases n' with
        | elem r hd ch =>
          obtain ⟨_, _, _, _, k⟩ := chainTree_top s2 hd hd.selectors (forestOf s2 ch)
          rw [treeOf, k] at e'; cases e'
        | text r' t' =>
          cases e
          cases e'
          refine ⟨fun cx => ?_, ?_⟩
          · simp only [processNode]
            exact writeTextLike_same cx h (g1 _ (by simp [nodeTexts])) (g2 _ (by simp [nodeTexts]))
          · cases h <;> rfl
    | _, _, .elem hs hc, n, n', e, e', h1, h2, g1, g2 => by
      have ih := @acts_same _ _ hc
      cases n with
      | text => cases e
      | elem r hd ch =>
        cases n' with
        | text => cases e'
        | elem r' hd' ch' =>
          cases h1 with
          | elem l1 h1 =>
            cases h2 with
            | elem l2 h2 =>
              rw [treeOf, single_tree l1] at e
              rw [treeOf, single_tree l2] at e'
              cases e
              simp only [Tree.elem.injEq] at e'
              obtain ⟨e1, e2, e3, e4, e5⟩ := e'
              rw [e4] at hs
              have ih := ih rfl e5 h1 h2 (by simpa [nodeTexts] using g1) (by simpa [nodeTexts] using g2)
              have he : ch.isEmpty = ch'.isEmpty := by
                subst e5
                have := sims_isEmpty hc
                rw [forestOf_eq, forestOf_eq] at this
                simpa using this
              refine ⟨fun cx => ?_, rfl⟩
              simp only [processNode, he]
              exact elementAct_same _ l1 l2 hs e2 e3 (fun cx => by rw [ih cx]) cx
    | _, _, .short hp hi k1 k2 k3 hc, n, n', e, e', h1, h2, g1, g2 => by
      have ih := @acts_same _ _ hc
      cases n with
      | text => cases e
      | elem r hd ch =>
        cases n' with
        | text => cases e'
        | elem r' hd' ch' =>
          cases h1 with
          | elem l1 h1 =>
            cases h2 with
            | elem l2 h2 =>
              rw [treeOf, single_tree l1] at e
              rw [treeOf, single_tree l2] at e'
              simp only [Tree.elem.injEq] at e e'
              obtain ⟨d1, d2, d3, d4, d5⟩ := e
              obtain ⟨e1, e2, e3, e4, e5⟩ := e'
              obtain ⟨a, b, rfl, rfl, rfl⟩ := forest_split d5.symm
              obtain ⟨a', b', rfl, rfl, rfl⟩ := forest_split e5.symm
              have ih := ih rfl rfl (fun x hx => h1 x (List.mem_append_right _ hx)) (fun x hx => h2 x (List.mem_append_right _ hx))
                (fun x hx => g1 x (by simp only [nodeTexts, nodesTexts_append]; exact List.mem_append_right _ hx))
                (fun x hx => g2 x (by simp only [nodeTexts, nodesTexts_append]; exact List.mem_append_right _ hx))
              have hb : b ≠ [] := by rintro rfl; exact k3 rfl
              have hb' : b' ≠ [] := by
                rintro rfl
                have := sims_isEmpty hc
                rw [forestOf_eq] at this
                simp [forestOf] at this
                exact hb this
              have he : (a ++ b).isEmpty = (a' ++ b').isEmpty := by
                cases a <;> cases a' <;> cases b <;> cases b' <;> simp_all
              refine ⟨fun cx => ?_, rfl⟩
              simp only [processNode, he]
              refine elementAct_same _ l1 l2 ?_ (d2.symm.trans e2) (d3.symm.trans e3) (fun cx => ?_) cx
              · rw [← d4, ← e4]; exact .some hi
              · rw [contentActs_spaces (spaces_of k1), contentActs_spaces (spaces_of k2), ih cx]
  theorem acts_same : ∀ {ts ts' : List Tree}, TreesSim s1 s2 ts ts' → ∀ {ns ns' : List Node}, ts = forestOf s1 ns → ts' = forestOf s2 ns' →
      (∀ n ∈ ns, SingleSelectors n) → (∀ n ∈ ns', SingleSelectors n) → (∀ x ∈ nodesTexts ns, Good s1 x) → (∀ x ∈ nodesTexts ns', Good s2 x) →
      ∀ cx, nodeActs ns (withSrc cx s1) = nodeActs ns' (withSrc cx s2)
    | _, _, .nil, ns, ns', e, e', _, _, _, _ => by
      cases ns with
      | cons => cases e
      | nil =>
        cases ns' with
        | cons => cases e'
        | nil => intro cx; rfl
    | _, _, .cons hc hr, ns, ns', e, e', h1, h2, g1, g2 => by
      have i1 := @act_same _ _ hc
      have i2 := @acts_same _ _ hr
      cases ns with
      | nil => cases e
      | cons n ns =>
        cases ns' with
        | nil => cases e'
        | cons n' ns' =>
          simp only [forestOf, List.cons.injEq] at e e'
          obtain ⟨j1, j2⟩ := i1 e.1 e'.1 (h1 n (List.mem_cons_self ..)) (h2 n' (List.mem_cons_self ..))
            (fun x hx => g1 x (by simp only [nodesTexts]; exact List.mem_append_left _ hx))
            (fun x hx => g2 x (by simp only [nodesTexts]; exact List.mem_append_left _ hx))
          have j3 := i2 e.2 e'.2 (fun x hx => h1 x (List.mem_cons_of_mem _ hx)) (fun x hx => h2 x (List.mem_cons_of_mem _ hx))
            (fun x hx => g1 x (by simp only [nodesTexts]; exact List.mem_append_right _ hx))
            (fun x hx => g2 x (by simp only [nodesTexts]; exact List.mem_append_right _ hx))
          intro cx
          simp only [nodeActs, j1 cx, j2, j3 cx]
end

theorem output_same {d d' : Document} (cfg : OutputConfig) (h : TreesSim s1 s2 (forestOf s1 d.nodes) (forestOf s2 d'.nodes))
    (h1 : ∀ n ∈ d.nodes, SingleSelectors n) (h2 : ∀ n ∈ d'.nodes, SingleSelectors n) (g1 : ∀ x ∈ nodesTexts d.nodes, Good s1 x)
    (g2 : ∀ x ∈ nodesTexts d'.nodes, Good s2 x) : outputHtmlTo s1 d cfg = outputHtmlTo s2 d' cfg := by
  have := acts_same h rfl rfl h1 h2 g1 g2 { cfg, src := s1, indentLevel := 0, fmtInline := false, isRaw := false }
  dsimp only [withSrc] at this
  simp only [outputHtmlTo, processContent]
  rw [this]
  rfl

end

end Same
end Mty
