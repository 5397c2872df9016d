import Verif.Spec.MetadataText
import Verif.Proofs.PartsOut
import Verif.Proofs.Transform
import Verif.Proofs.OutEscape
import Verif.Props.Infer
import Mathlib.Tactic.IntervalCases

/-! # Writing a document with metadata attributes (for C28) -/

set_option autoImplicit false

namespace Mty.MetaText
open Spec
open Parts (seq_assoc skip_seq)

variable {P : Str → Str → Prop}

theorem with_refl : ∀ s : Str, WithAttributes P s s
  | [] => .nil
  | c :: s => .char c (with_refl s)

theorem with_append {a b c d : Str} (h : WithAttributes P a b) (h' : WithAttributes P c d) : WithAttributes P (a ++ c) (b ++ d) := by
  induction h with
  | nil => exact h'
  | char x _ ih => exact .char x ih
  | @inserted a b n v hm ha _ ih =>
    obtain ⟨x, hx, hh⟩ := ha
    rw [List.append_assoc]
    refine .inserted hm ⟨x, hx, ?_⟩ ih
    cases a with
    | nil => cases hh
    | cons y a => exact hh

/-- Actions that write the same but for inserted attributes. -/
def Sim (P : Str → Str → Prop) (a b : Act) : Prop := ∀ fs, (a fs).fs = (b fs).fs ∧ (a fs).ok = (b fs).ok ∧ WithAttributes P (a fs).out (b fs).out

theorem Sim.refl (a : Act) : Sim P a a := fun _ => ⟨rfl, rfl, with_refl _⟩

theorem Sim.seq {a b c d : Act} (h : Sim P a b) (h' : Sim P c d) : Sim P (Act.seq a c) (Act.seq b d) := by
  intro fs
  obtain ⟨h1, h2, h3⟩ := h fs
  simp only [Act.seq]
  rw [← h2, ← h1]
  split
  · obtain ⟨k1, k2, k3⟩ := h' (a fs).fs
    exact ⟨k1, k2, with_append h3 k3⟩
  · exact ⟨h1, h2, h3⟩

theorem Sim.all : ∀ {l l' : List Act}, List.Forall₂ (Sim P) l l' → Sim P (Act.all l) (Act.all l')
  | _, _, .nil => Sim.refl _
  | _, _, .cons h t => Sim.seq h (Sim.all t)

/-! ## Attributes -/

/-- Whatever is written begins with the end of a tag or with a space. -/
def Begins (a : Act) : Prop := ∀ fs, ∃ c ∈ ['>', '/', ' '], (a fs).out.head? = some c

theorem begins_write {c : Char} {s : Str} (hc : c ∈ ['>', '/', ' ']) (k : Act) : Begins (Act.seq (Act.write (c :: s)) k) :=
  fun fs => ⟨c, hc, by simp [Act.seq, Act.write]⟩

theorem noBackslash {s : Str} (h : '\\' ∉ s) : Unescapes Accepted s s := by
  induction s with
  | nil => exact .nil
  | cons c s ih =>
    simp only [List.mem_cons, not_or] at h
    exact .plain (fun e => h.1 e.symm) (ih h.2)

/-- Names and values that are written as they are. -/
def Plain (P : Str → Str → Prop) : Prop := ∀ n v, P n v → ∀ xml, writeUnescape n = (n, true) ∧ writeEscapeUnescape xml true v = (v, true)

theorem metadata_plain : Plain MetadataPair := by
  intro n v h xml
  show writeUnescape n = (n, true) ∧ writeEscapeUnescape xml true v = (v, true)
  have key : ∀ s : Str, (∀ c ∈ s, c ≠ '\\' ∧ escWriteChar xml true c = [c]) → writeEscapeUnescape xml true s = (s, true) := by
    intro s hs
    rw [writeEscapeUnescape_ok (noBackslash fun hm => (hs _ hm).1 rfl), escWriteStr_eq]
    congr 1
    clear h
    induction s with
    | nil => rfl
    | cons c s ih =>
      rw [List.flatMap_cons, (hs c (by simp)).2, ih fun x hx => hs x (by simp [hx])]
      rfl
  rcases h with ⟨rfl, rfl⟩ | ⟨rfl, rfl⟩ | ⟨hn, k, rfl⟩
  · exact ⟨writeUnescape_ok (noBackslash (by decide)), key _ (by cases xml <;> decide)⟩
  · exact ⟨writeUnescape_ok (noBackslash (by decide)), key _ (by cases xml <;> decide)⟩
  · refine ⟨writeUnescape_ok (noBackslash ?_), key _ fun c hc => ?_⟩
    · revert n; decide
    · rw [← toDigits_toString] at hc
      have hd := Nat.isDigit_of_mem_toDigits (by decide) (by decide) hc
      have : c ∈ ['0', '1', '2', '3', '4', '5', '6', '7', '8', '9'] := by
        simp only [Char.isDigit, Bool.and_eq_true, decide_eq_true_eq] at hd
        have h1 : 48 ≤ c.toNat := hd.1
        have h2 : c.toNat ≤ 57 := hd.2
        have h3 : c = Char.ofNat c.toNat := (Char.ofNat_toNat c).symm
        rw [h3]
        generalize c.toNat = k at h1 h2
        interval_cases k <;> decide
      clear hd hc
      revert c
      cases xml <;> decide

/-- An attribute with the property. -/
def IsMeta (P : Str → Str → Prop) (x : TextSlice × Option TextSlice) : Prop := ∃ n v, P n v ∧ x = (.provided n, some (.provided v))

theorem writeAttributes_append (cx : OutCx) : ∀ a b, writeAttributes cx (a ++ b) = Act.seq (writeAttributes cx a) (writeAttributes cx b)
  | [], b => (skip_seq _).symm
  | (n, v) :: a, b => by
    simp only [List.cons_append, writeAttributes, writeAttributes_append cx a b, seq_assoc]

theorem meta_sim (hP : Plain P) (cx : OutCx) {k : Act} (hk : Begins k) : ∀ {m : List (TextSlice × Option TextSlice)}, (∀ x ∈ m, IsMeta P x) →
    Sim P k (Act.seq (writeAttributes cx m) k) ∧ Begins (Act.seq (writeAttributes cx m) k)
  | [], _ => by
    simp only [writeAttributes, skip_seq]
    exact ⟨Sim.refl _, hk⟩
  | x :: m, h => by
    obtain ⟨n, v, hp, rfl⟩ := h _ List.mem_cons_self
    obtain ⟨ih, ih'⟩ := meta_sim hP cx hk (m := m) fun y hy => h y (List.mem_cons_of_mem _ hy)
    obtain ⟨h1, h2⟩ := hP _ _ hp cx.cfg.isXml
    have e : ∀ fs, Act.seq (writeAttributes cx ((.provided n, some (.provided v)) :: m)) k fs =
        { (Act.seq (writeAttributes cx m) k fs) with out := attributeText n v ++ (Act.seq (writeAttributes cx m) k fs).out } := by
      intro fs
      simp only [writeAttributes, TextSlice.asStr, seq_assoc]
      simp only [h1, h2, Act.seq, Act.write, Act.writeR, if_true, attributeText]
      split <;> simp
    refine ⟨fun fs => ?_, fun fs => ?_⟩
    · obtain ⟨k1, k2, k3⟩ := ih fs
      rw [e]
      exact ⟨k1, k2, .inserted hp (hk fs) k3⟩
    · rw [e]
      exact ⟨' ', by simp, rfl⟩

/-! ## Tags -/

/-- The selector with metadata attributes. -/
structure SelExt (P : Str → Str → Prop) (s s' : Selector) : Prop where
  tag : s'.tag = s.tag
  id : s'.id = s.id
  classNames : s'.classNames = s.classNames
  attributes : ∃ a m b, s.attributes = a ++ b ∧ s'.attributes = a ++ m ++ b ∧ ∀ x ∈ m, IsMeta P x

theorem SelExt.refl (s : Selector) : SelExt P s s := ⟨rfl, rfl, rfl, s.attributes, [], [], by simp, by simp, by simp⟩

theorem openTag_sim (hP : Plain P) (cx : OutCx) (t : Str) {s s' : Selector} (h : SelExt P s s') (c : Bool) :
    Sim P (writeOpenTag cx t s c) (writeOpenTag cx t s' c) := by
  obtain ⟨-, h1, h2, a, m, b, h3, h4, hm⟩ := h
  unfold writeOpenTag
  rw [h1, h2, h3, h4, writeAttributes_append, writeAttributes_append, writeAttributes_append]
  refine Sim.seq (Sim.refl _) (Sim.seq (Sim.refl _) (Sim.seq (Sim.refl _) ?_))
  simp only [seq_assoc]
  refine Sim.seq (Sim.refl _) (meta_sim hP cx ?_ hm).1
  cases b with
  | nil =>
    simp only [writeAttributes, skip_seq]
    cases c
    · simp only [Bool.false_eq_true, if_false, skip_seq]; exact begins_write (by simp) _
    · simp only [if_true]; exact begins_write (by simp) _
  | cons x b =>
    obtain ⟨n, v⟩ := x
    simp only [writeAttributes, seq_assoc]
    exact begins_write (by simp) _

/-- Tags with metadata. -/
abbrev Tags (P : Str → Str → Prop) (l l' : List (TextSlice × Selector)) : Prop := List.Forall₂ (fun p q => p.1 = q.1 ∧ SelExt P p.2 q.2) l l'

theorem openTags_sim (hP : Plain P) (cx : OutCx) (c : Bool) : ∀ {l l' : List (TextSlice × Selector)}, Tags P l l' → Sim P (writeOpenTags cx c l) (writeOpenTags cx c l')
  | _, _, .nil => Sim.refl _
  | (t, s) :: l, (t', s') :: l', .cons h ht => by
    obtain ⟨h1, h2⟩ := h
    dsimp only at h1 h2
    subst h1
    have : l'.isEmpty = l.isEmpty := by cases ht <;> rfl
    rw [writeOpenTags, writeOpenTags, this]
    exact Sim.seq (openTag_sim hP cx _ h2 _) (openTags_sim hP cx c ht)

theorem closeTags_eq (cx : OutCx) (c : Bool) : ∀ {l l' : List (TextSlice × Selector)}, l.map (·.1) = l'.map (·.1) →
    writeCloseTags cx c l = writeCloseTags cx c l'
  | [], [], _ => rfl
  | [], _ :: _, h => by cases h
  | _ :: _, [], h => by cases h
  | (t, s) :: l, (t', s') :: l', h => by
    simp only [List.map_cons, List.cons.injEq] at h
    obtain ⟨rfl, h⟩ := h
    simp only [writeCloseTags, closeTags_eq cx c h]

theorem tags_fst {l l' : List (TextSlice × Selector)} (h : Tags P l l') : l.map (·.1) = l'.map (·.1) := by
  induction h with
  | nil => rfl
  | cons h _ ih => simp only [List.map_cons, h.1, ih]

theorem validTags_ext {h h' : EHead} (hs : List.Forall₂ (SelExt P) h.selectors h'.selectors) : Tags P (validTags h) (validTags h') := by
  unfold validTags
  generalize h.selectors = l at hs
  generalize h'.selectors = l' at hs
  induction hs with
  | nil => exact .nil
  | @cons s s' _ _ h1 _ ih =>
    rw [List.filterMap_cons, List.filterMap_cons, h1.tag]
    cases s.tag.name with
    | none => exact ih
    | some n => exact .cons ⟨rfl, h1⟩ ih

theorem element_sim (hP : Plain P) (cx : OutCx) {h : EHead} {sels : List Selector} (hs : List.Forall₂ (SelExt P) h.selectors sels) (e : Bool)
    {c c' : OutCx → Act} (hc : ∀ cx, Sim P (c cx) (c' cx)) :
    Sim P (elementAct cx h e c) (elementAct cx { h with selectors := sels } e c') := by
  have ht := validTags_ext (h := h) (h' := { h with selectors := sels }) hs
  have hf := tags_fst ht
  have hin : cx.inContent { h with selectors := sels } = cx.inContent h := rfl
  unfold elementAct
  rw [hin]
  generalize validTags h = l at ht hf
  generalize validTags { h with selectors := sels } = l' at ht hf
  have he : l'.isEmpty = l.isEmpty := by cases ht <;> rfl
  have hl : (l'.getLast?.map fun (t, _) => getInfo cx.cfg (t.asStr cx.src)) = (l.getLast?.map fun (t, _) => getInfo cx.cfg (t.asStr cx.src)) := by
    have : ∀ x : List (TextSlice × Selector), (x.getLast?.map fun (t, _) => getInfo cx.cfg (t.asStr cx.src)) =
        (x.map (·.1)).getLast?.map fun t => getInfo cx.cfg (t.asStr cx.src) := by
      intro x; rw [List.getLast?_map, Option.map_map]; rfl
    rw [this, this, hf]
  dsimp only
  rw [he, hl]
  split
  · exact hc _
  · refine Sim.seq (openTags_sim hP cx _ ht) (Sim.seq ?_ ?_)
    · split
      · exact Sim.seq (Sim.seq (Sim.refl _) (hc _)) (Sim.refl _)
      · exact Sim.refl _
    · rw [closeTags_eq (l := l.reverse.drop _) (l' := l'.reverse.drop _) _ _ (by
        rw [List.map_drop, List.map_drop, List.map_reverse, List.map_reverse, hf])]
      exact Sim.refl _

/-! ## Nodes -/

mutual
  /-- The node with metadata attributes. -/
  def Ext (P : Str → Str → Prop) : Node → Node → Prop
    | .text r t, n => n = .text r t
    | .elem _ h ch, .elem _ h' ch' => (∃ sels, h' = { h with selectors := sels } ∧ List.Forall₂ (SelExt P) h.selectors sels) ∧ Exts P ch ch'
    | .elem _ _ _, .text _ _ => False
  def Exts (P : Str → Str → Prop) : List Node → List Node → Prop
    | [], ns => ns = []
    | n :: ns, m :: ms => Ext P n m ∧ Exts P ns ms
    | _ :: _, [] => False
end

theorem ext_space : ∀ {n n' : Node}, Ext P n n' → n'.isSpace = n.isSpace
  | .text r t, n', h => by rw [Ext] at h; rw [h]
  | .elem _ _ _, .elem _ _ _, _ => rfl
  | .elem _ _ _, .text _ _, h => by rw [Ext] at h; exact h.elim

theorem exts_empty : ∀ {ns ns' : List Node}, Exts P ns ns' → ns'.isEmpty = ns.isEmpty
  | [], ns', h => by rw [Exts] at h; rw [h]
  | _ :: _, _ :: _, _ => rfl
  | _ :: _, [], h => by rw [Exts] at h; exact h.elim

abbrev Acts (P : Str → Str → Prop) (l l' : List (Bool × Act)) : Prop := List.Forall₂ (fun p q => p.1 = q.1 ∧ Sim P p.2 q.2) l l'

theorem acts_dropWhile {l l' : List (Bool × Act)} (h : Acts P l l') : Acts P (l.dropWhile (·.1)) (l'.dropWhile (·.1)) := by
  induction h with
  | nil => exact .nil
  | @cons p q _ _ h1 ht ih =>
    rw [List.dropWhile_cons, List.dropWhile_cons, ← h1.1]
    split
    · exact ih
    · exact .cons h1 ht

theorem contentActs_sim {l l' : List (Bool × Act)} (h : Acts P l l') : Sim P (contentActs l) (contentActs l') := by
  unfold contentActs
  refine Sim.all ?_
  rw [List.forall₂_map_left_iff, List.forall₂_map_right_iff]
  refine List.Forall₂.imp (fun _ _ h => h.2) (List.forall₂_reverse_iff.2 (acts_dropWhile (List.forall₂_reverse_iff.2 (acts_dropWhile h))))

mutual
  theorem node_sim (hP : Plain P) : ∀ (n n' : Node) (cx : OutCx), Ext P n n' → Sim P (processNode n cx) (processNode n' cx)
    | .text r t, n', cx, h => by rw [Ext] at h; rw [h]; exact Sim.refl _
    | .elem _ _ _, .text _ _, _, h => by rw [Ext] at h; exact h.elim
    | .elem r h ch, .elem r' h' ch', cx, he => by
      rw [Ext] at he
      obtain ⟨⟨sels, rfl, hs⟩, hc⟩ := he
      simp only [processNode]
      rw [exts_empty hc]
      exact element_sim hP cx hs _ fun cx => contentActs_sim (nodes_sim hP ch ch' cx hc)
  theorem nodes_sim (hP : Plain P) : ∀ (ns ns' : List Node) (cx : OutCx), Exts P ns ns' → Acts P (nodeActs ns cx) (nodeActs ns' cx)
    | [], ns', cx, h => by rw [Exts] at h; rw [h]; simp only [nodeActs]; exact .nil
    | _ :: _, [], _, h => by rw [Exts] at h; exact h.elim
    | n :: ns, m :: ms, cx, h => by
      rw [Exts] at h
      simp only [nodeActs]
      exact .cons ⟨(ext_space h.1).symm, node_sim hP n m cx h.1⟩ (nodes_sim hP ns ms cx h.2)
end

/-! ## The document with metadata -/

theorem finish_ext (loc : Nat) {attrs : List Attribute} (s : Selector) (h : ∀ a ∈ attrs, IsMeta P (a.name, a.value)) :
    SelExt P s (metaFinish loc attrs s) := by
  unfold metaFinish
  split
  · exact SelExt.refl s
  · refine ⟨rfl, ?_, ?_, s.attributes, attrs.map fun a => (a.name, a.value), [], by simp, ?_, ?_⟩
    · simp only [Selector.id, List.findSome?_append]
      cases List.findSome? _ s.items <;> rfl
    · simp [Selector.classNames]
    · simp [Selector.attributes]
    · intro x hx
      obtain ⟨a, ha, rfl⟩ := List.mem_map.1 hx
      exact h a ha

theorem range_meta (loc : Nat) (a b : String) (r : Range)
    (ha : a.toList ∈ ["mty:start".toList, "mty:end".toList, "mty:content-start".toList, "mty:content-end".toList])
    (hb : b.toList ∈ ["mty:start".toList, "mty:end".toList, "mty:content-start".toList, "mty:content-end".toList]) :
    ∀ x ∈ metaRange loc a b r, IsMeta MetadataPair (x.name, x.value) := by
  unfold metaRange
  split
  · intro x hx
    simp only [List.mem_cons, List.not_mem_nil, or_false] at hx
    rcases hx with rfl | rfl
    · exact ⟨_, _, .inr (.inr ⟨ha, r.start, toDigits_toString _⟩), rfl⟩
    · exact ⟨_, _, .inr (.inr ⟨hb, r.stop, toDigits_toString _⟩), rfl⟩
  · simp

theorem selectors_ext (cx : MetaCx) (he : cx.elements = false) : ∀ (l : List Selector) (i : Nat), List.Forall₂ (SelExt MetadataPair) l (metaSelectors cx i l).1
  | [], i => by rw [metaSelectors]; exact .nil
  | s :: l, i => by
    have ih := selectors_ext cx he l (i + 1)
    rw [metaSelectors]
    dsimp only
    rw [he]
    cases hu : s.uninferred with
    | true => simpa using ⟨SelExt.refl s, ih⟩
    | false =>
      simp only [Bool.false_and, Bool.false_eq_true, if_false]
      refine .cons (finish_ext _ s fun a ha => ?_) ih
      simp only [List.mem_append] at ha
      rcases ha with (ha | ha) | ha
      · split at ha
        · simp only [List.mem_append] at ha
          rcases ha with ha | ha
          · split at ha
            · simp only [List.mem_singleton] at ha
              subst ha
              exact ⟨_, _, .inl ⟨rfl, rfl⟩, rfl⟩
            · cases ha
          · unfold metaBoolExcept at ha
            split at ha
            · rename_i hr
              simp only [List.mem_singleton] at ha
              subst ha
              have : cx.isRaw = true := by simpa using hr
              exact ⟨_, _, .inr (.inl ⟨rfl, by rw [this]; rfl⟩), rfl⟩
            · cases ha
        · cases ha
      · exact range_meta _ _ _ _ (by decide) (by decide) a ha
      · exact range_meta _ _ _ _ (by decide) (by decide) a ha

theorem sels_refl (l : List Selector) : List.Forall₂ (SelExt MetadataPair) l l := List.forall₂_same.2 fun s _ => SelExt.refl s

theorem element_ext (m : MetadataConfig) (hm : m.elements = false) (r : Range) (h : EHead) (root : Bool) :
    ∃ sels, metaElement m r h root = { h with selectors := sels } ∧ List.Forall₂ (SelExt MetadataPair) h.selectors sels := by
  unfold metaElement
  dsimp only
  split
  · exact ⟨h.selectors, rfl, sels_refl _⟩
  · rename_i hx
    rw [hm] at hx
    have hx : (h.selectors.any fun s => !s.uninferred) = true := by simpa using hx
    simp only [hx, Bool.not_true, Bool.false_and, Bool.false_eq_true, if_false]
    exact ⟨_, rfl, selectors_ext _ hm _ _⟩

mutual
  theorem node_ext (m : MetadataConfig) (hm : m.elements = false) : ∀ (n : Node) (root : Bool), Ext MetadataPair n (metaNode m n root)
    | .elem r h ch, root => by
      rw [metaNode, Ext]
      exact ⟨element_ext m hm r h root, nodes_ext m hm ch false⟩
    | .text r (.text t), root => by rw [metaNode, hm, Ext]; rfl
    | .text r (.comment s), root => by rw [metaNode, hm, Ext]; rfl
    | .text r (.space s), root => by rw [metaNode, Ext]
  theorem nodes_ext (m : MetadataConfig) (hm : m.elements = false) : ∀ (ns : List Node) (root : Bool), Exts MetadataPair ns (metaNodes m ns root)
    | [], _ => by rw [metaNodes, Exts]
    | n :: ns, root => by
      rw [metaNodes, Exts]
      exact ⟨node_ext m hm n root, nodes_ext m hm ns root⟩
end

theorem lang_sels (lang : Str) : ∀ {l l' : List Selector}, List.Forall₂ (SelExt P) l l' → List.Forall₂ (SelExt P) (langSelectors lang l) (langSelectors lang l')
  | _, _, .nil => .nil
  | s :: l, s' :: l', .cons h ht => by
    have hu : s'.uninferred = s.uninferred := by simp only [Selector.uninferred, h.tag]
    rw [langSelectors, langSelectors, hu]
    split
    · refine .cons ⟨h.tag, ?_, ?_, ?_⟩ ht
      · have := h.id
        simp only [Selector.id, List.findSome?_append] at this ⊢
        rw [this]
        rfl
      · have := h.classNames
        simp only [Selector.classNames, List.filterMap_append] at this ⊢
        rw [this]
        rfl
      · obtain ⟨a, m, b, h1, h2, h3⟩ := h.attributes
        refine ⟨a, m, b ++ [(.provided "lang".toList, some (.provided lang))], ?_, ?_, h3⟩
        · simp only [Selector.attributes] at h1 ⊢
          simp [h1]
        · simp only [Selector.attributes] at h2 ⊢
          simp [h2]
    · exact .cons h (lang_sels lang ht)

theorem lang_ext (lang : Str) : ∀ {n n' : Node}, Ext P n n' → Ext P (langNode lang n) (langNode lang n')
  | .text r t, n', h => by rw [Ext] at h; rw [h]; simp [langNode, Ext]
  | .elem _ _ _, .text _ _, h => by rw [Ext] at h; exact h.elim
  | .elem r h ch, .elem r' h' ch', he => by
    rw [Ext] at he
    obtain ⟨⟨sels, rfl, hs⟩, hc⟩ := he
    rw [langNode, langNode, Ext]
    exact ⟨⟨_, rfl, lang_sels lang hs⟩, hc⟩

theorem langs_ext (lang : Str) : ∀ {ns ns' : List Node}, Exts P ns ns' → Exts P (ns.map (langNode lang)) (ns'.map (langNode lang))
  | [], ns', h => by rw [Exts] at h; rw [h]; simp [Exts]
  | _ :: _, [], h => by rw [Exts] at h; exact h.elim
  | n :: ns, m :: ms, h => by
    rw [Exts] at h
    simp only [List.map_cons, Exts]
    exact ⟨lang_ext lang h.1, langs_ext lang h.2⟩

theorem transform_ext (cfg : OutputConfig) (m : MetadataConfig) (hm : m.elements = false) (src : Str) (doc : Document) :
    Exts MetadataPair (transformDocument doc src { cfg with metadata := none }).nodes (transformDocument doc src { cfg with metadata := some m }).nodes := by
  rw [transformDocument_eq, transformDocument_eq]
  have ht : toInfer { cfg with metadata := some m } src doc = toInfer { cfg with metadata := none } src doc := rfl
  rw [ht]
  generalize Infer.infer src _ = ns
  dsimp only
  cases cfg.lang with
  | none => exact nodes_ext m hm ns true
  | some l => exact langs_ext l (nodes_ext m hm ns true)

/-! ## The writer does not look at the metadata options -/

/-- The context with other metadata options. -/
def _root_.Mty.OutCx.withMetadata (cx : OutCx) (b : Option MetadataConfig) : OutCx := { cx with cfg := { cx.cfg with metadata := b } }

theorem writeAttributes_metadata (cx : OutCx) (b : Option MetadataConfig) : ∀ l,
    writeAttributes (cx.withMetadata b) l = writeAttributes cx l
  | [] => rfl
  | (n, v) :: l => by
    simp only [writeAttributes, writeAttributes_metadata cx b l]; rfl

theorem writeMoreClasses_metadata (cx : OutCx) (b : Option MetadataConfig) : ∀ l,
    writeMoreClasses (cx.withMetadata b) l = writeMoreClasses cx l
  | [] => rfl
  | c :: l => by
    simp only [writeMoreClasses, writeMoreClasses_metadata cx b l]; rfl

theorem writeOpenTag_metadata (cx : OutCx) (b : Option MetadataConfig) (t : Str) (s : Selector) (c : Bool) :
    writeOpenTag (cx.withMetadata b) t s c = writeOpenTag cx t s c := by
  simp only [writeOpenTag, writeAttributes_metadata, writeMoreClasses_metadata]; rfl

theorem writeOpenTags_metadata (cx : OutCx) (b : Option MetadataConfig) (c : Bool) : ∀ l,
    writeOpenTags (cx.withMetadata b) c l = writeOpenTags cx c l
  | [] => rfl
  | (t, s) :: l => by
    simp only [writeOpenTags, writeOpenTags_metadata cx b c l, writeOpenTag_metadata]; rfl

theorem writeCloseTags_metadata (cx : OutCx) (b : Option MetadataConfig) (c : Bool) : ∀ l,
    writeCloseTags (cx.withMetadata b) c l = writeCloseTags cx c l
  | [] => rfl
  | (t, s) :: l => by
    simp only [writeCloseTags, writeCloseTags_metadata cx b c l]; rfl

theorem indent_metadata (cx : OutCx) (b : Option MetadataConfig) (n : Nat) :
    (cx.withMetadata b).indent n = (cx.indent n).withMetadata b := by
  unfold OutCx.indent
  show (if (!cx.fmtInline && cx.cfg.indent.isSome) = true then _ else _) = _
  split <;> rfl

theorem elementAct_metadata (cx : OutCx) (b : Option MetadataConfig) (h : EHead) (e : Bool) (c : OutCx → Act)
    (hc : ∀ cx', c (cx'.withMetadata b) = c cx') : elementAct (cx.withMetadata b) h e c = elementAct cx h e c := by
  have hin : (cx.withMetadata b).inContent h = (cx.inContent h).withMetadata b := rfl
  simp only [elementAct, hin, indent_metadata, hc, writeOpenTags_metadata, writeCloseTags_metadata]
  rfl

mutual
  theorem processNode_metadata (b : Option MetadataConfig) : ∀ (n : Node) (cx : OutCx),
      processNode n (cx.withMetadata b) = processNode n cx
    | .text _ t, cx => by simp only [processNode]; cases t <;> rfl
    | .elem _ h ch, cx => by
      simp only [processNode]
      exact elementAct_metadata cx b h _ _ fun cx' => by rw [nodeActs_metadata b ch cx']
  theorem nodeActs_metadata (b : Option MetadataConfig) : ∀ (ns : List Node) (cx : OutCx),
      nodeActs ns (cx.withMetadata b) = nodeActs ns cx
    | [], cx => by simp only [nodeActs]
    | n :: ns, cx => by simp only [nodeActs, processNode_metadata b n, nodeActs_metadata b ns]
end

end Mty.MetaText
