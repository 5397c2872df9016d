import Verif.Proofs.WriteOut
import Verif.Proofs.Clean
import Verif.Spec.Structure

/-!
# Reading what is written: what the parts of the syntax tree stand for
-/

set_option autoImplicit false

namespace Mty.Write
open Spec Grammar

variable (xml : Bool) (src : Str) (c : SpecialTagConfig)

/-! ## Inference -/

/-- The trees after inference. -/
def Inferred (p : Spot) : List Tree → List Tree → Prop :=
  List.Forall₂ fun t t' => ∃ fi la, t' = inferTree p.context p.parent p.grand fi la t

theorem inferred (p : Spot) (ts : List Tree) (first : Bool) : Inferred p ts (inferForest p.context p.parent p.grand first ts) :=
  inferForest_forall₂ _ _ _ ts first fun _ _ fi la => ⟨fi, la, rfl⟩

theorem Inferred.append {p : Spot} {a b ts : List Tree} (h : Inferred p (a ++ b) ts) :
    ∃ a' b', ts = a' ++ b' ∧ Inferred p a a' ∧ Inferred p b b' := by
  refine ⟨ts.take a.length, ts.drop a.length, (List.take_append_drop _ _).symm, ?_, ?_⟩
  · have := List.forall₂_take a.length h
    rwa [List.take_left] at this
  · have := List.forall₂_drop a.length h
    rwa [List.drop_left] at this

theorem Inferred.one {p : Spot} {t : Tree} {ts : List Tree} (h : Inferred p [t] ts) :
    ∃ fi la, ts = [inferTree p.context p.parent p.grand fi la t] := by
  cases h with
  | cons h1 h2 => cases h2; obtain ⟨fi, la, rfl⟩ := h1; exact ⟨fi, la, rfl⟩

theorem Inferred.spaces {p : Spot} {a ts : List Tree} (h : Inferred p a ts) (ha : AllSpaces a) : ts = a := by
  induction h with
  | nil => rfl
  | cons h1 _ ih =>
    obtain ⟨s, rfl⟩ := ha _ (List.mem_cons_self ..)
    obtain ⟨fi, la, rfl⟩ := h1
    rw [ih fun t ht => ha t (List.mem_cons_of_mem _ ht), inferTree]

/-- The nodes stand for the pieces. -/
def NSem (p : Spot) (ns : List Node) (m : List Piece) : Prop :=
  ∀ ts, Inferred p (forestOf src (specialNodes c ns)) ts → Core xml src ts m

/-- Nodes that are spaces. -/
def NSpaces (ns : List Node) : Prop := ∀ n ∈ ns, ∃ r s, n = .text r (.space s)

theorem NSpaces.append {a b : List Node} (ha : NSpaces a) (hb : NSpaces b) : NSpaces (a ++ b) := by
  intro n hn
  rcases List.mem_append.1 hn with h | h
  · exact ha n h
  · exact hb n h

theorem NSpaces.before (sp : Option Range) : NSpaces (spaceBefore sp) := by
  cases sp with
  | none => simp [spaceBefore, NSpaces]
  | some r => intro n hn; simp [spaceBefore] at hn; exact ⟨_, _, hn⟩

theorem specialNodes_app (a b : List Node) : specialNodes c (a ++ b) = specialNodes c a ++ specialNodes c b := by
  induction a with
  | nil => rfl
  | cons n a ih => simp [specialNodes, ih]

theorem forest_app (a b : List Node) :
    forestOf src (specialNodes c (a ++ b)) = forestOf src (specialNodes c a) ++ forestOf src (specialNodes c b) := by
  rw [specialNodes_app, forestOf_eq, List.map_append, ← forestOf_eq, ← forestOf_eq]

variable {xml src c}

theorem NSpaces.forest {a : List Node} (h : NSpaces a) : AllSpaces (forestOf src (specialNodes c a)) := by
  induction a with
  | nil => simp [specialNodes, forestOf, AllSpaces]
  | cons n a ih =>
    obtain ⟨r, s, rfl⟩ := h n (by simp)
    have := ih fun n hn => h n (by simp [hn])
    intro t ht
    rw [specialNodes, specialNode, forestOf, treeOf] at ht
    rcases List.mem_cons.1 ht with rfl | ht
    · exact ⟨s, rfl⟩
    · exact this t ht

theorem NSem.gap {p : Spot} {a b sp : List Node} {r : Range} {s : Space} {w : Str} {m m' : List Piece} (ha : NSem xml src c p a m)
    (hb : NSem xml src c p b m') (hs : SpaceIs src s w) (hw : Blank w) (hsp : NSpaces sp) :
    NSem xml src c p (a ++ (.text r (.space s) :: sp) ++ b) (m ++ .gap w :: m') := by
  intro ts h
  rw [forest_app, forest_app] at h
  obtain ⟨x, b', rfl, h1, hb'⟩ := h.append
  obtain ⟨a', sp', rfl, ha', hsp'⟩ := h1.append
  have he := hsp'.spaces (NSpaces.forest (a := .text r (.space s) :: sp) (by
    intro n hn
    rcases List.mem_cons.1 hn with rfl | hn
    · exact ⟨_, _, rfl⟩
    · exact hsp n hn))
  rw [specialNodes, specialNode, forestOf, treeOf] at he
  rw [he]
  exact (ha _ ha').gap (hb _ hb') hs hw hsp.forest

theorem NSem.append {p : Spot} {a b : List Node} {m m' : List Piece} (ha : NSem xml src c p a m) (hb : NSem xml src c p b m') :
    NSem xml src c p (a ++ b) (m ++ m') := by
  intro ts h
  rw [forest_app] at h
  obtain ⟨a', b', rfl, ha', hb'⟩ := h.append
  exact (ha _ ha').append (hb _ hb')

theorem blank_sep : Blank [' '] := by
  intro d hd
  simp at hd
  subst hd
  decide

/-- The content of an element. -/
theorem NSem.body {p : Spot} {a k b : List Node} {m : List Piece} (h : NSem xml src c p k m) (ha : NSpaces a) (hb : NSpaces b) {ts : List Tree}
    (ht : Inferred p (forestOf src (specialNodes c (a ++ k ++ b))) ts) :
    ∃ a' k' b', ts = a' ++ k' ++ b' ∧ AllSpaces a' ∧ AllSpaces b' ∧ Core xml src k' m := by
  rw [forest_app, forest_app] at ht
  obtain ⟨x, b', rfl, h1, hb'⟩ := ht.append
  obtain ⟨a', k', rfl, ha', hk'⟩ := h1.append
  have ea := ha'.spaces ha.forest
  have eb := hb'.spaces hb.forest
  exact ⟨a', k', b', rfl, ea ▸ ha.forest, eb ▸ hb.forest, h _ hk'⟩

/-! ## Elements -/

theorem infer_named {p : Spot} {f : Option Form} {fi la fmt : Bool} {sel : Option (Option Str × List SelectorItem)} {items : List SelectorItem}
    {name : Str} {kids : List Tree} {m : List Piece}
    (hs : ∀ fi la, namedSel p.context f fi la (p.grand = some "thead".toList) sel = some (some name, items)) (hh : Holds name m) :
    ∃ kids', inferTree p.context p.parent p.grand fi la (.elem f false fmt sel kids) = .elem f false fmt (some (some name, items)) kids' ∧
      Inferred (p.inside (some name) f) kids kids' := by
  refine ⟨inferForest (contextInside (some name) f) (some name) p.parent true kids, ?_, inferred (p.inside (some name) f) kids true⟩
  have hr : contextInside (some name) f ≠ .raw := by
    intro h
    have := contextInside_raw _ _ false rfl h
    simp [rawName] at this
    rcases this with h | h
    · exact hh.1 h
    · exact hh.2.1 h
  rw [inferTree]
  simp only [hs, Option.bind_some, Bool.false_or, hr, decide_false]

theorem core_named {p : Spot} {f : Option Form} {fmt : Bool} {sel : Option (Option Str × List SelectorItem)} {items : List SelectorItem}
    {name : Str} {kids : List Tree} {ps : List Spec.Part} {m : List Piece} (hn : SafeName name) (ha : Attrs xml src items ps)
    (hs : ∀ fi la, namedSel p.context f fi la (p.grand = some "thead".toList) sel = some (some name, items)) (hh : Holds name m)
    (hk : ∀ ts, Inferred (p.inside (some name) f) kids ts → Body xml src ts m) {ts : List Tree}
    (ht : Inferred p [.elem f false fmt sel kids] ts) : Core xml src ts [.elem name ps m] := by
  obtain ⟨fi, la, rfl⟩ := ht.one
  obtain ⟨kids', h1, h2⟩ := infer_named (fi := fi) (la := la) (fmt := fmt) (kids := kids) hs hh
  rw [h1]
  exact .elem hn ha (hk _ h2) hh

/-- The name of an element at this place. -/
theorem named_sel {p : Spot} {f : Option Form} {n : Option Str} {name : Str} {items : List SelectorItem}
    {sel : Option (Option Str × List SelectorItem)} (h : HasName p f n name) (hs : sel = some (n, items) ∨ (sel = none ∧ n = none ∧ items = [])) (fi la : Bool) :
    namedSel p.context f fi la (p.grand = some "thead".toList) sel = some (some name, items) := by
  cases n with
  | some n =>
    rcases hs with rfl | ⟨_, h1, _⟩
    · rw [HasName] at h; rw [h, namedSel]
    · simp at h1
  | none =>
    obtain ⟨n, h1, h2, rfl⟩ := h
    have h3 := h2 fi la
    rcases hs with rfl | ⟨rfl, _, rfl⟩
    · simp only [namedSel, h3]
      rfl
    · simp only [namedSel, h3]
      rfl

theorem named_safe {p : Spot} {f : Option Form} {n : Option Str} {name : Str} (h : HasName p f n name) (hn : ∀ w, n = some w → SafeName w) :
    SafeName name := by
  cases n with
  | some n => rw [HasName] at h; exact h ▸ hn n rfl
  | none =>
    obtain ⟨n, h1, h2, rfl⟩ := h
    have := h2 false false
    exact (nameIn_safe _ _ _ _ _ _ this h1).1

theorem attrs_nil : Attrs xml src [] [] := attrs_of .nil (by simp)

/-- A selector stands for a name and parts. -/
structure SelSem (xml : Bool) (src : Str) (s : Ast.Selector) (n : Option Str) (ps : List Spec.Part) : Prop where
  ok : SelectorOk s
  name : ∀ w, n = some w → SafeName w
  means : ∀ t, SelectorIs src s t → selOf src t = (n, t.items) ∧ Attrs xml src t.items ps

/-! ## Items -/

/-- The shape of an item of this kind. -/
def kindShape : ItemKind → Shape
  | .comment => .comment
  | _ => .inl

/-- An item stands for the pieces. -/
structure ItemSem (xml : Bool) (src : Str) (c : SpecialTagConfig) (p : Spot) (k : ItemKind) (ty : Ast.NodeType) (m : List Piece) : Prop where
  shape : shapeOf ty = kindShape k
  ok : TypeOk src ty
  means : ∀ rg ns, ItemIs src rg ty ns → ∃ n, ns = [n] ∧ n.isVisible = k.shows false ∧ ¬ isBlockLevel n ∧ ¬ Continues n ∧ NSem xml src c p [n] m

/-- What is in a row is flat. -/
def Flat (n : Node) : Prop := ¬ isBlockLevel n ∧ ¬ Continues n

/-- The space before the first node. -/
def headSpace : List Ast.Node → Option Range
  | .mk sp _ _ _ :: _ => sp
  | [] => none

/-- Inline items and comments. -/
def Inl (src : Str) (nodes : List Ast.Node) : Prop :=
  ∀ n ∈ nodes, ((itemOf src n).shape = .inl ∨ (itemOf src n).shape = .comment) ∧ (itemOf src n).ok

theorem items_row {nodes : List Ast.Node} (h : Inl src nodes) : ∃ v, Items (itemsOf src nodes) v [] ∧ OneOrInline v := by
  have : ∃ v, Items (itemsOf src nodes) v [] ∧ ∀ b ∈ v, b = false := by
    induction nodes with
    | nil => exact ⟨[], .nil, by simp⟩
    | cons n ns ih =>
      rw [itemsOf]
      obtain ⟨v, h1, h2⟩ := ih fun n hn => h n (by simp [hn])
      obtain ⟨h3 | h3, h4⟩ := h n (by simp)
      · exact ⟨false :: v, .inl h3 h4 h1, by simpa using h2⟩
      · exact ⟨v, .comment h3 h4 h1, h2⟩
  obtain ⟨v, h1, h2⟩ := this
  exact ⟨v, h1, .inl h2⟩

theorem startsChildren_row {nodes : List Ast.Node} (h : Inl src nodes) : StartsChildren (itemsOf src nodes) := by
  cases nodes with
  | nil => trivial
  | cons n ns =>
    rw [itemsOf]
    rcases (h n (by simp)).1 with h | h
    · exact .inl h
    · exact .inr (.inl h)

/-- What is in a row is flat, or it is a code block. -/
def Level (f : Bool) (core : List Node) : Prop :=
  (∀ n ∈ core, ¬ Continues n) ∧ (f = true → ∀ n ∈ core, ¬ isBlockLevel n) ∧ (f = false → ∃ n, core = [n] ∧ n.isVisible = true ∧ isBlockLevel n)

theorem Level.ofFlat {core : List Node} (h : ∀ n ∈ core, Flat n) : Level true core :=
  ⟨fun n hn => (h n hn).2, fun _ n hn => (h n hn).1, by simp⟩

theorem Level.flat {core : List Node} (h : Level true core) : ∀ n ∈ core, Flat n := fun n hn => ⟨h.2.1 rfl n hn, h.1 n hn⟩

/-- The name of an element in the document, if it is written: that of its first selector. -/
def firstName (src : Str) : Node → Option Str
  | .text _ _ => none
  | .elem _ h _ => (h.selectors.head?.bind fun s => s.tag.name).map fun n => n.asStr src

/-- A row stands for the pieces; `f`: it is flat; `v`: something in it is visible. -/
structure RowSem (xml : Bool) (src : Str) (c : SpecialTagConfig) (p : Spot) (f v : Bool) (nodes : List Ast.Node) (m : List Piece) : Prop where
  ne : nodes ≠ []
  starts : StartsChildren (itemsOf src nodes)
  items : ∃ v, Items (itemsOf src nodes) v [] ∧ OneOrInline v
  means : ∀ out rest, LineIs src nodes out rest → rest = [] ∧ ∃ core, core ≠ [] ∧ out = spaceBefore (headSpace nodes) ++ core ∧
    core.any Node.isVisible = v ∧ Level f core ∧ NSem xml src c p core m
  mark : f = false → ∀ out rest, LineIs src nodes out rest → ∃ n name ps m', out = spaceBefore (headSpace nodes) ++ [n] ∧
    m = [.elem name ps m'] ∧ firstName src (specialNode c n) = some name

theorem flat_space {sp : Option Range} : ∀ n ∈ spaceBefore sp, Flat n := by
  intro n hn
  obtain ⟨r, s, rfl⟩ := NSpaces.before sp n hn
  exact ⟨id, id⟩

/-- A line that consists of an item. -/
theorem lineIs_item {sp : Option Range} {a b : Nat} {ty : Ast.NodeType} {nodes : List Ast.Node} {out : List Node} {rest : List Ast.Node}
    (hty : shapeOf ty = .inl ∨ shapeOf ty = .comment) (h : LineIs src (.mk sp a b ty :: nodes) out rest) :
    ∃ ns out', out = spaceBefore sp ++ ns ++ out' ∧ ItemIs src ⟨a, b⟩ ty ns ∧ LineIs src nodes out' rest := by
  cases h with
  | item _ h1 h2 => exact ⟨_, _, rfl, h1, h2⟩
  | selector => simp [shapeOf] at hty
  | arrow => simp [shapeOf] at hty

theorem ItemSem.shapes {p : Spot} {k : ItemKind} {ty : Ast.NodeType} {m : List Piece} (h : ItemSem xml src c p k ty m) :
    shapeOf ty = .inl ∨ shapeOf ty = .comment := by
  rw [h.shape]
  cases k <;> simp [kindShape]

theorem RowSem.one {p : Spot} {k : ItemKind} {sp : Option Range} {a b : Nat} {ty : Ast.NodeType} {m : List Piece} (h : ItemSem xml src c p k ty m) :
    RowSem xml src c p true (k.shows false) [.mk sp a b ty] m ∧ Inl src [.mk sp a b ty] := by
  have hi : Inl src [.mk sp a b ty] := fun n hn => by simp at hn; subst hn; exact ⟨h.shapes, h.ok⟩
  refine ⟨⟨by simp, startsChildren_row hi, items_row hi, fun out rest hl => ?_, by simp⟩, hi⟩
  obtain ⟨ns, out', rfl, h1, h2⟩ := lineIs_item h.shapes hl
  cases h2
  obtain ⟨n, rfl, h3, h4, h5, h6⟩ := h.means _ _ h1
  refine ⟨rfl, [n], by simp, by simp [headSpace], by simp [h3], .ofFlat ?_, h6⟩
  simp only [List.mem_singleton, forall_eq]
  exact ⟨h4, h5⟩

theorem spaceIs_inline {r : Range} (h : r.slice src ≠ []) : SpaceIs src (.inline (some (.fromSource r))) (r.slice src) := by
  refine ⟨h, fun ind _ l => ⟨r.slice src, ?_, _root_.id, h, fun _ => rfl⟩⟩
  have : SpaceText ind src l (.inline (some (.fromSource r))) ((TextSlice.fromSource r).asStr src) := .written
  exact this

theorem RowSem.more {p : Spot} {k : ItemKind} {v : Bool} {sp : Option Range} {a b : Nat} {ty : Ast.NodeType} {m m' : List Piece} {nodes : List Ast.Node} {w : Str}
    (h : ItemSem xml src c p k ty m) (hr : RowSem xml src c p true v nodes m' ∧ Inl src nodes)
    (hw : (headSpace nodes = none ∧ w = []) ∨ ∃ r, headSpace nodes = some r ∧ r.slice src = w ∧ w ≠ [] ∧ Blank w) :
    RowSem xml src c p true (k.shows v) (.mk sp a b ty :: nodes) (m ++ gapPieces w ++ m') ∧ Inl src (.mk sp a b ty :: nodes) := by
  obtain ⟨hr, hi⟩ := hr
  have hi : Inl src (.mk sp a b ty :: nodes) := fun n hn => by
    rcases List.mem_cons.1 hn with rfl | hn
    · exact ⟨h.shapes, h.ok⟩
    · exact hi n hn
  refine ⟨⟨by simp, startsChildren_row hi, items_row hi, fun out rest hl => ?_, by simp⟩, hi⟩
  obtain ⟨ns, out', rfl, h1, h2⟩ := lineIs_item h.shapes hl
  obtain ⟨n, rfl, h3, h4, h5, h6⟩ := h.means _ _ h1
  obtain ⟨rfl, core, h10, rfl, h7, h8, h9⟩ := hr.means _ _ h2
  refine ⟨rfl, n :: (spaceBefore (headSpace nodes) ++ core), by simp, by simp [headSpace], ?_, .ofFlat ?_, ?_⟩
  · have hs : (spaceBefore (headSpace nodes)).any Node.isVisible = false := by
      cases headSpace nodes <;> simp [spaceBefore, Node.isVisible]
    rw [List.any_cons, List.any_append, hs, h7, h3]
    cases k <;> simp [ItemKind.shows]
  · intro y hy
    rcases List.mem_cons.1 hy with rfl | hy
    · exact ⟨h4, h5⟩
    · rcases List.mem_append.1 hy with hy | hy
      · exact flat_space y hy
      · exact h8.flat y hy
  · rcases hw with ⟨he, rfl⟩ | ⟨r, he, hr', hw, hb⟩
    · rw [he]
      simpa [spaceBefore, gapPieces] using h6.append h9
    · rw [he]
      have := h6.gap (r := r) (sp := []) h9 (spaceIs_inline (r := r) (by rw [hr']; exact hw)) (by rw [hr']; exact hb) (by simp [NSpaces])
      rw [hr'] at this
      simpa [spaceBefore, gapPieces, hw] using this

/-! ## Texts, code -/

theorem ItemSem.text {p : Spot} {r : Range} {t : Str} (h : LineText (r.slice src) t) : ItemSem xml src c p .text (.text (.segment r)) [.text t] := by
  refine ⟨rfl, ⟨t, line_unescapes h⟩, fun rg ns hi => ?_⟩
  cases hi with
  | text h1 =>
    refine ⟨_, rfl, ?_⟩
    rw [TextIs, IsLeaf] at h1
    subst h1
    refine ⟨rfl, id, id, fun ts ht => ?_⟩
    rw [specialNodes, specialNode, specialNodes, forestOf, treeOf, forestOf] at ht
    obtain ⟨fi, la, rfl⟩ := ht.one
    rw [inferTree]
    exact Core.words h

theorem ItemSem.verbatim {p : Spot} {o : Range} {tail : Ast.VerbatimTail} {s : Str} (hs : (verbatimRange tail).slice src = s) (hne : s ≠ [])
    (h1 : s.getLast? ≠ some ' ') (h2 : s.getLast? ≠ some '\t') :
    ItemSem xml src c p .element (.text (.verbatim o none tail)) [.text s] := by
  refine ⟨rfl, trivial, fun rg ns hi => ?_⟩
  cases hi with
  | text h =>
    refine ⟨_, rfl, ?_⟩
    rw [TextIs, IsLeaf] at h
    subst h hs
    refine ⟨rfl, id, id, fun ts ht => ?_⟩
    rw [specialNodes, specialNode, specialNodes, forestOf, treeOf, forestOf] at ht
    obtain ⟨fi, la, rfl⟩ := ht.one
    rw [inferTree]
    exact Core.verbatim hne h1 h2

theorem ItemSem.comment {p : Spot} {cm : Ast.Comment} {s : Str} (hc : cm.close.isSome) (hs : cm.inner.slice src = s) (hb : CommentBody s) :
    ItemSem xml src c p .comment (.text (.comment cm)) [.comment s] := by
  refine ⟨rfl, hc, fun rg ns hi => ?_⟩
  cases hi with
  | text h =>
    refine ⟨_, rfl, ?_⟩
    rw [TextIs, IsLeaf] at h
    subst h hs
    refine ⟨rfl, id, id, fun ts ht => ?_⟩
    rw [specialNodes, specialNode, specialNodes, forestOf, treeOf, forestOf] at ht
    obtain ⟨fi, la, rfl⟩ := ht.one
    rw [inferTree]
    exact Core.comment hb

/-- The head of a special element with its tag. -/
theorem special_tree {kind : SpecialKind} {rg rg' : Range} {kids : List Node} (ht : specialTagName c kind ≠ []) :
    ∃ fmt, forestOf src (specialNodes c [element [] (.special kind) rg rg' kids]) =
      [.elem none false fmt (some (some (specialTagName c kind), [])) (forestOf src (specialNodes c kids))] := by
  have he : (TextSlice.provided (specialTagName c kind)).isEmpty = false := by
    cases h : specialTagName c kind with
    | nil => exact absurd h ht
    | cons => rfl
  refine ⟨true, ?_⟩
  rw [specialNodes, element, specialNode, specialHead]
  dsimp only
  rw [EHead.applyTags]
  simp only [List.filter_cons, he, Bool.not_false, if_true, List.filter_nil]
  rw [specialNodes, forestOf, treeOf, forestOf]
  rfl

theorem tag_configured {kind : SpecialKind} (h : kind ≠ .codeBlockContainer) : specialTagName c kind = configuredTag c kind := by
  cases kind <;> first | rfl | exact absurd rfl h

theorem ItemSem.code {p : Spot} {r : Range} (hs : Range.slice ⟨r.start + 2, r.stop - 2⟩ src ≠ []) (hn : SafeName (configuredTag c .code))
    (hh : Holds (configuredTag c .code) [.text (Range.slice ⟨r.start + 2, r.stop - 2⟩ src)]) :
    ItemSem xml src c p .element (.code r) [.elem (configuredTag c .code) [] [.text (Range.slice ⟨r.start + 2, r.stop - 2⟩ src)]] := by
  refine ⟨rfl, trivial, fun rg ns hi => ?_⟩
  cases hi with
  | code h1 =>
    refine ⟨_, rfl, rfl, id, id, fun ts ht => ?_⟩
    rw [IsLeaf] at h1
    subst h1
    rw [← tag_configured (by simp)] at hn hh ⊢
    obtain ⟨fmt, he⟩ := special_tree (src := src) (c := c) (kind := .code) (rg := rg) (rg' := ⟨r.start + 2, r.stop - 2⟩)
      (kids := [.text ⟨r.start + 2, r.stop - 2⟩ (leafText (.text ⟨r.start + 2, r.stop - 2⟩ false true false false))])
      (by obtain ⟨x, s, h, _⟩ := hn; rw [h]; simp)
    rw [he] at ht
    refine core_named hn attrs_nil (fun fi la => rfl) hh ?_ ht
    intro ts ht
    rw [specialNodes, specialNode, specialNodes, forestOf, treeOf, forestOf] at ht
    obtain ⟨fi, la, rfl⟩ := ht.one
    rw [inferTree]
    exact Body.code hs

/-! ## Lines between fences -/

/-- A line that consists of a text or code between fences. -/
theorem lineIs_fenced {sp : Option Range} {a b x y : Nat} {k : MultilineKind} {out : List Node} {rest : List Ast.Node}
    (h : LineIs src [.mk sp a b (.multiline k x y)] out rest) :
    rest = [] ∧ out = spaceBefore sp ++ [element [] (.multiline k) ⟨a, b⟩ ⟨x, y⟩ [.text ⟨x, y⟩ (leafText (.text ⟨x, y⟩ (k = .escaped) true false true))]] := by
  cases h with
  | item _ h1 h2 =>
    cases h2
    cases h1 with
    | multiline h3 =>
      rw [IsLeaf] at h3
      subst h3
      exact ⟨rfl, by simp⟩

theorem starts_fenced {sp : Option Range} {a b x y : Nat} {k : MultilineKind} : StartsChildren (itemsOf src [.mk sp a b (.multiline k x y)]) := by
  rw [itemsOf, itemsOf]
  exact .inr (.inr rfl)

theorem items_fenced {sp : Option Range} {a b x y : Nat} {k : MultilineKind} (h : TypeOk src (.multiline k x y)) :
    ∃ v, Items (itemsOf src [.mk sp a b (.multiline k x y)]) v [] ∧ OneOrInline v := by
  rw [itemsOf, itemsOf]
  exact ⟨[true], .multiline rfl h .nil, .inr rfl⟩

theorem RowSem.fenced {p : Spot} {sp : Option Range} {a b x y : Nat} {k : MultilineKind} {body t : Str} (hk : k ≠ .code) (hp : Nameless p)
    (hok : TypeOk src (.multiline k x y)) (ht : Trimmed (Range.slice ⟨x, y⟩ src) body) (hb : body ≠ [])
    (hu : if decide (k = .escaped) = true then Unescapes Accepted body t else t = body)
    (h1 : body.getLast? ≠ some ' ') (h2 : body.getLast? ≠ some '\t') :
    RowSem xml src c p true true [.mk sp a b (.multiline k x y)] [.text t] := by
  refine ⟨by simp, starts_fenced, items_fenced hok, fun out rest hl => ?_, by simp⟩
  obtain ⟨rfl, rfl⟩ := lineIs_fenced hl
  refine ⟨rfl, _, by simp, rfl, rfl, .ofFlat ?_, fun ts h => ?_⟩
  · intro n hn
    simp only [List.mem_singleton] at hn
    subst hn
    refine ⟨?_, id⟩
    cases k with
    | code => exact absurd rfl hk
    | escaped => exact id
    | unescaped => exact id
  · have e : forestOf src (specialNodes c [element [] (.multiline k) ⟨a, b⟩ ⟨x, y⟩ [.text ⟨x, y⟩ (leafText (.text ⟨x, y⟩ (k = .escaped) true false true))]]) =
        [.elem none false true none [.leaf (.text ⟨.fromSource ⟨x, y⟩, true, decide (k = .escaped), true, false⟩)]] := by
      cases k with
      | code => exact absurd rfl hk
      | escaped => rfl
      | unescaped => rfl
    rw [e] at h
    obtain ⟨fi, la, rfl⟩ := h.one
    have hn : namedSel p.context none fi la (p.grand = some "thead".toList) none = none := by
      rw [namedSel]
      · rw [hp fi la]
      · simp
    rw [inferTree]
    simp only [hn, Option.bind_none, Bool.false_or]
    have := Core.unnamed (f := none) (fmt := true) (a := []) (b := []) (by simp [AllSpaces]) (by simp [AllSpaces])
      (Core.fenced (xml := xml) (src := src) (r := ⟨x, y⟩) (e := decide (k = .escaped)) ht hb hu h1 h2)
    exact this

/-- The heads of a code block with its tags. -/
theorem code_tree {a b x y : Nat} {kids : List Node} (h1 : specialTagName c .codeBlockContainer ≠ []) (h2 : specialTagName c .code ≠ []) :
    forestOf src (specialNodes c [element [] (.multiline .code) ⟨a, b⟩ ⟨x, y⟩ kids]) =
      [.elem none false true (some (some (specialTagName c .codeBlockContainer), []))
        [.elem none false true (some (some (specialTagName c .code), [])) (forestOf src (specialNodes c kids))]] := by
  have e1 : (TextSlice.provided (specialTagName c .codeBlockContainer)).isEmpty = false := by
    cases h : specialTagName c .codeBlockContainer with
    | nil => exact absurd h h1
    | cons => rfl
  have e2 : (TextSlice.provided (specialTagName c .code)).isEmpty = false := by
    cases h : specialTagName c .code with
    | nil => exact absurd h h2
    | cons => rfl
  rw [specialNodes, element, specialNode, specialHead]
  dsimp only
  rw [EHead.applyTags]
  simp only [List.filter_cons, e1, e2, Bool.not_false, if_true, List.filter_nil]
  rw [specialNodes, forestOf, treeOf, forestOf]
  rfl

/-- The name of a code block. -/
theorem code_name {a b x y : Nat} {kids : List Node} (h1 : specialTagName c .codeBlockContainer ≠ []) :
    firstName src (specialNode c (element [] (.multiline .code) ⟨a, b⟩ ⟨x, y⟩ kids)) = some (specialTagName c .codeBlockContainer) := by
  have e1 : (TextSlice.provided (specialTagName c .codeBlockContainer)).isEmpty = false := by
    cases h : specialTagName c .codeBlockContainer with
    | nil => exact absurd h h1
    | cons => rfl
  rw [element, specialNode, specialHead]
  dsimp only
  rw [EHead.applyTags]
  simp only [List.filter_cons, e1, Bool.not_false, if_true]
  rfl

theorem RowSem.code {p : Spot} {sp : Option Range} {a b x y : Nat} {body : Str} (hc : c.emphasis = c.codeBlockContainer)
    (ht : Trimmed (Range.slice ⟨x, y⟩ src) body) (hb : body ≠ []) (hn1 : SafeName (configuredTag c .codeBlockContainer))
    (hn2 : SafeName (configuredTag c .code)) (hh1 : Holds (configuredTag c .codeBlockContainer) [.text body])
    (hh2 : Holds (configuredTag c .code) [.text body]) :
    RowSem xml src c p false true [.mk sp a b (.multiline .code x y)]
      [.elem (configuredTag c .codeBlockContainer) [] [.elem (configuredTag c .code) [] [.text body]]] := by
  refine ⟨by simp, starts_fenced, items_fenced trivial, fun out rest hl => ?_, fun _ out rest hl => ?mark⟩
  case mark =>
    obtain ⟨rfl, rfl⟩ := lineIs_fenced hl
    refine ⟨_, _, _, _, rfl, rfl, ?_⟩
    have e1 : specialTagName c .codeBlockContainer = configuredTag c .codeBlockContainer := by
      rw [specialTagName, configuredTag, hc]
    exact code_name (by rw [e1]; obtain ⟨x, s, h, _⟩ := hn1; rw [h]; simp) |>.trans (by rw [e1])
  obtain ⟨rfl, rfl⟩ := lineIs_fenced hl
  refine ⟨rfl, _, by simp, rfl, rfl, ⟨?_, by simp, fun _ => ⟨_, rfl, rfl, ?_⟩⟩, fun ts h => ?_⟩
  · intro n hn
    simp only [List.mem_singleton] at hn
    subst hn
    exact id
  · trivial
  · have e1 : specialTagName c .codeBlockContainer = configuredTag c .codeBlockContainer := by
      rw [specialTagName, configuredTag, hc]
    have e2 : specialTagName c .code = configuredTag c .code := rfl
    have ne : ∀ {n : Str}, SafeName n → n ≠ [] := fun ⟨x, s, h, _⟩ => by rw [h]; simp
    rw [code_tree (by rw [e1]; exact ne hn1) (by rw [e2]; exact ne hn2), e1, e2] at h
    refine core_named hn1 attrs_nil (fun fi la => rfl) ⟨hh1.1, hh1.2.1, fun _ => hh1.2.2 (by simp)⟩ (fun ts ht' => ?_) h
    have := core_named (xml := xml) (src := src) hn2 attrs_nil (fun fi la => rfl) hh2 (fun ts ht' => ?_) ht'
    · have := this.body (a := []) (b := []) (by simp [AllSpaces]) (by simp [AllSpaces])
      simpa using this
    · rw [specialNodes, specialNode, specialNodes, forestOf, treeOf, forestOf] at ht'
      obtain ⟨fi, la, rfl⟩ := ht'.one
      rw [inferTree]
      exact Body.fenced ht hb

/-! ## Lines -/

/-- Rows, one in each line, stand for the pieces; `f`: all are flat; `v`: something in the first one is visible. -/
inductive Rows (xml : Bool) (src : Str) (c : SpecialTagConfig) (p : Spot) : Bool → Bool → List Ast.Line → List Piece → Prop
  | one {f v a nodes b m} : RowSem xml src c p f v nodes m → Rows xml src c p f v [.mk a nodes b] m
  | more {f f' v v' a nodes b m lines m'} : RowSem xml src c p f v nodes m → Rows xml src c p f' v' lines m' →
      Rows xml src c p (f && f') v (.mk a nodes b :: lines) (m ++ .gap [' '] :: m')

/-- Empty lines. -/
def Empty (lines : List Ast.Line) : Prop := ∀ l ∈ lines, ∃ a b, l = .mk a [] b

theorem RowSem.lineOk {p : Spot} {f v : Bool} {nodes : List Ast.Node} {m : List Piece} (h : RowSem xml src c p f v nodes m) : LineOk (itemsOf src nodes) := by
  obtain ⟨v, h1, h2⟩ := h.items
  exact ⟨[], v, h1, h2⟩

theorem linesOk_append {a b : List Ast.Line} : LinesOk src (a ++ b) ↔ LinesOk src a ∧ LinesOk src b := by
  induction a with
  | nil => simp [LinesOk]
  | cons l a ih => cases l; simp [LinesOk, ih, and_assoc]

theorem linesOk_empty {lines : List Ast.Line} (h : Empty lines) : LinesOk src lines := by
  induction lines with
  | nil => trivial
  | cons l ls ih =>
    obtain ⟨a, b, rfl⟩ := h l (by simp)
    exact ⟨⟨[], [], .nil, .inl (by simp)⟩, ih fun l hl => h l (by simp [hl])⟩

theorem Rows.ok {p : Spot} {f v : Bool} {lines : List Ast.Line} {m : List Piece} (h : Rows xml src c p f v lines m) : LinesOk src lines := by
  induction h with
  | one h => exact ⟨h.lineOk, trivial⟩
  | more h _ ih => exact ⟨h.lineOk, ih⟩

theorem linesAre_append {a b : List Ast.Line} {ls : List SrcLine} (h : LinesAre src (a ++ b) ls) :
    ∃ la lb, ls = la ++ lb ∧ LinesAre src a la ∧ LinesAre src b lb := by
  induction a generalizing ls with
  | nil => exact ⟨[], ls, rfl, .nil, h⟩
  | cons l a ih =>
    rw [List.cons_append] at h
    cases h with
    | blank h => obtain ⟨la, lb, rfl, h1, h2⟩ := ih h; exact ⟨_ :: la, lb, rfl, .blank h1, h2⟩
    | line h0 h => obtain ⟨la, lb, rfl, h1, h2⟩ := ih h; exact ⟨_ :: la, lb, rfl, .line h0 h1, h2⟩

theorem spaceIs_end {s : Space} (h : s = .lineEnd ∨ s = .paragraphEnd) : SpaceIs src s [' '] := by
  refine ⟨by simp, fun ind hi l => ?_⟩
  by_cases hb : ind = none ∨ l.inline = true
  · exact ⟨[' '], .unbroken h hb, _root_.id, by simp, fun _ => rfl⟩
  · simp only [not_or, Bool.not_eq_true] at hb
    obtain ⟨i, rfl⟩ := Option.ne_none_iff_exists'.1 hb.1
    exact ⟨_, .broken h rfl hb.2, fun _ => break_blank (hi i rfl) _, by simp, by simp⟩

theorem spaceIs_paragraph : SpaceIs src .paragraphEnd [' '] := spaceIs_end (.inr rfl)
theorem spaceIs_line : SpaceIs src .lineEnd [' '] := spaceIs_end (.inl rfl)

/-- Blank lines. -/
theorem layout_empty {ps before : Bool} {e : Nat} {lines : List Ast.Line} {ls : List SrcLine} {ns : List Node} (he : Empty lines)
    (hl : LinesAre src lines ls) (h : Layout ps before e ls ns) : NSpaces ns := by
  induction lines generalizing e ls ns with
  | nil =>
    cases hl
    generalize hx : ([] : List SrcLine) = x at h
    cases h with
    | nil => simp [NSpaces]
    | _ => simp at hx
  | cons l lines ih =>
    obtain ⟨a, b, rfl⟩ := he l (by simp)
    cases hl with
    | blank hl =>
      cases h with
      | blank h =>
        have := ih (fun l hl => he l (by simp [hl])) hl h
        intro n hn
        rcases List.mem_cons.1 hn with rfl | hn
        · exact ⟨_, _, rfl⟩
        · exact this n hn

theorem last_flat {nodes : List Node} {last : Node} (h : ∀ n ∈ nodes ++ [last], ¬ Continues n) : ¬ Continues last := h last (by simp)

/-- A line of inline items where there are no paragraphs. -/
theorem layout_row {before : Bool} {e a b : Nat} {out ns : List Node} {ls : List SrcLine} (hne : out ≠ [])
    (hf : ∀ n ∈ out, ¬ Continues n) (h : Layout false before e (.line a b out :: ls) ns) :
    ∃ ns', ns = (if before then [paragraphSep e a] else []) ++ out ++ ns' ∧ Layout false (before || out.any Node.isVisible) b ls ns' := by
  cases h with
  | empty => exact absurd rfl hne
  | paragraph h => exact absurd h (by simp)
  | continued _ h => exact absurd h (last_flat hf)
  | other h1 h2 h3 => exact ⟨_, by simp, h3⟩

theorem visible_space (sp : Option Range) (core : List Node) : (spaceBefore sp ++ core).any Node.isVisible = core.any Node.isVisible := by
  cases sp <;> simp [spaceBefore, Node.isVisible]

theorem flat_row {sp : Option Range} {core : List Node} (h : ∀ n ∈ core, Flat n) : ∀ n ∈ spaceBefore sp ++ core, Flat n := by
  intro n hn
  rcases List.mem_append.1 hn with hn | hn
  · exact flat_space n hn
  · exact h n hn

theorem level_row {f : Bool} {sp : Option Range} {core : List Node} (h : Level f core) : ∀ n ∈ spaceBefore sp ++ core, ¬ Continues n := by
  intro n hn
  rcases List.mem_append.1 hn with hn | hn
  · exact (flat_space n hn).2
  · exact h.1 n hn

/-- Rows followed by empty lines, where there are no paragraphs. -/
theorem layout_rows {p : Spot} {f v : Bool} {rows blanks : List Ast.Line} {m : List Piece} (h : Rows xml src c p f v rows m) (hb : Empty blanks) :
    ∀ {before : Bool} {e : Nat} {ls : List SrcLine} {ns : List Node}, before = true ∨ v = true → LinesAre src (rows ++ blanks) ls → Layout false before e ls ns →
      ∃ a sp k b, ns = (if before then [.text a (.space .paragraphEnd)] else []) ++ sp ++ k ++ b ∧ NSpaces sp ∧ NSpaces b ∧ NSem xml src c p k m := by
  induction h with
  | @one f v a nodes b m hr =>
    intro before e ls ns hv hl h
    rw [List.cons_append, List.nil_append] at hl
    cases hl with
    | blank => exact absurd rfl hr.ne
    | @line _ _ n nodes _ _ _ _ hl hl' =>
      obtain ⟨rfl, core, h6, rfl, h7, h8, h9⟩ := hr.means _ _ hl
      obtain ⟨ns', rfl, h10⟩ := layout_row (by simp [h6]) (level_row h8) h
      exact ⟨⟨e, a⟩, spaceBefore (headSpace (n :: nodes)), core, ns', by cases before <;> simp [paragraphSep], .before _, layout_empty hb hl' h10, h9⟩
  | @more f f' v v' a nodes b m lines m' hr _ ih =>
    intro before e ls ns hv hl h
    rw [List.cons_append] at hl
    cases hl with
    | blank => exact absurd rfl hr.ne
    | @line _ _ n nodes _ _ _ _ hl hl' =>
      obtain ⟨rfl, core, h6, rfl, h7, h8, h9⟩ := hr.means _ _ hl
      obtain ⟨ns', rfl, h10⟩ := layout_row (by simp [h6]) (level_row h8) h
      have hb' : (before || (spaceBefore (headSpace (n :: nodes)) ++ core).any Node.isVisible) = true := by
        rw [visible_space, h7]
        rcases hv with rfl | rfl <;> simp
      rw [hb'] at h10
      obtain ⟨r, sp, k, b', rfl, h11, h12, h13⟩ := ih (.inl rfl) hl' h10
      refine ⟨⟨e, a⟩, spaceBefore (headSpace (n :: nodes)), core ++ (.text r (.space .paragraphEnd) :: sp) ++ k, b', ?_, .before _, h12, ?_⟩
      · cases before <;> simp [paragraphSep]
      · exact h9.gap h13 spaceIs_paragraph blank_sep h11

theorem content_rows {p : Spot} {f : Bool} {rows blanks : List Ast.Line} {m : List Piece} {start : Nat} {ns : List Node} (h : Rows xml src c p f true rows m)
    (hb : Empty blanks) (hc : ContentIs src false start (rows ++ blanks) ns) :
    ∃ sp k b, ns = sp ++ k ++ b ∧ NSpaces sp ∧ NSpaces b ∧ NSem xml src c p k m := by
  cases hc with
  | mk hl h' =>
    obtain ⟨a, sp, k, b, rfl, h1, h2, h3⟩ := layout_rows h hb (.inr rfl) hl h'
    exact ⟨sp, k, b, by simp, h1, h2, h3⟩

theorem ItemSem.special {p : Spot} {g : Bool} {f : Ast.SpecialForm} {o : Range} {a b : Nat} {r : Range} {rows blanks : List Ast.Line} {m : List Piece}
    (hn : SafeName (configuredTag c (formKind f))) (hh : Holds (configuredTag c (formKind f)) m)
    (hr : Rows xml src c (p.inside (some (configuredTag c (formKind f))) none) g true rows m) (hb : Empty blanks) :
    ItemSem xml src c p .element (.special f o (.mk a (rows ++ blanks) b) (some r)) [.elem (configuredTag c (formKind f)) [] m] := by
  have hk : formKind f ≠ .codeBlockContainer := by cases f <;> simp [formKind]
  refine ⟨rfl, ⟨rfl, linesOk_append.2 ⟨hr.ok, linesOk_empty hb⟩⟩, fun rg ns hi => ?_⟩
  cases hi with
  | special h1 =>
    refine ⟨_, rfl, rfl, id, id, fun ts ht => ?_⟩
    obtain ⟨sp, k, b, rfl, h2, h3, h4⟩ := content_rows hr hb h1
    rw [← tag_configured hk] at hn hh h4 ⊢
    obtain ⟨fmt, he⟩ := special_tree (src := src) (c := c) (kind := formKind f) (rg := rg) (rg' := ⟨a, _⟩)
      (kids := sp ++ k ++ b) (by obtain ⟨x, s, h, _⟩ := hn; rw [h]; simp)
    rw [he] at ht
    refine core_named hn attrs_nil (fun fi la => rfl) hh ?_ ht
    intro ts ht
    obtain ⟨a', k', b', rfl, h5, h6, h7⟩ := h4.body h2 h3 ht
    exact h7.body h5 h6

end Mty.Write
