import Verif.Proofs.WriteParse
import Verif.Proofs.Page
import Verif.Spec.WrittenPage

/-!
# Pages for written documents
-/

set_option autoImplicit false

namespace Mty.Write
open Spec Grammar

variable {xml : Bool} {src : Str} {c : SpecialTagConfig}

/-! ## White space -/

/-- Begins and ends with something else than white space. -/
def Tight (m : List Piece) : Prop := m ≠ [] ∧ (∀ x, m.head? = some x → isGap x = false) ∧ ∀ x, m.getLast? = some x → isGap x = false

theorem joinGaps_append {a b : List Piece} (ha : a ≠ []) (hl : ∀ x, a.getLast? = some x → isGap x = false) :
    ∀ g, joinGaps g (a ++ b) = joinGaps g a ++ joinGaps false b := by
  induction a with
  | nil => exact absurd rfl ha
  | cons x a ih =>
    intro g
    cases a with
    | nil =>
      have : isGap x = false := hl x rfl
      simp [joinGaps, this]
    | cons y a =>
      have ih := ih (by simp) (fun z hz => hl z (by simpa using hz))
      rw [List.cons_append, joinGaps, joinGaps]
      split
      · exact ih true
      · rw [ih, List.cons_append]

theorem joinGaps_tight {m : List Piece} (h : ∀ x, m.head? = some x → isGap x = false) (g : Bool) : joinGaps g m = joinGaps false m := by
  cases m with
  | nil => rfl
  | cons x m =>
    have : isGap x = false := h x rfl
    simp [joinGaps, this]

theorem joinGaps_gaps {g m : List Piece} (hg : ∀ x ∈ g, isGap x = true) (h : ∀ x, m.head? = some x → isGap x = false) :
    joinGaps true (g ++ m) = joinGaps false m := by
  induction g with
  | nil => exact joinGaps_tight h true
  | cons x g ih =>
    have h1 : isGap x = true := hg x (by simp)
    rw [List.cons_append, joinGaps]
    simp only [h1, Bool.and_self, if_true]
    exact ih fun x hx => hg x (by simp [hx])

theorem joinGaps_gap {w : Str} {g m : List Piece} (hg : ∀ x ∈ g, isGap x = true) (h : ∀ x, m.head? = some x → isGap x = false) :
    joinGaps false (.gap w :: (g ++ m)) = .gap w :: joinGaps false m := by
  rw [joinGaps]
  simp only [isGap, Bool.false_and, Bool.false_eq_true, if_false]
  rw [joinGaps_gaps hg h]

theorem dropWhile_gaps {g m : List Piece} (hg : ∀ x ∈ g, isGap x = true) : (g ++ m).dropWhile isGap = m.dropWhile isGap := by
  induction g with
  | nil => rfl
  | cons x g ih =>
    rw [List.cons_append, List.dropWhile_cons_of_pos (hg x (by simp)), ih fun x hx => hg x (by simp [hx])]

theorem dropWhile_tight {m : List Piece} (h : ∀ x, m.head? = some x → isGap x = false) : m.dropWhile isGap = m := by
  cases m with
  | nil => rfl
  | cons x m => rw [List.dropWhile_cons_of_neg (by simp [h x rfl])]

theorem trimGaps_tight {g m g' : List Piece} (hg : ∀ x ∈ g, isGap x = true) (hg' : ∀ x ∈ g', isGap x = true) (h : Tight m) :
    trimGaps (g ++ m ++ g') = m := by
  obtain ⟨x, m', rfl⟩ := List.exists_cons_of_ne_nil h.1
  rw [trimGaps, List.append_assoc, dropWhile_gaps hg, List.cons_append, dropWhile_tight (m := x :: (m' ++ g')) (fun y hy => h.2.1 y (by simpa using hy)),
    ← List.cons_append, List.reverse_append, dropWhile_gaps (by simpa using hg'), dropWhile_tight, List.reverse_reverse]
  intro y hy
  rw [List.head?_reverse] at hy
  exact h.2.2 y hy

theorem trimGaps_gaps {g : List Piece} (hg : ∀ x ∈ g, isGap x = true) : trimGaps g = [] := by
  have := dropWhile_gaps (m := []) hg
  rw [List.append_nil] at this
  rw [trimGaps, this]
  rfl

theorem Tight.elem {name : Str} {ps : List Spec.Part} {m : List Piece} : Tight [.elem name ps m] :=
  ⟨by simp, by rintro x ⟨⟩; rfl, by rintro x ⟨⟩; rfl⟩

theorem commentRow_tight {m : List Piece} (h : CommentRow m) :
    Tight m ∧ joinGaps false m = m ∧ ∀ names, ∀ x ∈ m, isElement names x = false := by
  induction h with
  | one => exact ⟨⟨by simp, by rintro x ⟨⟩; rfl, by rintro x ⟨⟩; rfl⟩, rfl, by simp [isElement]⟩
  | @more s w m _ ih =>
    obtain ⟨⟨h1, h2, h3⟩, h4, h5⟩ := ih
    obtain ⟨y, hy⟩ : ∃ y, m.getLast? = some y := by
      cases h : m.getLast? with
      | none => exact absurd (List.getLast?_eq_none_iff.1 h) h1
      | some y => exact ⟨y, rfl⟩
    refine ⟨⟨by simp, by rintro x ⟨⟩; rfl, fun x hx => h3 x ?_⟩, ?_, ?_⟩
    · rw [List.getLast?_append, hy] at hx
      rw [hy]
      simpa using hx
    · rw [List.append_assoc, joinGaps_append (by simp) (by rintro x ⟨⟩; rfl)]
      unfold gapPieces
      split
      · simp [h4, joinGaps, isGap]
      · rw [List.singleton_append, show Piece.gap w :: m = .gap w :: ([] ++ m) from rfl, joinGaps_gap (by simp) h2, h4]
        rfl
    · intro names x hx
      rcases List.mem_append.1 hx with hx | hx
      · unfold gapPieces at hx
        split at hx
        · simp at hx; subst hx; rfl
        · simp at hx; rcases hx with rfl | rfl <;> rfl
      · exact h5 names x hx

/-! ## Names -/

theorem isNamed_first (names : List String) (n : Node) :
    isNamed src names n = match firstName src n with
      | some t => names.any fun m => t.map Char.toLower = m.toList
      | none => false := by
  cases n with
  | text => rfl
  | elem r h ch =>
    simp only [isNamed, firstName]
    cases h.selectors.head?.bind fun s => s.tag.name <;> rfl

theorem invisible_name {n : Node} (h : n.isVisible = false) : firstName src (specialNode c n) = none := by
  cases n with
  | text => rfl
  | elem => cases h

/-- Names given by the tables at top level are not those of the parts of a page. -/
theorem top_names {f : Form} {name : Str} (h : HasName .top (some f) none name) :
    ["html", "head", "body", "base", "link", "meta", "title", "style"].any (fun m => name.map Char.toLower = m.toList) = false := by
  obtain ⟨n, h1, h2, rfl⟩ := h
  have h3 := h2 false false
  cases f <;> (cases h3; decide)

theorem any_sub {t : Str} {a b : List String} (h : a ⊆ b) (hb : (b.any fun m => t.map Char.toLower = m.toList) = false) :
    (a.any fun m => t.map Char.toLower = m.toList) = false := by
  rw [List.any_eq_false] at hb ⊢
  exact fun m hm => hb m (h hm)

/-! ## The nodes at top level and the pieces -/

/-- The nodes at top level and the pieces that they stand for. -/
inductive Aligned (xml : Bool) (src : Str) (c : SpecialTagConfig) : List Node → List Piece → Prop
  | nil : Aligned xml src c [] []
  | elem {n name ps m' ns m} : NSem xml src c .top [n] [.elem name ps m'] →
      (firstName src (specialNode c n) = some name ∨ (firstName src (specialNode c n) = none ∧ ∃ f, HasName .top (some f) none name)) →
      Aligned xml src c ns m → Aligned xml src c (n :: ns) (.elem name ps m' :: m)
  | comments {blk ms ns m} : CommentRow ms → (∀ n ∈ blk, n.isVisible = false) → NSem xml src c .top blk ms →
      Aligned xml src c ns m → Aligned xml src c (blk ++ ns) (ms ++ m)
  | gap {r tl ns m} : NSpaces tl → Aligned xml src c ns m →
      Aligned xml src c (.text r (.space .paragraphEnd) :: tl ++ ns) (.gap [' '] :: m)

theorem Aligned.append {a b : List Node} {m m' : List Piece} (h : Aligned xml src c a m) (h' : Aligned xml src c b m') :
    Aligned xml src c (a ++ b) (m ++ m') := by
  induction h with
  | nil => exact h'
  | elem h1 h2 _ ih => exact .elem h1 h2 ih
  | comments h1 h2 h3 _ ih => rw [List.append_assoc, List.append_assoc]; exact .comments h1 h2 h3 ih
  | gap h1 _ ih => rw [List.append_assoc]; exact .gap h1 ih

theorem Aligned.unit {blk : List Node} {m : List Piece} (h : NSem xml src c .top blk m) (hm : UnitMark src c .top blk m) : Aligned xml src c blk m := by
  rcases hm with ⟨n, name, ps, m', rfl, rfl, h1⟩ | ⟨h1, h2⟩ | h1
  · exact .elem h h1 .nil
  · have := Aligned.comments h1 h2 h .nil
    rwa [List.append_nil, List.append_nil] at this
  · exact absurd (h1 false false) (by decide)

theorem layout_aligned {v : Bool} {k : BlockKind} {lines : List Ast.Line} {m : List Piece} {p : Spot} (hp : p = .top) (hb : Blocks xml src c p v k lines m) :
    ∀ {e : Nat} {ls : List SrcLine} {ns : List Node}, LinesAre src lines ls → Spec.Layout true v e ls ns →
      ∃ a k b, ns = (if v then [.text a (.space .paragraphEnd)] else []) ++ k ++ b ∧ NSpaces b ∧ Aligned xml src c k m := by
  subst hp
  induction hb with
  | one hu he =>
    intro e ls ns hl h
    obtain ⟨la, lb, rfl, h1, h2⟩ := linesAre_append hl
    obtain ⟨a, blk, e', out, rfl, h4, h5, hm⟩ := layout_unit hu h1 (fun _ _ => by
      simpa using ends_empty (rest := []) he h2 (fun _ => trivial)) h
    exact ⟨a, blk, out, rfl, layout_empty he h2 h5, .unit h4 hm⟩
  | @more v k k' lines blanks lines' m m' hu he hk hb ih =>
    intro e ls ns hl h
    obtain ⟨la, lb, rfl, h1, h2⟩ := linesAre_append hl
    obtain ⟨lb, lc, rfl, h2, h2'⟩ := linesAre_append h2
    obtain ⟨a, blk, e', out, rfl, h4, h5, hm⟩ := layout_unit hu h1 (fun hk' hk'' => by
      refine ends_empty he h2 fun hn => blocks_first hb h2' (fun hp => hk (.inl hp) hk' hk'' hn) (fun hp => hk (.inr hp) hk' hk'' hn)) h
    have h4 := Aligned.unit h4 hm
    obtain ⟨sp1, e2, out2, rfl, h6, h7, h6'⟩ := layout_blanks he h2 h5
    obtain ⟨a2, k2, b2, rfl, h9, h10⟩ := ih h2' h7
    generalize (v || k ≠ .comment) = v' at *
    by_cases hg : v' = true ∨ 2 ≤ blanks.length + 1
    · have key : ∃ r tl, sp1 ++ (if v' then [.text a2 (.space .paragraphEnd)] else []) = .text r (.space .paragraphEnd) :: tl ∧ NSpaces tl := by
        cases sp1 with
        | nil =>
          rcases hg with hg | hg
          · rw [hg]; exact ⟨_, _, rfl, by simp [NSpaces]⟩
          · simp at h6'; omega
        | cons x sp1 =>
          obtain ⟨r, rfl⟩ := h6 x (by simp)
          refine ⟨r, sp1 ++ (if v' then [.text a2 (.space .paragraphEnd)] else []), by simp, ?_⟩
          intro n hn
          rcases List.mem_append.1 hn with hn | hn
          · obtain ⟨r, rfl⟩ := h6 n (by simp [hn]); exact ⟨_, _, rfl⟩
          · cases v' <;> simp at hn; exact ⟨_, _, hn⟩
      obtain ⟨r, tl, h11, h12⟩ := key
      refine ⟨a, blk ++ (.text r (.space .paragraphEnd) :: tl ++ k2), b2, ?_, h9, ?_⟩
      · rw [← h11]
        simp
      · rw [between, if_pos hg, List.append_assoc]
        exact h4.append (.gap h12 h10)
    · rw [between, if_neg hg]
      simp only [not_or, Bool.not_eq_true] at hg
      obtain ⟨rfl, hg⟩ := hg
      have : sp1 = [] := List.length_eq_zero_iff.1 (by omega)
      subst this
      exact ⟨a, blk ++ k2, b2, by simp, h9, by simpa using h4.append h10⟩

theorem content_aligned {k : BlockKind} {lines : List Ast.Line} {m : List Piece} {start : Nat} {ns : List Node}
    (h : Blocks xml src c .top false k lines m) (hc : ContentIs src true start lines ns) :
    ∃ k b, ns = k ++ b ∧ NSpaces b ∧ Aligned xml src c k m := by
  cases hc with
  | mk hl h' =>
    obtain ⟨a, k, b, rfl, h2, h3⟩ := layout_aligned rfl h hl h'
    exact ⟨k, b, by simp, h2, h3⟩

/-! ## Head and body -/

/-- Elements for the head. -/
def inHead (src : Str) (c : SpecialTagConfig) (n : Node) : Bool := isNamed src headContentNames (specialNode c n)

/-- What is for the head. -/
def HeadSem (xml : Bool) (src : Str) (c : SpecialTagConfig) (hs : List Node) (l : List Piece) : Prop :=
  (hs = [] ∧ l = []) ∨ (l ≠ [] ∧ ∀ p : Spot, p.parent ≠ some "thead".toList → NSem xml src c p hs l)

/-- What is for the body. -/
structure BodySem (xml : Bool) (src : Str) (c : SpecialTagConfig) (g f g' : List Piece) (sp k sp' : List Node) : Prop where
  before : ∀ x ∈ g, isGap x = true
  after : ∀ x ∈ g', isGap x = true
  spaces : NSpaces sp
  spaces' : NSpaces sp'
  first : (g = [] ∧ sp = []) ∨ ∃ r tl gs, sp = .text r (.space .paragraphEnd) :: tl ∧ g = .gap [' '] :: gs
  core : (f = [] ∧ k = []) ∨ (Tight f ∧ NSem xml src c .top k (joinGaps false f))

theorem BodySem.add {g f g' : List Piece} {sp k sp' blk : List Node} {ms : List Piece} (h : BodySem xml src c g f g' sp k sp')
    (ht : Tight ms) (hj : joinGaps false ms = ms) (hs : NSem xml src c .top blk ms) :
    ∃ f2 g2 k2 sp2, ms ++ (g ++ f ++ g') = [] ++ f2 ++ g2 ∧ blk ++ (sp ++ k ++ sp') = [] ++ k2 ++ sp2 ∧ BodySem xml src c [] f2 g2 [] k2 sp2 := by
  rcases h.core with ⟨rfl, rfl⟩ | ⟨h1, h2⟩
  · refine ⟨ms, g ++ g', blk, sp ++ sp', by simp, by simp, by simp, ?_, by simp [NSpaces], h.spaces.append h.spaces', .inl ⟨rfl, rfl⟩, .inr ⟨ht, by rw [hj]; exact hs⟩⟩
    intro x hx
    rcases List.mem_append.1 hx with hx | hx
    · exact h.before x hx
    · exact h.after x hx
  · obtain ⟨y, hy⟩ : ∃ y, f.getLast? = some y := by
      cases h : f.getLast? with
      | none => exact absurd (List.getLast?_eq_none_iff.1 h) h1.1
      | some y => exact ⟨y, rfl⟩
    obtain ⟨z, ms', hz⟩ := List.exists_cons_of_ne_nil ht.1
    have tight : ∀ q, Tight (ms ++ (q ++ f)) := fun q => by
      refine ⟨by simp [ht.1], fun x hx => ht.2.1 x ?_, fun x hx => h1.2.2 x ?_⟩
      · rw [hz] at hx ⊢; simpa using hx
      · rw [List.getLast?_append, List.getLast?_append, hy] at hx
        rw [hy]; simpa using hx
    rcases h.first with ⟨rfl, rfl⟩ | ⟨r, tl, gs, rfl, rfl⟩
    · refine ⟨ms ++ ([] ++ f), g', blk ++ k, sp', by simp, by simp, by simp, h.after, by simp [NSpaces], h.spaces', .inl ⟨rfl, rfl⟩, .inr ⟨tight _, ?_⟩⟩
      rw [joinGaps_append ht.1 ht.2.2, hj, List.nil_append]
      exact hs.append h2
    · refine ⟨ms ++ (.gap [' '] :: gs ++ f), g', blk ++ (.text r (.space .paragraphEnd) :: tl) ++ k, sp', by simp, by simp, by simp, h.after, by simp [NSpaces], h.spaces', .inl ⟨rfl, rfl⟩, .inr ⟨tight _, ?_⟩⟩
      rw [joinGaps_append ht.1 ht.2.2, hj, List.cons_append, joinGaps_gap (fun x hx => h.before x (by simp [hx])) h1.2.1]
      exact hs.gap h2 spaceIs_paragraph blank_sep (fun n hn => h.spaces n (by simp [hn]))

/-- An element with a name may be anywhere. -/
theorem named_anywhere {n : Node} {name : Str} {ps : List Spec.Part} {m : List Piece} (h : NSem xml src c .top [n] [.elem name ps m])
    (hn : firstName src (specialNode c n) = some name) (p : Spot) (hp : p.parent ≠ some "thead".toList) :
    NSem xml src c p [n] [.elem name ps m] := by
  intro ts ht
  refine h ts ?_
  rw [specialNodes, specialNodes, forestOf, forestOf] at ht ⊢
  generalize specialNode c n = x at hn ht
  cases x with
  | text => cases hn
  | elem r hd ch =>
    rw [treeOf] at ht ⊢
    obtain ⟨fmt, kids, he⟩ := chainTree_shape src hd hd.selectors (forestOf src ch)
    rw [firstName] at hn
    rcases hs : hd.selectors.head? with _ | s
    · rw [hs] at hn; cases hn
    · rw [hs] at hn
      rw [he, hs] at ht ⊢
      have hsel : Option.map (selOf src) (some s) = some (some name, s.items) := by
        simp only [Option.bind_some] at hn
        simp only [Option.map_some, selOf, hn]
      rw [hsel] at ht ⊢
      obtain ⟨fi, la, rfl⟩ := ht.one
      refine .cons ⟨fi, la, ?_⟩ .nil
      rw [inferTree, inferTree]
      simp only [namedSel, Option.bind_some]
      rw [inferForest_place kids _ (some name) p.parent (some name) Spot.top.parent true Iff.rfl ⟨fun h => absurd h hp, fun h => absurd h (by decide)⟩]
      rfl

theorem aligned_split {ns : List Node} {m : List Piece} (h : Aligned xml src c ns m) (hm : ∀ x ∈ m, isElement ["html", "head", "body"] x = false) :
    (∀ n ∈ ns, isNamed src ["html", "head", "body"] (specialNode c n) = false) ∧
    HeadSem xml src c (ns.filter (inHead src c)) (headPieces m) ∧
    ∃ g f g' sp k sp', m.filter (fun x => !isElement headContentNames x) = g ++ f ++ g' ∧
      ns.filter (fun n => !inHead src c n) = sp ++ k ++ sp' ∧ BodySem xml src c g f g' sp k sp' := by
  induction h with
  | nil => exact ⟨by simp, .inl ⟨rfl, rfl⟩, [], [], [], [], [], [], rfl, rfl, by simp, by simp, by simp [NSpaces], by simp [NSpaces], .inl ⟨rfl, rfl⟩, .inl ⟨rfl, rfl⟩⟩
  | @elem n name ps m' ns m h1 h2 _ ih =>
    obtain ⟨i1, i2, g, f, g', sp, k, sp', i3, i4, i5⟩ := ih fun x hx => hm x (by simp [hx])
    have hpage : isNamed src ["html", "head", "body"] (specialNode c n) = false := by
      rw [isNamed_first]
      rcases h2 with h2 | ⟨h2, -⟩ <;> rw [h2]
      exact hm (.elem name ps m') (by simp)
    have hhead : inHead src c n = isElement headContentNames (.elem name ps m') := by
      rw [inHead, isNamed_first]
      rcases h2 with h2 | ⟨h2, f, h3⟩ <;> rw [h2]
      · rfl
      · exact (any_sub (by simp [headContentNames]) (top_names h3)).symm
    refine ⟨by simpa using ⟨hpage, i1⟩, ?_⟩
    cases hx : isElement headContentNames (.elem name ps m') with
    | true =>
      rw [hx] at hhead
      rw [headPieces, List.filter_cons_of_pos hhead, List.filter_cons_of_pos (p := isElement headContentNames) hx,
        List.filter_cons_of_neg (by simp [hx]), List.filter_cons_of_neg (by simp [hhead])]
      have h4 : firstName src (specialNode c n) = some name := by
        rcases h2 with h2 | ⟨h2, f, h3⟩
        · exact h2
        · have : isElement headContentNames (.elem name ps m') = false := any_sub (by simp [headContentNames]) (top_names h3)
          rw [this] at hx; cases hx
      refine ⟨.inr ⟨by simp, fun p hp => ?_⟩, g, f, g', sp, k, sp', i3, i4, i5⟩
      have h5 := named_anywhere h1 h4 p hp
      rcases i2 with ⟨h6, h7⟩ | ⟨-, h6⟩
      · rw [headPieces] at h7
        rw [h6, h7]; exact h5
      · exact h5.append (h6 p hp)
    | false =>
      rw [hx] at hhead
      rw [headPieces, List.filter_cons_of_neg (by simp [hhead]), List.filter_cons_of_neg (p := isElement headContentNames) (by simp [hx]),
        List.filter_cons_of_pos (by simp [hx]), List.filter_cons_of_pos (by simp [hhead]), i3, i4]
      obtain ⟨f2, g2, k2, sp2, j1, j2, j3⟩ := i5.add Tight.elem rfl h1
      exact ⟨i2, _, _, _, _, _, _, j1, j2, j3⟩
  | @comments blk ms ns m h1 h2 h3 _ ih =>
    obtain ⟨i1, i2, g, f, g', sp, k, sp', i3, i4, i5⟩ := ih fun x hx => hm x (by simp [hx])
    obtain ⟨ht, hj, hel⟩ := commentRow_tight h1
    have hn : ∀ names, ∀ n ∈ blk, isNamed src names (specialNode c n) = false := fun names n hn => by
      rw [isNamed_first, invisible_name (h2 n hn)]
    refine ⟨?_, ?_, ?_⟩
    · intro n hn'
      rcases List.mem_append.1 hn' with hn' | hn'
      · exact hn _ n hn'
      · exact i1 n hn'
    · rw [headPieces, List.filter_append, List.filter_append, (List.filter_eq_nil_iff (l := blk)).2 (fun n hn' => by simp [inHead, hn _ n hn']),
        (List.filter_eq_nil_iff (l := ms)).2 (fun x hx => by simp [hel _ x hx])]
      exact i2
    · obtain ⟨f2, g2, k2, sp2, j1, j2, j3⟩ := i5.add ht hj h3
      refine ⟨_, _, _, _, _, _, ?_, ?_, j3⟩
      · rw [List.filter_append, i3, List.filter_eq_self.2 (fun x hx => by simp [hel _ x hx]), j1]
      · rw [List.filter_append, i4, List.filter_eq_self.2 (fun n hn' => by simp [inHead, hn _ n hn']), j2]
  | @gap r tl ns m h1 _ ih =>
    obtain ⟨i1, i2, g, f, g', sp, k, sp', i3, i4, i5⟩ := ih fun x hx => hm x (by simp [hx])
    have hsp : NSpaces (.text r (.space .paragraphEnd) :: tl) := by
      intro n hn
      rcases List.mem_cons.1 hn with rfl | hn
      · exact ⟨_, _, rfl⟩
      · exact h1 n hn
    have hn : ∀ names, ∀ n ∈ Node.text r (.space .paragraphEnd) :: tl, isNamed src names (specialNode c n) = false := fun names n hn => by
      rw [isNamed_first, invisible_name (hsp.invisible n hn)]
    refine ⟨?_, ?_, .gap [' '] :: g, f, g', (.text r (.space .paragraphEnd) :: tl) ++ sp, k, sp', ?_, ?_, ?_, i5.after, hsp.append i5.spaces, i5.spaces', .inr ⟨r, tl ++ sp, g, rfl, rfl⟩, i5.core⟩
    · intro n hn'
      rcases List.mem_append.1 hn' with hn' | hn'
      · exact hn _ n hn'
      · exact i1 n hn'
    · rw [List.filter_append, List.filter_eq_nil_iff.2 (fun n hn' => by simp [inHead, hn _ n hn'])]
      exact i2
    · rw [List.filter_cons_of_pos (by rfl), i3]; simp
    · rw [List.filter_append, i4, List.filter_eq_self.2 (fun n hn' => by simp [inHead, hn _ n hn'])]; simp
    · intro x hx
      rcases List.mem_cons.1 hx with rfl | hx
      · rfl
      · exact i5.before x hx

theorem aligned_named {names : List String} (hsub : names ⊆ ["html", "head", "body", "base", "link", "meta", "title", "style"]) {ns : List Node}
    {m : List Piece} (h : Aligned xml src c ns m) (hm : ∃ x ∈ m, isElement names x = true) :
    ∃ n ∈ ns, isNamed src names (specialNode c n) = true := by
  induction h with
  | nil => simp at hm
  | @elem n name ps m' ns m h1 h2 _ ih =>
    obtain ⟨x, hx, hx'⟩ := hm
    rcases List.mem_cons.1 hx with rfl | hx
    · refine ⟨n, by simp, ?_⟩
      rw [isNamed_first]
      rcases h2 with h2 | ⟨h2, f, h3⟩
      · rw [h2]; exact hx'
      · have : isElement names (.elem name ps m') = false := any_sub hsub (top_names h3)
        rw [this] at hx'; cases hx'
    · obtain ⟨n, hn, hn'⟩ := ih ⟨x, hx, hx'⟩
      exact ⟨n, by simp [hn], hn'⟩
  | @comments blk ms ns m h1 _ _ _ ih =>
    obtain ⟨x, hx, hx'⟩ := hm
    rcases List.mem_append.1 hx with hx | hx
    · rw [(commentRow_tight h1).2.2 names x hx] at hx'; cases hx'
    · obtain ⟨n, hn, hn'⟩ := ih ⟨x, hx, hx'⟩
      exact ⟨n, by simp [hn], hn'⟩
  | @gap r tl ns m h1 _ ih =>
    obtain ⟨x, hx, hx'⟩ := hm
    rcases List.mem_cons.1 hx with rfl | hx
    · cases hx'
    · obtain ⟨n, hn, hn'⟩ := ih ⟨x, hx, hx'⟩
      exact ⟨n, by simp [hn], hn'⟩

theorem mem_special {ns : List Node} {n : Node} (h : n ∈ ns) : specialNode c n ∈ specialNodes c ns := by
  induction ns with
  | nil => cases h
  | cons x ns ih =>
    rw [specialNodes]
    rcases List.mem_cons.1 h with rfl | h
    · simp
    · simp [ih h]

theorem headNodes_filter {ns : List Node} (h : ∀ n ∈ ns, isNamed src ["html", "head", "body"] (specialNode c n) = false) :
    headNodes src (specialNodes c ns) = specialNodes c (ns.filter (inHead src c)) ∧
    bodyNodes src (specialNodes c ns) = specialNodes c (ns.filter fun n => !inHead src c n) ∧
    ∀ n ∈ specialNodes c ns, isNamed src ["html", "body"] n = false := by
  have sub : ∀ (a b : List String) n, a ⊆ b → isNamed src b n = false → isNamed src a n = false := by
    intro a b n hab hb
    rw [isNamed_first] at hb ⊢
    cases hf : firstName src n with
    | none => rfl
    | some t => rw [hf] at hb; exact any_sub hab hb
  induction ns with
  | nil => exact ⟨rfl, rfl, by simp [specialNodes]⟩
  | cons n ns ih =>
    obtain ⟨h1, h2, h3⟩ := ih fun n hn => h n (by simp [hn])
    have hh := sub ["head"] _ _ (by simp) (h n (by simp))
    have hb := sub ["html", "body"] _ _ (by simp) (h n (by simp))
    rw [headNodes] at h1
    rw [bodyNodes] at h2
    rw [headNodes, bodyNodes, specialNodes, List.flatMap_cons, hh, h1]
    refine ⟨?_, ?_, by simpa using ⟨hb, h3⟩⟩
    · cases hx : inHead src c n with
      | true =>
        rw [List.filter_cons_of_pos hx, specialNodes]
        rw [inHead] at hx
        simp [hx]
      | false =>
        rw [List.filter_cons_of_neg (by simp [hx])]
        rw [inHead] at hx
        simp [hx]
    · cases hx : inHead src c n with
      | true =>
        rw [List.filter_cons_of_neg (p := fun n => !inHead src c n) (by simp [hx])]
        rw [inHead] at hx
        rw [List.filter_cons_of_neg (by simp [hx]), h2]
      | false =>
        rw [List.filter_cons_of_pos (p := fun n => !inHead src c n) (by simp [hx]), specialNodes]
        rw [inHead] at hx
        rw [List.filter_cons_of_pos (by simp [hx, hh]), h2]

/-! ## The page -/

/-- A page. -/
def fullPage (items : List SelectorItem) (hs ts : List Tree) : Tree :=
  .elem none false false (some (some "html".toList, items)) [plainTree "head" hs, .leaf (.space .paragraphEnd), plainTree "body" ts]

/-- Where the elements of the head are. -/
def headSpot : Spot := ⟨contextInside (some "head".toList) none, some "head".toList, some "html".toList⟩

theorem infer_fullPage (hs ts : List Tree) :
    inferForest .section none none true [fullPage [] hs ts] =
      [fullPage [] (inferForest headSpot.context headSpot.parent headSpot.grand true hs) (inferForest .section none none true ts)] := by
  have h1 : contextInside (some "html".toList) none = .html := by decide
  have h2 : contextInside (some "body".toList) none = .section := by decide
  have h3 : contextInside (some "head".toList) none ≠ .raw := by decide
  have h4 := inferForest_place ts .section (some "body".toList) (some "html".toList) none none true (by decide) (by decide)
  simp only [fullPage, plainTree, inferForest, inferTree, namedSel, Option.bind_some, h1, h2, h3, h4, Bool.false_or, decide_false, headSpot]
  rfl

/-- The language is put on the `html` element. -/
theorem lang_fullPage {l : Str} {nodes : List Node} {hs ts : List Tree} (hn : ∀ n ∈ nodes, SingleSelectors n)
    (h : forestOf src nodes = [fullPage [] hs ts]) : ∃ r, forestOf src (nodes.map (langNode l)) = [fullPage (langItems r (some l)) hs ts] := by
  rcases nodes with _ | ⟨n, _ | ⟨m, ns⟩⟩
  · cases h
  · simp only [forestOf, List.cons.injEq, and_true] at h
    cases n with
    | text r t => cases h
    | elem r hd ch =>
      cases hn (.elem r hd ch) (by simp) with
      | elem hl _ =>
        rw [treeOf] at h
        rcases hsel : hd.selectors with _ | ⟨s, _ | ⟨s', ss⟩⟩
        · rw [hsel, chainTree, fullPage] at h
          injection h with _ _ _ h4
          cases h4
        · rw [hsel] at h
          rw [chainTree, fullPage] at h
          injection h with h1 h2 h3 h4 h5
          simp only [selOf, Option.some.injEq, Prod.mk.injEq] at h4
          obtain ⟨h6, h7⟩ := h4
          have hun : s.uninferred = false := by
            revert h6
            rw [Selector.uninferred, Tag.name.eq_def]
            cases s.tag <;> simp
          refine ⟨⟨s.range.stop, s.range.stop⟩, ?_⟩
          simp only [List.map_cons, List.map_nil, langNode, forestOf, treeOf, hsel, langSelectors, hun, Bool.not_false, if_true, chainTree, selOf,
            h1, h2, h5, h6, h7, fullPage, List.nil_append, langItems]
          show [Tree.elem none false (onOneLine hd) _ _] = _
          rw [h3]
        · rw [hsel] at hl; simp at hl
  · simp [forestOf] at h

theorem attrs_lang {r : Range} {lang : Option Str} (h : ∀ l, lang = some l → '\\' ∉ l) : Attrs xml src (langItems r lang) (langParts lang) := by
  cases lang with
  | none => exact attrs_nil
  | some l =>
    have hu : Unescapes Accepted l l := unescapes_code fun d hd => by rintro rfl; exact h l rfl hd
    have hn : Unescapes Accepted "lang".toList "lang".toList := unescapes_code (by decide)
    have := AttrsRead.mk (xml := xml) (src := src) (items := langItems r (some l)) (id := []) (cls := []) (attrs := [("lang".toList, some l)])
      .nil .nil (.cons ⟨hn, l, rfl, hu⟩ .nil)
    refine ⟨?_, ?_⟩
    · have e : tagAttributes xml (langParts (some l)) = [("lang".toList, some l)] := by cases xml <;> rfl
      rw [e]
      exact this
    · intro n v hv
      simp only [langParts, List.mem_singleton] at hv
      injection hv with hv1 hv2
      rw [hv1]
      exact ⟨by decide, by decide⟩

/-- A page stands for what is in its head and its body. -/
theorem page_core {items : List SelectorItem} {ps : List Spec.Part} {hs ts : List Tree} {mh mb : List Piece} (ha : Attrs xml src items ps)
    (hh : Body xml src hs mh) (hb : Body xml src ts mb) :
    Core xml src [fullPage items hs ts] [.elem "html".toList ps [.elem "head".toList [] mh, .gap [' '], .elem "body".toList [] mb]] := by
  have safe : ∀ n : Str, n = "html".toList ∨ n = "head".toList ∨ n = "body".toList → SafeName n := by
    rintro n (rfl | rfl | rfl) <;> exact ⟨_, _, rfl, by decide, by decide⟩
  have holds : ∀ n : Str, n = "html".toList ∨ n = "head".toList ∨ n = "body".toList → ∀ m, Holds n m := by
    rintro n (rfl | rfl | rfl) m <;> exact ⟨by decide, by decide, fun _ => by decide⟩
  have h1 := Core.elem (f := none) (fmt := false) (safe "head".toList (by simp)) (attrs_nil (xml := xml) (src := src)) hh (holds _ (by simp) _)
  have h2 := Core.elem (f := none) (fmt := false) (safe "body".toList (by simp)) (attrs_nil (xml := xml) (src := src)) hb (holds _ (by simp) _)
  have h3 := h1.gap (sp := []) h2 (spaceIs_paragraph (src := src)) blank_sep (by simp [AllSpaces])
  have h4 := h3.body (a := []) (b := []) (by simp [AllSpaces]) (by simp [AllSpaces])
  rw [List.append_nil, List.nil_append] at h4
  exact Core.elem (f := none) (fmt := false) (safe "html".toList (by simp)) ha h4 (holds _ (by simp) _)

end Mty.Write
