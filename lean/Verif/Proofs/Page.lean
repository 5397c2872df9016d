import Verif.Spec.Page
import Verif.Proofs.WriteOut
import Verif.Props.Infer
import Verif.Props.Paragraphs
import Verif.Props.Transform

/-!
# Pages around documents
-/

set_option autoImplicit false

namespace Mty
open Spec

/-! ## Names do not depend on what is around -/

mutual
  theorem inferTree_place : ∀ (t : Tree) (c : Context) (p g p' g' : Option Str) (fi la : Bool),
      (p = some "thead".toList ↔ p' = some "thead".toList) → (g = some "thead".toList ↔ g' = some "thead".toList) →
      inferTree c p g fi la t = inferTree c p' g' fi la t
    | .leaf t, _, _, _, _, _, _, _, _, _ => by rw [inferTree, inferTree]
    | .elem form raw fmt sel ch, c, p, g, p', g', fi, la, h1, h2 => by
      have hg : decide (g = some "thead".toList) = decide (g' = some "thead".toList) := by simp only [h2]
      rw [inferTree, inferTree]
      simp only [hg]
      rw [inferForest_place ch _ _ p _ p' true Iff.rfl h1]
  theorem inferForest_place : ∀ (ts : List Tree) (c : Context) (p g p' g' : Option Str) (fi : Bool),
      (p = some "thead".toList ↔ p' = some "thead".toList) → (g = some "thead".toList ↔ g' = some "thead".toList) →
      inferForest c p g fi ts = inferForest c p' g' fi ts
    | [], _, _, _, _, _, _, _, _ => by rw [inferForest, inferForest]
    | t :: ts, c, p, g, p', g', fi, h1, h2 => by
      rw [inferForest, inferForest, inferTree_place t c p g p' g' fi _ h1 h2, inferForest_place ts c p g p' g' false h1 h2]
end

/-! ## Without indentation margins do not matter -/

/-- Without the margin. -/
def unmargin : OutItem → OutItem
  | .gap _ s => .gap ⟨true, 0⟩ s
  | i => i

theorem dropWhile_marks (f : List OutItem → List OutItem) (l : List (Bool × List OutItem)) :
    (l.map fun x => (x.1, f x.2)).dropWhile (·.1) = (l.dropWhile (·.1)).map fun x => (x.1, f x.2) := by
  induction l with
  | nil => rfl
  | cons x l ih =>
    obtain ⟨b, o⟩ := x
    cases b
    · simp
    · simpa [List.dropWhile_cons] using ih

theorem trimSpaces_map (f : OutItem → OutItem) (l : List (Bool × List OutItem)) :
    (trimSpaces l).map f = trimSpaces (l.map fun x => (x.1, x.2.map f)) := by
  rw [trimSpaces, trimSpaces, dropWhile_marks, ← List.map_reverse, dropWhile_marks, ← List.map_reverse, List.map_flatten, List.map_map, List.map_map]
  rfl

mutual
  theorem treeItems_margin (xml : Bool) : ∀ (t : Tree) (raw : Bool) (l l' : Margin),
      (treeItems xml raw l t).map unmargin = (treeItems xml raw l' t).map unmargin
    | .leaf (.text t), raw, l, l' => rfl
    | .leaf (.comment s), raw, l, l' => rfl
    | .leaf (.space s), raw, l, l' => rfl
    | .elem f isRaw fmt sel ch, raw, l, l' => by
      have ih : ∀ (raw : Bool) (l l' : Margin), (trimSpaces (forestItems xml raw l ch)).map unmargin = (trimSpaces (forestItems xml raw l' ch)).map unmargin :=
        fun raw l l' => by rw [trimSpaces_map, trimSpaces_map, forestItems_margin xml ch raw l l']
      rw [treeItems.eq_def, treeItems.eq_def]
      dsimp only
      rcases sel with _ | ⟨_ | n, items⟩
      · exact ih _ _ _
      · exact ih _ _ _
      · dsimp only
        by_cases h1 : (xml && ch.isEmpty) = true
        · rw [if_pos h1, if_pos h1]
        · rw [if_neg h1, if_neg h1]
          by_cases h2 : ch.isEmpty = true
          · simp [h2]
          · simp only [h2, if_false, Bool.false_eq_true]
            simp only [List.map_cons, List.map_append, ih (raw || isRaw) (l.inside fmt n) (l'.inside fmt n)]
            rfl
  theorem forestItems_margin (xml : Bool) : ∀ (ts : List Tree) (raw : Bool) (l l' : Margin),
      (forestItems xml raw l ts).map (fun x => (x.1, x.2.map unmargin)) = (forestItems xml raw l' ts).map (fun x => (x.1, x.2.map unmargin))
    | [], _, _, _ => rfl
    | t :: ts, raw, l, l' => by
      rw [forestItems, forestItems, List.map_cons, List.map_cons, forestItems_margin xml ts raw l l', treeItems_margin xml t raw l l']
end

theorem trimItems_margin (xml raw : Bool) (ts : List Tree) (l l' : Margin) :
    (trimSpaces (forestItems xml raw l ts)).map unmargin = (trimSpaces (forestItems xml raw l' ts)).map unmargin := by
  rw [trimSpaces_map, trimSpaces_map, forestItems_margin xml ts raw l l']

theorem unmargin_writable {xml : Bool} {src : Str} {i : OutItem} : Writable xml src (unmargin i) ↔ Writable xml src i := by
  cases i <;> exact Iff.rfl

theorem writable_margin {xml : Bool} {src : Str} {a b : List OutItem} (h : a.map unmargin = b.map unmargin) (ha : ∀ i ∈ a, Writable xml src i) :
    ∀ i ∈ b, Writable xml src i := by
  intro i hi
  have : unmargin i ∈ a.map unmargin := h ▸ List.mem_map_of_mem hi
  obtain ⟨j, hj, hij⟩ := List.mem_map.1 this
  rw [← unmargin_writable, ← hij, unmargin_writable]
  exact ha j hj

theorem weaves_margin {piece : OutItem → Str} {src : Str} {ws ws' : Bool} {items : List OutItem} {out : Str}
    (h : Weaves piece src none ws items out ws') : ∀ {items' : List OutItem}, items.map unmargin = items'.map unmargin →
      Weaves piece src none ws items' out ws' := by
  have inv : ∀ {i : OutItem} {is is' : List OutItem}, (i :: is).map unmargin = is'.map unmargin →
      ∃ j js, is' = j :: js ∧ unmargin i = unmargin j ∧ is.map unmargin = js.map unmargin := by
    intro i is is' h
    cases is' with
    | nil => simp at h
    | cons j js => simp only [List.map_cons, List.cons.injEq] at h; exact ⟨j, js, rfl, h⟩
  have keep : ∀ {i j : OutItem}, unmargin i = unmargin j → (∀ l s, i ≠ .gap l s) → j = i := by
    intro i j h hi
    cases i <;> first | exact absurd rfl (hi _ _) | (cases j <;> simp_all [unmargin])
  have gap : ∀ {l : Margin} {s : Option Space} {j : OutItem}, unmargin (.gap l s) = unmargin j → ∃ l', j = .gap l' s := by
    intro l s j h
    cases j <;> simp [unmargin] at h
    exact ⟨_, by rw [h]⟩
  induction h with
  | nil => intro items' h; have := List.map_eq_nil_iff.1 h.symm; subst this; exact .nil
  | doctype _ ih => intro items' h; obtain ⟨j, js, rfl, h1, h2⟩ := inv h; rw [keep h1 (by simp)]; exact .doctype (ih h2)
  | start _ ih => intro items' h; obtain ⟨j, js, rfl, h1, h2⟩ := inv h; rw [keep h1 (by simp)]; exact .start (ih h2)
  | stop _ ih => intro items' h; obtain ⟨j, js, rfl, h1, h2⟩ := inv h; rw [keep h1 (by simp)]; exact .stop (ih h2)
  | comment _ ih => intro items' h; obtain ⟨j, js, rfl, h1, h2⟩ := inv h; rw [keep h1 (by simp)]; exact .comment (ih h2)
  | text ht hs _ ih => intro items' h; obtain ⟨j, js, rfl, h1, h2⟩ := inv h; rw [keep h1 (by simp)]; exact .text ht hs (ih h2)
  | dropped _ ih => intro items' h; obtain ⟨j, js, rfl, h1, h2⟩ := inv h; obtain ⟨l', rfl⟩ := gap h1; exact .dropped (ih h2)
  | space hs _ ih =>
    intro items' h
    obtain ⟨j, js, rfl, h1, h2⟩ := inv h
    obtain ⟨l', rfl⟩ := gap h1
    refine .space ?_ (ih h2)
    cases hs with
    | written => exact .written
    | blank => exact .blank
    | unbroken h1 _ => exact .unbroken h1 (.inl rfl)
    | broken _ h1 => cases h1
  | noBreak _ _ ih => intro items' h; obtain ⟨j, js, rfl, h1, h2⟩ := inv h; obtain ⟨l', rfl⟩ := gap h1; exact .noBreak (.inr (.inr rfl)) (ih h2)
  | break_ h1 => cases h1

theorem weaves_split {piece : OutItem → Str} {src : Str} {ind : Option Str} {b : List OutItem} {ws' : Bool} :
    ∀ {a : List OutItem} {ws : Bool} {out : Str}, Weaves piece src ind ws (a ++ b) out ws' →
      ∃ x y w, out = x ++ y ∧ Weaves piece src ind ws a x w ∧ Weaves piece src ind w b y ws'
  | [], ws, out, h => ⟨[], out, ws, rfl, .nil, h⟩
  | i :: a, ws, out, h => by
    rw [List.cons_append] at h
    cases h with
    | doctype h => obtain ⟨x, y, w, rfl, h1, h2⟩ := weaves_split h; exact ⟨_, y, w, by rw [List.append_assoc], .doctype h1, h2⟩
    | start h => obtain ⟨x, y, w, rfl, h1, h2⟩ := weaves_split h; exact ⟨_, y, w, by rw [List.append_assoc], .start h1, h2⟩
    | stop h => obtain ⟨x, y, w, rfl, h1, h2⟩ := weaves_split h; exact ⟨_, y, w, by rw [List.append_assoc], .stop h1, h2⟩
    | comment h => obtain ⟨x, y, w, rfl, h1, h2⟩ := weaves_split h; exact ⟨_, y, w, by rw [List.append_assoc], .comment h1, h2⟩
    | text ht hs h => obtain ⟨x, y, w, rfl, h1, h2⟩ := weaves_split h; exact ⟨_, y, w, by rw [List.append_assoc], .text ht hs h1, h2⟩
    | dropped h => obtain ⟨x, y, w, rfl, h1, h2⟩ := weaves_split h; exact ⟨_, y, w, rfl, .dropped h1, h2⟩
    | space hs h => obtain ⟨x, y, w, rfl, h1, h2⟩ := weaves_split h; exact ⟨_, y, w, by rw [List.append_assoc], .space hs h1, h2⟩
    | noBreak hs h => obtain ⟨x, y, w, rfl, h1, h2⟩ := weaves_split h; exact ⟨_, y, w, rfl, .noBreak hs h1, h2⟩
    | break_ h1 h2 h =>
      obtain ⟨x, y, w, rfl, h3, h4⟩ := weaves_split h
      exact ⟨_, y, w, by rw [← List.append_assoc], .break_ h1 h2 h3, h4⟩

/-! ## The beginning of a document -/

/-- Not a text. -/
def TopTree : Tree → Prop
  | .leaf (.space _) => True
  | .leaf (.comment _) => True
  | .leaf (.text _) => False
  | .elem _ _ _ sel _ => ∃ n items, sel = some (some n, items)

/-- A tag or a comment. -/
def Opening : OutItem → Prop
  | .start .. => True
  | .comment _ => True
  | _ => False

theorem fresh_items {xml raw : Bool} {l : Margin} {ts : List Tree} (h : ∀ t ∈ ts, TopTree t) :
    ∀ i, (trimSpaces (forestItems xml raw l ts)).head? = some i → Opening i := by
  have one : ∀ t ∈ ts, treeSpace t = false → ∃ i is, treeItems xml raw l t = i :: is ∧ Opening i := by
    intro t ht hs
    have := h t ht
    cases t with
    | leaf t => cases t with
      | text t => exact absurd this id
      | comment s => exact ⟨_, _, rfl, trivial⟩
      | space s => cases hs
    | elem f isRaw fmt sel ch =>
      obtain ⟨n, items, rfl⟩ := this
      rw [treeItems.eq_def]
      dsimp only
      by_cases h1 : (xml && ch.isEmpty) = true
      · rw [if_pos h1]; exact ⟨_, _, rfl, trivial⟩
      · rw [if_neg h1]; exact ⟨_, _, rfl, trivial⟩
  have all : ∀ x ∈ forestItems xml raw l ts, x.1 = false → ∃ i is, x.2 = i :: is ∧ Opening i := by
    clear h
    induction ts with
    | nil => simp [forestItems]
    | cons t ts ih =>
      intro x hx hs
      rw [forestItems] at hx
      rcases List.mem_cons.1 hx with rfl | hx
      · exact one t (by simp) hs
      · exact ih (fun t ht => one t (by simp [ht])) x hx hs
  intro i hi
  rw [trimSpaces] at hi
  have hsuf : (forestItems xml raw l ts).dropWhile (·.1) <:+ forestItems xml raw l ts := List.dropWhile_suffix _
  have hhd := List.head?_dropWhile_not (p := fun x : Bool × List OutItem => x.1) (l := forestItems xml raw l ts)
  generalize (forestItems xml raw l ts).dropWhile (·.1) = D at *
  have hpre : (D.reverse.dropWhile (·.1)).reverse <+: D := by
    have := List.dropWhile_suffix (l := D.reverse) (fun x : Bool × List OutItem => x.1)
    simpa using List.reverse_prefix.2 this
  generalize (D.reverse.dropWhile (·.1)).reverse = E at *
  cases E with
  | nil => simp at hi
  | cons x E =>
    obtain ⟨r, rfl⟩ := hpre
    obtain ⟨j, js, h1, h2⟩ := all x (hsuf.subset (by simp)) (by simpa using hhd)
    simp only [List.map_cons, List.flatten_cons, h1, List.cons_append, List.head?_cons, Option.some.injEq] at hi
    rw [← hi]; exact h2

theorem weaves_fresh {piece : OutItem → Str} {src : Str} {ind : Option Str} {ws ws' : Bool} {items : List OutItem} {out : Str}
    (h : Weaves piece src ind ws items out ws') (hi : ∀ i, items.head? = some i → Opening i) (w : Bool) :
    ∃ w', Weaves piece src ind w items out w' := by
  cases h with
  | nil => exact ⟨w, .nil⟩
  | doctype => exact absurd (hi _ rfl) id
  | start h => exact ⟨_, .start h⟩
  | stop => exact absurd (hi _ rfl) id
  | comment h => exact ⟨_, .comment h⟩
  | text => exact absurd (hi _ rfl) id
  | dropped => exact absurd (hi _ rfl) id
  | space => exact absurd (hi _ rfl) id
  | noBreak => exact absurd (hi _ rfl) id
  | break_ => exact absurd (hi _ rfl) id

theorem inferForest_mem {c : Context} {p g : Option Str} : ∀ {ts : List Tree} {fi : Bool} {t : Tree}, t ∈ inferForest c p g fi ts →
    ∃ t' ∈ ts, ∃ a b, t = inferTree c p g a b t'
  | [], _, t, h => by simp [inferForest] at h
  | t' :: ts, fi, t, h => by
    rw [inferForest] at h
    rcases List.mem_cons.1 h with rfl | h
    · exact ⟨t', by simp, _, _, rfl⟩
    · obtain ⟨t'', h1, h2⟩ := inferForest_mem h
      exact ⟨t'', by simp [h1], h2⟩

theorem chainTree_shape (src : Str) (h : EHead) (sels : List Selector) (kids : List Tree) :
    ∃ fmt ch, chainTree src h sels kids = .elem (formOf h.ty) h.isRaw fmt (sels.head?.map (selOf src)) ch := by
  cases sels with
  | nil => exact ⟨_, _, rfl⟩
  | cons s ss => cases ss <;> exact ⟨_, _, rfl⟩

/-- Nothing at top level is a text after names are inferred. -/
theorem top_trees {src : Str} {c : SpecialTagConfig} {nodes : List Node} (hd : Divided nodes) (hc : ∀ k, specialTagName c k ≠ []) :
    ∀ t ∈ inferForest .section none none true (forestOf src (specialNodes c nodes)), TopTree t := by
  intro t ht
  obtain ⟨t', ht', a, b, rfl⟩ := inferForest_mem ht
  have hmem : ∃ n ∈ nodes, t' = treeOf src (specialNode c n) := by
    clear ht hd
    induction nodes with
    | nil => simp [specialNodes, forestOf] at ht'
    | cons n ns ih =>
      rw [specialNodes, forestOf] at ht'
      rcases List.mem_cons.1 ht' with rfl | ht'
      · exact ⟨n, by simp, rfl⟩
      · obtain ⟨m, h1, h2⟩ := ih ht'
        exact ⟨m, by simp [h1], h2⟩
  obtain ⟨n, hn, rfl⟩ := hmem
  have hv := hd n hn
  cases n with
  | text r t =>
    rw [specialNode, treeOf, inferTree]
    cases t with
    | text t => exact absurd (hv rfl) (by simp [isParagraph, isBlockLevel])
    | comment s => trivial
    | space s => trivial
  | elem r h ch =>
    have hv := hv rfl
    rw [specialNode, treeOf]
    have hform : ∀ f, formOf (specialHead c h).ty = some f → TopTree (inferTree .section none none a b (chainTree src (specialHead c h) (specialHead c h).selectors (forestOf src (specialNodes c ch)))) := by
      intro f hf
      obtain ⟨fmt, kids, he⟩ := chainTree_shape src (specialHead c h) (specialHead c h).selectors (forestOf src (specialNodes c ch))
      rw [he, inferTree, hf]
      simp only [TopTree]
      generalize (specialHead c h).selectors.head?.map (selOf src) = sel
      have : ∃ n : String, n ≠ "" ∧ ∀ hdr, nameIn .section (some f) a b hdr = some n := by
        cases f <;> exact ⟨_, by decide, fun _ => rfl⟩
      obtain ⟨n, hn, hnm⟩ := this
      rcases sel with _ | ⟨_ | m, items⟩
      · rw [namedSel, hnm]
        · split <;> simp_all
        · simp
      · rw [namedSel, hnm]
        · split <;> simp_all
        · simp
      · exact ⟨m, items, by rw [namedSel]⟩
    have hty : (specialHead c h).ty = h.ty := by
      rw [specialHead]
      split <;> first | rfl | (unfold EHead.applyTags; split <;> first | rfl | (split <;> rfl))
    rcases hv with hv | hv
    · exact hform .paragraph (by rw [hty, show h.ty = .paragraph from hv]; rfl)
    · rw [isBlockLevel] at hv
      split at hv
      · rename_i d he
        rw [he] at hty
        cases d with
        | line => exact hform .line (by rw [hty]; rfl)
        | lineBlock => exact hform .line (by rw [hty]; rfl)
        | block => exact hform .block (by rw [hty]; rfl)
      · rename_i he
        obtain ⟨fmt, kids, hch⟩ := chainTree_shape src (specialHead c h) (specialHead c h).selectors (forestOf src (specialNodes c ch))
        have hsel : ∃ s n, (specialHead c h).selectors.head? = some s ∧ s.tag.name = some n := by
          have h1 : (fun t : TextSlice => !t.isEmpty) (.provided (specialTagName c .codeBlockContainer)) = true := by
            have := hc .codeBlockContainer
            revert this
            generalize specialTagName c .codeBlockContainer = x
            cases x <;> simp [TextSlice.isEmpty]
          rw [specialHead, he]
          dsimp only
          unfold EHead.applyTags
          rw [List.filter_cons_of_pos (p := fun t : TextSlice => !t.isEmpty) h1]
          cases h.selectors with
          | nil => exact ⟨(Selector.empty h.range.start).withTag _, _, rfl, rfl⟩
          | cons s ss => exact ⟨{ s with tag := .explicit _ }, _, rfl, rfl⟩
        obtain ⟨s, n, h1, h2⟩ := hsel
        rw [hch, inferTree, h1]
        simp only [TopTree, Option.map_some, selOf, h2]
        exact ⟨_, _, by rw [namedSel]⟩
      · exact absurd hv id

/-! ## The page -/

/-- A page without metadata around trees. -/
def pageTree (items : List SelectorItem) (ts : List Tree) : Tree :=
  .elem none false false (some (some "html".toList, items)) [plainTree "head" [], .leaf (.space .paragraphEnd), plainTree "body" ts]

theorem infer_page (ts : List Tree) :
    inferForest .section none none true [pageTree [] ts] = [pageTree [] (inferForest .section none none true ts)] := by
  have h1 : contextInside (some "html".toList) none = .html := by decide
  have h2 : contextInside (some "body".toList) none = .section := by decide
  have h3 : contextInside (some "head".toList) none ≠ .raw := by decide
  have h4 := inferForest_place ts .section (some "body".toList) (some "html".toList) none none true (by decide) (by decide)
  simp only [pageTree, plainTree, inferForest, inferTree, namedSel, Option.bind_some, h1, h2, h3, h4, Bool.false_or, decide_false]
  rfl

/-- The items of a page. -/
def pageItems (xml : Bool) (items : List SelectorItem) (l : Margin) (ts : List Tree) : List OutItem :=
  .start "html".toList items false :: .gap (l.inside false "html".toList) none ::
    ((if xml then [.start "head".toList [] true] else [.start "head".toList [] false, .stop "head".toList]) ++
    (.gap (l.inside false "html".toList) (some .paragraphEnd) ::
    ((if xml && ts.isEmpty then [.start "body".toList [] true]
      else .start "body".toList [] false ::
        ((if ts.isEmpty then [] else
          .gap ((l.inside false "html".toList).inside false "body".toList) none ::
            trimSpaces (forestItems xml false ((l.inside false "html".toList).inside false "body".toList) ts) ++
            [.gap ⟨false, (l.inside false "html".toList).depth⟩ none]) ++ [.stop "body".toList])) ++
    [.gap ⟨false, l.depth⟩ none, .stop "html".toList])))

theorem trimSpaces_one (x : List OutItem) : trimSpaces [(false, x)] = x := by
  simp [trimSpaces]

theorem trimSpaces_three (x y z : List OutItem) : trimSpaces [(false, x), (true, y), (false, z)] = x ++ (y ++ z) := by
  simp [trimSpaces]

theorem pageTree_items (xml : Bool) (items : List SelectorItem) (l : Margin) (ts : List Tree) :
    trimSpaces (forestItems xml false l [pageTree items ts]) = pageItems xml items l ts := by
  have v1 : voidName xml "html".toList = false := by cases xml <;> decide
  have v2 : voidName xml "head".toList = false := by cases xml <;> decide
  have v3 : voidName xml "body".toList = false := by cases xml <;> decide
  have e1 : ∀ l, treeItems xml false l (plainTree "head" []) =
      (if xml then [.start "head".toList [] true] else [.start "head".toList [] false, .stop "head".toList]) := by
    intro l
    rw [plainTree, treeItems.eq_def]
    dsimp only
    rw [v2]
    cases xml <;> rfl
  have e2 : ∀ l, treeItems xml false l (plainTree "body" ts) =
      (if xml && ts.isEmpty then [.start "body".toList [] true]
      else .start "body".toList [] false ::
        ((if ts.isEmpty then [] else
          .gap (l.inside false "body".toList) none :: trimSpaces (forestItems xml false (l.inside false "body".toList) ts) ++
            [.gap ⟨false, l.depth⟩ none]) ++ [.stop "body".toList])) := by
    intro l
    rw [plainTree, treeItems.eq_def]
    dsimp only
    rw [v3]
    rfl
  have s1 : treeSpace (plainTree "head" []) = false := rfl
  have s2 : treeSpace (plainTree "body" ts) = false := rfl
  have s3 : treeSpace (.leaf (.space .paragraphEnd)) = true := rfl
  have e3 : ∀ l, treeItems xml false l (.leaf (.space .paragraphEnd)) = [.gap l (some .paragraphEnd)] := fun _ => rfl
  rw [forestItems, forestItems, show treeSpace (pageTree items ts) = false from rfl, trimSpaces_one, pageTree, treeItems.eq_def]
  dsimp only
  rw [v1]
  simp only [List.isEmpty_cons, Bool.and_false, Bool.false_eq_true, if_false, Bool.false_or]
  simp only [forestItems, s1, s2, s3, trimSpaces_three, e1, e2, e3, pageItems]
  simp only [List.cons_append, List.append_assoc, List.nil_append]

theorem noAttrs (xml : Bool) (src : Str) : AttrsRead xml src [] [] :=
  .mk (id := []) (cls := []) (attrs := []) .nil .nil .nil

/-- The items of a page can be written if those of the document can. -/
theorem pageItems_writable {xml : Bool} {src : Str} {items : List SelectorItem} {attrs : List (Str × Option Str)} {l l' : Margin}
    {ts : List Tree} (ha : AttrsRead xml src items attrs) : (∀ i ∈ pageItems xml items l ts, Writable xml src i) ↔ (∀ i ∈ trimSpaces (forestItems xml false l' ts), Writable xml src i) := by
  have hst : ∀ n e, Writable xml src (.start n [] e) := fun n e => ⟨[], noAttrs xml src⟩
  have hm := trimItems_margin xml false ts ((l.inside false "html".toList).inside false "body".toList) l'
  constructor
  · intro h
    cases ts with
    | nil => simp [forestItems, trimSpaces]
    | cons t ts =>
      refine writable_margin hm fun i hi => h i ?_
      simp only [pageItems, List.isEmpty_cons, Bool.and_false, Bool.false_eq_true, if_false, List.mem_cons, List.mem_append]
      right; right; right; right; left; right; left; left; right
      exact hi
  · intro h i hi
    have h' := writable_margin hm.symm h
    simp only [pageItems, List.mem_cons, List.mem_append] at hi
    rcases hi with rfl | rfl | hi | rfl | hi | rfl | rfl | hi
    · exact ⟨_, ha⟩
    · trivial
    · split at hi
      · simp at hi; subst hi; exact hst _ _
      · simp at hi; rcases hi with rfl | rfl
        · exact hst _ _
        · trivial
    · trivial
    · split at hi
      · simp at hi; subst hi; exact hst _ _
      · simp only [List.mem_cons, List.mem_append] at hi
        rcases hi with rfl | hi | rfl | hi
        · exact hst _ _
        · split at hi
          · simp at hi
          · simp only [List.mem_cons, List.mem_append] at hi
            rcases hi with (rfl | hi) | rfl | hi
            · trivial
            · exact h' i hi
            · trivial
            · simp at hi
        · trivial
        · simp at hi
    · trivial
    · trivial
    · simp at hi

/-- What is written for a page without indentation. -/
theorem pageItems_weave {xml : Bool} {src : Str} {items : List SelectorItem} {lang : Option Str} {l l' : Margin} {ts : List Tree} {out : Str}
    {ws : Bool} (ha : ∀ e, Exact xml src (.start "html".toList items e) ("<html".toList ++ langText lang ++ (if e then ['/', '>'] else ['>'])))
    (ht : ∀ t ∈ ts, TopTree t)
    (h : Weaves (pieceOf xml src) src none true (trimSpaces (forestItems xml false l' ts)) out ws) :
    Weaves (pieceOf xml src) src none true (.doctype :: pageItems xml items l ts) (pageAround xml ts.isEmpty lang out) false := by
  have hst : ∀ n e, pieceOf xml src (.start n [] e) = '<' :: n ++ (if e then ['/', '>'] else ['>']) := fun n e => by
    rw [pieceOf_eq (.start (noAttrs xml src))]; simp
  have hsp : ∀ n, pieceOf xml src (.stop n) = '<' :: '/' :: n ++ ['>'] := fun n => pieceOf_eq .stop
  have hdt : pieceOf xml src .doctype = "<!DOCTYPE html>\n".toList := pieceOf_eq .doctype
  have hgap : ∀ {l : Margin} {ws w' : Bool} {is : List OutItem} {o : Str}, Weaves (pieceOf xml src) src none ws is o w' →
      Weaves (pieceOf xml src) src none ws (.gap l none :: is) o w' := fun h => .noBreak (.inr (.inr rfl)) h
  have end_ : Weaves (pieceOf xml src) src none false [.gap ⟨false, l.depth⟩ none, .stop "html".toList] "</html>".toList false := by
    have : Weaves (pieceOf xml src) src none false [.gap ⟨false, l.depth⟩ none, .stop "html".toList] (pieceOf xml src (.stop "html".toList) ++ []) false :=
      hgap (.stop .nil)
    rwa [hsp] at this
  have body : Weaves (pieceOf xml src) src none true
      (if xml && ts.isEmpty then [.start "body".toList [] true]
      else .start "body".toList [] false ::
        ((if ts.isEmpty then [] else
          .gap ((l.inside false "html".toList).inside false "body".toList) none ::
            trimSpaces (forestItems xml false ((l.inside false "html".toList).inside false "body".toList) ts) ++
            [.gap ⟨false, (l.inside false "html".toList).depth⟩ none]) ++ [.stop "body".toList]))
      (if xml && ts.isEmpty then "<body/>".toList else "<body>".toList ++ out ++ "</body>".toList) false := by
    by_cases hx : (xml && ts.isEmpty) = true
    · rw [if_pos hx, if_pos hx]
      have : Weaves (pieceOf xml src) src none true [.start "body".toList [] true] (pieceOf xml src (.start "body".toList [] true) ++ []) false := .start .nil
      rwa [hst] at this
    · rw [if_neg hx, if_neg hx]
      cases ts with
      | nil =>
        have : out = [] := by
          have : Weaves (pieceOf xml src) src none true [] out ws := h
          cases this; rfl
        subst this
        have : Weaves (pieceOf xml src) src none true [.start "body".toList [] false, .stop "body".toList]
            (pieceOf xml src (.start "body".toList [] false) ++ (pieceOf xml src (.stop "body".toList) ++ [])) false := .start (.stop .nil)
        rw [hst, hsp] at this
        exact this
      | cons t ts =>
        have hm := weaves_margin h (trimItems_margin xml false (t :: ts) l' ((l.inside false "html".toList).inside false "body".toList))
        obtain ⟨w', hw⟩ := weaves_fresh hm (fresh_items ht) false
        have : Weaves (pieceOf xml src) src none true _ (pieceOf xml src (.start "body".toList [] false) ++ (out ++ (pieceOf xml src (.stop "body".toList) ++ []))) false :=
          .start (hgap (l := (l.inside false "html".toList).inside false "body".toList) (weaves_append hw (hgap (l := ⟨false, (l.inside false "html".toList).depth⟩) (.stop .nil))))
        rw [hst, hsp] at this
        simpa using this
  have head : Weaves (pieceOf xml src) src none false
      (if xml then [.start "head".toList [] true] else [.start "head".toList [] false, .stop "head".toList])
      (if xml then "<head/>".toList else "<head></head>".toList) false := by
    cases xml
    · have : Weaves (pieceOf false src) src none false [.start "head".toList [] false, .stop "head".toList]
          (pieceOf false src (.start "head".toList [] false) ++ (pieceOf false src (.stop "head".toList) ++ [])) false := .start (.stop .nil)
      rw [hst, hsp] at this
      exact this
    · have : Weaves (pieceOf true src) src none false [.start "head".toList [] true] (pieceOf true src (.start "head".toList [] true) ++ []) false := .start .nil
      rwa [hst] at this
  have := weaves_append head (.space (l := l.inside false "html".toList) (.unbroken (s := .paragraphEnd) (.inr rfl) (.inl rfl)) (weaves_append body end_))
  have := Weaves.doctype (ws := true) (Weaves.start (n := "html".toList) (a := items) (e := false) (hgap (l := l.inside false "html".toList) this))
  rw [hdt, pieceOf_eq (ha false)] at this
  exact this

/-! ## The language -/

theorem langCode_char {c : Char} (h : c.isAlphanum = true ∨ c = '-') : c ≠ '\\' ∧ ∀ xml quote, escWriteChar xml quote c = [c] := by
  have hb : (0x30 ≤ c.toNat ∧ c.toNat ≤ 0x39) ∨ (0x41 ≤ c.toNat ∧ c.toNat ≤ 0x5a) ∨ (0x61 ≤ c.toNat ∧ c.toNat ≤ 0x7a) ∨ c.toNat = 0x2d := by
    rcases h with h | rfl
    · simp only [Char.isAlphanum, Char.isAlpha, Char.isUpper, Char.isLower, Char.isDigit, Bool.or_eq_true, decide_eq_true_eq,
        Bool.and_eq_true, UInt32.le_iff_toNat_le, Char.toNat_val] at h
      simp at h
      omega
    · exact .inr (.inr (.inr rfl))
  have ne : ∀ d : Char, ¬ ((0x30 ≤ d.toNat ∧ d.toNat ≤ 0x39) ∨ (0x41 ≤ d.toNat ∧ d.toNat ≤ 0x5a) ∨ (0x61 ≤ d.toNat ∧ d.toNat ≤ 0x7a) ∨ d.toNat = 0x2d) → c ≠ d := by
    rintro d hd rfl; exact hd hb
  refine ⟨ne _ (by decide), fun xml quote => ?_⟩
  have h7 : ¬ (c.toNat ≤ 0x1f ∨ (0x7f ≤ c.toNat ∧ c.toNat ≤ 0x9f)) := by omega
  simp only [escWriteChar, getEscape, ne '&' (by decide), ne '<' (by decide), ne '>' (by decide), ne '\t' (by decide), ne '\n' (by decide),
    ne '"' (by decide), h7, if_false, false_and]

theorem unescapes_code {s : Str} (h : ∀ c ∈ s, c ≠ '\\') : Unescapes Accepted s s := by
  induction s with
  | nil => exact .nil
  | cons c s ih => exact .plain (h c (by simp)) (ih fun c hc => h c (by simp [hc]))

/-- The items of the `html` element of a page with a language. -/
def langItems (r : Range) : Option Str → List SelectorItem
  | none => []
  | some l => [.attributes r [{ range := r, name := .provided "lang".toList, value := some (.provided l) }]]

theorem attr_one (xml : Bool) (n l : Str) :
    ([(n, some l)].map (attrText xml)).flatten = ' ' :: n ++ ('=' :: '"' :: escWriteStr xml true l ++ ['"']) := by
  simp [attrText]

theorem quoted_text {l n a b : Str} (h1 : a = ' ' :: n ++ ['=', '"']) (h2 : b = ['"']) :
    ' ' :: n ++ ('=' :: '"' :: l ++ ['"']) = a ++ l ++ b := by
  subst h1 h2; simp

theorem lang_text (l : Str) : ' ' :: "lang".toList ++ ('=' :: '"' :: l ++ ['"']) = langText (some l) :=
  quoted_text (a := " lang=\"".toList) (b := "\"".toList) rfl rfl

theorem langItems_exact {xml : Bool} {src : Str} {r : Range} {lang : Option Str} (h : ∀ l, lang = some l → LangCode l) :
    (∃ attrs, AttrsRead xml src (langItems r lang) attrs) ∧
    ∀ e, Exact xml src (.start "html".toList (langItems r lang) e) ("<html".toList ++ langText lang ++ (if e then ['/', '>'] else ['>'])) := by
  have hh : "<html".toList = '<' :: "html".toList := rfl
  rw [hh]
  cases lang with
  | none =>
    refine ⟨⟨_, noAttrs xml src⟩, fun e => ?_⟩
    have := Exact.start (n := "html".toList) (e := e) (noAttrs xml src)
    rwa [List.map_nil, List.flatten_nil] at this
  | some l =>
    have hl := h l rfl
    have hu : Unescapes Accepted l l := unescapes_code fun c hm => (langCode_char (hl _ hm)).1
    have hn : Unescapes Accepted "lang".toList "lang".toList := unescapes_code (by decide)
    have ha : AttrsRead xml src (langItems r (some l)) [("lang".toList, some l)] :=
      .mk (id := []) (cls := []) (attrs := [("lang".toList, some l)]) .nil .nil (.cons ⟨hn, l, rfl, hu⟩ .nil)
    refine ⟨⟨_, ha⟩, fun e => ?_⟩
    have he : escWriteStr xml true l = l := by
      rw [escWriteStr_eq]
      clear hu ha h
      induction l with
      | nil => rfl
      | cons c l ih => rw [List.flatMap_cons, (langCode_char (hl c (by simp))).2, ih fun c hc => hl c (by simp [hc])]; rfl
    have := Exact.start (n := "html".toList) (e := e) ha
    have ht : ([("lang".toList, some l)].map (attrText xml)).flatten = langText (some l) := by
      rw [attr_one, he]; exact lang_text l
    rwa [ht] at this

/-- The language is put on the `html` element. -/
theorem lang_page {src l : Str} {nodes : List Node} {ts : List Tree} (hs : ∀ n ∈ nodes, SingleSelectors n)
    (h : forestOf src nodes = [pageTree [] ts]) : ∃ r, forestOf src (nodes.map (langNode l)) = [pageTree (langItems r (some l)) ts] := by
  rcases nodes with _ | ⟨n, _ | ⟨m, ns⟩⟩
  · cases h
  · simp only [forestOf, List.cons.injEq, and_true] at h
    cases n with
    | text r t => cases h
    | elem r hd ch =>
      cases hs (.elem r hd ch) (by simp) with
      | elem hl _ =>
        rw [treeOf] at h
        rcases hsel : hd.selectors with _ | ⟨s, _ | ⟨s', ss⟩⟩
        · rw [hsel, chainTree, pageTree] at h
          injection h with _ _ _ h4
          cases h4
        · rw [hsel] at h
          rw [chainTree, pageTree] at h
          injection h with h1 h2 h3 h4 h5
          simp only [selOf, Option.some.injEq, Prod.mk.injEq] at h4
          obtain ⟨h6, h7⟩ := h4
          have hun : s.uninferred = false := by
            revert h6
            rw [Selector.uninferred, Tag.name.eq_def]
            cases s.tag <;> simp
          refine ⟨⟨s.range.stop, s.range.stop⟩, ?_⟩
          simp only [List.map_cons, List.map_nil, langNode, forestOf, treeOf, hsel, langSelectors, hun, Bool.not_false, if_true, chainTree, selOf,
            h1, h2, h5, h6, h7, pageTree, List.nil_append, langItems]
          show [Tree.elem none false (onOneLine hd) _ _] = _
          rw [h3]
        · rw [hsel] at hl; simp at hl
  · simp [forestOf] at h

/-! ## Errors -/

/-- Documents with syntax errors: only `fail_fast` matters. -/
theorem convert_bad_same {parse : Parser} {src : Str} {ast : Ast.Document} {doc : Document} {es : List SyntaxError}
    (hp : parse src = .ok ast) (hl : Logs (Build.fromAst src ast) doc es) (hn : es ≠ []) {cfg cfg' : OutputConfig}
    (hc : cfg.failFast = cfg'.failFast) : convert parse src cfg = convert parse src cfg' := by
  have he : Errors.new cfg = Errors.new cfg' := by simp only [Errors.new, hc]
  obtain ⟨e1, n1, -, hs1, g1⟩ := convert_bad hp hl hn cfg
  obtain ⟨e2, n2, -, hs2, g2⟩ := convert_bad hp hl hn cfg'
  cases hf : cfg.failFast.getD false with
  | false => rw [g1, g2, hs1 hf, hs2 (hc ▸ hf)]
  | true =>
    obtain ⟨x, _, _, hx⟩ := hl.fast hn (Errors.new cfg) hf
    have hb : Build.parseDocument parse src (Errors.new cfg) = (none, (Errors.new cfg).add x) := by
      simp only [Build.parseDocument, hp]; exact hx
    have hb' : Build.parseDocument parse src (Errors.new cfg') = (none, (Errors.new cfg).add x) := he ▸ hb
    simp only [convert, convertToInternal, hb, hb']

end Mty
