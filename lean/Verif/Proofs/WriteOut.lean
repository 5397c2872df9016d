import Verif.Proofs.Pieces
import Verif.Proofs.Items
import Verif.Proofs.WriteSel
import Verif.Proofs.PlainBuild

/-!
# Reading what is written: the output of trees
-/

set_option autoImplicit false

namespace Mty
open Spec Grammar

/-! ## The items of trees -/

/-- A space. -/
def treeSpace : Tree → Bool
  | .leaf (.space _) => true
  | _ => false

mutual
  /-- The items of a tree (`nodeItems`). -/
  def treeItems (xml : Bool) (raw : Bool) (l : Margin) : Tree → List OutItem
    | .leaf (.text t) => [.text t (t.raw || (!xml && (!t.escapeOut || raw)))]
    | .leaf (.comment s) => [.comment s]
    | .leaf (.space s) => [.gap l (some s)]
    | .elem _ isRaw fmt sel ch =>
      match sel with
      | some (some n, items) =>
        if xml && ch.isEmpty then [.start n items true]
        else .start n items false ::
          ((if ch.isEmpty then [] else
            .gap (l.inside fmt n) none ::
              trimSpaces (forestItems xml (raw || isRaw) (l.inside fmt n) ch) ++
              [.gap ⟨fmt, l.depth⟩ none]) ++
            (if voidName xml n then [] else [.stop n]))
      | _ => trimSpaces (forestItems xml (raw || isRaw) ⟨fmt, l.depth⟩ ch)
  /-- The items of trees (`contentItems`). -/
  def forestItems (xml : Bool) (raw : Bool) (l : Margin) : List Tree → List (Bool × List OutItem)
    | [] => []
    | t :: ts => (treeSpace t, treeItems xml raw l t) :: forestItems xml raw l ts
end

theorem forestOf_isEmpty (src : Str) (ch : List Node) : (forestOf src ch).isEmpty = ch.isEmpty := by
  cases ch <;> rfl

mutual
  theorem nodeItems_tree (xml : Bool) (src : Str) : ∀ (n : Node) (raw : Bool) (l : Margin), SingleSelectors n →
      nodeItems xml src raw l n = treeItems xml raw l (treeOf src n)
    | .text r (.text t), raw, l, _ => rfl
    | .text r (.comment s), raw, l, _ => rfl
    | .text r (.space s), raw, l, _ => rfl
    | .elem r h ch, raw, l, hs => by
      have ih : ∀ (raw : Bool) (l : Margin), (∀ c ∈ ch, SingleSelectors c) → contentItems xml src raw l ch = forestItems xml raw l (forestOf src ch) :=
        fun raw l => contentItems_forest xml src ch raw l
      cases hs with
      | elem hl hc =>
        rw [treeOf, nodeItems, namedBy]
        cases hsel : h.selectors with
        | nil =>
          simp only [List.head?_nil, Option.bind_none]
          rw [chainTree, treeItems.eq_def]
          dsimp only
          rw [ih _ _ hc]
        | cons s ss =>
          rw [hsel] at hl
          obtain rfl : ss = [] := by
            cases ss with
            | nil => rfl
            | cons _ _ => simp at hl
          simp only [List.head?_cons, Option.bind_some]
          rw [chainTree, treeItems.eq_def]
          dsimp only [selOf]
          cases hn : s.tag.name with
          | none => simp only [Option.map_none]; rw [ih _ _ hc]
          | some n =>
            simp only [Option.map_some]
            rw [forestOf_isEmpty, ih _ _ hc]
  theorem contentItems_forest (xml : Bool) (src : Str) : ∀ (ns : List Node) (raw : Bool) (l : Margin), (∀ n ∈ ns, SingleSelectors n) →
      contentItems xml src raw l ns = forestItems xml raw l (forestOf src ns)
    | [], raw, l, _ => rfl
    | n :: ns, raw, l, h => by
      have hn : inner.isSpaceNode n = treeSpace (treeOf src n) := by
        cases n with
        | text r t => cases t <;> rfl
        | elem r hd ch =>
          rw [treeOf]
          cases hd.selectors with
          | nil => rfl
          | cons s ss => cases ss <;> rfl
      rw [contentItems, forestOf, forestItems, nodeItems_tree xml src n raw l (h n (by simp)),
        contentItems_forest xml src ns raw l (fun m hm => h m (by simp [hm])), hn]
end

theorem forestItems_append (xml raw : Bool) (l : Margin) (a b : List Tree) :
    forestItems xml raw l (a ++ b) = forestItems xml raw l a ++ forestItems xml raw l b := by
  induction a with
  | nil => rfl
  | cons t a ih => rw [List.cons_append, forestItems, forestItems, ih]; rfl

/-- The items in order. -/
def plainItems (xml : Bool) (l : Margin) (ts : List Tree) : List OutItem := ((forestItems xml false l ts).map (·.2)).flatten

theorem plainItems_append (xml : Bool) (l : Margin) (a b : List Tree) :
    plainItems xml l (a ++ b) = plainItems xml l a ++ plainItems xml l b := by
  simp [plainItems, forestItems_append]

theorem plainItems_one (xml : Bool) (l : Margin) (t : Tree) : plainItems xml l [t] = treeItems xml false l t := by
  simp [plainItems, forestItems]

/-- Only spaces. -/
def AllSpaces (ts : List Tree) : Prop := ∀ t ∈ ts, ∃ s, t = .leaf (.space s)

theorem forestItems_spaces {xml raw : Bool} {l : Margin} {a : List Tree} (h : AllSpaces a) :
    ∀ x ∈ forestItems xml raw l a, x.1 = true := by
  induction a with
  | nil => simp [forestItems]
  | cons t a ih =>
    intro x hx
    rw [forestItems] at hx
    rcases List.mem_cons.1 hx with rfl | hx
    · obtain ⟨s, rfl⟩ := h t (by simp); rfl
    · exact ih (fun t ht => h t (by simp [ht])) x hx

/-- Begins and ends with something else than a space. -/
structure Firm (ts : List Tree) : Prop where
  ne : ts ≠ []
  first : ∀ t, ts.head? = some t → treeSpace t = false
  last : ∀ t, ts.getLast? = some t → treeSpace t = false

theorem dropWhile_spaces {α : Type} {p : α → Bool} {a b : List α} (ha : ∀ x ∈ a, p x = true) (hb : ∀ x, b.head? = some x → p x = false) :
    (a ++ b).dropWhile p = b := by
  induction a with
  | nil =>
    cases b with
    | nil => rfl
    | cons x b => simp [List.dropWhile_cons, hb x rfl]
  | cons x a ih =>
    rw [List.cons_append, List.dropWhile_cons, if_pos (ha x (by simp))]
    exact ih fun y hy => ha y (by simp [hy])

theorem forestItems_head (xml raw : Bool) (l : Margin) (ts : List Tree) :
    (forestItems xml raw l ts).head? = ts.head?.map fun t => (treeSpace t, treeItems xml raw l t) := by
  cases ts <;> rfl

theorem forestItems_map (xml raw : Bool) (l : Margin) (ts : List Tree) :
    forestItems xml raw l ts = ts.map fun t => (treeSpace t, treeItems xml raw l t) := by
  induction ts with
  | nil => rfl
  | cons t ts ih => rw [forestItems, ih]; rfl

theorem trimSpaces_firm {xml : Bool} {l : Margin} {a k b : List Tree} (ha : AllSpaces a) (hb : AllSpaces b) (hk : Firm k) :
    trimSpaces (forestItems xml false l (a ++ k ++ b)) = plainItems xml l k := by
  rw [trimSpaces, List.append_assoc, forestItems_append, forestItems_append,
    dropWhile_spaces (p := fun x : Bool × List OutItem => x.1) (forestItems_spaces ha)]
  · rw [List.reverse_append, dropWhile_spaces (p := fun x : Bool × List OutItem => x.1)]
    · rw [List.reverse_reverse]; rfl
    · intro x hx; exact forestItems_spaces hb x (List.mem_reverse.1 hx)
    · intro x hx
      rw [List.head?_reverse, forestItems_map, List.getLast?_map] at hx
      obtain ⟨t, ht, rfl⟩ := Option.map_eq_some_iff.1 hx
      exact hk.last t ht
  · intro x hx
    obtain ⟨t, k', rfl⟩ := List.exists_cons_of_ne_nil hk.ne
    rw [forestItems] at hx
    simp at hx
    subst hx
    exact hk.first t rfl

/-! ## Reading items -/

theorem _root_.Mty.Spec.Respaced.append {a b c d : List Token} (h1 : Respaced a b) (h2 : Respaced c d) : Respaced (a ++ c) (b ++ d) := by
  induction h1 with
  | nil => exact h2
  | same _ ih => exact .same ih
  | space g1 g2 g3 g4 _ ih => simpa using Respaced.space g1 g2 g3 g4 ih
  | afterStart g1 _ ih => simpa using Respaced.afterStart g1 ih
  | beforeStop g1 _ ih => simpa using Respaced.beforeStop g1 ih

theorem _root_.Mty.Spec.Respaced.refl : ∀ a : List Token, Respaced a a
  | [] => .nil
  | _ :: a => .same (refl a)

theorem blank_tokens {w : Str} (h : Blank w) : WhiteTokens (w.map .char) := ⟨w, rfl, fun c hc => (h c hc).1⟩

theorem break_blank {i : Str} (hi : Blank i) (n : Nat) : Blank ('\n' :: (List.replicate n i).flatten) := by
  intro c hc
  rcases List.mem_cons.1 hc with rfl | hc
  · decide
  · obtain ⟨l, h1, h2⟩ := List.mem_flatten.1 hc
    exact hi c (List.eq_of_mem_replicate h1 ▸ h2)

/-- The items can be written, and are read as the tokens, without indentation exactly so. -/
def Yields (xml : Bool) (src : Str) (ind : Option Str) (items : List OutItem) (toks : List Token) (ws ws' : Bool) : Prop :=
  (∀ i ∈ items, Writable xml src i) ∧
    ∃ out toks', Weaves (pieceOf xml src) src ind ws items out ws' ∧ readRun xml .data out = some (.data, toks') ∧ Respaced toks toks' ∧
      (ind = none → toks' = toks)

theorem Yields.append {xml : Bool} {src : Str} {ind : Option Str} {a b : List OutItem} {t u : List Token} {w1 w2 w3 : Bool}
    (h1 : Yields xml src ind a t w1 w2) (h2 : Yields xml src ind b u w2 w3) : Yields xml src ind (a ++ b) (t ++ u) w1 w3 := by
  obtain ⟨h1, o1, t1, h3, h4, h5, h6⟩ := h1
  obtain ⟨h2, o2, t2, h7, h8, h9, h10⟩ := h2
  refine ⟨fun i hi => ?_, o1 ++ o2, t1 ++ t2, weaves_append h3 h7, readRun_trans h4 h8, h5.append h9, fun hn => by rw [h6 hn, h10 hn]⟩
  rcases List.mem_append.1 hi with h | h
  · exact h1 i h
  · exact h2 i h

theorem Yields.exact {xml : Bool} {src : Str} {ind : Option Str} {items : List OutItem} {toks : List Token} {ws ws' : Bool} {out : Str}
    (h1 : ∀ i ∈ items, Writable xml src i) (h2 : Weaves (pieceOf xml src) src ind ws items out ws')
    (h3 : readRun xml .data out = some (.data, toks)) : Yields xml src ind items toks ws ws' :=
  ⟨h1, out, toks, h2, h3, .refl _, fun _ => rfl⟩

variable {ind : Option Str}

theorem Yields.nil {xml : Bool} {src : Str} {ws : Bool} : Yields xml src ind [] [] ws ws := .exact (by simp) .nil rfl

/-- The beginning or end of a content. -/
theorem gap_reads (hi : ∀ i, ind = some i → Blank i) {xml : Bool} {src : Str} {ws : Bool} {l : Margin} : ∃ out ws',
    Weaves (pieceOf xml src) src ind ws [.gap l none] out ws' ∧ Blank out ∧ (ind = none → out = []) := by
  by_cases h : ws = true ∨ l.inline = true ∨ ind = none
  · exact ⟨[], ws, .noBreak h .nil, by simp [Blank], fun _ => rfl⟩
  · simp only [not_or, Bool.not_eq_true] at h
    obtain ⟨rfl, h2, h3⟩ := h
    obtain ⟨i, rfl⟩ := Option.ne_none_iff_exists'.1 h3
    exact ⟨_, true, .break_ rfl h2 .nil, by rw [List.append_nil]; exact break_blank (hi i rfl) _, by simp⟩

theorem Yields.spaces {xml : Bool} {src : Str} {l : Margin} {a : List Tree} (h : AllSpaces a) :
    Yields xml src ind (plainItems xml l a) [] true true := by
  induction a with
  | nil => exact .nil
  | cons t a ih =>
    obtain ⟨s, rfl⟩ := h t (by simp)
    have := ih fun t ht => h t (by simp [ht])
    refine Yields.append (a := [.gap l (some s)]) (t := []) (.exact (by simp [Writable]) (.dropped .nil) rfl) this

/-- How a space is written: as `w` without indentation. -/
def SpaceIs (src : Str) (s : Space) (w : Str) : Prop :=
  w ≠ [] ∧ ∀ (ind : Option Str), (∀ i, ind = some i → Blank i) → ∀ l, ∃ w', SpaceText ind src l s w' ∧ (Blank w → Blank w') ∧ w' ≠ [] ∧ (ind = none → w' = w)

/-- One or more spaces; the first one is written. -/
theorem Yields.gap (hi : ∀ i, ind = some i → Blank i) {xml : Bool} {src : Str} {l : Margin} {s : Space} {w : Str} {a : List Tree} (hs : SpaceIs src s w) (hw : Blank w)
    (ha : AllSpaces a) : Yields xml src ind (plainItems xml l (.leaf (.space s) :: a)) (w.map .char) false true := by
  obtain ⟨w', g1, g2, g3, g4⟩ := hs.2 ind hi l
  have h1 : Yields xml src ind [.gap l (some s)] (w.map .char) false true :=
    ⟨by simp [Writable], w' ++ [], w'.map .char, .space g1 .nil, by rw [List.append_nil]; exact readRun_blank xml w' (g2 hw),
      by simpa using Respaced.space (a := []) (b := []) (blank_tokens hw) (by simp [hs.1]) (blank_tokens (g2 hw)) (by simp [g3]) .nil,
      fun hn => by rw [g4 hn]⟩
  have := h1.append (Yields.spaces (l := l) ha)
  rw [List.append_nil] at this
  exact this

/-! ## Tags -/

theorem readRun_attrs {xml : Bool} {n : Str} : ∀ {attrs as : List (Str × Option Str)} {st : ReadState}, Mid xml n as st →
    (∀ p ∈ attrs, SafeAttrName p.1) → (∀ p ∈ attrs, p.2 = none → xml = false) →
    ∃ st', readRun xml st (attrs.map (attrText xml)).flatten = some (st', []) ∧ Mid xml n (as ++ attrs) st'
  | [], as, st, hm, _, _ => ⟨st, rfl, by simpa using hm⟩
  | (a, none) :: attrs, as, st, hm, h1, h2 => by
    have hx := h2 _ (List.mem_cons_self ..) rfl
    have h3 := hm.attr (h1 _ (List.mem_cons_self ..))
    obtain ⟨st', h4, h5⟩ := readRun_attrs (Mid.bare (n := n) (as := as) (a := a) hx) (fun p hp => h1 p (List.mem_cons_of_mem _ hp))
      (fun p hp => h2 p (List.mem_cons_of_mem _ hp))
    refine ⟨st', ?_, by simpa using h5⟩
    rw [List.map_cons, List.flatten_cons]
    exact readRun_trans (t1 := []) h3 h4
  | (a, some v) :: attrs, as, st, hm, h1, h2 => by
    have h3 := hm.attrValue (h1 _ (List.mem_cons_self ..)) (readRun_escValue xml n as a [] v)
    obtain ⟨st', h4, h5⟩ := readRun_attrs (Mid.value (xml := xml) (n := n) (as := as ++ [(a, some v)]))
      (fun p hp => h1 p (List.mem_cons_of_mem _ hp)) (fun p hp => h2 p (List.mem_cons_of_mem _ hp))
    refine ⟨st', ?_, by simpa using h5⟩
    rw [List.map_cons, List.flatten_cons]
    refine readRun_trans (t1 := []) ?_ h4
    simpa [attrText] using h3

theorem start_reads {xml : Bool} {src : Str} {name : Str} {items : List SelectorItem} {attrs : List (Str × Option Str)} {e : Bool}
    (hn : SafeName name) (ha : AttrsRead xml src items attrs) (h1 : ∀ p ∈ attrs, SafeAttrName p.1)
    (h2 : ∀ p ∈ attrs, p.2 = none → xml = false) (he : e = true → xml = true) :
    readRun xml .data (pieceOf xml src (.start name items e)) = some (.data, [.start name attrs e]) := by
  rw [pieceOf_eq (.start ha)]
  obtain ⟨st, h3, h4⟩ := readRun_attrs (Mid.name (xml := xml) (n := name)) h1 h2
  refine readRun_trans (t1 := []) (readRun_trans (t1 := []) (readRun_open xml name hn) h3) ?_
  cases e with
  | false => exact readRun_one (by simpa using h4.close)
  | true =>
    obtain rfl := he rfl
    exact readRun_cons (t1 := []) (by simpa using h4.slash) (readRun_one rfl)

theorem Yields.start {xml : Bool} {src : Str} {name : Str} {items : List SelectorItem} {attrs : List (Str × Option Str)} {e ws : Bool}
    (hn : SafeName name) (ha : AttrsRead xml src items attrs) (h1 : ∀ p ∈ attrs, SafeAttrName p.1)
    (h2 : ∀ p ∈ attrs, p.2 = none → xml = false) (he : e = true → xml = true) :
    Yields xml src ind [.start name items e] [.start name attrs e] ws false := by
  refine .exact (fun i hi => ?_) (.start .nil) ?_
  · simp at hi; subst hi; exact ⟨attrs, ha⟩
  · rw [List.append_nil]
    exact start_reads hn ha h1 h2 he

theorem Yields.stop {xml : Bool} {src : Str} {name : Str} {ws : Bool} (hn : SafeName name) :
    Yields xml src ind [.stop name] [.stop name] ws false := by
  refine .exact (fun i hi => ?_) (.stop .nil) ?_
  · simp at hi; subst hi; trivial
  · rw [List.append_nil, pieceOf_eq .stop]
    exact readRun_close xml name hn

/-- A start tag and the beginning of the content. -/
theorem Yields.open (hi : ∀ i, ind = some i → Blank i) {xml : Bool} {src : Str} {name : Str} {items : List SelectorItem} {attrs : List (Str × Option Str)}
    {ws : Bool} {l : Margin} (hn : SafeName name) (ha : AttrsRead xml src items attrs) (h1 : ∀ p ∈ attrs, SafeAttrName p.1)
    (h2 : ∀ p ∈ attrs, p.2 = none → xml = false) :
    ∃ ws', Yields xml src ind [.start name items false, .gap l none] [.start name attrs false] ws ws' := by
  obtain ⟨o2, ws', h6, h7, h8⟩ := gap_reads hi (xml := xml) (src := src) (ws := false) (l := l)
  refine ⟨ws', ?_, pieceOf xml src (.start name items false) ++ o2, [.start name attrs false] ++ o2.map .char, .start h6,
    readRun_trans (start_reads hn ha h1 h2 (by simp)) (readRun_blank xml o2 h7), ?_, fun h => by rw [h8 h]; rfl⟩
  · intro i hi
    simp at hi
    rcases hi with rfl | rfl
    · exact ⟨attrs, ha⟩
    · trivial
  · simpa using Respaced.afterStart (n := name) (l := attrs) (blank_tokens h7) .nil

/-- The end of the content and an end tag. -/
theorem Yields.close (hi : ∀ i, ind = some i → Blank i) {xml : Bool} {src : Str} {name : Str} {ws : Bool} {l : Margin} (hn : SafeName name) :
    Yields xml src ind [.gap l none, .stop name] [.stop name] ws false := by
  obtain ⟨o2, ws', h6, h7, h8⟩ := gap_reads hi (xml := xml) (src := src) (ws := ws) (l := l)
  have h9 : readRun xml .data (pieceOf xml src (.stop name)) = some (.data, [.stop name]) := by
    rw [pieceOf_eq .stop]; exact readRun_close xml name hn
  refine ⟨by simp [Writable], o2 ++ (pieceOf xml src (.stop name) ++ []), o2.map .char ++ [.stop name], weaves_append h6 (.stop .nil),
    readRun_trans (readRun_blank xml o2 h7) (by rw [List.append_nil]; exact h9), .beforeStop (blank_tokens h7) .nil, fun h => by rw [h8 h]; rfl⟩

/-! ## Texts and elements -/

/-- The trees stand for the pieces. -/
structure Core (xml : Bool) (src : Str) (ts : List Tree) (m : List Piece) : Prop where
  firm : Firm ts
  ne : m ≠ []
  reads : ∀ ind, (∀ i, ind = some i → Blank i) → ∀ l ws, Yields xml src ind (plainItems xml l ts) (piecesTokens xml m) ws false

theorem piecesTokens_append (xml : Bool) (a b : List Piece) : piecesTokens xml (a ++ b) = piecesTokens xml a ++ piecesTokens xml b := by
  induction a with
  | nil => rfl
  | cons p a ih => rw [List.cons_append, piecesTokens, piecesTokens, ih, List.append_assoc]

theorem Firm.append {a b c : List Tree} (ha : Firm a) (hb : Firm b) : Firm (a ++ c ++ b) := by
  refine ⟨by simp [ha.ne], fun t ht => ?_, fun t ht => ?_⟩
  · obtain ⟨x, a', rfl⟩ := List.exists_cons_of_ne_nil ha.ne
    exact ha.first t (by simpa using ht)
  · obtain ⟨y, hy⟩ : ∃ y, b.getLast? = some y := by
      cases h : b.getLast? with
      | none => exact absurd (List.getLast?_eq_none_iff.1 h) hb.ne
      | some y => exact ⟨y, rfl⟩
    refine hb.last t ?_
    rw [List.getLast?_append, hy] at ht
    rw [hy]
    simpa using ht

/-- Two contents, possibly with spaces between them of which the first is `w`. -/
theorem Core.gap {xml : Bool} {src : Str} {a b sp : List Tree} {s : Space} {w : Str} {m m' : List Piece} (ha : Core xml src a m) (hb : Core xml src b m')
    (hs : SpaceIs src s w) (hw : Blank w) (hsp : AllSpaces sp) :
    Core xml src (a ++ (.leaf (.space s) :: sp) ++ b) (m ++ .gap w :: m') := by
  refine ⟨ha.firm.append hb.firm, by simp, fun ind hi l ws => ?_⟩
  rw [plainItems_append, plainItems_append, piecesTokens_append, List.append_assoc]
  refine (ha.reads ind hi l ws).append ?_
  rw [show piecesTokens xml (.gap w :: m') = w.map .char ++ piecesTokens xml m' from rfl]
  exact (Yields.gap hi hs hw hsp).append (hb.reads ind hi l true)

theorem Core.append {xml : Bool} {src : Str} {a b : List Tree} {m m' : List Piece} (ha : Core xml src a m) (hb : Core xml src b m') :
    Core xml src (a ++ b) (m ++ m') := by
  refine ⟨by simpa using ha.firm.append (c := []) hb.firm, by simp [ha.ne], fun ind hi l ws => ?_⟩
  rw [plainItems_append, piecesTokens_append]
  exact (ha.reads ind hi l ws).append (hb.reads ind hi l false)

/-- A text. -/
theorem Yields.text {xml : Bool} {src : Str} {t : Text} {u : Str} {ws : Bool} (hm : t.multiline = false) (hu : TextChars src t u)
    (hs : t.slice.asStr src ≠ []) :
    Yields xml src ind [.text t false] (u.map .char) ws (endsBlank (t.slice.asStr src)) := by
  have he : t.slice.isEmpty = false := by
    rw [Bool.eq_false_iff]
    exact fun h => hs (slice_empty h)
  refine .exact (fun i hi => ?_) (.text hu (.plain he (.inl hm)) .nil) ?_
  · simp at hi; subst hi; exact ⟨u, hu⟩
  · rw [List.append_nil, pieceOf_eq (.text hu)]
    exact readRun_escText xml u

/-- Words. -/
theorem Core.words {xml : Bool} {src : Str} {r : Range} {u : Str} (h : LineText (r.slice src) u) : Core xml src [.leaf (segText r)] [.text u] := by
  obtain ⟨h1, h2⟩ := line_last h
  refine ⟨⟨by simp, by rintro t ⟨⟩; rfl, by rintro t ⟨⟩; rfl⟩, by simp, fun ind hi l ws => ?_⟩
  have := Yields.text (xml := xml) (src := src) (t := ⟨.fromSource r, false, true, true, false⟩) (u := u) (ws := ws) (ind := ind) rfl
    (.plain rfl (by rw [if_pos rfl]; exact line_unescapes h)) h2
  rw [plainItems_one]
  rw [endsBlank_eq] at this
  have h3 : endsWithBlank ((TextSlice.fromSource r).asStr src) = false := h1
  rw [h3] at this
  cases xml <;> simpa [treeItems, segText, piecesTokens, pieceTokens] using this

/-- The content of an element. -/
inductive Body (xml : Bool) (src : Str) : List Tree → List Piece → Prop
  | empty : Body xml src [] []
  | mk {a k b m} : AllSpaces a → AllSpaces b → Firm k → m ≠ [] →
      (∀ ind, (∀ i, ind = some i → Blank i) → ∀ l ws, ∃ ws', Yields xml src ind (plainItems xml l k) (piecesTokens xml m) ws ws') → Body xml src (a ++ k ++ b) m

theorem Core.body {xml : Bool} {src : Str} {a k b : List Tree} {m : List Piece} (h : Core xml src k m) (ha : AllSpaces a) (hb : AllSpaces b) :
    Body xml src (a ++ k ++ b) m := .mk ha hb h.firm h.ne fun ind hi l ws => ⟨false, h.reads ind hi l ws⟩

/-- Code. -/
theorem Body.code {xml : Bool} {src : Str} {r : Range} (h : r.slice src ≠ []) :
    Body xml src [.leaf (.text ⟨.fromSource r, false, false, true, false⟩)] [.text (r.slice src)] := by
  have hf : Firm [Tree.leaf (.text ⟨.fromSource r, false, false, true, false⟩)] := ⟨by simp, by rintro t ⟨⟩; rfl, by rintro t ⟨⟩; rfl⟩
  refine .mk (a := []) (b := []) (by simp [AllSpaces]) (by simp [AllSpaces]) hf (by simp) fun ind hi l ws => ⟨endsBlank ((TextSlice.fromSource r).asStr src), ?_⟩
  have := Yields.text (xml := xml) (src := src) (t := ⟨.fromSource r, false, false, true, false⟩) (u := r.slice src) (ws := ws) (ind := ind) rfl
    (.plain rfl rfl) h
  rw [plainItems_one]
  cases xml <;> simpa [treeItems, piecesTokens, pieceTokens] using this

/-- Text that is not unescaped and does not end with a blank. -/
theorem Core.verbatim {xml : Bool} {src : Str} {r : Range} (h : r.slice src ≠ []) (h1 : (r.slice src).getLast? ≠ some ' ')
    (h2 : (r.slice src).getLast? ≠ some '\t') :
    Core xml src [.leaf (.text ⟨.fromSource r, false, false, true, false⟩)] [.text (r.slice src)] := by
  refine ⟨⟨by simp, by rintro t ⟨⟩; rfl, by rintro t ⟨⟩; rfl⟩, by simp, fun ind hi l ws => ?_⟩
  have := Yields.text (xml := xml) (src := src) (t := ⟨.fromSource r, false, false, true, false⟩) (u := r.slice src) (ws := ws) (ind := ind) rfl
    (.plain rfl rfl) h
  have h3 : endsBlank ((TextSlice.fromSource r).asStr src) = false := by
    simp only [endsBlank, TextSlice.asStr, h1, h2, decide_false, Bool.or_self]
  rw [plainItems_one]
  rw [h3] at this
  cases xml <;> simpa [treeItems, piecesTokens, pieceTokens] using this

/-- Lines between fences. -/
theorem Yields.block {xml : Bool} {src : Str} {t : Text} {body u : Str} {ws : Bool} (hm : t.multiline = true) (ht : Trimmed (t.slice.asStr src) body)
    (hb : body ≠ []) (hu : if t.unescapeIn then Unescapes Accepted body u else u = body) :
    Yields xml src ind [.text t false] (u.map .char) ws (endsBlank body) := by
  have hs : t.slice.asStr src ≠ [] := by
    intro h
    rw [h] at ht
    have := trimMultiline_of_trimmed ht
    exact hb (by rw [← this]; decide)
  have he : t.slice.isEmpty = false := by
    rw [Bool.eq_false_iff]
    exact fun h => hs (slice_empty h)
  have hh : ¬ Hollow (t.slice.asStr src) := by
    intro h
    have h1 := trimMultiline_hollow.2 h
    have h2 := trimMultiline_of_trimmed ht
    rw [h1] at h2
    exact hb h2.symm
  have hc : TextChars src t u := .block hm ht hu
  refine .exact (fun i hi => ?_) (.text hc (.block he hm hh ht) .nil) ?_
  · simp at hi; subst hi; exact ⟨u, hc⟩
  · rw [List.append_nil, pieceOf_eq (.text hc)]
    exact readRun_escText xml u

/-- Text between fences that does not end with a blank. -/
theorem Core.fenced {xml : Bool} {src : Str} {r : Range} {e : Bool} {body u : Str} (ht : Trimmed (r.slice src) body) (hb : body ≠ [])
    (hu : if e then Unescapes Accepted body u else u = body) (h1 : body.getLast? ≠ some ' ') (h2 : body.getLast? ≠ some '\t') :
    Core xml src [.leaf (.text ⟨.fromSource r, true, e, true, false⟩)] [.text u] := by
  refine ⟨⟨by simp, by rintro t ⟨⟩; rfl, by rintro t ⟨⟩; rfl⟩, by simp, fun ind hi l ws => ?_⟩
  have := Yields.block (xml := xml) (src := src) (t := ⟨.fromSource r, true, e, true, false⟩) (u := u) (ws := ws) (ind := ind) rfl ht hb hu
  have h3 : endsBlank body = false := by
    simp only [endsBlank, h1, h2, decide_false, Bool.or_self]
  rw [plainItems_one]
  rw [h3] at this
  cases xml <;> simpa [treeItems, piecesTokens, pieceTokens] using this

/-- Code between fences. -/
theorem Body.fenced {xml : Bool} {src : Str} {r : Range} {body : Str} (ht : Trimmed (r.slice src) body) (hb : body ≠ []) :
    Body xml src [.leaf (.text ⟨.fromSource r, true, false, true, false⟩)] [.text body] := by
  have hf : Firm [Tree.leaf (.text ⟨.fromSource r, true, false, true, false⟩)] := ⟨by simp, by rintro t ⟨⟩; rfl, by rintro t ⟨⟩; rfl⟩
  refine .mk (a := []) (b := []) (by simp [AllSpaces]) (by simp [AllSpaces]) hf (by simp) fun ind hi l ws => ⟨endsBlank body, ?_⟩
  have := Yields.block (xml := xml) (src := src) (t := ⟨.fromSource r, true, false, true, false⟩) (u := body) (ws := ws) (ind := ind) rfl ht hb rfl
  rw [plainItems_one]
  cases xml <;> simpa [treeItems, piecesTokens, pieceTokens] using this

/-- A comment. -/
theorem Core.comment {xml : Bool} {src : Str} {r : Range} (h : CommentBody (r.slice src)) :
    Core xml src [.leaf (.comment (.fromSource r))] [.comment (r.slice src)] := by
  refine ⟨⟨by simp, by rintro t ⟨⟩; rfl, by rintro t ⟨⟩; rfl⟩, by simp, fun ind hi l ws => ?_⟩
  rw [plainItems_one, treeItems]
  refine .exact (by simp [Writable]) (.comment .nil) ?_
  rw [List.append_nil, pieceOf_eq .comment]
  simp only [TextSlice.asStr, writeCommentBody_id h]
  exact readRun_comment xml _ h

/-- What a selector stands for. -/
structure Attrs (xml : Bool) (src : Str) (items : List SelectorItem) (ps : List Spec.Part) : Prop where
  reads : AttrsRead xml src items (tagAttributes xml ps)
  names : ∀ n v, Spec.Part.attribute n v ∈ ps → SafeAttrName n

theorem Attrs.safe {xml : Bool} {src : Str} {items : List SelectorItem} {ps : List Spec.Part} (h : Attrs xml src items ps) :
    ∀ p ∈ tagAttributes xml ps, SafeAttrName p.1 ∧ (p.2 = none → xml = false) := by
  intro p hp
  rw [tagAttributes] at hp
  rcases List.mem_append.1 hp with hp | hp
  · rcases List.mem_append.1 hp with hp | hp
    · obtain ⟨v, _, rfl⟩ := List.mem_map.1 hp
      exact ⟨safe_id, by simp⟩
    · split at hp
      · simp at hp
      · simp only [List.mem_singleton] at hp
        subst hp
        exact ⟨safe_class, by simp⟩
  · obtain ⟨q, hq, he⟩ := List.mem_filterMap.1 hp
    cases q with
    | id => simp at he
    | cls => simp at he
    | «attribute» n v =>
      simp only [Option.some.injEq] at he
      subst he
      refine ⟨h.names n v hq, ?_⟩
      cases xml with
      | true => simp
      | false => simp

/-- An element with a name. -/
theorem Core.elem {xml : Bool} {src : Str} {f : Option Form} {fmt : Bool} {name : Str} {items : List SelectorItem} {ps : List Spec.Part}
    {ts : List Tree} {m : List Piece} (hn : SafeName name) (ha : Attrs xml src items ps) (hb : Body xml src ts m) (hh : Holds name m) :
    Core xml src [.elem f false fmt (some (some name, items)) ts] [.elem name ps m] := by
  refine ⟨⟨by simp, by rintro t ⟨⟩; rfl, by rintro t ⟨⟩; rfl⟩, by simp, fun ind hi l ws => ?_⟩
  have h1 := fun p hp => (ha.safe p hp).1
  have h2 := fun p hp => (ha.safe p hp).2
  rw [plainItems_one, treeItems, show piecesTokens xml [.elem name ps m] = pieceTokens xml (.elem name ps m) by simp [piecesTokens]]
  cases hb with
  | empty =>
    rw [pieceTokens]
    cases xml with
    | true =>
      simp only [List.isEmpty_nil, Bool.and_true, if_true, Bool.true_or]
      exact .start hn ha.reads h1 h2 (by simp)
    | false =>
      simp only [List.isEmpty_nil, Bool.false_and, Bool.false_or, if_true, List.nil_append, Bool.false_eq_true, if_false]
      have hst := Yields.start (ind := ind) (ws := ws) (e := false) hn ha.reads h1 h2 (by simp)
      cases hv : voidName false name with
      | true => simpa using hst
      | false => simpa using hst.append (Yields.stop hn)
  | @mk a k b m h3 h4 h5 h6 h7 =>
    have hne : (a ++ k ++ b).isEmpty = false := by
      obtain ⟨x, k', rfl⟩ := List.exists_cons_of_ne_nil h5.ne
      simp
    have hv : voidName xml name = false := by
      cases xml with
      | true => rfl
      | false => exact hh.2.2 h6
    have ht : pieceTokens xml (.elem name ps m) = [.start name (tagAttributes xml ps) false] ++ (piecesTokens xml m ++ [.stop name]) := by
      cases m with
      | nil => exact absurd rfl h6
      | cons p m => simp [pieceTokens, piecesTokens]
    obtain ⟨w1, hst⟩ := Yields.open (ws := ws) (l := l.inside fmt name) hi hn ha.reads h1 h2
    obtain ⟨w2, h8⟩ := h7 ind hi (l.inside fmt name) w1
    simp only [hne, Bool.and_false, Bool.false_eq_true, if_false, hv, Bool.or_false]
    rw [trimSpaces_firm h3 h4 h5, ht]
    have h9 := hst.append (h8.append (Yields.close (ws := w2) (l := ⟨fmt, l.depth⟩) hi hn))
    simpa using h9

/-- An element without name. -/
theorem Core.unnamed {xml : Bool} {src : Str} {f : Option Form} {fmt : Bool} {a k b : List Tree} {m : List Piece}
    (ha : AllSpaces a) (hb : AllSpaces b) (h : Core xml src k m) : Core xml src [.elem f false fmt none (a ++ k ++ b)] m := by
  refine ⟨⟨by simp, by rintro t ⟨⟩; rfl, by rintro t ⟨⟩; rfl⟩, h.ne, fun ind hi l ws => ?_⟩
  rw [plainItems_one, treeItems.eq_def]
  simp only [Bool.or_false]
  rw [trimSpaces_firm ha hb h.firm]
  exact h.reads ind hi _ ws

/-! ## Attributes -/

theorem ids_parts (src : Str) (items : List SelectorItem) :
    (idsOf items).map (·.asStr src) = (documentParts src items).filterMap fun | .id v => some v | _ => none := by
  induction items with
  | nil => rfl
  | cons i items ih =>
    cases i with
    | id r v => simpa [idsOf, documentParts] using ih
    | cls r v => simpa [idsOf, documentParts] using ih
    | attributes r as => simpa [idsOf, documentParts, List.filterMap_append, List.filterMap_map, Function.comp_def] using ih

theorem classes_parts (src : Str) (items : List SelectorItem) :
    (classesOf items).map (·.asStr src) = (documentParts src items).filterMap fun | .cls v => some v | _ => none := by
  induction items with
  | nil => rfl
  | cons i items ih =>
    cases i with
    | id r v => simpa [classesOf, documentParts] using ih
    | cls r v => simpa [classesOf, documentParts] using ih
    | attributes r as => simpa [classesOf, documentParts, List.filterMap_append, List.filterMap_map, Function.comp_def] using ih

theorem attributes_parts (src : Str) (items : List SelectorItem) :
    (attributesOf items).map (fun a => (a.name.asStr src, a.value.map (·.asStr src))) =
      (documentParts src items).filterMap fun | .attribute n v => some (n, v) | _ => none := by
  induction items with
  | nil => rfl
  | cons i items ih =>
    cases i with
    | id r v => simpa [attributesOf, documentParts] using ih
    | cls r v => simpa [attributesOf, documentParts] using ih
    | attributes r as =>
      simp only [attributesOf] at ih
      simp [attributesOf, documentParts, List.filterMap_append, List.filterMap_map, Function.comp_def, ih]

theorem attrs_of {xml : Bool} {src : Str} {items : List SelectorItem} {ps : List Spec.Part}
    (h : List.Forall₂ PartIs (documentParts src items) ps) (hn : ∀ n v, Spec.Part.attribute n v ∈ ps → SafeAttrName n) :
    Attrs xml src items ps := by
  refine ⟨?_, hn⟩
  generalize hd : documentParts src items = ds at h
  have h1 : List.Forall₂ (Unescapes Accepted) (ds.filterMap fun | .id v => some v | _ => none)
      (ps.filterMap fun | .id v => some v | _ => none) := by
    clear hn hd
    induction h with
    | nil => exact .nil
    | @cons p q l l' hp _ ih => cases p <;> cases q <;> simp_all [PartIs]
  have h2 : List.Forall₂ (Unescapes Accepted) (ds.filterMap fun | .cls v => some v | _ => none)
      (ps.filterMap fun | .cls v => some v | _ => none) := by
    clear hn h1 hd
    induction h with
    | nil => exact .nil
    | @cons p q l l' hp _ ih => cases p <;> cases q <;> simp_all [PartIs]
  have h3 : List.Forall₂ (fun (p q : Str × Option Str) => Unescapes Accepted p.1 q.1 ∧
        match p.2 with
        | some v => ∃ x, q.2 = some x ∧ Unescapes Accepted v x
        | none => q.2 = if xml then some [] else none)
      (ds.filterMap fun | .attribute n v => some (n, v) | _ => none)
      (ps.filterMap fun | .attribute n v => some (n, if xml then some (v.getD []) else v) | _ => none) := by
    clear hn h1 h2 hd
    induction h with
    | nil => exact .nil
    | @cons p q l l' hp _ ih =>
      cases p with
      | id => cases q <;> simp_all [PartIs]
      | cls => cases q <;> simp_all [PartIs]
      | «attribute» a v =>
        cases q with
        | id => simp [PartIs] at hp
        | cls => simp [PartIs] at hp
        | «attribute» b w =>
          cases v with
          | none =>
            cases w with
            | none =>
              simp only [PartIs] at hp
              cases xml <;> simp_all
            | some w => simp [PartIs] at hp
          | some v =>
            cases w with
            | none => simp [PartIs] at hp
            | some w =>
              simp only [PartIs] at hp
              cases xml <;> simp_all
  subst hd
  rw [← ids_parts] at h1
  rw [← classes_parts] at h2
  rw [← attributes_parts] at h3
  have h4 := AttrsRead.mk (xml := xml) (src := src) (items := items)
    (id := (ps.filterMap fun | .id v => some v | _ => none).take 1)
    (cls := ps.filterMap fun | .cls v => some v | _ => none)
    (attrs := ps.filterMap fun | .attribute n v => some (n, if xml then some (v.getD []) else v) | _ => none)
    (by
      have := List.forall₂_map_left_iff.1 h1
      exact List.forall₂_take 1 this)
    (List.forall₂_map_left_iff.1 h2)
    (by
      refine (List.forall₂_map_left_iff.1 h3).imp fun a p h => ⟨h.1, ?_⟩
      have := h.2
      cases hv : a.value with
      | none => simpa [hv] using this
      | some v => simpa [hv] using this)
  rw [tagAttributes]
  split
  · rename_i he
    have hc : (ps.filterMap fun | .cls v => some v | _ => none) = [] := he
    rw [hc] at h4
    exact h4
  · rename_i c cs he
    have hc : (ps.filterMap fun | .cls v => some v | _ => none) = c :: cs := he
    rw [hc] at h4
    exact h4

end Mty
