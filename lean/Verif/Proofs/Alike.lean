import Verif.Spec.Alike
import Verif.Proofs.Items
import Verif.Proofs.Tidy

/-! # The same markup in HTML and in XML -/

set_option autoImplicit false

namespace Mty
open Spec

/-- The names of the attributes can be used in markup. -/
def SafeItems (src : Str) (items : List SelectorItem) : Prop :=
  ∀ a ∈ attributesOf items, ∀ x, Unescapes Accepted (a.name.asStr src) x → SafeAttrName x

/-- The items of the HTML output and those of the XML output. -/
inductive Alike (src : Str) : List OutItem → List OutItem → Prop
  | nil : Alike src [] []
  | doctype {a b} : Alike src a b → Alike src (.doctype :: a) (.doctype :: b)
  | comment {s a b} : Alike src a b → Alike src (.comment s :: a) (.comment s :: b)
  | gap {l s a b} : (∀ t, s = some (.inline (some t)) → Blank (t.asStr src)) → Alike src a b →
      Alike src (.gap l s :: a) (.gap l s :: b)
  | text {t a b} : Alike src a b → Alike src (.text t false :: a) (.text t false :: b)
  | start {n i a b} : SafeName n → SafeItems src i → Alike src a b → Alike src (.start n i false :: a) (.start n i false :: b)
  | empty {n i a b} : voidName false n = false → SafeName n → SafeItems src i → Alike src a b →
      Alike src (.start n i false :: .stop n :: a) (.start n i true :: b)
  | void {n i a b} : voidName false n = true → SafeName n → SafeItems src i → Alike src a b →
      Alike src (.start n i false :: a) (.start n i true :: b)
  | stop {n a b} : voidName false n = false → SafeName n → Alike src a b → Alike src (.stop n :: a) (.stop n :: b)
  | voidStop {n a b} : voidName false n = true → SafeName n → Alike src a b → Alike src a (.stop n :: b)

theorem Alike.append {src : Str} {a b c d : List OutItem} (h : Alike src a b) (h' : Alike src c d) : Alike src (a ++ c) (b ++ d) := by
  induction h with
  | nil => exact h'
  | doctype _ ih => exact .doctype ih
  | comment _ ih => exact .comment ih
  | gap h1 _ ih => exact .gap h1 ih
  | text _ ih => exact .text ih
  | start h1 h2 _ ih => exact .start h1 h2 ih
  | empty h1 h2 h3 _ ih => exact .empty h1 h2 h3 ih
  | void h1 h2 h3 _ ih => exact .void h1 h2 h3 ih
  | stop h1 h2 _ ih => exact .stop h1 h2 ih
  | voidStop h1 h2 _ ih => exact .voidStop h1 h2 ih

theorem Alike.flatMap {src : Str} {f g : Node → List OutItem} : ∀ {ns : List Node}, (∀ n ∈ ns, Alike src (f n) (g n)) →
    Alike src (ns.flatMap f) (ns.flatMap g)
  | [], _ => .nil
  | n :: ns, h => by
    rw [List.flatMap_cons, List.flatMap_cons]
    exact (h n (List.mem_cons_self ..)).append (Alike.flatMap fun m hm => h m (List.mem_cons_of_mem _ hm))

theorem voidName_true (n : Str) : voidName true n = false := rfl

theorem node_alike {src : Str} {raw : Bool} {n : Node} (h : Readable false src raw n) (l : Margin) :
    Alike src (nodeItems false src raw l n) (nodeItems true src raw l n) := by
  induction h generalizing l with
  | space h =>
    simp only [nodeItems]
    exact .gap (fun t ht => (h t (by simpa using ht)).1) .nil
  | text h1 h2 =>
    obtain ⟨h2, h3⟩ := h2 rfl
    simp only [nodeItems, h1, h2, h3]
    exact .text .nil
  | comment => simp only [nodeItems]; exact .comment .nil
  | @elem raw r h ch h1 h2 h3 _ ih =>
    have key : ∀ l, Alike src (trimSpaces (contentItems false src (raw || h.isRaw) l ch)) (trimSpaces (contentItems true src (raw || h.isRaw) l ch)) := by
      intro l
      rw [trimSpaces_eq, trimSpaces_eq]
      exact .flatMap fun n hn => ih n (inner_mem hn) l
    rw [nodeItems, nodeItems]
    rcases hn : namedBy h with _ | ⟨n, s⟩ <;> dsimp only
    · exact key _
    · have hs : s ∈ h.selectors ∧ s.tag.name = some n := by
        unfold namedBy at hn
        cases hh : h.selectors with
        | nil => rw [hh] at hn; simp at hn
        | cons s' ss =>
          rw [hh] at hn
          simp only [List.head?_cons, Option.bind_some, Option.map_eq_some_iff, Prod.mk.injEq] at hn
          obtain ⟨a, h4, rfl, rfl⟩ := hn
          exact ⟨List.mem_cons_self .., h4⟩
      have hN := h2 s hs.1 n hs.2
      have hI : SafeItems src s.items := h3 s hs.1
      have hstop : Alike src (if voidName false (n.asStr src) then [] else [.stop (n.asStr src)])
          (if voidName true (n.asStr src) then [] else [.stop (n.asStr src)]) := by
        rw [voidName_true]
        cases hv : voidName false (n.asStr src) with
        | true => exact .voidStop hv hN .nil
        | false => exact .stop hv hN .nil
      cases ch with
      | nil =>
        simp only [Bool.false_and, List.isEmpty_nil, Bool.and_self, if_true, List.nil_append]
        cases hv : voidName false (n.asStr src) with
        | true => exact .void hv hN hI .nil
        | false => exact .empty hv hN hI .nil
      | cons c cs =>
        simp only [Bool.false_and, List.isEmpty_cons, Bool.and_false]
        refine .start hN hI (.append ?_ hstop)
        exact .gap (by simp) (.append (key _) (.gap (by simp) .nil))

/-! ## Reading pieces -/

theorem attrs_safe {xml : Bool} {src : Str} {items : List SelectorItem} {attrs : List (Str × Option Str)} (h : AttrsRead xml src items attrs)
    (hs : SafeItems src items) : ∀ p ∈ attrs, SafeAttrName p.1 := by
  obtain ⟨h1, h2, h3⟩ := h
  rename_i id cls as
  intro p hp
  rw [List.mem_append, List.mem_append] at hp
  rcases hp with (hp | hp) | hp
  · obtain ⟨x, -, rfl⟩ := List.mem_map.1 hp; exact safe_id
  · split at hp
    · cases hp
    · rw [List.mem_singleton] at hp; subst hp; exact safe_class
  · unfold SafeItems at hs
    generalize attributesOf items = l at h3 hs
    induction h3 with
    | nil => cases hp
    | cons hab _ ih =>
      rcases List.mem_cons.1 hp with rfl | hp
      · exact hs _ (List.mem_cons_self ..) _ hab.1
      · exact ih hp (fun a ha => hs a (List.mem_cons_of_mem _ ha))

theorem attrs_run {xml : Bool} {n : Str} : ∀ {attrs as : List (Str × Option Str)} {st : ReadState}, Mid xml n as st →
    (∀ p ∈ attrs, SafeAttrName p.1 ∧ (p.2 = none → xml = false)) →
    ∃ st', Mid xml n (as ++ attrs) st' ∧ readRun xml st (attrs.map (attrText xml)).flatten = some (st', [])
  | [], as, st, hm, _ => ⟨st, by simpa using hm, rfl⟩
  | (a, v) :: attrs, as, st, hm, h => by
    obtain ⟨ha, hv⟩ := h (a, v) (List.mem_cons_self ..)
    have hr := fun p hp => h p (List.mem_cons_of_mem _ hp)
    rw [List.map_cons, List.flatten_cons]
    cases v with
    | none =>
      obtain ⟨st', h1, h2⟩ := attrs_run (.bare (n := n) (as := as) (a := a) (hv rfl)) hr
      refine ⟨st', by simpa using h1, readRun_trans (t1 := []) (hm.attr ha) h2⟩
    | some v =>
      obtain ⟨st', h1, h2⟩ := attrs_run (.value (xml := xml) (n := n) (as := as ++ [(a, some v)])) hr
      refine ⟨st', by simpa using h1, readRun_trans (t1 := []) ?_ h2⟩
      have := hm.attrValue ha (readRun_escValue xml n as a [] v)
      simpa [attrText] using this

theorem attrs_bare {xml : Bool} {src : Str} {items : List SelectorItem} {attrs : List (Str × Option Str)} (h : AttrsRead xml src items attrs) :
    ∀ p ∈ attrs, p.2 = none → xml = false := by
  obtain ⟨h1, h2, h3⟩ := h
  intro p hp hn
  rw [List.mem_append, List.mem_append] at hp
  rcases hp with (hp | hp) | hp
  · obtain ⟨x, -, rfl⟩ := List.mem_map.1 hp; cases hn
  · split at hp
    · cases hp
    · rw [List.mem_singleton] at hp; subst hp; cases hn
  · generalize attributesOf items = l at h3
    induction h3 with
    | nil => cases hp
    | @cons a q _ _ hab _ ih =>
      rcases List.mem_cons.1 hp with rfl | hp
      · have := hab.2
        cases hv : a.value with
        | some v => rw [hv] at this; obtain ⟨x, h4, -⟩ := this; rw [hn] at h4; cases h4
        | none =>
          rw [hv] at this
          cases xml with
          | false => rfl
          | true => rw [hn] at this; cases this
      · exact ih hp

theorem start_run {xml : Bool} {src n : Str} {items : List SelectorItem} {e : Bool} {attrs : List (Str × Option Str)}
    (h : AttrsRead xml src items attrs) (hn : SafeName n) (hs : SafeItems src items) (he : e = true → xml = true) :
    readRun xml .data (pieceOf xml src (.start n items e)) = some (.data, [.start n attrs e]) := by
  rw [pieceOf_eq (.start h)]
  obtain ⟨st, h1, h2⟩ := attrs_run (.name (xml := xml) (n := n)) (fun p hp => ⟨attrs_safe h hs p hp, attrs_bare h p hp⟩)
  rw [List.nil_append] at h1
  refine readRun_trans (t1 := []) (readRun_trans (t1 := []) (readRun_open xml n hn) h2) ?_
  cases e with
  | false => exact readRun_one h1.close
  | true =>
    have := he rfl
    subst this
    exact readRun_cons (t1 := []) h1.slash (readRun_one (by simp [readStep]))

theorem stop_run {xml : Bool} {src n : Str} (hn : SafeName n) :
    readRun xml .data (pieceOf xml src (.stop n)) = some (.data, [.stop n]) := by
  rw [pieceOf_eq .stop]
  exact readRun_close xml n hn

theorem comment_run {xml : Bool} {src : Str} {s : TextSlice} :
    readRun xml .data (pieceOf xml src (.comment s)) = some (.data, [.comment (writeCommentBody (s.asStr src))]) := by
  rw [pieceOf_eq .comment]
  exact readRun_comment xml _ (writeCommentBody_spec _)

theorem text_run {xml : Bool} {src : Str} {t : Text} {u : Str} (h : TextChars src t u) :
    readRun xml .data (pieceOf xml src (.text t false)) = some (.data, u.map .char) := by
  rw [pieceOf_eq (.text h)]
  exact readRun_escText xml u

theorem doctype_run {xml : Bool} {src : Str} :
    readRun xml .data (pieceOf xml src .doctype) = some (.data, [.doctype "DOCTYPE html".toList, .char '\n']) := by
  rw [pieceOf_eq .doctype]
  cases xml <;> decide +kernel

/-! ## Attributes -/

theorem attrs_meant {src : Str} {items : List SelectorItem} {a b : List (Str × Option Str)} (h : AttrsRead false src items a)
    (h' : AttrsRead true src items b) : a.map attributeMeant = b.map attributeMeant := by
  cases h with
  | mk i1 c1 a1 => cases h' with
    | mk i2 c2 a2 =>
      have hd : ∀ (i : TextSlice) (x y : Str), Unescapes Accepted (i.asStr src) x → Unescapes Accepted (i.asStr src) y → x = y :=
        fun _ _ _ => unescapes_det
      rw [forall2_det hd i1 i2, forall2_det hd c1 c2]
      simp only [List.map_append]
      congr 1
      generalize attributesOf items = l at a1 a2
      rename_i _ _ x _ _ y
      induction a1 generalizing y with
      | nil => cases a2; rfl
      | @cons p q _ _ h _ ih => cases a2 with
        | @cons _ q' _ _ h' a2 =>
          rw [List.map_cons, List.map_cons, ih a2]
          congr 1
          obtain ⟨n1, v1⟩ := h
          obtain ⟨n2, v2⟩ := h'
          unfold attributeMeant
          rw [unescapes_det n1 n2]
          cases hv : p.value with
          | none => rw [hv] at v1 v2; simp only at v1 v2; rw [v1, v2]; rfl
          | some w =>
            rw [hv] at v1 v2
            obtain ⟨x, e1, h1⟩ := v1
            obtain ⟨y, e2, h2⟩ := v2
            rw [e1, e2, unescapes_det h1 h2]

theorem attrsRead_exists {xml xml' : Bool} {src : Str} {items : List SelectorItem} {a : List (Str × Option Str)} (h : AttrsRead xml src items a) :
    ∃ b, AttrsRead xml' src items b := by
  obtain ⟨h1, h2, h3⟩ := h
  have : ∃ as, List.Forall₂ (AttrRead xml' src) (attributesOf items) as := by
    generalize attributesOf items = l at h3
    induction h3 with
    | nil => exact ⟨[], .nil⟩
    | @cons a p _ _ h _ ih =>
      obtain ⟨as, ih⟩ := ih
      refine ⟨(p.1, match a.value with | some _ => p.2 | none => if xml' then some [] else none) :: as, .cons ⟨h.1, ?_⟩ ih⟩
      have := h.2
      cases hv : a.value with
      | none => rfl
      | some v => rw [hv] at this; exact this
  obtain ⟨as, h4⟩ := this
  exact ⟨_, .mk h1 h2 h4⟩

/-- Whether everything can be written does not depend on the kind of output. -/
theorem writable_all (xml xml' : Bool) {src : Str} {a b : List OutItem} (hs : itemStarts a = itemStarts b)
    (ht : (itemTexts a).map (·.1) = (itemTexts b).map (·.1)) (h : ∀ i ∈ a, Writable xml src i) : ∀ i ∈ b, Writable xml' src i := by
  intro i hi
  cases i with
  | start n items e =>
    have : (n, items) ∈ itemStarts b := List.mem_filterMap.2 ⟨_, hi, rfl⟩
    rw [← hs] at this
    obtain ⟨j, hj, he⟩ := List.mem_filterMap.1 this
    cases j <;> simp at he
    obtain ⟨rfl, rfl⟩ := he
    obtain ⟨x, hx⟩ := h _ hj
    exact attrsRead_exists hx
  | text t v =>
    have : t ∈ (itemTexts b).map (·.1) := List.mem_map.2 ⟨(t, v), List.mem_filterMap.2 ⟨_, hi, rfl⟩, rfl⟩
    rw [← ht] at this
    obtain ⟨⟨t', v'⟩, hp, rfl⟩ := List.mem_map.1 this
    obtain ⟨j, hj, he⟩ := List.mem_filterMap.1 hp
    cases j <;> simp at he
    obtain ⟨rfl, rfl⟩ := he
    exact h _ hj
  | doctype => trivial
  | stop n => trivial
  | comment s => trivial
  | gap l s => trivial

/-! ## Reading the outputs -/

theorem meant_append (a b : List Token) : meant (a ++ b) = meant a ++ meant b := List.flatMap_append ..

theorem meant_chars (u : Str) : meant (u.map .char) = u.map .char := by
  induction u with
  | nil => rfl
  | cons c u ih => rw [List.map_cons, meant, List.flatMap_cons]; exact congrArg _ ih

theorem solid_append (a b : List Token) : solid (a ++ b) = solid a ++ solid b := List.filter_append ..

theorem solid_blank {w : Str} (h : Blank w) : solid (w.map .char) = [] := by
  rw [solid, List.filter_eq_nil_iff]
  intro t ht
  obtain ⟨c, hc, rfl⟩ := List.mem_map.1 ht
  simp [(h c hc).1]

/-- Both can be read, and mean the same. -/
def Agree (same : Prop) (oH oX : Str) : Prop :=
  ∃ tH tX, readRun false .data oH = some (.data, tH) ∧ readRun true .data oX = some (.data, tX) ∧
    solid (meant tH) = solid (meant tX) ∧ (same → VoidsEmpty tX → meant tH = meant tX)

theorem Agree.cons {same same' : Prop} {oH oX pH pX : Str} {tH tX : List Token} (h : Agree same oH oX)
    (h1 : readRun false .data pH = some (.data, tH)) (h2 : readRun true .data pX = some (.data, tX))
    (h3 : meant tH = meant tX) (hs : same' → same) : Agree same' (pH ++ oH) (pX ++ oX) := by
  obtain ⟨uH, uX, g1, g2, g3, g4⟩ := h
  refine ⟨_, _, readRun_trans h1 g1, readRun_trans h2 g2, ?_, ?_⟩
  · rw [meant_append, meant_append, solid_append, solid_append, h3, g3]
  · intro k hv
    rw [meant_append, meant_append, h3, g4 (hs k) fun n hn hm => hv n hn (List.mem_append_right _ hm)]

/-- White space that is only in one of them. -/
theorem Agree.white {same same' : Prop} {oH oX wH wX : Str} (h : Agree same oH oX) (h1 : Blank wH) (h2 : Blank wX)
    (hs : same' → same ∧ wH = wX) : Agree same' (wH ++ oH) (wX ++ oX) := by
  obtain ⟨uH, uX, g1, g2, g3, g4⟩ := h
  refine ⟨_, _, readRun_trans (readRun_blank false _ h1) g1, readRun_trans (readRun_blank true _ h2) g2, ?_, ?_⟩
  · rw [meant_append, meant_append, solid_append, solid_append, meant_chars, meant_chars, solid_blank h1, solid_blank h2, g3]
  · intro k hv
    obtain ⟨k1, k2⟩ := hs k
    rw [meant_append, meant_append, k2, g4 k1 fun n hn hm => hv n hn (List.mem_append_right _ hm)]

theorem spaceText_blank {indent : Option Str} {src : Str} {l : Margin} {s : Space} {w : Str} (hi : ∀ i, indent = some i → Blank i)
    (hs : ∀ t, s = .inline (some t) → Blank (t.asStr src)) (h : SpaceText indent src l s w) : Blank w := by
  have hb : Blank [' '] := by intro c hc; rw [List.mem_singleton] at hc; subst hc; decide
  cases h with
  | written => exact hs _ rfl
  | blank => exact hb
  | unbroken => exact hb
  | broken _ h2 _ =>
    intro c hc
    rcases List.mem_cons.1 hc with rfl | hc
    · decide
    · obtain ⟨x, hx, hc⟩ := List.mem_flatten.1 hc
      rw [List.eq_of_mem_replicate hx] at hc
      exact hi _ h2 c hc

theorem break_blank {i : Str} (hi : Blank i) (k : Nat) : Blank ('\n' :: (List.replicate k i).flatten) := by
  intro c hc
  rcases List.mem_cons.1 hc with rfl | hc
  · decide
  · obtain ⟨x, hx, hc⟩ := List.mem_flatten.1 hc
    rw [List.eq_of_mem_replicate hx] at hc
    exact hi c hc

/-- How one gap is written. -/
theorem gap_weaves {piece : OutItem → Str} {indent : Option Str} {src : Str} {l : Margin} {s : Option Space} {ws ws' : Bool} {is : List OutItem} {out : Str}
    (hi : ∀ i, indent = some i → Blank i) (hs : ∀ t, s = some (.inline (some t)) → Blank (t.asStr src))
    (h : Weaves piece src indent ws (.gap l s :: is) out ws') :
    ∃ w out1 ws1, out = w ++ out1 ∧ Blank w ∧ Weaves piece src indent ws1 is out1 ws' ∧
      ∀ (piece' : OutItem → Str) is' out' ws'', Weaves piece' src indent ws (.gap l s :: is') out' ws'' →
        ∃ out2, out' = w ++ out2 ∧ Weaves piece' src indent ws1 is' out2 ws'' := by
  have hnil : Blank [] := by intro c hc; cases hc
  cases h with
  | dropped h =>
    refine ⟨[], _, _, rfl, hnil, h, ?_⟩
    intro _ _ _ _ h'
    cases h' with | dropped h' => exact ⟨_, rfl, h'⟩
  | space h1 h =>
    refine ⟨_, _, _, rfl, spaceText_blank hi (fun t ht => hs t (by rw [ht])) h1, h, ?_⟩
    intro _ _ _ _ h'
    cases h' with | space h2 h' => exact ⟨_, by rw [spaceText_unique h1 h2], h'⟩
  | noBreak h1 h =>
    refine ⟨[], _, _, rfl, hnil, h, ?_⟩
    intro _ _ _ _ h'
    cases h' with
    | noBreak _ h' => exact ⟨_, rfl, h'⟩
    | break_ h2 h3 _ => rcases h1 with h1 | h1 | h1 <;> simp_all
  | break_ h1 h2 h =>
    refine ⟨_, _, _, rfl, break_blank (hi _ h1) _, h, ?_⟩
    intro _ _ _ _ h'
    cases h' with
    | noBreak h3 h' => rcases h3 with h3 | h3 | h3 <;> simp_all
    | break_ h3 h4 h' =>
      rw [h1] at h3
      cases h3
      exact ⟨_, rfl, h'⟩

theorem alike_agree {src : Str} {indent : Option Str} (hi : ∀ i, indent = some i → Blank i) {a b : List OutItem} (h : Alike src a b) :
    ∀ {ws ws' wH wX : Bool} {oH oX : Str}, Weaves (pieceOf false src) src indent ws a oH wH →
      Weaves (pieceOf true src) src indent ws' b oX wX → (∀ i ∈ a, Writable false src i) → (∀ i ∈ b, Writable true src i) →
      Agree (ws = ws') oH oX := by
  induction h with
  | nil =>
    intro _ _ _ _ _ _ h1 h2 _ _
    cases h1; cases h2
    exact ⟨[], [], rfl, rfl, rfl, fun _ _ => rfl⟩
  | doctype _ ih =>
    intro _ _ _ _ _ _ h1 h2 k1 k2
    cases h1 with | doctype h1 => cases h2 with | doctype h2 =>
    exact (ih h1 h2 (fun i hi => k1 i (List.mem_cons_of_mem _ hi)) fun i hi => k2 i (List.mem_cons_of_mem _ hi)).cons doctype_run doctype_run rfl id
  | comment _ ih =>
    intro _ _ _ _ _ _ h1 h2 k1 k2
    cases h1 with | comment h1 => cases h2 with | comment h2 =>
    exact (ih h1 h2 (fun i hi => k1 i (List.mem_cons_of_mem _ hi)) fun i hi => k2 i (List.mem_cons_of_mem _ hi)).cons comment_run comment_run rfl
      fun _ => rfl
  | @gap l s _ _ hs _ ih =>
    intro ws ws' _ _ _ _ h1 h2 k1 k2
    obtain ⟨w, o1, ws1, rfl, hw, g1, gu⟩ := gap_weaves hi hs h1
    by_cases hww : ws = ws'
    · subst hww
      obtain ⟨o2, rfl, g2⟩ := gu _ _ _ _ h2
      exact (ih g1 g2 (fun i hi => k1 i (List.mem_cons_of_mem _ hi)) fun i hi => k2 i (List.mem_cons_of_mem _ hi)).white hw hw fun _ => ⟨rfl, rfl⟩
    · obtain ⟨w', o2, ws2, rfl, hw', g2, -⟩ := gap_weaves hi hs h2
      exact (ih g1 g2 (fun i hi => k1 i (List.mem_cons_of_mem _ hi)) fun i hi => k2 i (List.mem_cons_of_mem _ hi)).white hw hw' fun h => absurd h hww
  | text _ ih =>
    intro _ _ _ _ _ _ h1 h2 k1 k2
    cases h1 with | text t1 s1 h1 => cases h2 with | text t2 s2 h2 =>
    refine (ih h1 h2 (fun i hi => k1 i (List.mem_cons_of_mem _ hi)) fun i hi => k2 i (List.mem_cons_of_mem _ hi)).cons (text_run t1) (text_run t1) rfl ?_
    rintro rfl
    exact textStop_unique s1 s2
  | start h1 h2 _ ih =>
    intro _ _ _ _ _ _ g1 g2 k1 k2
    cases g1 with | start g1 => cases g2 with | start g2 =>
    obtain ⟨x, hx⟩ := k1 _ (List.mem_cons_self ..)
    obtain ⟨y, hy⟩ := k2 _ (List.mem_cons_self ..)
    refine (ih g1 g2 (fun i hi => k1 i (List.mem_cons_of_mem _ hi)) fun i hi => k2 i (List.mem_cons_of_mem _ hi)).cons
      (start_run hx h1 h2 (by simp)) (start_run hy h1 h2 (by simp)) ?_ fun _ => rfl
    simp [meant, tokenMeant, attrs_meant hx hy]
  | empty h0 h1 h2 _ ih =>
    intro _ _ _ _ _ _ g1 g2 k1 k2
    cases g1 with | start g1 => cases g1 with | stop g1 => cases g2 with | start g2 =>
    obtain ⟨x, hx⟩ := k1 _ (List.mem_cons_self ..)
    obtain ⟨y, hy⟩ := k2 _ (List.mem_cons_self ..)
    rw [← List.append_assoc]
    refine (ih g1 g2 (fun i hi => k1 i (List.mem_cons_of_mem _ (List.mem_cons_of_mem _ hi))) fun i hi => k2 i (List.mem_cons_of_mem _ hi)).cons
      (readRun_trans (start_run hx h1 h2 (by simp)) (stop_run h1)) (start_run hy h1 h2 (by simp)) ?_ fun _ => rfl
    simp [meant, tokenMeant, attrs_meant hx hy, h0]
  | void h0 h1 h2 _ ih =>
    intro _ _ _ _ _ _ g1 g2 k1 k2
    cases g1 with | start g1 => cases g2 with | start g2 =>
    obtain ⟨x, hx⟩ := k1 _ (List.mem_cons_self ..)
    obtain ⟨y, hy⟩ := k2 _ (List.mem_cons_self ..)
    refine (ih g1 g2 (fun i hi => k1 i (List.mem_cons_of_mem _ hi)) fun i hi => k2 i (List.mem_cons_of_mem _ hi)).cons
      (start_run hx h1 h2 (by simp)) (start_run hy h1 h2 (by simp)) ?_ fun _ => rfl
    simp [meant, tokenMeant, attrs_meant hx hy, h0]
  | stop h0 h1 _ ih =>
    intro _ _ _ _ _ _ g1 g2 k1 k2
    cases g1 with | stop g1 => cases g2 with | stop g2 =>
    exact (ih g1 g2 (fun i hi => k1 i (List.mem_cons_of_mem _ hi)) fun i hi => k2 i (List.mem_cons_of_mem _ hi)).cons
      (stop_run h1) (stop_run h1) rfl fun _ => rfl
  | voidStop h0 h1 _ ih =>
    intro _ _ _ _ _ _ g1 g2 k1 k2
    cases g2 with | stop g2 =>
    obtain ⟨tH, tX, r1, r2, r3, -⟩ := ih g1 g2 k1 fun i hi => k2 i (List.mem_cons_of_mem _ hi)
    refine ⟨tH, _, r1, readRun_trans (stop_run h1) r2, ?_, ?_⟩
    · rw [r3, meant_append]; simp [meant, tokenMeant, h0]
    · intro _ hv
      exact absurd (List.mem_cons_self ..) (hv _ h0)

end Mty
