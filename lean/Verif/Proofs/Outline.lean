import Verif.Spec.Outline

/-! # Inference and the outline of a document (for C89) -/

set_option autoImplicit false

namespace Mty.Spec

/-- The contexts in which the first place counts. -/
def firstCounts (c : Context) : Prop := c = .details ∨ c = .fieldset ∨ c = .html

theorem nameIn_place (c : Context) (form : Option Form) (fi fi' la la' header : Bool)
    (h1 : firstCounts c → fi = fi') (h2 : c = .picture → la = la') :
    nameIn c form fi la header = nameIn c form fi' la' header := by
  rcases form with _ | _ | _ | _ <;> cases c <;> simp_all [nameIn, firstCounts]

/-- The name an element has after inference. -/
def newName (name : Option Str) (given : Option String) : Option Str :=
  match name with
  | some n => some n
  | none =>
    match given with
    | none => none
    | some "" => none
    | some n => some n.toList

theorem namedSel_name (c : Context) (form : Option Form) (fi la header : Bool) (sel : Option (Option Str × List SelectorItem)) :
    (namedSel c form fi la header sel).bind (·.1) = newName (sel.bind (·.1)) (nameIn c form fi la header) := by
  rcases sel with _ | ⟨_ | n, items⟩
  · simp only [namedSel, newName, Option.bind_none]
    generalize nameIn c form fi la header = x
    split <;> simp_all
  · simp only [namedSel, newName, Option.bind_some]
    generalize nameIn c form fi la header = x
    split <;> simp_all
  · simp [namedSel, newName]

mutual
  /-- Inference on an outline. -/
  def nameOutline (c : Context) (parent grand : Option Str) (fi la : Bool) : Outline → Outline
    | .text => .text
    | .elem form name ch =>
      let name' := newName name (nameIn c form fi la (grand = some "thead".toList))
      .elem form name' (nameOutlines (contextInside name' form) name' parent true ch)
  def nameOutlines (c : Context) (parent grand : Option Str) (fi : Bool) : List Outline → List Outline
    | [] => []
    | o :: os => nameOutline c parent grand fi os.isEmpty o :: nameOutlines c parent grand false os
end

theorem outlineOf_aside {t : Tree} : isAside t = true ↔ outlineOf t = none := by
  rcases t with ⟨_ | _ | _⟩ | _ <;> simp [isAside, outlineOf]

theorem outline_nil {ts : List Tree} : outline ts = [] ↔ ∀ t ∈ ts, isAside t = true := by
  induction ts with
  | nil => simp [outline]
  | cons t ts ih => simp [outline, ih, outlineOf_aside]

/-- The states of the two inferences: with comments and white space, and without. -/
def FirstOk (c : Context) (fi fi' : Bool) (ts : List Tree) : Prop :=
  firstCounts c → (fi = fi' ∧ (fi = true → elementFirst ts)) ∨
    (fi = false ∧ fi' = true ∧ ∀ pre t post, ts = pre ++ t :: post → (∀ a ∈ pre, isAside a = true) → isElem t = false)

theorem FirstOk.tail_aside {c : Context} {fi fi' : Bool} {t : Tree} {ts : List Tree} (h : FirstOk c fi fi' (t :: ts))
    (ht : isAside t = true) : FirstOk c false fi' ts := by
  intro hc
  rcases h hc with ⟨rfl, h1⟩ | ⟨rfl, rfl, h1⟩
  · cases fi with
    | false => exact .inl ⟨rfl, by simp⟩
    | true =>
      refine .inr ⟨rfl, rfl, fun pre e post hp ha => ?_⟩
      cases hne : isElem e with
      | false => rfl
      | true =>
        have := h1 rfl (t :: pre) e post (by rw [hp, List.cons_append]) (by simpa [ht] using ha) hne
        cases this
  · refine .inr ⟨rfl, rfl, fun pre e post hp ha => ?_⟩
    exact h1 (t :: pre) e post (by rw [hp, List.cons_append]) (by simpa [ht] using ha)

theorem LastOk.tail {t : Tree} {ts : List Tree} (h : elementLast (t :: ts)) : elementLast ts := fun pre e post hp ha he =>
  h (t :: pre) e post (by rw [hp, List.cons_append]) ha he

theorem contextOfName_places {n : Str} {c : Context} (h : contextOfName n = some c) :
    (c = .details → n = "details".toList) ∧ (c = .fieldset → n = "fieldset".toList) ∧ (c = .html → n = "html".toList) ∧
    (c = .picture → n = "picture".toList) := by
  have step : ∀ {b : Bool} {x : Context} {y : Option Context}, (if b = true then some x else y) = some c → (b = true ∧ x = c) ∨ y = some c := by
    intro b x y h
    cases b
    · exact .inr (by simpa using h)
    · exact .inl ⟨rfl, by simpa using h⟩
  unfold contextOfName at h
  dsimp only at h
  replace h := step h
  rcases h with ⟨hb, rfl⟩ | h
  · refine ⟨?_, ?_, ?_, ?_⟩ <;> intro hc <;> first
      | exact absurd hc (by decide)
      | simpa only [List.any_cons, List.any_nil, Bool.or_false, decide_eq_true_eq] using hb
  replace h := step h
  rcases h with ⟨hb, rfl⟩ | h
  · refine ⟨?_, ?_, ?_, ?_⟩ <;> intro hc <;> first
      | exact absurd hc (by decide)
      | simpa only [List.any_cons, List.any_nil, Bool.or_false, decide_eq_true_eq] using hb
  replace h := step h
  rcases h with ⟨hb, rfl⟩ | h
  · refine ⟨?_, ?_, ?_, ?_⟩ <;> intro hc <;> first
      | exact absurd hc (by decide)
      | simpa only [List.any_cons, List.any_nil, Bool.or_false, decide_eq_true_eq] using hb
  replace h := step h
  rcases h with ⟨hb, rfl⟩ | h
  · refine ⟨?_, ?_, ?_, ?_⟩ <;> intro hc <;> first
      | exact absurd hc (by decide)
      | simpa only [List.any_cons, List.any_nil, Bool.or_false, decide_eq_true_eq] using hb
  replace h := step h
  rcases h with ⟨hb, rfl⟩ | h
  · refine ⟨?_, ?_, ?_, ?_⟩ <;> intro hc <;> first
      | exact absurd hc (by decide)
      | simpa only [List.any_cons, List.any_nil, Bool.or_false, decide_eq_true_eq] using hb
  replace h := step h
  rcases h with ⟨hb, rfl⟩ | h
  · refine ⟨?_, ?_, ?_, ?_⟩ <;> intro hc <;> first
      | exact absurd hc (by decide)
      | simpa only [List.any_cons, List.any_nil, Bool.or_false, decide_eq_true_eq] using hb
  replace h := step h
  rcases h with ⟨hb, rfl⟩ | h
  · refine ⟨?_, ?_, ?_, ?_⟩ <;> intro hc <;> first
      | exact absurd hc (by decide)
      | simpa only [List.any_cons, List.any_nil, Bool.or_false, decide_eq_true_eq] using hb
  replace h := step h
  rcases h with ⟨hb, rfl⟩ | h
  · refine ⟨?_, ?_, ?_, ?_⟩ <;> intro hc <;> first
      | exact absurd hc (by decide)
      | simpa only [List.any_cons, List.any_nil, Bool.or_false, decide_eq_true_eq] using hb
  replace h := step h
  rcases h with ⟨hb, rfl⟩ | h
  · refine ⟨?_, ?_, ?_, ?_⟩ <;> intro hc <;> first
      | exact absurd hc (by decide)
      | simpa only [List.any_cons, List.any_nil, Bool.or_false, decide_eq_true_eq] using hb
  replace h := step h
  rcases h with ⟨hb, rfl⟩ | h
  · refine ⟨?_, ?_, ?_, ?_⟩ <;> intro hc <;> first
      | exact absurd hc (by decide)
      | simpa only [List.any_cons, List.any_nil, Bool.or_false, decide_eq_true_eq] using hb
  replace h := step h
  rcases h with ⟨hb, rfl⟩ | h
  · refine ⟨?_, ?_, ?_, ?_⟩ <;> intro hc <;> first
      | exact absurd hc (by decide)
      | simpa only [List.any_cons, List.any_nil, Bool.or_false, decide_eq_true_eq] using hb
  replace h := step h
  rcases h with ⟨hb, rfl⟩ | h
  · refine ⟨?_, ?_, ?_, ?_⟩ <;> intro hc <;> first
      | exact absurd hc (by decide)
      | simpa only [List.any_cons, List.any_nil, Bool.or_false, decide_eq_true_eq] using hb
  replace h := step h
  rcases h with ⟨hb, rfl⟩ | h
  · refine ⟨?_, ?_, ?_, ?_⟩ <;> intro hc <;> first
      | exact absurd hc (by decide)
      | simpa only [List.any_cons, List.any_nil, Bool.or_false, decide_eq_true_eq] using hb
  replace h := step h
  rcases h with ⟨hb, rfl⟩ | h
  · refine ⟨?_, ?_, ?_, ?_⟩ <;> intro hc <;> first
      | exact absurd hc (by decide)
      | simpa only [List.any_cons, List.any_nil, Bool.or_false, decide_eq_true_eq] using hb
  replace h := step h
  rcases h with ⟨hb, rfl⟩ | h
  · refine ⟨?_, ?_, ?_, ?_⟩ <;> intro hc <;> first
      | exact absurd hc (by decide)
      | simpa only [List.any_cons, List.any_nil, Bool.or_false, decide_eq_true_eq] using hb
  replace h := step h
  rcases h with ⟨hb, rfl⟩ | h
  · refine ⟨?_, ?_, ?_, ?_⟩ <;> intro hc <;> first
      | exact absurd hc (by decide)
      | simpa only [List.any_cons, List.any_nil, Bool.or_false, decide_eq_true_eq] using hb
  cases h

theorem context_places (name : Option Str) (form : Option Form) :
    (firstCounts (contextInside name form) → name ∈ [some "details".toList, some "fieldset".toList, some "html".toList]) ∧
    (contextInside name form = .picture → name = some "picture".toList) := by
  unfold contextInside
  cases hq : name.bind contextOfName with
  | none => rcases form with _ | _ | _ | _ <;> simp [firstCounts]
  | some c =>
    obtain ⟨n, rfl, hn⟩ := Option.bind_eq_some_iff.1 hq
    obtain ⟨h1, h2, h3, h4⟩ := contextOfName_places hn
    simp only [List.mem_cons, List.not_mem_nil, or_false, Option.some.injEq]
    refine ⟨fun hc => ?_, h4⟩
    rcases hc with rfl | rfl | rfl
    · exact .inl (h1 rfl)
    · exact .inr (.inl (h2 rfl))
    · exact .inr (.inr (h3 rfl))

/-- Inference gives no element one of the names for whose content the place counts. -/
theorem newName_places {name : Option Str} {c : Context} {form : Option Form} {fi la header : Bool} {n : String}
    (hn : n ∈ ["details", "fieldset", "html", "picture"]) (h : newName name (nameIn c form fi la header) = some n.toList) :
    name = some n.toList := by
  cases name with
  | some m => exact h
  | none =>
    exfalso
    revert h
    simp only [List.mem_cons, List.not_mem_nil, or_false] at hn
    rcases hn with rfl | rfl | rfl | rfl <;> rcases form with _ | _ | _ | _ <;> cases c <;> cases fi <;> cases la <;> cases header <;>
      decide

mutual
  theorem outline_inferTree (c : Context) (parent grand : Option Str) (fi fi' la la' : Bool) :
      ∀ (t : Tree), Placed t → (isElem t = true → (firstCounts c → fi = fi') ∧ (c = .picture → la = la')) →
        outlineOf (inferTree c parent grand fi la t) = (outlineOf t).map (nameOutline c parent grand fi' la')
    | .leaf (.text _), _, _ => by simp [inferTree, outlineOf, nameOutline]
    | .leaf (.comment _), _, _ => by simp [inferTree, outlineOf]
    | .leaf (.space _), _, _ => by simp [inferTree, outlineOf]
    | .elem form raw fmt sel ch, h, hp => by
      obtain ⟨h1, h2⟩ := hp rfl
      cases h with
      | elem a b k =>
        simp only [inferTree, outlineOf, Option.map_some, nameOutline, namedSel_name, Option.some.injEq]
        have e := nameIn_place c form fi fi' la la' (decide (grand = some "thead".toList)) h1 h2
        rw [← e]
        refine congrArg _ ?_
        have q := context_places (newName (sel.bind (·.1)) (nameIn c form fi la (decide (grand = some "thead".toList)))) form
        refine outline_inferForest _ _ _ true true ch k (fun hc => .inl ⟨rfl, fun _ => a ?_⟩) fun hc => b ?_
        · have := q.1 hc
          simp only [List.mem_cons, List.not_mem_nil, or_false] at this ⊢
          rcases this with r | r | r
          · exact .inl (newName_places (by simp) r)
          · exact .inr (.inl (newName_places (by simp) r))
          · exact .inr (.inr (newName_places (by simp) r))
        · exact newName_places (by simp) (q.2 hc)
  theorem outline_inferForest (c : Context) (parent grand : Option Str) (fi fi' : Bool) :
      ∀ (ts : List Tree), (∀ t ∈ ts, Placed t) → FirstOk c fi fi' ts → (c = .picture → elementLast ts) →
        outline (inferForest c parent grand fi ts) = nameOutlines c parent grand fi' (outline ts)
    | [], _, _, _ => by simp [inferForest, outline, nameOutlines]
    | t :: ts, hpl, hf, hl => by
      simp only [inferForest, outline]
      by_cases ht : isAside t = true
      · have h0 := outlineOf_aside.1 ht
        have h1 := outline_inferTree c parent grand fi fi ts.isEmpty ts.isEmpty t (hpl t (by simp)) (by simp)
        rw [h0] at h1
        rw [h1, h0]
        simp only [Option.map_none, Option.toList_none, List.nil_append]
        exact outline_inferForest c parent grand false fi' ts (fun x hx => hpl x (by simp [hx])) (hf.tail_aside ht)
          fun hc => LastOk.tail (hl hc)
      · obtain ⟨o, ho⟩ : ∃ o, outlineOf t = some o := by
          cases hq : outlineOf t with
          | none => exact absurd (outlineOf_aside.2 hq) ht
          | some o => exact ⟨o, rfl⟩
        have h1 := outline_inferTree c parent grand fi fi' ts.isEmpty (outline ts).isEmpty t (hpl t (by simp)) fun he => ⟨fun hc => ?_, fun hc => ?_⟩
        · rw [h1, ho]
          simp only [Option.map_some, Option.toList_some, List.cons_append, List.nil_append, nameOutlines, List.cons.injEq, true_and]
          refine outline_inferForest c parent grand false false ts (fun x hx => hpl x (by simp [hx])) (fun _ => .inl ⟨rfl, by simp⟩)
            fun hc => LastOk.tail (hl hc)
        · rcases hf hc with ⟨h, _⟩ | ⟨_, _, h⟩
          · exact h
          · have := h [] t ts rfl (by simp)
            rw [he] at this
            cases this
        · rw [Bool.eq_iff_iff, List.isEmpty_iff, List.isEmpty_iff, outline_nil]
          refine ⟨fun h => by simp [h], fun h => hl hc [] t ts rfl h he⟩
end

/-! ## Checking outlines and `Placed` -/

mutual
  /-- Whether two outlines are the same. -/
  def sameOutline : Outline → Outline → Bool
    | .text, .text => true
    | .elem f n ch, .elem f' n' ch' => decide (f = f') && decide (n = n') && sameOutlines ch ch'
    | _, _ => false
  def sameOutlines : List Outline → List Outline → Bool
    | [], [] => true
    | o :: os, o' :: os' => sameOutline o o' && sameOutlines os os'
    | _, _ => false
end

mutual
  theorem sameOutline_sound : ∀ {o o' : Outline}, sameOutline o o' = true → o = o'
    | .text, .text, _ => rfl
    | .elem _ _ _, .elem _ _ _, h => by
      simp only [sameOutline, Bool.and_eq_true, decide_eq_true_eq] at h
      rw [h.1.1, h.1.2, sameOutlines_sound h.2]
    | .text, .elem _ _ _, h => by simp [sameOutline] at h
    | .elem _ _ _, .text, h => by simp [sameOutline] at h
  theorem sameOutlines_sound : ∀ {os os' : List Outline}, sameOutlines os os' = true → os = os'
    | [], [], _ => rfl
    | o :: os, o' :: os', h => by
      simp only [sameOutlines, Bool.and_eq_true] at h
      rw [sameOutline_sound h.1, sameOutlines_sound h.2]
    | [], _ :: _, h => by simp [sameOutlines] at h
    | _ :: _, [], h => by simp [sameOutlines] at h
end

/-- `elementFirst`, computed. -/
def elementFirstB (ts : List Tree) : Bool :=
  match ts.dropWhile isAside with
  | [] => true
  | t :: _ => !isElem t || (ts.takeWhile isAside).isEmpty

theorem elementFirstB_sound {ts : List Tree} (h : elementFirstB ts = true) : elementFirst ts := by
  rintro pre t post rfl ha he
  have ht : isAside t = false := by cases t <;> simp_all [isElem, isAside]
  unfold elementFirstB at h
  rw [List.dropWhile_append_of_pos ha, List.takeWhile_append_of_pos ha, List.dropWhile_cons_of_neg (by simp [ht]),
    List.takeWhile_cons_of_neg (by simp [ht])] at h
  simpa [he] using h

/-- `elementLast`, computed. -/
def elementLastB (ts : List Tree) : Bool := elementFirstB ts.reverse

theorem elementLastB_sound {ts : List Tree} (h : elementLastB ts = true) : elementLast ts := by
  rintro pre t post rfl ha he
  have := elementFirstB_sound h post.reverse t pre.reverse (by simp) (by simpa using ha) he
  simpa using this

mutual
  /-- `Placed`, computed. -/
  def placedB : Tree → Bool
    | .leaf _ => true
    | .elem _ _ _ sel ch =>
      (!decide (sel.bind (·.1) ∈ [some "details".toList, some "fieldset".toList, some "html".toList]) || elementFirstB ch) &&
      (!decide (sel.bind (·.1) = some "picture".toList) || elementLastB ch) && placedAllB ch
  def placedAllB : List Tree → Bool
    | [] => true
    | t :: ts => placedB t && placedAllB ts
end

mutual
  theorem placedB_sound : ∀ {t : Tree}, placedB t = true → Placed t
    | .leaf _, _ => .leaf
    | .elem _ _ _ sel ch, h => by
      rw [placedB] at h
      simp only [Bool.and_eq_true, Bool.or_eq_true, Bool.not_eq_true', decide_eq_false_iff_not] at h
      obtain ⟨⟨h1, h2⟩, h3⟩ := h
      exact .elem (fun hs => elementFirstB_sound (h1.resolve_left (not_not_intro hs)))
        (fun hs => elementLastB_sound (h2.resolve_left (not_not_intro hs))) (placedAllB_sound h3)
  theorem placedAllB_sound : ∀ {ts : List Tree}, placedAllB ts = true → ∀ t ∈ ts, Placed t
    | [], _, t, ht => by cases ht
    | t :: ts, h, x, hx => by
      rw [placedAllB, Bool.and_eq_true] at h
      have h1 := placedB_sound h.1
      have h2 := placedAllB_sound h.2
      rcases List.mem_cons.1 hx with hx | hx
      · rw [hx]
        exact h1
      · exact h2 x hx
end

end Mty.Spec
