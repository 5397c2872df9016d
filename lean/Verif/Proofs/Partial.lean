import Verif.Spec.Partial
import Verif.Proofs.Pieces

/-! # Output that breaks off -/

set_option autoImplicit false

namespace Mty
open Spec

theorem writeParts_broken {ws : Str → Str} {wc : Char → Str} (hws : ∀ s, ws s = s.flatMap wc) (off : Nat) :
    ∀ (fuel p : Nat) (s : Str), s.length < fuel → (∀ t, ¬ Unescapes Accepted s t) →
    ∃ u, ValidStart s u ∧ writeParts ws wc (unescapeLoop off fuel ⟨p, s⟩) = (u.flatMap wc, false) := by
  intro fuel
  induction fuel with
  | zero => intro p s h; omega
  | succ fuel ih =>
    intro p s hl hn
    match s with
    | [] => exact absurd .nil (hn [])
    | c :: s =>
      by_cases hc : c = '\\'
      · subst hc
        match s with
        | [] =>
          refine ⟨[], .mk (pre := []) .nil ?_, ?_⟩
          · intro e rest c he h
            simp at he
            exact accepted_ne_nil h he.1
          · simp [unescapeLoop, step_backslash_end, writeParts]
        | f :: s =>
          simp only [unescapeLoop, step_backslash]
          cases hb : escapeBody f ⟨p + 1 + f.utf8Size, s⟩ with
          | mk o cur' =>
            cases o with
            | none =>
              refine ⟨[], .mk (pre := []) .nil ?_, by simp [writeParts]⟩
              intro e rest c he h
              cases e with
              | nil => exact accepted_ne_nil h rfl
              | cons f' e =>
                simp only [List.cons_append, List.cons.injEq] at he
                obtain ⟨rfl, rfl⟩ := he
                rw [escapeBody_complete h] at hb; simp at hb
            | some ch =>
              obtain ⟨e, e1, e2, e3⟩ := escapeBody_sound hb
              obtain ⟨p', post⟩ := cur'
              simp at e1 e2
              subst e1
              obtain ⟨u, hu, hw⟩ := ih p' post (by simp at hl; omega) fun t ht => hn (ch :: t) (Unescapes.esc e3 ht)
              refine ⟨ch :: u, ?_, ?_⟩
              · cases hu with
                | mk h1 h2 =>
                  have := ValidStart.mk (Unescapes.esc e3 h1) h2
                  simpa using this
              · simp only [writeParts, hw]; simp
      · obtain ⟨pre, rest, rfl, h2, h3⟩ := step_plain off p c s hc
        obtain ⟨u, hu, hw⟩ := ih (p + byteLen (c :: pre)) rest (by simp at hl; omega) fun t ht =>
          hn (c :: pre ++ t) ((Unescapes.plains (pre := c :: pre) h2).2 ⟨t, rfl, ht⟩)
        refine ⟨c :: pre ++ u, ?_, ?_⟩
        · cases hu with
          | @mk a b _ g1 g2 =>
            have := ValidStart.mk ((Unescapes.plains (E := Accepted) (pre := c :: pre) h2).2 ⟨u, rfl, g1⟩) g2
            simpa using this
        · simp only [unescapeLoop, h3, writeParts, hw, hws]; simp

theorem writeUnescape_broken {s : Str} (h : ∀ t, ¬ Unescapes Accepted s t) : ∃ u, ValidStart s u ∧ writeUnescape s = (u, false) := by
  obtain ⟨u, h1, h2⟩ := writeParts_broken (ws := fun s => s) (wc := fun c => [c]) (by simp) 0 (s.length + 1) 0 s (Nat.lt_succ_self _) h
  exact ⟨u, h1, by simpa [writeUnescape, unescapeParts, Cursor.new] using h2⟩

theorem writeEscapeUnescape_broken {s : Str} (xml quote : Bool) (h : ∀ t, ¬ Unescapes Accepted s t) :
    ∃ u, ValidStart s u ∧ writeEscapeUnescape xml quote s = (escWriteStr xml quote u, false) := by
  obtain ⟨u, h1, h2⟩ := writeParts_broken (escWriteStr_eq xml quote) 0 (s.length + 1) 0 s (Nat.lt_succ_self _) h
  exact ⟨u, h1, by rw [escWriteStr_eq]; exact h2⟩

theorem textWriter_broken {cx : OutCx} {t : Text} {b : Bool} {v : Str} (h : (textWriter cx t b v).2 = false) :
    ∃ u, t.unescapeIn = true ∧ ValidStart v u ∧ textWriter cx t b v = (if b then u else escWriteStr cx.cfg.isXml false u, false) := by
  cases hu : t.unescapeIn with
  | false => rw [textWriter_plain hu b v] at h; cases h
  | true =>
    have hn : ∀ x, ¬ Unescapes Accepted v x := fun x hx => by rw [textWriter_unescape hu b hx] at h; cases h
    cases b with
    | true =>
      obtain ⟨u, h1, h2⟩ := writeUnescape_broken hn
      exact ⟨u, rfl, h1, by simp [textWriter, hu, h2]⟩
    | false =>
      obtain ⟨u, h1, h2⟩ := writeEscapeUnescape_broken cx.cfg.isXml false hn
      exact ⟨u, rfl, h1, by simp [textWriter, hu, h2]⟩

/-- No escape sequence goes beyond the end of a line. -/
theorem validStart_lines {l rest u : Str} (hl : rest = [] ∨ ∃ a, l = a ++ ['\n']) (h : ValidStart l u) : ValidStart (l ++ rest) u := by
  rcases hl with rfl | ⟨a, hl⟩
  · simpa using h
  · cases h with
    | @mk pre bad _ h1 h2 =>
      have := ValidStart.mk (bad := bad ++ rest) h1 ?_
      · simpa using this
      · intro e r c he ha
        rw [List.append_eq_append_iff] at he
        rcases he with ⟨x, rfl, -⟩ | ⟨x, rfl, -⟩
        · -- `bad` is a beginning of the escape sequence
          have hmem : '\n' ∈ bad ++ x := by
            have : bad ≠ [] := by
              rintro rfl
              have := congrArg List.getLast? hl
              simp at this
            have hg : (pre ++ '\\' :: bad).getLast? = bad.getLast? := by
              cases bad with
              | nil => exact absurd rfl this
              | cons d bad =>
                obtain ⟨z, hz⟩ : ∃ z, (d :: bad).getLast? = some z := ⟨_, List.getLast?_eq_some_getLast (by simp)⟩
                rw [List.getLast?_append, List.getLast?_cons_cons, hz]
                rfl
            rw [hl] at hg
            simp at hg
            exact List.mem_append_left _ (List.mem_of_getLast? hg.symm)
          exact accepted_no_space ha (by decide) hmem
        · exact h2 e x c rfl ha

theorem writeLines_broken {cx : OutCx} {t : Text} {b : Bool} : ∀ (ls : List Str) (fs : Bool),
    (∀ init last, ls = init ++ [last] → ∀ l ∈ init, ∃ a, l = a ++ ['\n']) →
    (writeLines (textWriter cx t b) ls fs).ok = false →
    ∃ u, t.unescapeIn = true ∧ ValidStart ls.flatten u ∧
      (writeLines (textWriter cx t b) ls fs).out = if b then u else escWriteStr cx.cfg.isXml false u
  | [], fs, _, h => by simp [writeLines, Act.skip] at h
  | l :: ls, fs, hls, h => by
    rw [writeLines] at h ⊢
    cases h1 : (textWriter cx t b l).2 with
    | true =>
      have hok : (Act.writeR (textWriter cx t b l) fs).ok = true := h1
      rw [seq_out hok] at h ⊢
      obtain ⟨u, hu, e⟩ := textWriter_iff h1
      obtain ⟨v, hv1, hv2, e'⟩ := writeLines_broken ls fs (fun init last hi x hx =>
        hls (l :: init) last (by rw [hi]; rfl) x (List.mem_cons_of_mem _ hx)) h
      rw [hv1, if_pos rfl] at hu
      refine ⟨u ++ v, hv1, ?_, ?_⟩
      · rw [List.flatten_cons]
        generalize ls.flatten = y at hv2
        cases hv2 with
        | @mk pre bad _ g1 g2 =>
          have := ValidStart.mk (unescapes_append hu g1) g2
          simpa using this
      · change _ ++ (writeLines (textWriter cx t b) ls fs).out = _
        rw [e']
        simp only [Act.writeR, e]
        cases b <;> simp [escWriteStr_append]
    | false =>
      have hno : (Act.writeR (textWriter cx t b l) fs).ok = false := h1
      obtain ⟨u, g1, g2, e⟩ := textWriter_broken h1
      refine ⟨u, g1, ?_, ?_⟩
      · rw [List.flatten_cons]
        apply validStart_lines _ g2
        cases ls with
        | nil => left; rfl
        | cons m ls =>
          right
          obtain ⟨init, last, hil⟩ : ∃ init last, m :: ls = init ++ [last] :=
            ⟨(m :: ls).dropLast, (m :: ls).getLast (by simp), (List.dropLast_concat_getLast (by simp)).symm⟩
          exact hls (l :: init) last (by rw [hil]; rfl) l List.mem_cons_self
      · simp [Act.seq, hno, Act.writeR, e]

theorem trimMultiline_lines {s : Str} {init : List Str} {last : Str} (h : trimMultiline s = init ++ [last]) : ∀ x ∈ init, ∃ y, x = y ++ ['\n'] := by
  unfold trimMultiline at h
  split at h
  · simp at h
  · split at h
    · simp at h
    · rename_i src' last hr
      dsimp only at h
      have hpre : '\n' ∉ last.takeWhile isWhitespace := fun hm => (rsplitOnce_some hr).2 (List.takeWhile_subset _ hm)
      obtain ⟨l1, l2, e, e1, e2⟩ := List.map_eq_append_iff.1 h
      obtain ⟨b, l3, e3, e4, e5⟩ := List.map_eq_cons_iff.1 e2
      rw [List.map_eq_nil_iff] at e5
      subst e5
      intro x hx
      rw [← e1] at hx
      obtain ⟨y, hy, rfl⟩ := List.mem_map.1 hx
      obtain ⟨z, rfl, -⟩ := splitInclusive_init '\n' _ l1 b (by rw [e, e3]) y hy
      exact ⟨_, stripPrefix_newline hpre⟩

theorem writeText_broken {cx : OutCx} {t : Text} {fs : Bool} (h : (writeText cx t fs).ok = false) :
    Begun cx.cfg.isXml cx.src (.text t (rawMode cx t)) (writeText cx t fs).out := by
  have key : ∀ {s u : Str}, t.unescapeIn = true → TextSource cx.src t s → ValidStart s u → ∀ {b : Bool},
      Begun cx.cfg.isXml cx.src (.text t b) (if b then u else escWriteStr cx.cfg.isXml false u) := by
    intro s u h1 h2 h3 b
    cases b with
    | true => exact .verbatim h1 h2 h3
    | false => exact .escaped h1 h2 h3 (readText_esc _ u)
  by_cases hne : t.slice.isEmpty = true
  · simp [writeText, hne, Act.skip] at h
  · simp only [Bool.not_eq_true] at hne
    cases hm : t.multiline with
    | false =>
      have e : writeText cx t = Act.seq (Act.writeR (textWriter cx t (rawMode cx t) (t.slice.asStr cx.src)))
          (Act.setFs (endsWithBlank (t.slice.asStr cx.src))) := by
        funext fs; simp [writeText, hne, hm, rawMode]
      rw [e] at h ⊢
      have hno : (textWriter cx t (rawMode cx t) (t.slice.asStr cx.src)).2 = false := by
        cases h2 : (textWriter cx t (rawMode cx t) (t.slice.asStr cx.src)).2 with
        | false => rfl
        | true => simp [Act.seq, Act.writeR, Act.setFs, h2] at h
      obtain ⟨u, h1, h2, h3⟩ := textWriter_broken hno
      have : (Act.seq (Act.writeR (textWriter cx t (rawMode cx t) (t.slice.asStr cx.src)))
          (Act.setFs (endsWithBlank (t.slice.asStr cx.src))) fs).out = if rawMode cx t then u else escWriteStr cx.cfg.isXml false u := by
        simp [Act.seq, Act.writeR, h3]
      rw [this]
      exact key h1 (.plain hm) h2
    | true =>
      have e : writeText cx t = Act.seq (writeLines (textWriter cx t (rawMode cx t)) (trimMultiline (t.slice.asStr cx.src)))
          (Act.setFs (endsWithBlank ((trimMultiline (t.slice.asStr cx.src)).getLast?.getD (t.slice.asStr cx.src)))) := by
        funext fs; simp [writeText, hne, hm, rawMode]
      rw [e] at h ⊢
      have hno : (writeLines (textWriter cx t (rawMode cx t)) (trimMultiline (t.slice.asStr cx.src)) fs).ok = false := by
        cases h2 : (writeLines (textWriter cx t (rawMode cx t)) (trimMultiline (t.slice.asStr cx.src)) fs).ok with
        | false => rfl
        | true => simp [Act.seq, Act.setFs, h2] at h
      obtain ⟨u, h1, h2, h3⟩ := writeLines_broken _ fs (fun init last hi => trimMultiline_lines hi) hno
      have hs : (Act.seq (writeLines (textWriter cx t (rawMode cx t)) (trimMultiline (t.slice.asStr cx.src)))
          (Act.setFs (endsWithBlank ((trimMultiline (t.slice.asStr cx.src)).getLast?.getD (t.slice.asStr cx.src)))) fs).out =
          (writeLines (textWriter cx t (rawMode cx t)) (trimMultiline (t.slice.asStr cx.src)) fs).out := by
        simp [Act.seq, hno]
      rw [hs, h3]
      by_cases hc : 2 ≤ (t.slice.asStr cx.src).count '\n'
      · obtain ⟨body, hb⟩ := trimmed_exists hc
        rw [trimMultiline_of_trimmed hb] at h2
        exact key h1 (.block hm hb) h2
      · rw [trimMultiline_short (by omega)] at h2
        generalize hx : ([] : List Str).flatten = x at h2
        cases h2
        simp at hx

theorem forall₂_append {α β : Type} {R : α → β → Prop} : ∀ {a c : List α} {b d : List β}, List.Forall₂ R a b → List.Forall₂ R c d →
    List.Forall₂ R (a ++ c) (b ++ d)
  | _, _, _, _, .nil, h => h
  | _, _, _, _, .cons h1 h2, h => .cons h1 (forall₂_append h2 h)

theorem seq_assoc' (a b c : Act) : Act.seq (Act.seq a b) c = Act.seq a (Act.seq b c) := by
  funext fs
  simp only [Act.seq]
  split
  · split <;> simp_all
  · simp_all

/-- What an action writes of a start tag. -/
def TagOuts (xml : Bool) (src : Str) (a : Act) (ps : List TagPart) : Prop := ∀ fs,
  ((a fs).ok = true → ∃ ws, List.Forall₂ (PartWritten xml src) ps ws ∧ (a fs).out = ws.flatten) ∧
  ((a fs).ok = false → ∃ before bad after ws o, ps = before ++ bad :: after ∧ List.Forall₂ (PartWritten xml src) before ws ∧
    PartBegun xml src bad o ∧ (a fs).out = ws.flatten ++ o)

theorem TagOuts.skip {xml : Bool} {src : Str} : TagOuts xml src Act.skip [] :=
  fun _ => ⟨fun _ => ⟨[], .nil, rfl⟩, fun h => by simp [Act.skip] at h⟩

theorem TagOuts.fixed {xml : Bool} {src s : Str} : TagOuts xml src (Act.write s) [.fixed s] :=
  fun _ => ⟨fun _ => ⟨[s], .cons .fixed .nil, by simp [Act.write]⟩, fun h => by simp [Act.write] at h⟩

theorem TagOuts.value {xml : Bool} {src : Str} {s : TextSlice} :
    TagOuts xml src (Act.writeR (writeEscapeUnescape xml true (s.asStr src))) [.value s] := by
  intro fs
  by_cases hu : ∃ u, Unescapes Accepted (s.asStr src) u
  · obtain ⟨u, hu⟩ := hu
    have e := writeEscapeUnescape_ok (xml := xml) (quote := true) hu
    refine ⟨fun _ => ⟨[_], .cons (.value hu (readQuoted_esc xml u)) .nil, by simp [Act.writeR, e]⟩, fun h => ?_⟩
    simp [Act.writeR, e] at h
  · obtain ⟨u, h1, e⟩ := writeEscapeUnescape_broken xml true fun t ht => hu ⟨t, ht⟩
    refine ⟨fun h => by simp [Act.writeR, e] at h, fun _ => ⟨[], _, [], [], _, rfl, .nil, .value h1 (readQuoted_esc xml u), by simp [Act.writeR, e]⟩⟩

theorem TagOuts.name {xml : Bool} {src : Str} {s : TextSlice} : TagOuts xml src (Act.writeR (writeUnescape (s.asStr src))) [.name s] := by
  intro fs
  by_cases hu : ∃ u, Unescapes Accepted (s.asStr src) u
  · obtain ⟨u, hu⟩ := hu
    have e := writeUnescape_ok hu
    refine ⟨fun _ => ⟨[_], .cons (.name hu) .nil, by simp [Act.writeR, e]⟩, fun h => ?_⟩
    simp [Act.writeR, e] at h
  · obtain ⟨u, h1, e⟩ := writeUnescape_broken fun t ht => hu ⟨t, ht⟩
    refine ⟨fun h => by simp [Act.writeR, e] at h, fun _ => ⟨[], _, [], [], _, rfl, .nil, .name h1, by simp [Act.writeR, e]⟩⟩

theorem TagOuts.seq {xml : Bool} {src : Str} {a b : Act} {x y : List TagPart} (ha : TagOuts xml src a x) (hb : TagOuts xml src b y) :
    TagOuts xml src (Act.seq a b) (x ++ y) := by
  intro fs
  cases hok : (a fs).ok with
  | true =>
    obtain ⟨w1, h1, e1⟩ := (ha fs).1 hok
    rw [seq_out hok]
    constructor
    · intro h
      obtain ⟨w2, h2, e2⟩ := (hb _).1 h
      exact ⟨w1 ++ w2, forall₂_append h1 h2, by simp [e1, e2]⟩
    · intro h
      obtain ⟨before, bad, after, ws, o, rfl, g1, g2, g3⟩ := (hb _).2 h
      exact ⟨x ++ before, bad, after, w1 ++ ws, o, by simp, forall₂_append h1 g1, g2, by simp [e1, g3]⟩
  | false =>
    have e : Act.seq a b fs = a fs := by simp [Act.seq, hok]
    rw [e]
    refine ⟨fun h => (by rw [hok] at h; cases h), fun _ => ?_⟩
    obtain ⟨before, bad, after, ws, o, rfl, g1, g2, g3⟩ := (ha fs).2 hok
    exact ⟨before, bad, after ++ y, ws, o, by simp, g1, g2, g3⟩

theorem tagOuts_id {cx : OutCx} (id : Option TextSlice) : TagOuts cx.cfg.isXml cx.src (idAct cx id)
    (id.toList.flatMap fun i => [.fixed " id=\"".toList, .value i, .fixed ['"']]) := by
  cases id with
  | none => exact .skip
  | some i => exact TagOuts.fixed.seq (TagOuts.value.seq .fixed)

theorem tagOuts_more {cx : OutCx} : ∀ cls : List TextSlice, TagOuts cx.cfg.isXml cx.src (writeMoreClasses cx cls)
    (cls.flatMap fun c => [.fixed [' '], .value c])
  | [] => .skip
  | _ :: cs => TagOuts.fixed.seq (TagOuts.value.seq (tagOuts_more cs))

theorem tagOuts_class {cx : OutCx} (cls : List TextSlice) : TagOuts cx.cfg.isXml cx.src (classAct cx cls)
    (match cls with
    | [] => []
    | c :: cs => [.fixed " class=\"".toList, .value c] ++ cs.flatMap (fun c => [.fixed [' '], .value c]) ++ [.fixed ['"']]) := by
  cases cls with
  | nil => exact .skip
  | cons c cs =>
    have := TagOuts.fixed (xml := cx.cfg.isXml) (src := cx.src) (s := " class=\"".toList) |>.seq
      ((TagOuts.value (s := c)).seq ((tagOuts_more cs).seq (.fixed (s := ['"']))))
    simpa [classAct] using this

theorem tagOuts_attributes {cx : OutCx} : ∀ as : List Attribute, TagOuts cx.cfg.isXml cx.src
    (writeAttributes cx (as.map fun a => (a.name, a.value))) (as.flatMap (attributeTagParts cx.cfg.isXml))
  | [] => .skip
  | ⟨r, n, v⟩ :: as => by
    have hv : TagOuts cx.cfg.isXml cx.src
        (match v with
        | some v => Act.seq (Act.write "=\"".toList) <|
          Act.seq (Act.writeR (writeEscapeUnescape cx.cfg.isXml true (v.asStr cx.src))) <| Act.write ['"']
        | none => if cx.cfg.isXml then Act.write "=\"\"".toList else Act.skip)
        (match v with
        | some v => [.fixed ['=', '"'], .value v, .fixed ['"']]
        | none => if cx.cfg.isXml then [.fixed ['=', '"', '"']] else []) := by
      cases v with
      | some v => exact TagOuts.fixed.seq (TagOuts.value.seq .fixed)
      | none =>
        cases cx.cfg.isXml with
        | true => exact .fixed
        | false => exact .skip
    have := (TagOuts.fixed (xml := cx.cfg.isXml) (src := cx.src) (s := [' '])).seq ((TagOuts.name (s := n)).seq (hv.seq (tagOuts_attributes as)))
    rw [List.map_cons, List.flatMap_cons]
    simp only [attributeTagParts, List.append_assoc] at this ⊢
    cases v <;> exact this

theorem writeOpenTag_begins {cx : OutCx} {tag : Str} {sel : Selector} {e : Bool} {fs : Bool} (h : (writeOpenTag cx tag sel e fs).ok = false) :
    Begun cx.cfg.isXml cx.src (.start tag sel.items e) (writeOpenTag cx tag sel e fs).out := by
  have h1 := (tagOuts_id (cx := cx) sel.id).seq ((tagOuts_class sel.classNames).seq (tagOuts_attributes (attributesOf sel.items)))
  have e1 : writeOpenTag cx tag sel e = Act.seq (Act.write ('<' :: tag)) (Act.seq (Act.seq (idAct cx sel.id) (Act.seq (classAct cx sel.classNames)
        (writeAttributes cx ((attributesOf sel.items).map fun a => (a.name, a.value))))) (Act.seq (if e then Act.write ['/'] else Act.skip)
          (Act.seq (Act.write ['>']) (Act.setFs false)))) := by
    rw [writeOpenTag_eq]
    simp only [seq_assoc']
    rfl
  rw [e1, seq_out (by rfl)] at h ⊢
  generalize hm : Act.seq (idAct cx sel.id) _ = m at *
  change ((m.seq _) fs).ok = false at h
  have hno : (m fs).ok = false := by
    cases hok : (m fs).ok with
    | false => rfl
    | true =>
      rw [seq_out hok] at h
      cases e <;> simp [Act.seq, Act.write, Act.skip, Act.setFs] at h
  obtain ⟨before, bad, after, ws, o, g0, g1, g2, g3⟩ := (h1 fs).2 hno
  have e2 : ∀ b : Act, Act.seq m b fs = m fs := fun b => by simp [Act.seq, hno]
  have e3 : (Act.write ('<' :: tag) fs).fs = fs := rfl
  simp only [e3, e2, g3]
  have := Begun.start (n := tag) (e := e) (items := sel.items) (xml := cx.cfg.isXml) (src := cx.src) (by
    rw [tagParts, idItems, List.append_assoc]; exact g0) g1 g2
  simpa [Act.write] using this

/-! ## Documents -/

/-- What an output action writes: the pieces of the items, or it breaks off. -/
def Outs (xml : Bool) (src : Str) (indent : Option Str) (a : Act) (items : List OutItem) : Prop := ∀ fs,
  ((a fs).ok = true → (∀ i ∈ items, Writable xml src i) ∧ Weaves (pieceOf xml src) src indent fs items (a fs).out (a fs).fs) ∧
  ((a fs).ok = false → BreaksOff (pieceOf xml src) xml src indent fs items (a fs).out)

theorem Outs.skip {xml : Bool} {src : Str} {indent : Option Str} : Outs xml src indent Act.skip [] :=
  fun _ => ⟨fun _ => ⟨by simp, .nil⟩, fun h => by simp [Act.skip] at h⟩

theorem Outs.seq {xml : Bool} {src : Str} {indent : Option Str} {a b : Act} {x y : List OutItem} (ha : Outs xml src indent a x)
    (hb : Outs xml src indent b y) : Outs xml src indent (Act.seq a b) (x ++ y) := by
  intro fs
  cases hok : (a fs).ok with
  | true =>
    obtain ⟨w1, h1⟩ := (ha fs).1 hok
    rw [seq_out hok]
    constructor
    · intro h
      obtain ⟨w2, h2⟩ := (hb _).1 h
      exact ⟨fun i hi => (List.mem_append.1 hi).elim (w1 i) (w2 i), weaves_append h1 h2⟩
    · intro h
      obtain ⟨before, bad, after, o, ws', begun, rfl, g1, g2, g3, g4, g5⟩ := (hb _).2 h
      refine ⟨x ++ before, bad, after, (a fs).out ++ o, ws', begun, by simp, ?_, g2, weaves_append h1 g3, g4, ?_⟩
      · exact fun i hi => (List.mem_append.1 hi).elim (w1 i) (g1 i)
      · change _ ++ _ = _
        rw [g5, List.append_assoc]
  | false =>
    have e : Act.seq a b fs = a fs := by simp [Act.seq, hok]
    rw [e]
    refine ⟨fun h => (by rw [hok] at h; cases h), fun _ => ?_⟩
    obtain ⟨before, bad, after, o, ws', begun, rfl, g1, g2, g3, g4, g5⟩ := (ha fs).2 hok
    exact ⟨before, bad, after ++ y, o, ws', begun, by simp, g1, g2, g3, g4, g5⟩

/-- An action that writes one item. -/
theorem Outs.one {xml : Bool} {src : Str} {indent : Option Str} {a : Act} {i : OutItem}
    (h1 : ∀ fs, (a fs).ok = true → Writable xml src i ∧ Weaves (pieceOf xml src) src indent fs [i] (a fs).out (a fs).fs)
    (h2 : ∀ fs, (a fs).ok = false → ¬ Writable xml src i ∧ Begun xml src i (a fs).out) : Outs xml src indent a [i] := by
  intro fs
  refine ⟨fun h => ⟨by simpa using (h1 fs h).1, (h1 fs h).2⟩, fun h => ?_⟩
  obtain ⟨g1, g2⟩ := h2 fs h
  exact ⟨[], i, [], [], fs, _, rfl, by simp, g1, .nil, g2, rfl⟩

theorem outs_line {cx : OutCx} {l : Margin} (hl : MarginOf cx l) : Outs cx.cfg.isXml cx.src cx.cfg.indent (line cx) [.gap l none] :=
  .one (fun fs _ => ⟨trivial, (line_weaves hl fs).2⟩) fun fs h => by rw [(line_weaves hl fs (piece := pieceOf cx.cfg.isXml cx.src)).1] at h; cases h

theorem outs_start {cx : OutCx} {n : Str} {s : Selector} {e : Bool} :
    Outs cx.cfg.isXml cx.src cx.cfg.indent (writeOpenTag cx n s e) [.start n s.items e] := by
  refine .one (fun fs h => ?_) fun fs h => ?_
  · obtain ⟨a, ha⟩ := writeOpenTag_only h
    refine ⟨⟨a, ha⟩, ?_⟩
    have := Weaves.start (piece := pieceOf cx.cfg.isXml cx.src) (src := cx.src) (indent := cx.cfg.indent) (ws := fs)
      (n := n) (a := s.items) (e := e) .nil
    rw [pieceOf_eq (.start ha)] at this
    rw [writeOpenTag_ok ha]
    simpa using this
  · refine ⟨fun ⟨a, ha⟩ => (by rw [writeOpenTag_ok ha] at h; cases h), ?_⟩
    exact writeOpenTag_begins h

theorem outs_all {cx : OutCx} {lay : Margin} : ∀ {l : List Node},
    (∀ n ∈ l, Outs cx.cfg.isXml cx.src cx.cfg.indent (processNode n cx) (nodeItems cx.cfg.isXml cx.src cx.isRaw lay n)) →
    Outs cx.cfg.isXml cx.src cx.cfg.indent (Act.all (l.map fun n => processNode n cx)) (l.flatMap (nodeItems cx.cfg.isXml cx.src cx.isRaw lay))
  | [], _ => .skip
  | n :: l, h => by
    simp only [List.map_cons, Act.all, List.flatMap_cons]
    exact (h n (List.mem_cons_self ..)).seq (outs_all fun m hm => h m (List.mem_cons_of_mem _ hm))

theorem outs_text {cx : OutCx} {lay : Margin} (hlay : MarginOf cx lay) (r : Range) (t : TextLike) :
    Outs cx.cfg.isXml cx.src cx.cfg.indent (processNode (.text r t) cx) (nodeItems cx.cfg.isXml cx.src cx.isRaw lay (.text r t)) := by
  have hw := fun fs => text_weaves r t cx lay fs hlay trivial
  cases t with
  | space s =>
    rw [nodeItems] at hw ⊢
    refine .one (fun fs h => ⟨trivial, (hw fs).2 h⟩) fun fs h => ?_
    have := (hw fs).1.2 (by simp [Writable])
    rw [this] at h; cases h
  | comment s =>
    rw [nodeItems] at hw ⊢
    refine .one (fun fs h => ⟨trivial, (hw fs).2 h⟩) fun fs h => ?_
    have := (hw fs).1.2 (by simp [Writable])
    rw [this] at h; cases h
  | text t =>
    rw [nodeItems] at hw ⊢
    refine .one (fun fs h => ⟨(hw fs).1.1 h _ (List.mem_singleton.2 rfl), (hw fs).2 h⟩) fun fs h => ⟨fun hn => ?_, ?_⟩
    · have := (hw fs).1.2 (by simpa using hn)
      rw [this] at h; cases h
    · exact writeText_broken h

mutual
  theorem outs_node : ∀ (n : Node) (cx : OutCx) (lay : Margin), MarginOf cx lay → Single n →
      Outs cx.cfg.isXml cx.src cx.cfg.indent (processNode n cx) (nodeItems cx.cfg.isXml cx.src cx.isRaw lay n)
    | .text r t, cx, lay, hlay, _ => outs_text hlay r t
    | .elem r h ch, cx, lay, hlay, hS => by
      rw [Single] at hS
      obtain ⟨hlen, hS⟩ := hS
      have hcontent : ∀ (cx' : OutCx) (l : Margin), cx'.cfg = cx.cfg → cx'.src = cx.src → cx'.isRaw = (cx.isRaw || h.isRaw) → MarginOf cx' l →
          Outs cx.cfg.isXml cx.src cx.cfg.indent (contentActs (nodeActs ch cx'))
            (trimSpaces (contentItems cx.cfg.isXml cx.src (cx.isRaw || h.isRaw) l ch)) := by
        intro cx' l e1 e2 e3 e4
        have := outs_all (cx := cx') (lay := l) (l := inner ch) fun n hn => outs_nodes ch cx' l e4 hS n (inner_mem hn)
        rw [contentActs_eq, trimSpaces_eq]
        rwa [e1, e2, e3] at this
      simp only [processNode, nodeItems]
      rcases namedBy_cases hlen with ⟨hn, hvt⟩ | ⟨n, s, hn, hvt⟩
      · have e : ∀ c, elementAct cx h ch.isEmpty c = c (cx.inContent h) := by
          intro c; simp [elementAct, hvt]
        rw [e, hn]
        exact hcontent (cx.inContent h) ⟨h.fmtInline, lay.depth⟩ rfl rfl rfl ⟨rfl, hlay.2⟩
      · rw [hn]
        simp only
        cases hx : (cx.cfg.isXml && ch.isEmpty) with
        | true =>
          simp only [Bool.and_eq_true, List.isEmpty_iff] at hx
          obtain ⟨hxml, hch0⟩ := hx
          subst hch0
          have e : ∀ c, elementAct cx h ([] : List Node).isEmpty c =
              Act.seq (Act.seq (writeOpenTag cx (n.asStr cx.src) s true) Act.skip) (Act.seq Act.skip Act.skip) := by
            intro c
            simp [elementAct, hvt, hxml, writeOpenTags, writeCloseTags]
          rw [e]
          simp only [if_true]
          exact (outs_start.seq .skip).seq (Outs.skip.seq .skip)
        | false =>
          let icx := cx.inContent h
          let bcx := icx.indent (if (getInfo cx.cfg (n.asStr cx.src)).isRoot then 0 else 1)
          have hx' : (ch.isEmpty && cx.cfg.isXml) = false := by rw [Bool.and_comm]; exact hx
          have e : ∀ c, elementAct cx h ch.isEmpty c =
              Act.seq (Act.seq (writeOpenTag cx (n.asStr cx.src) s false) Act.skip)
                (Act.seq (if !ch.isEmpty then Act.seq (Act.seq (line bcx) (c bcx)) (line icx) else Act.skip)
                  (Act.seq (if !(getInfo cx.cfg (n.asStr cx.src)).isVoid then writeCloseTag (n.asStr cx.src) else Act.skip)
                    Act.skip)) := by
            intro c
            simp [elementAct, hvt, hx', writeOpenTags, writeCloseTags, bcx, icx, OutCx.inContent]
          have hb : bcx.cfg = cx.cfg ∧ bcx.src = cx.src ∧ bcx.isRaw = (cx.isRaw || h.isRaw) := by
            simp only [bcx, icx, OutCx.indent, OutCx.inContent]
            split <;> exact ⟨rfl, rfl, rfl⟩
          let bl := lay.inside h.fmtInline (n.asStr cx.src)
          have hbl : MarginOf bcx bl := by
            have hroot := isRoot_eq cx.cfg (n.asStr cx.src)
            refine ⟨?_, fun hi => ?_⟩
            · simp only [bcx, icx, OutCx.indent, OutCx.inContent, bl, Margin.inside]
              split <;> rfl
            · rw [hb.1] at hi
              have hd := hlay.2 hi
              simp only [bcx, icx, OutCx.indent, OutCx.inContent, bl, Margin.inside, hi, Bool.and_true, hroot]
              cases h.fmtInline <;> by_cases hh : (n.asStr cx.src).map Char.toLower = "html".toList <;>
                simp only [hh, decide_true, decide_false, Bool.or_true, Bool.or_false, Bool.not_true, Bool.not_false, if_true,
                  Bool.false_eq_true, if_false, hd, Nat.add_zero]
          rw [e]
          simp only [Bool.false_eq_true, if_false]
          have hmid : Outs cx.cfg.isXml cx.src cx.cfg.indent
              (if !ch.isEmpty then Act.seq (Act.seq (line bcx) (contentActs (nodeActs ch bcx))) (line icx) else Act.skip)
              (if ch.isEmpty then [] else .gap bl none :: trimSpaces (contentItems cx.cfg.isXml cx.src (cx.isRaw || h.isRaw) bl ch) ++
                [.gap ⟨h.fmtInline, lay.depth⟩ none]) := by
            cases ch.isEmpty with
            | true => exact .skip
            | false =>
              have l1 := outs_line hbl
              rw [hb.1, hb.2.1] at l1
              exact (l1.seq (hcontent bcx bl hb.1 hb.2.1 hb.2.2 hbl)).seq (outs_line (cx := icx) (l := ⟨h.fmtInline, lay.depth⟩) ⟨rfl, hlay.2⟩)
          have hfin : Outs cx.cfg.isXml cx.src cx.cfg.indent
              (if !(getInfo cx.cfg (n.asStr cx.src)).isVoid then writeCloseTag (n.asStr cx.src) else Act.skip)
              (if voidName cx.cfg.isXml (n.asStr cx.src) then [] else [.stop (n.asStr cx.src)]) := by
            rw [getInfo_void]
            cases voidName cx.cfg.isXml (n.asStr cx.src) with
            | true => exact .skip
            | false =>
              refine .one (fun fs _ => ⟨trivial, ?_⟩) fun fs h => by simp [writeCloseTag, Act.seq, Act.write, Act.setFs] at h
              have := Weaves.stop (piece := pieceOf cx.cfg.isXml cx.src) (src := cx.src) (indent := cx.cfg.indent) (ws := fs)
                (n := n.asStr cx.src) .nil
              rw [pieceOf_eq .stop] at this
              simpa [writeCloseTag, Act.seq, Act.write, Act.setFs] using this
          have := (outs_start (cx := cx) (n := n.asStr cx.src) (s := s) (e := false)).seq .skip |>.seq (hmid.seq (hfin.seq .skip))
          rw [show onOneLine h = h.fmtInline from rfl]
          simpa [bl] using this
  theorem outs_nodes : ∀ (ns : List Node) (cx : OutCx) (lay : Margin), MarginOf cx lay → Singles ns → ∀ n ∈ ns,
      Outs cx.cfg.isXml cx.src cx.cfg.indent (processNode n cx) (nodeItems cx.cfg.isXml cx.src cx.isRaw lay n)
    | [], _, _, _, _, n, h => by simp at h
    | m :: ms, cx, lay, hlay, hS, n, h => by
      rw [Singles] at hS
      rcases List.mem_cons.1 h with e | h
      · exact e ▸ outs_node m cx lay hlay hS.1
      · exact outs_nodes ms cx lay hlay hS.2 n h
end

/-- Output of a document that breaks off. -/
theorem document_breaks {src : Str} {doc : Document} {cfg : OutputConfig} (hs : Singles doc.nodes)
    (h : (outputHtmlTo src doc cfg).2 = false) :
    BreaksOff (pieceOf cfg.isXml src) cfg.isXml src cfg.indent true (documentItems cfg src doc) (outputHtmlTo src doc cfg).1 := by
  let cx : OutCx := { cfg, src, indentLevel := 0, fmtInline := false, isRaw := false }
  have hx : (decide (cfg.xml = some true)) = cfg.isXml := by rw [OutputConfig.isXml, Bool.eq_iff_iff]; simp
  have hpre : Outs cfg.isXml src cfg.indent (if cfg.completePage.getD false then Act.write "<!DOCTYPE html>\n".toList else Act.skip)
      (if cfg.completePage.getD false then [.doctype] else []) := by
    cases cfg.completePage.getD false with
    | false => exact .skip
    | true =>
      refine .one (fun fs _ => ⟨trivial, ?_⟩) fun fs h => by simp [Act.write] at h
      have := Weaves.doctype (piece := pieceOf cfg.isXml src) (src := src) (indent := cfg.indent) (ws := fs) .nil
      rw [pieceOf_eq .doctype] at this
      simpa [Act.write] using this
  have hall := outs_all (cx := cx) (lay := ⟨false, 0⟩) (l := inner doc.nodes) fun n hn =>
    outs_nodes doc.nodes cx ⟨false, 0⟩ ⟨rfl, fun _ => rfl⟩ hs n (inner_mem hn)
  rw [← contentActs_eq, ← trimSpaces_eq] at hall
  have := hpre.seq (hall.seq (outs_line (cx := cx) (l := ⟨false, 0⟩) ⟨rfl, fun _ => rfl⟩))
  rw [documentItems, hx, List.append_assoc]
  exact (this true).2 h

end Mty
