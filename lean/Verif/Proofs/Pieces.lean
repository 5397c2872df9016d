import Verif.Proofs.Markup
import Verif.Spec.Pieces

/-! # The output as a sequence of pieces -/

set_option autoImplicit false

namespace Mty
open Spec

theorem unescapes_det {s u v : Str} (h1 : Unescapes Accepted s u) (h2 : Unescapes Accepted s v) : u = v := by
  have e1 := writeUnescape_ok h1
  have e2 := writeUnescape_ok h2
  rw [e1] at e2
  exact (Prod.mk.inj e2).1

theorem forall2_det {α β : Type} {R : α → β → Prop} (hR : ∀ a b c, R a b → R a c → b = c) {l : List α} {m n : List β}
    (h1 : List.Forall₂ R l m) (h2 : List.Forall₂ R l n) : m = n := by
  induction h1 generalizing n with
  | nil => cases h2; rfl
  | cons h _ ih => cases h2 with
    | cons h' h2 => rw [hR _ _ _ h h', ih h2]

theorem textChars_det {src : Str} {t : Text} {u v : Str} (h1 : TextChars src t u) (h2 : TextChars src t v) : u = v := by
  have key : ∀ {s u v : Str}, (if t.unescapeIn then Unescapes Accepted s u else u = s) →
      (if t.unescapeIn then Unescapes Accepted s v else v = s) → u = v := by
    intro s u v h1 h2
    cases ht : t.unescapeIn with
    | true => simp only [ht, if_true] at h1 h2; exact unescapes_det h1 h2
    | false => simp only [ht] at h1 h2; exact h1.trans h2.symm
  have body : ∀ {u}, t.multiline = true → TextChars src t u →
      (if t.unescapeIn then Unescapes Accepted (trimMultiline (t.slice.asStr src)).flatten u
        else u = (trimMultiline (t.slice.asStr src)).flatten) := by
    intro u hm h
    cases h with
    | plain h => rw [hm] at h; cases h
    | block _ hb hu => rw [trimMultiline_of_trimmed hb]; exact hu
    | short _ hs => rw [trimMultiline_short hs]; cases t.unescapeIn <;> simp [Unescapes.nil]
  cases hm : t.multiline with
  | true => exact key (body hm h1) (body hm h2)
  | false =>
    cases h1 with
    | plain _ h1 => cases h2 with
      | plain _ h2 => exact key h1 h2
      | block h => rw [hm] at h; cases h
      | short h => rw [hm] at h; cases h
    | block h => rw [hm] at h; cases h
    | short h => rw [hm] at h; cases h

/-- An attribute read from the source. -/
def AttrRead (xml : Bool) (src : Str) (a : Attribute) (p : Str × Option Str) : Prop :=
  Unescapes Accepted (a.name.asStr src) p.1 ∧
    match a.value with
    | some v => ∃ x, p.2 = some x ∧ Unescapes Accepted (v.asStr src) x
    | none => p.2 = if xml then some [] else none

theorem attrRead_det {xml : Bool} {src : Str} (a : Attribute) (p q : Str × Option Str) (h1 : AttrRead xml src a p)
    (h2 : AttrRead xml src a q) : p = q := by
  obtain ⟨n1, v1⟩ := h1
  obtain ⟨n2, v2⟩ := h2
  refine Prod.ext (unescapes_det n1 n2) ?_
  cases hv : a.value with
  | none => rw [hv] at v1 v2; exact v1.trans v2.symm
  | some w =>
    rw [hv] at v1 v2
    obtain ⟨x, e1, h1⟩ := v1
    obtain ⟨y, e2, h2⟩ := v2
    rw [e1, e2, unescapes_det h1 h2]

theorem attrsRead_det {xml : Bool} {src : Str} {items : List SelectorItem} {a b : List (Str × Option Str)}
    (h1 : AttrsRead xml src items a) (h2 : AttrsRead xml src items b) : a = b := by
  cases h1 with
  | mk i1 c1 a1 => cases h2 with
    | mk i2 c2 a2 =>
      have hd : ∀ (i : TextSlice) (x y : Str), Unescapes Accepted (i.asStr src) x → Unescapes Accepted (i.asStr src) y → x = y :=
        fun _ _ _ => unescapes_det
      rw [forall2_det hd i1 i2, forall2_det hd c1 c2,
        forall2_det (R := AttrRead xml src) attrRead_det a1 a2]

/-- The exact characters of an attribute. -/
def attrText (xml : Bool) : Str × Option Str → Str
  | (n, none) => ' ' :: n
  | (n, some v) => ' ' :: n ++ ('=' :: '"' :: escWriteStr xml true v ++ ['"'])

theorem attrText_written (xml : Bool) (p : Str × Option Str) : AttrWritten xml p (attrText xml p) := by
  rcases p with ⟨n, _ | v⟩
  · exact .bare
  · exact .value (readQuoted_esc xml v)

/-- The exact characters of an item. -/
inductive Exact (xml : Bool) (src : Str) : OutItem → Str → Prop
  | doctype : Exact xml src .doctype "<!DOCTYPE html>\n".toList
  | start {n items e attrs} : AttrsRead xml src items attrs →
      Exact xml src (.start n items e) ('<' :: n ++ (attrs.map (attrText xml)).flatten ++ (if e then ['/', '>'] else ['>']))
  | stop {n} : Exact xml src (.stop n) ('<' :: '/' :: n ++ ['>'])
  | text {t v u} : TextChars src t u → Exact xml src (.text t v) (if v then u else escWriteStr xml false u)
  | comment {s} : Exact xml src (.comment s) ("<!--".toList ++ writeCommentBody (s.asStr src) ++ "-->".toList)

theorem exact_det {xml : Bool} {src : Str} {i : OutItem} {a b : Str} (h1 : Exact xml src i a) (h2 : Exact xml src i b) : a = b := by
  cases h1 with
  | doctype => cases h2; rfl
  | start h1 => cases h2 with | start h2 => rw [attrsRead_det h1 h2]
  | stop => cases h2; rfl
  | text h1 => cases h2 with | text h2 => rw [textChars_det h1 h2]
  | comment => cases h2; rfl

theorem exact_writes {xml : Bool} {src : Str} {i : OutItem} {a : Str} (h : Exact xml src i a) : Writes xml src i a := by
  cases h with
  | doctype => exact .doctype
  | start h => exact .start h (forall2_same _ _ _ fun p _ => attrText_written xml p)
  | stop => exact .stop
  | @text t v u h =>
    cases v with
    | true => exact .verbatim h
    | false => exact .escaped h (readText_esc xml u)
  | comment => exact .comment (.mk (writeCommentBody_insert _) (writeCommentBody_spec _) writeCommentBody_id)

/-- The piece of each item. -/
noncomputable def pieceOf (xml : Bool) (src : Str) (i : OutItem) : Str :=
  open Classical in if h : ∃ s, Exact xml src i s then h.choose else []

theorem pieceOf_eq {xml : Bool} {src : Str} {i : OutItem} {s : Str} (h : Exact xml src i s) : pieceOf xml src i = s := by
  have hx : ∃ s, Exact xml src i s := ⟨s, h⟩
  rw [pieceOf, dif_pos hx]
  exact exact_det hx.choose_spec h

/-! ## Tags -/

theorem writeMoreClasses_ok {cx : OutCx} {cls : List TextSlice} {xs : List Str}
    (h : List.Forall₂ (fun (i : TextSlice) x => Unescapes Accepted (i.asStr cx.src) x) cls xs) (fs : Bool) :
    writeMoreClasses cx cls fs = ⟨escWriteStr cx.cfg.isXml true ((xs.map (' ' :: ·)).flatten), fs, true⟩ := by
  induction h with
  | nil => simp [writeMoreClasses, Act.skip, escWriteStr_eq]
  | @cons i x _ xs h _ ih =>
    simp only [writeMoreClasses, Act.seq, Act.write, Act.writeR, writeEscapeUnescape_ok h, ih, if_true]
    rw [List.map_cons, List.flatten_cons, escWriteStr_append]
    have : escWriteStr cx.cfg.isXml true (' ' :: x) = ' ' :: escWriteStr cx.cfg.isXml true x := by
      rw [escWriteStr_eq, escWriteStr_eq, List.flatMap_cons]
      have : escWriteChar cx.cfg.isXml true ' ' = [' '] := by cases cx.cfg.isXml <;> decide
      rw [this]; rfl
    rw [this]
    rfl

theorem writeMoreClasses_only {cx : OutCx} : ∀ {cls : List TextSlice} {fs : Bool}, (writeMoreClasses cx cls fs).ok = true →
    ∃ xs, List.Forall₂ (fun (i : TextSlice) x => Unescapes Accepted (i.asStr cx.src) x) cls xs
  | [], _, _ => ⟨[], .nil⟩
  | c :: cls, fs, h => by
    rw [writeMoreClasses, seq_ok, seq_ok] at h
    obtain ⟨-, h1, h2⟩ := h
    obtain ⟨u, hu, -⟩ := writeValue_iff h1
    obtain ⟨xs, hxs⟩ := writeMoreClasses_only h2
    exact ⟨u :: xs, .cons hu hxs⟩

theorem attrTail_ok {cx : OutCx} {a : Attribute} {p : Str × Option Str} (h : AttrRead cx.cfg.isXml cx.src a p) (fs : Bool) :
    ∃ o, attrTail cx a.value fs = ⟨o, fs, true⟩ ∧ attrText cx.cfg.isXml p = ' ' :: p.1 ++ o := by
  obtain ⟨-, hv⟩ := h
  rcases p with ⟨n, v⟩
  cases hav : a.value with
  | none =>
    rw [hav] at hv
    simp only at hv
    subst hv
    cases hx : cx.cfg.isXml with
    | true => exact ⟨"=\"\"".toList, by simp [attrTail, hx, Act.write], by simp [attrText, escWriteStr_eq]⟩
    | false => exact ⟨[], by simp [attrTail, hx, Act.skip], by simp [attrText]⟩
  | some w =>
    rw [hav] at hv
    obtain ⟨x, e, hx⟩ := hv
    simp only at e
    subst e
    refine ⟨'=' :: '"' :: escWriteStr cx.cfg.isXml true x ++ ['"'], ?_, rfl⟩
    simp [attrTail, Act.seq, Act.write, Act.writeR, writeEscapeUnescape_ok hx]

theorem attrTail_only {cx : OutCx} {v : TextSlice} {fs : Bool} (h : (attrTail cx (some v) fs).ok = true) :
    ∃ x, Unescapes Accepted (v.asStr cx.src) x := by
  simp only [attrTail] at h
  rw [seq_ok, seq_ok] at h
  obtain ⟨u, hu, -⟩ := writeValue_iff h.2.1
  exact ⟨u, hu⟩

theorem writeAttributes_ok {cx : OutCx} {l : List Attribute} {xs : List (Str × Option Str)}
    (h : List.Forall₂ (AttrRead cx.cfg.isXml cx.src) l xs) (fs : Bool) :
    writeAttributes cx (l.map fun a => (a.name, a.value)) fs = ⟨(xs.map (attrText cx.cfg.isXml)).flatten, fs, true⟩ := by
  induction h with
  | nil => rfl
  | @cons a p l xs h _ ih =>
    rw [writeAttributes_cons]
    obtain ⟨o, e1, e2⟩ := attrTail_ok h fs
    have e3 : Act.writeR (writeUnescape (a.name.asStr cx.src)) fs = ⟨p.1, fs, true⟩ := by
      simp [Act.writeR, writeUnescape_ok h.1]
    rw [seq_out (by rfl)]
    simp only [Act.write]
    rw [seq_out (by rw [e3]), e3]
    simp only
    rw [seq_out (by rw [e1]), e1]
    simp only
    rw [ih]
    simp [e2]

theorem writeAttributes_only {cx : OutCx} : ∀ {l : List Attribute} {fs : Bool},
    (writeAttributes cx (l.map fun a => (a.name, a.value)) fs).ok = true →
    ∃ xs, List.Forall₂ (AttrRead cx.cfg.isXml cx.src) l xs
  | [], _, _ => ⟨[], .nil⟩
  | a :: l, fs, h => by
    rw [writeAttributes_cons, seq_ok, seq_ok, seq_ok] at h
    obtain ⟨-, h1, h2, h3⟩ := h
    obtain ⟨nm, hnm⟩ := (writeUnescape_iff _).1 h1
    obtain ⟨xs, hxs⟩ := writeAttributes_only h3
    cases hv : a.value with
    | none => exact ⟨(nm, if cx.cfg.isXml then some [] else none) :: xs, .cons ⟨hnm, by rw [hv]⟩ hxs⟩
    | some v =>
      rw [hv] at h2
      obtain ⟨x, hx⟩ := attrTail_only h2
      exact ⟨(nm, some x) :: xs, .cons ⟨hnm, by rw [hv]; exact ⟨x, rfl, hx⟩⟩ hxs⟩

theorem idAct_ok {cx : OutCx} {id : Option TextSlice} {xs : List Str}
    (h : List.Forall₂ (fun (i : TextSlice) x => Unescapes Accepted (i.asStr cx.src) x) id.toList xs) (fs : Bool) :
    idAct cx id fs = ⟨((xs.map fun x => ("id".toList, some x)).map (attrText cx.cfg.isXml)).flatten, fs, true⟩ := by
  cases id with
  | none => cases h; rfl
  | some i =>
    cases h with
    | cons h h' =>
      cases h'
      simp [idAct, Act.seq, Act.write, Act.writeR, writeEscapeUnescape_ok h, attrText]

theorem idAct_only {cx : OutCx} {id : Option TextSlice} {fs : Bool} (h : (idAct cx id fs).ok = true) :
    ∃ xs, List.Forall₂ (fun (i : TextSlice) x => Unescapes Accepted (i.asStr cx.src) x) id.toList xs := by
  cases id with
  | none => exact ⟨[], .nil⟩
  | some i =>
    simp only [idAct] at h
    rw [seq_ok, seq_ok] at h
    obtain ⟨u, hu, -⟩ := writeValue_iff h.2.1
    exact ⟨[u], .cons hu .nil⟩

theorem classAct_ok {cx : OutCx} {cls : List TextSlice} {xs : List Str}
    (h : List.Forall₂ (fun (i : TextSlice) x => Unescapes Accepted (i.asStr cx.src) x) cls xs) (fs : Bool) :
    classAct cx cls fs = ⟨((if xs.isEmpty then [] else [("class".toList, some (List.intercalate [' '] xs))]).map
      (attrText cx.cfg.isXml)).flatten, fs, true⟩ := by
  cases h with
  | nil => rfl
  | @cons i x cls xs h h' =>
    simp only [classAct, Act.seq, Act.write, Act.writeR, writeEscapeUnescape_ok h, writeMoreClasses_ok h', if_true,
      List.isEmpty_cons]
    simp [intercalate_flatten, attrText, escWriteStr_append]

theorem classAct_only {cx : OutCx} {cls : List TextSlice} {fs : Bool} (h : (classAct cx cls fs).ok = true) :
    ∃ xs, List.Forall₂ (fun (i : TextSlice) x => Unescapes Accepted (i.asStr cx.src) x) cls xs := by
  cases cls with
  | nil => exact ⟨[], .nil⟩
  | cons i rest =>
    simp only [classAct] at h
    rw [seq_ok, seq_ok, seq_ok] at h
    obtain ⟨-, h1, h2, -⟩ := h
    obtain ⟨u, hu, -⟩ := writeValue_iff h1
    obtain ⟨xs, hxs⟩ := writeMoreClasses_only h2
    exact ⟨u :: xs, .cons hu hxs⟩

theorem writeOpenTag_ok {cx : OutCx} {tag : Str} {sel : Selector} {e : Bool} {attrs : List (Str × Option Str)}
    (h : AttrsRead cx.cfg.isXml cx.src sel.items attrs) (fs : Bool) :
    writeOpenTag cx tag sel e fs =
      ⟨'<' :: tag ++ (attrs.map (attrText cx.cfg.isXml)).flatten ++ (if e then ['/', '>'] else ['>']), false, true⟩ := by
  cases h with
  | mk h1 h2 h3 =>
    rw [writeOpenTag_eq]
    rw [idItems] at h1
    have e1 := idAct_ok h1
    have e2 := classAct_ok (cx := cx) (cls := sel.classNames) h2
    have e3 := writeAttributes_ok (cx := cx) (l := attributesOf sel.items) h3
    have e4 : writeAttributes cx sel.attributes = writeAttributes cx ((attributesOf sel.items).map fun a => (a.name, a.value)) := rfl
    rw [e4]
    rw [seq_out (by rfl), seq_out (by rw [e1]), e1]
    simp only [Act.write]
    rw [seq_out (by rw [e2]), e2]
    simp only
    rw [seq_out (by rw [e3]), e3]
    simp only
    cases e <;> simp [Act.seq, Act.skip, Act.write, Act.setFs]

theorem writeOpenTag_only {cx : OutCx} {tag : Str} {sel : Selector} {e : Bool} {fs : Bool}
    (h : (writeOpenTag cx tag sel e fs).ok = true) : ∃ attrs, AttrsRead cx.cfg.isXml cx.src sel.items attrs := by
  rw [writeOpenTag_eq] at h
  rw [seq_ok, seq_ok, seq_ok, seq_ok, seq_ok] at h
  obtain ⟨h0, h1, h2, h3, h4, h5⟩ := h
  obtain ⟨ids, f1⟩ := idAct_only h1
  obtain ⟨cls, f2⟩ := classAct_only h2
  obtain ⟨as, f3⟩ := writeAttributes_only (l := attributesOf sel.items) h3
  rw [← idItems] at f1
  exact ⟨_, .mk f1 f2 f3⟩

/-! ## Texts and spaces -/

theorem writeText_of {cx : OutCx} {t : Text} {u : Str} (h : TextChars cx.src t u) (fs : Bool) : (writeText cx t fs).ok = true := by
  cases he : t.slice.isEmpty with
  | true => simp [writeText, he, Act.skip]
  | false =>
    cases hm : t.multiline with
    | false =>
      cases h with
      | plain _ h => rw [writeText_single he hm h]
      | block h => rw [hm] at h; cases h
      | short h => rw [hm] at h; cases h
    | true =>
      have : ∃ u, (if t.unescapeIn then Unescapes Accepted (trimMultiline (t.slice.asStr cx.src)).flatten u
        else u = (trimMultiline (t.slice.asStr cx.src)).flatten) := by
        cases h with
        | plain h => rw [hm] at h; cases h
        | block _ hb hu => rw [trimMultiline_of_trimmed hb]; exact ⟨_, hu⟩
        | short _ hs => rw [trimMultiline_short hs]; exact ⟨[], by cases t.unescapeIn <;> simp [Unescapes.nil]⟩
      obtain ⟨v, hv⟩ := this
      obtain ⟨fs', e⟩ := writeText_multi he hm hv fs
      rw [e]

/-! ## White space after texts -/

theorem splitInclusive_init (p : Char) (s : Str) : ∀ ls l, splitInclusive p s = ls ++ [l] → ∀ x ∈ ls, ∃ y, x = y ++ [p] ∧ p ∉ y := by
  induction s with
  | nil => intro ls l h; simp [splitInclusive] at h
  | cons c s ih =>
    intro ls l h x hx
    simp only [splitInclusive] at h
    split at h
    · rename_i hc
      cases ls with
      | nil => simp at hx
      | cons a ls =>
        simp only [List.cons_append, List.cons.injEq] at h
        rcases List.mem_cons.1 hx with rfl | hx
        · exact ⟨[], by rw [← h.1, hc]; rfl, by simp⟩
        · exact ih ls l h.2 x hx
    · rename_i hc
      split at h
      · rename_i hs
        cases ls with
        | nil => simp at hx
        | cons a ls => simp at h
      · rename_i a as hs
        cases ls with
        | nil => simp at hx
        | cons b ls =>
          simp only [List.cons_append, List.cons.injEq] at h
          rcases List.mem_cons.1 hx with rfl | hx
          · obtain ⟨y, hy1, hy2⟩ := ih (a :: ls) l (by rw [hs, h.2]; rfl) a (List.mem_cons_self ..)
            exact ⟨c :: y, by rw [← h.1, hy1]; rfl, by simp [hy2, Ne.symm hc]⟩
          · exact ih (a :: ls) l (by rw [hs, h.2]; rfl) x (List.mem_cons_of_mem _ hx)

theorem endsBlank_eq (s : Str) : endsBlank s = endsWithBlank s := by
  simp [endsBlank, endsWithBlank, Bool.beq_eq_decide_eq]

theorem trimMultiline_hollow {s : Str} : trimMultiline s = [] ↔ Hollow s := by
  constructor
  · intro h
    unfold trimMultiline at h
    cases h1 : splitOnce '\n' s with
    | none => exact .inl (by have := List.count_eq_zero.2 (splitOnce_none h1); omega)
    | some p =>
      obtain ⟨first, rest⟩ := p
      rw [h1] at h
      dsimp only at h
      obtain ⟨rfl, hf⟩ := splitOnce_some h1
      cases h2 : rsplitOnce '\n' rest with
      | none =>
        left
        have e1 := List.count_eq_zero.2 hf
        have e2 := List.count_eq_zero.2 (rsplitOnce_none h2)
        rw [List.count_append, List.count_cons, e1, e2]
        simp
      | some q =>
        obtain ⟨mid, last⟩ := q
        rw [h2] at h
        dsimp only at h
        obtain ⟨rfl, hl⟩ := rsplitOnce_some h2
        rw [List.map_eq_nil_iff] at h
        have hm : stripCr mid = [] := by
          have := splitInclusive_flatten '\n' (stripCr mid)
          rw [h] at this
          exact this.symm
        refine .inr ⟨first, last, hf, hl, ?_⟩
        unfold stripCr at hm
        split at hm
        · rename_i hr
          obtain ⟨a, rfl⟩ := List.getLast?_eq_some_iff.1 hr
          rw [List.dropLast_concat] at hm
          subst hm
          right
          simp
        · subst hm
          left
          simp
  · rintro (h | ⟨first, last, hf, hl, rfl | rfl⟩)
    · exact trimMultiline_short h
    · have e : first ++ "\n\n".toList ++ last = first ++ '\n' :: ([] ++ '\n' :: last) := by simp
      rw [e, trimMultiline, splitOnce_append hf]
      dsimp only
      rw [rsplitOnce_append hl]
      rfl
    · have e : first ++ "\n\r\n".toList ++ last = first ++ '\n' :: (['\r'] ++ '\n' :: last) := by simp
      rw [e, trimMultiline, splitOnce_append hf]
      dsimp only
      rw [rsplitOnce_append hl]
      rfl

theorem trimMultiline_last {s : Str} (hne : trimMultiline s ≠ []) :
    endsWithBlank ((trimMultiline s).getLast?.getD s) = endsWithBlank (trimMultiline s).flatten := by
  rcases List.eq_nil_or_concat (trimMultiline s) with h | ⟨ls, l, h⟩
  · exact absurd h hne
  · rw [List.concat_eq_append] at h
    rw [h]
    simp only [List.getLast?_append, List.getLast?_singleton, Option.some_or, Option.getD_some, List.flatten_append,
      List.flatten_cons, List.flatten_nil, List.append_nil]
    by_cases hl : l = []
    · subst hl
      rw [List.append_nil]
      have hx : ∀ x ∈ ls, ∃ y, x = y ++ ['\n'] := by
        unfold trimMultiline at h
        split at h
        · simp at h
        · split at h
          · simp at h
          · rename_i src' last hr
            dsimp only at h
            have hpre : '\n' ∉ last.takeWhile isWhitespace := fun hm => (rsplitOnce_some hr).2 (List.takeWhile_subset _ hm)
            obtain ⟨l1, l2, e, e1, e2⟩ := List.map_eq_append_iff.1 h
            obtain ⟨b, l3, e3, e4, e5⟩ := List.map_eq_cons_iff.1 e2
            rw [List.map_eq_nil_iff] at e5
            subst e5
            intro x hx
            rw [← e1] at hx
            obtain ⟨y, hy, rfl⟩ := List.mem_map.1 hx
            obtain ⟨z, rfl, -⟩ := splitInclusive_init '\n' _ l1 b (by rw [e, e3]) y hy
            exact ⟨_, stripPrefix_newline hpre⟩
      rcases List.eq_nil_or_concat ls with rfl | ⟨ls', x, rfl⟩
      · rfl
      · obtain ⟨y, rfl⟩ := hx x (by simp)
        simp [endsWithBlank]
    · have : (ls.flatten ++ l).getLast? = l.getLast? := by
        rw [List.getLast?_append]
        cases hg : l.getLast? with
        | none => rw [List.getLast?_eq_none_iff] at hg; exact absurd hg hl
        | some c => rfl
      simp only [endsWithBlank, this]

theorem writeText_stop {cx : OutCx} {t : Text} {fs : Bool} (h : (writeText cx t fs).ok = true) :
    TextStop cx.src t fs (writeText cx t fs).fs := by
  by_cases hne : t.slice.isEmpty = true
  · simp only [writeText, hne, if_true, Act.skip]
    exact .empty hne
  · simp only [Bool.not_eq_true] at hne
    cases hm : t.multiline with
    | false =>
      have e : writeText cx t = Act.seq (Act.writeR (textWriter cx t (rawMode cx t) (t.slice.asStr cx.src)))
          (Act.setFs (endsWithBlank (t.slice.asStr cx.src))) := by
        funext fs; simp [writeText, hne, hm, rawMode]
      rw [e] at h ⊢
      rw [seq_ok] at h
      rw [seq_out h.1]
      simp only [Act.setFs]
      rw [← endsBlank_eq]
      exact .plain hne (.inl hm)
    | true =>
      have e : writeText cx t = Act.seq (writeLines (textWriter cx t (rawMode cx t)) (trimMultiline (t.slice.asStr cx.src)))
          (Act.setFs (endsWithBlank ((trimMultiline (t.slice.asStr cx.src)).getLast?.getD (t.slice.asStr cx.src)))) := by
        funext fs; simp [writeText, hne, hm, rawMode]
      rw [e] at h ⊢
      rw [seq_ok] at h
      rw [seq_out h.1]
      simp only [Act.setFs]
      by_cases hh : Hollow (t.slice.asStr cx.src)
      · rw [trimMultiline_hollow.2 hh, List.getLast?_nil, Option.getD_none, ← endsBlank_eq]
        exact .plain hne (.inr hh)
      · obtain ⟨body, hb⟩ := trimmed_exists (s := t.slice.asStr cx.src) (Nat.le_of_not_lt fun h => hh (.inl h))
        rw [trimMultiline_last (fun h => hh (trimMultiline_hollow.1 h)), trimMultiline_of_trimmed hb, ← endsBlank_eq]
        exact .block hne hm hh hb

theorem textStop_unique {src : Str} {t : Text} {ws w1 w2 : Bool} (h1 : TextStop src t ws w1) (h2 : TextStop src t ws w2) : w1 = w2 := by
  have hx : ∀ {body body'}, Trimmed (t.slice.asStr src) body → Trimmed (t.slice.asStr src) body' → body = body' := fun a b =>
    (trimMultiline_of_trimmed a).symm.trans (trimMultiline_of_trimmed b)
  cases h1 with
  | empty a => cases h2 <;> simp_all
  | plain a b => cases h2 <;> simp_all
  | block a b c d =>
    cases h2 with
    | empty => simp_all
    | plain => simp_all
    | block _ _ _ d' => rw [hx d d']

theorem spaceText_unique {indent : Option Str} {src : Str} {l : Margin} {s : Space} {w1 w2 : Str} (h1 : SpaceText indent src l s w1)
    (h2 : SpaceText indent src l s w2) : w1 = w2 := by
  cases h1 <;> cases h2 <;> simp_all

theorem weaves_unique {piece : OutItem → Str} {src : Str} {indent : Option Str} {ws : Bool} {items : List OutItem} {o1 o2 : Str}
    {w1 w2 : Bool} (h1 : Weaves piece src indent ws items o1 w1) (h2 : Weaves piece src indent ws items o2 w2) : o1 = o2 ∧ w1 = w2 := by
  induction h1 generalizing o2 w2 with
  | nil => cases h2; exact ⟨rfl, rfl⟩
  | doctype _ ih => cases h2 with | doctype h => obtain ⟨rfl, rfl⟩ := ih h; exact ⟨rfl, rfl⟩
  | start _ ih => cases h2 with | start h => obtain ⟨rfl, rfl⟩ := ih h; exact ⟨rfl, rfl⟩
  | stop _ ih => cases h2 with | stop h => obtain ⟨rfl, rfl⟩ := ih h; exact ⟨rfl, rfl⟩
  | comment _ ih => cases h2 with | comment h => obtain ⟨rfl, rfl⟩ := ih h; exact ⟨rfl, rfl⟩
  | text _ ht _ ih =>
    cases h2 with
    | text _ ht' h =>
      cases textStop_unique ht ht'
      obtain ⟨rfl, rfl⟩ := ih h
      exact ⟨rfl, rfl⟩
  | dropped _ ih => cases h2 with | dropped h => exact ih h
  | space hs _ ih =>
    cases h2 with
    | space hs' h => cases spaceText_unique hs hs'; obtain ⟨rfl, rfl⟩ := ih h; exact ⟨rfl, rfl⟩
  | noBreak hn _ ih =>
    cases h2 with
    | noBreak _ h => exact ih h
    | break_ a b _ => simp_all
  | break_ a b _ ih =>
    cases h2 with
    | noBreak hn _ => simp_all
    | break_ a' _ h =>
      cases a.symm.trans a'
      obtain ⟨rfl, rfl⟩ := ih h
      exact ⟨rfl, rfl⟩

/-! ## Spaces -/

/-- The layout of a context. -/
def MarginOf (cx : OutCx) (l : Margin) : Prop := l.inline = cx.fmtInline ∧ (cx.cfg.indent.isSome = true → l.depth = cx.indentLevel)

theorem line_weaves {cx : OutCx} {l : Margin} (hl : MarginOf cx l) (fs : Bool) {piece : OutItem → Str} :
    (line cx fs).ok = true ∧ Weaves piece cx.src cx.cfg.indent fs [.gap l none] (line cx fs).out (line cx fs).fs := by
  unfold line
  by_cases hc : (fs || cx.fmtInline) = true
  · rw [if_pos hc]
    refine ⟨rfl, .noBreak ?_ .nil⟩
    rw [hl.1]
    simp only [Bool.or_eq_true] at hc
    exact hc.imp_right .inl
  · rw [if_neg hc]
    simp only [Bool.or_eq_true, not_or, Bool.not_eq_true] at hc
    unfold lineRaw
    cases hn : cx.cfg.indent with
    | none => exact ⟨rfl, .noBreak (.inr (.inr rfl)) .nil⟩
    | some i =>
      refine ⟨rfl, ?_⟩
      obtain ⟨rfl, h2⟩ := hc
      have := Weaves.break_ (piece := piece) (src := cx.src) (hn ▸ rfl : some i = some i) (hl.1.trans h2) .nil
      rw [hl.2 (by rw [hn]; rfl)] at this
      simpa [Act.seq, Act.write, Act.setFs] using this

theorem space_weaves {cx : OutCx} {l : Margin} (hl : MarginOf cx l) {s : Space} (fs : Bool) {piece : OutItem → Str} :
    (writeTextLike cx (.space s) fs).ok = true ∧
      Weaves piece cx.src cx.cfg.indent fs [.gap l (some s)] (writeTextLike cx (.space s) fs).out
        (writeTextLike cx (.space s) fs).fs := by
  simp only [writeTextLike]
  cases fs with
  | true => exact ⟨rfl, .dropped .nil⟩
  | false =>
    suffices h : ∃ w, space cx s false = ⟨w, true, true⟩ ∧ SpaceText cx.cfg.indent cx.src l s w by
      obtain ⟨w, e, hw⟩ := h
      rw [seq_out (by rw [e]), e]
      refine ⟨rfl, ?_⟩
      simpa [Act.setFs] using Weaves.space (piece := piece) hw .nil
    have hend : s = .lineEnd ∨ s = .paragraphEnd → space cx s false =
        (if !cx.fmtInline && cx.cfg.indent.isSome then Act.seq (lineRaw cx) (Act.setFs true)
          else Act.seq (Act.write [' ']) (Act.setFs true)) false → ∃ w, space cx s false = ⟨w, true, true⟩ ∧
          SpaceText cx.cfg.indent cx.src l s w := by
      intro hs e
      rw [e]
      cases hb : (!cx.fmtInline && cx.cfg.indent.isSome) with
      | true =>
        have hb2 := hb
        simp only [Bool.and_eq_true, Bool.not_eq_true', Option.isSome_iff_exists] at hb
        obtain ⟨h1, i, h2⟩ := hb
        refine ⟨_, ?_, .broken hs h2 (hl.1.trans h1)⟩
        rw [hl.2 (by rw [h2]; rfl)]
        simp [lineRaw, h2, Act.seq, Act.write, Act.setFs]
      | false =>
        refine ⟨[' '], rfl, .unbroken hs ?_⟩
        rw [hl.1]
        cases hf : cx.fmtInline with
        | true => exact .inr rfl
        | false => simp [hf] at hb; exact .inl hb
    cases s with
    | inline o =>
      cases o with
      | none => exact ⟨[' '], rfl, .blank⟩
      | some t => exact ⟨t.asStr cx.src, by simp [space, Act.seq, Act.write, Act.setFs], .written⟩
    | lineEnd => exact hend (.inl rfl) rfl
    | paragraphEnd => exact hend (.inr rfl) rfl

/-! ## Documents -/

theorem weaves_append {piece : OutItem → Str} {src : Str} {indent : Option Str} {ws w ws' : Bool} {a b : List OutItem} {x y : Str}
    (h1 : Weaves piece src indent ws a x w) (h2 : Weaves piece src indent w b y ws') :
    Weaves piece src indent ws (a ++ b) (x ++ y) ws' := by
  induction h1 with
  | nil => exact h2
  | doctype _ ih => rw [List.append_assoc]; exact .doctype (ih h2)
  | start _ ih => rw [List.append_assoc]; exact .start (ih h2)
  | stop _ ih => rw [List.append_assoc]; exact .stop (ih h2)
  | comment _ ih => rw [List.append_assoc]; exact .comment (ih h2)
  | text h he _ ih => rw [List.append_assoc]; exact .text h he (ih h2)
  | dropped _ ih => exact .dropped (ih h2)
  | space hs _ ih => rw [List.append_assoc]; exact .space hs (ih h2)
  | noBreak h _ ih => exact .noBreak h (ih h2)
  | break_ h1 h2' _ ih => rw [List.append_assoc]; exact .break_ h1 h2' (ih h2)

theorem contentItems_eq (xml : Bool) (src : Str) (raw : Bool) (inl : Margin) (ch : List Node) :
    contentItems xml src raw inl ch = ch.map fun n => (inner.isSpaceNode n, nodeItems xml src raw inl n) := by
  induction ch with
  | nil => simp [contentItems]
  | cons n ch ih => simp [contentItems, ih]

theorem trimSpaces_eq (xml : Bool) (src : Str) (raw : Bool) (inl : Margin) (ch : List Node) :
    trimSpaces (contentItems xml src raw inl ch) = (inner ch).flatMap (nodeItems xml src raw inl) := by
  rw [trimSpaces, contentItems_eq, inner]
  have e : ((fun x : Bool × List OutItem => x.1) ∘ fun n => (inner.isSpaceNode n, nodeItems xml src raw inl n)) = inner.isSpaceNode := rfl
  rw [List.dropWhile_map, e, ← List.map_reverse, List.dropWhile_map, e, ← List.map_reverse, List.map_map, ← List.flatMap_def]
  rfl

mutual
  /-- At most one selector for every element. -/
  def Single : Node → Prop
    | .text _ _ => True
    | .elem _ h ch => h.selectors.length ≤ 1 ∧ Singles ch
  def Singles : List Node → Prop
    | [] => True
    | n :: ns => Single n ∧ Singles ns
end

theorem singles_iff {ns : List Node} : Singles ns ↔ ∀ n ∈ ns, Single n := by
  induction ns with
  | nil => simp [Singles]
  | cons n ns ih => simp [Singles, ih]

/-- What is to be shown for a node. -/
def NodeWeaves (n : Node) : Prop := ∀ (cx : OutCx) (lay : Margin) (fs : Bool), MarginOf cx lay → Single n →
  ((processNode n cx fs).ok = true ↔ ∀ i ∈ nodeItems cx.cfg.isXml cx.src cx.isRaw lay n, Writable cx.cfg.isXml cx.src i) ∧
  ((processNode n cx fs).ok = true →
    Weaves (pieceOf cx.cfg.isXml cx.src) cx.src cx.cfg.indent fs (nodeItems cx.cfg.isXml cx.src cx.isRaw lay n)
      (processNode n cx fs).out (processNode n cx fs).fs)

theorem all_weaves (cx : OutCx) (lay : Margin) (hlay : MarginOf cx lay) : ∀ (l : List Node), (∀ n ∈ l, NodeWeaves n) → (∀ n ∈ l, Single n) → ∀ fs,
    ((Act.all (l.map fun n => processNode n cx) fs).ok = true ↔
      ∀ i ∈ l.flatMap (nodeItems cx.cfg.isXml cx.src cx.isRaw lay), Writable cx.cfg.isXml cx.src i) ∧
    ((Act.all (l.map fun n => processNode n cx) fs).ok = true →
      Weaves (pieceOf cx.cfg.isXml cx.src) cx.src cx.cfg.indent fs (l.flatMap (nodeItems cx.cfg.isXml cx.src cx.isRaw lay))
        (Act.all (l.map fun n => processNode n cx) fs).out (Act.all (l.map fun n => processNode n cx) fs).fs)
  | [], _, _, fs => ⟨by simp [Act.all, Act.skip], fun _ => .nil⟩
  | n :: l, h1, h2, fs => by
    obtain ⟨a1, b1⟩ := h1 n (List.mem_cons_self ..) cx lay fs hlay (h2 n (List.mem_cons_self ..))
    have ih := all_weaves cx lay hlay l (fun m hm => h1 m (List.mem_cons_of_mem _ hm)) (fun m hm => h2 m (List.mem_cons_of_mem _ hm))
    simp only [List.map_cons, Act.all, List.flatMap_cons]
    constructor
    · rw [seq_ok, (ih _).1, a1]
      simp only [List.mem_append]
      exact ⟨fun ⟨x, y⟩ i hi => hi.elim (x i) (y i), fun h => ⟨fun i hi => h i (.inl hi), fun i hi => h i (.inr hi)⟩⟩
    · intro hok
      rw [seq_ok] at hok
      rw [seq_out hok.1]
      exact weaves_append (b1 hok.1) ((ih _).2 hok.2)

theorem namedBy_cases {h : EHead} (hlen : h.selectors.length ≤ 1) :
    (namedBy h = none ∧ validTags h = []) ∨ ∃ n s, namedBy h = some (n, s) ∧ validTags h = [(n, s)] := by
  unfold namedBy validTags
  rcases hs : h.selectors with _ | ⟨s, _ | ⟨s2, ss⟩⟩
  · exact .inl ⟨rfl, rfl⟩
  · cases hn : s.tag.name with
    | none => exact .inl ⟨by simp [hn], by simp [hn]⟩
    | some n => exact .inr ⟨n, s, by simp [hn], by simp [hn]⟩
  · rw [hs] at hlen; simp at hlen

theorem isRoot_eq (cfg : OutputConfig) (tag : Str) : (getInfo cfg tag).isRoot = decide (tag.map Char.toLower = "html".toList) := by
  have e : ∀ l : Str, l.map asciiLowerChar = l.map Char.toLower := fun l => List.map_congr_left fun c _ => asciiLowerChar_eq c
  simp only [getInfo, eqIgnoreAsciiCase, Bool.beq_eq_decide_eq, e]
  rfl

theorem elem_weaves {r : Range} {h : EHead} {ch : List Node} (hch : ∀ n ∈ ch, NodeWeaves n) : NodeWeaves (.elem r h ch) := by
  intro cx lay fs hlay hS
  rw [Single, singles_iff] at hS
  obtain ⟨hlen, hS⟩ := hS
  let body := fun l => trimSpaces (contentItems cx.cfg.isXml cx.src (cx.isRaw || h.isRaw) l ch)
  have hcontent : ∀ (cx' : OutCx) (l : Margin), cx'.cfg = cx.cfg → cx'.src = cx.src → cx'.isRaw = (cx.isRaw || h.isRaw) →
      MarginOf cx' l → ∀ fs,
      ((contentActs (nodeActs ch cx') fs).ok = true ↔ ∀ i ∈ body l, Writable cx.cfg.isXml cx.src i) ∧
      ((contentActs (nodeActs ch cx') fs).ok = true → Weaves (pieceOf cx.cfg.isXml cx.src) cx.src cx.cfg.indent fs (body l)
        (contentActs (nodeActs ch cx') fs).out (contentActs (nodeActs ch cx') fs).fs) := by
    intro cx' l e1 e2 e3 e4 fs
    have := all_weaves cx' l e4 (inner ch) (fun n hn => hch n (inner_mem hn)) (fun n hn => hS n (inner_mem hn)) fs
    rw [contentActs_eq, show body l = _ from trimSpaces_eq ..]
    rwa [e1, e2, e3] at this
  simp only [processNode, nodeItems]
  rcases namedBy_cases hlen with ⟨hn, hvt⟩ | ⟨n, s, hn, hvt⟩
  · have e : ∀ c, elementAct cx h ch.isEmpty c = c (cx.inContent h) := by
      intro c; simp [elementAct, hvt]
    rw [e, hn]
    exact hcontent (cx.inContent h) ⟨h.fmtInline, lay.depth⟩ rfl rfl rfl ⟨rfl, hlay.2⟩ fs
  · rw [hn]
    simp only
    cases hx : (cx.cfg.isXml && ch.isEmpty) with
    | true =>
      simp only [Bool.and_eq_true, List.isEmpty_iff] at hx
      obtain ⟨hxml, hch0⟩ := hx
      subst hch0
      have e : ∀ c, elementAct cx h ([] : List Node).isEmpty c =
          Act.seq (Act.seq (writeOpenTag cx (n.asStr cx.src) s true) Act.skip) (Act.seq Act.skip Act.skip) := by
        intro c
        simp [elementAct, hvt, hxml, writeOpenTags, writeCloseTags]
      rw [e]
      simp only [if_true]
      constructor
      · rw [seq_ok, seq_ok]
        simp only [List.mem_singleton, forall_eq, Writable, Act.skip, and_true, Act.seq, if_true]
        exact ⟨writeOpenTag_only, fun ⟨a, ha⟩ => by rw [writeOpenTag_ok ha]⟩
      · intro hok
        rw [seq_ok, seq_ok] at hok
        obtain ⟨a, ha⟩ := writeOpenTag_only hok.1.1
        have ho := writeOpenTag_ok (tag := n.asStr cx.src) (e := true) ha fs
        have := Weaves.start (piece := pieceOf cx.cfg.isXml cx.src) (src := cx.src) (indent := cx.cfg.indent) (ws := fs)
          (n := n.asStr cx.src) (a := s.items) (e := true) .nil
        rw [pieceOf_eq (.start ha)] at this
        simp only [Act.seq, ho, Act.skip, if_true, List.append_nil] at this ⊢
        exact this
    | false =>
      let icx := cx.inContent h
      let bcx := icx.indent (if (getInfo cx.cfg (n.asStr cx.src)).isRoot then 0 else 1)
      have hx' : (ch.isEmpty && cx.cfg.isXml) = false := by rw [Bool.and_comm]; exact hx
      have e : ∀ c, elementAct cx h ch.isEmpty c =
          Act.seq (Act.seq (writeOpenTag cx (n.asStr cx.src) s false) Act.skip)
            (Act.seq (if !ch.isEmpty then Act.seq (Act.seq (line bcx) (c bcx)) (line icx) else Act.skip)
              (Act.seq (if !(getInfo cx.cfg (n.asStr cx.src)).isVoid then writeCloseTag (n.asStr cx.src) else Act.skip)
                Act.skip)) := by
        intro c
        simp [elementAct, hvt, hx', writeOpenTags, writeCloseTags, bcx, icx, OutCx.inContent]
      have hb : bcx.cfg = cx.cfg ∧ bcx.src = cx.src ∧ bcx.isRaw = (cx.isRaw || h.isRaw) := by
        simp only [bcx, icx, OutCx.indent, OutCx.inContent]
        split <;> exact ⟨rfl, rfl, rfl⟩
      let bl := lay.inside h.fmtInline (n.asStr cx.src)
      have hbl : MarginOf bcx bl := by
        have hroot := isRoot_eq cx.cfg (n.asStr cx.src)
        refine ⟨?_, fun hi => ?_⟩
        · simp only [bcx, icx, OutCx.indent, OutCx.inContent, bl, Margin.inside]
          split <;> rfl
        · rw [hb.1] at hi
          have hd := hlay.2 hi
          simp only [bcx, icx, OutCx.indent, OutCx.inContent, bl, Margin.inside, hi, Bool.and_true, hroot]
          cases h.fmtInline <;> by_cases hh : (n.asStr cx.src).map Char.toLower = "html".toList <;>
            simp only [hh, decide_true, decide_false, Bool.or_true, Bool.or_false, Bool.not_true, Bool.not_false, if_true,
              Bool.false_eq_true, if_false, hd, Nat.add_zero]
      rw [e]
      simp only [Bool.false_eq_true, if_false]
      -- the content with the white space around it
      let M : Act := if !ch.isEmpty then Act.seq (Act.seq (line bcx) (contentActs (nodeActs ch bcx))) (line icx) else Act.skip
      let mid : List OutItem := if ch.isEmpty then [] else .gap bl none :: body bl ++ [.gap ⟨h.fmtInline, lay.depth⟩ none]
      have hmid : ∀ fs, ((M fs).ok = true ↔ ∀ i ∈ mid, Writable cx.cfg.isXml cx.src i) ∧
          ((M fs).ok = true → Weaves (pieceOf cx.cfg.isXml cx.src) cx.src cx.cfg.indent fs mid (M fs).out (M fs).fs) := by
        intro fs
        simp only [M, mid]
        cases hce : ch.isEmpty with
        | true => exact ⟨by simp [Act.skip], fun _ => .nil⟩
        | false =>
          simp only [Bool.not_false, if_true, Bool.false_eq_true, if_false]
          have l1 := line_weaves hbl fs (piece := pieceOf cx.cfg.isXml cx.src)
          have c1 := hcontent bcx bl hb.1 hb.2.1 hb.2.2 hbl (line bcx fs).fs
          have l2 := fun fs => line_weaves (cx := icx) (l := ⟨h.fmtInline, lay.depth⟩) ⟨rfl, hlay.2⟩ fs (piece := pieceOf cx.cfg.isXml cx.src)
          rw [hb.1, hb.2.1] at l1
          constructor
          · rw [seq_ok, seq_ok, c1.1]
            simp only [l1.1, (l2 _).1, true_and, and_true]
            simp only [List.cons_append, List.mem_cons, List.mem_append, List.not_mem_nil, or_false]
            constructor
            · rintro h i (rfl | hi | rfl)
              · trivial
              · exact h i hi
              · trivial
            · exact fun h i hi => h i (.inr (.inl hi))
          · intro hok
            rw [seq_ok, seq_ok] at hok
            rw [seq_out (by rw [seq_ok]; exact hok.1), seq_out hok.1.1]
            refine weaves_append ?_ (l2 _).2
            exact weaves_append (a := [_]) l1.2 (c1.2 hok.1.2)
      let C : Act := if !(getInfo cx.cfg (n.asStr cx.src)).isVoid then writeCloseTag (n.asStr cx.src) else Act.skip
      let fin : List OutItem := if voidName cx.cfg.isXml (n.asStr cx.src) then [] else [.stop (n.asStr cx.src)]
      have hfin : ∀ fs, (C fs).ok = true ∧ Weaves (pieceOf cx.cfg.isXml cx.src) cx.src cx.cfg.indent fs fin (C fs).out (C fs).fs := by
        intro fs
        simp only [C, fin, getInfo_void]
        cases voidName cx.cfg.isXml (n.asStr cx.src) with
        | true => exact ⟨rfl, .nil⟩
        | false =>
          refine ⟨rfl, ?_⟩
          have := Weaves.stop (piece := pieceOf cx.cfg.isXml cx.src) (src := cx.src) (indent := cx.cfg.indent) (ws := fs)
            (n := n.asStr cx.src) .nil
          rw [pieceOf_eq .stop] at this
          simpa [writeCloseTag, Act.seq, Act.write, Act.setFs] using this
      have hfinW : ∀ i ∈ fin, Writable cx.cfg.isXml cx.src i := by
        intro i hi
        simp only [fin] at hi
        split at hi
        · simp at hi
        · simp only [List.mem_singleton] at hi; subst hi; trivial
      change ((Act.seq (Act.seq (writeOpenTag cx (n.asStr cx.src) s false) Act.skip) (Act.seq M (Act.seq C Act.skip)) fs).ok = true ↔
          ∀ i ∈ OutItem.start (n.asStr cx.src) s.items false :: (mid ++ fin), Writable cx.cfg.isXml cx.src i) ∧
        ((Act.seq (Act.seq (writeOpenTag cx (n.asStr cx.src) s false) Act.skip) (Act.seq M (Act.seq C Act.skip)) fs).ok = true →
          Weaves (pieceOf cx.cfg.isXml cx.src) cx.src cx.cfg.indent fs (OutItem.start (n.asStr cx.src) s.items false :: (mid ++ fin))
            (Act.seq (Act.seq (writeOpenTag cx (n.asStr cx.src) s false) Act.skip) (Act.seq M (Act.seq C Act.skip)) fs).out
            (Act.seq (Act.seq (writeOpenTag cx (n.asStr cx.src) s false) Act.skip) (Act.seq M (Act.seq C Act.skip)) fs).fs)
      have hskip : ∀ fs, (Act.skip fs).ok = true := fun _ => rfl
      constructor
      · rw [seq_ok, seq_ok, seq_ok, seq_ok]
        simp only [hskip, and_true, (hfin _).1, (hmid _).1, List.mem_cons, List.mem_append]
        constructor
        · rintro ⟨h1, h2⟩ i (rfl | hi | hi)
          · exact writeOpenTag_only h1
          · exact h2 i hi
          · exact hfinW i hi
        · intro hw
          obtain ⟨a, ha⟩ := hw _ (.inl rfl)
          exact ⟨by rw [writeOpenTag_ok ha], fun i hi => hw i (.inr (.inl hi))⟩
      · intro hok
        rw [seq_ok, seq_ok, seq_ok] at hok
        obtain ⟨⟨h1, -⟩, h2, h3⟩ := hok
        obtain ⟨a, ha⟩ := writeOpenTag_only h1
        have ho := writeOpenTag_ok (tag := n.asStr cx.src) (e := false) ha fs
        have eo : Act.seq (writeOpenTag cx (n.asStr cx.src) s false) Act.skip fs =
            ⟨pieceOf cx.cfg.isXml cx.src (.start (n.asStr cx.src) s.items false), false, true⟩ := by
          rw [seq_out h1, ho, pieceOf_eq (.start ha)]; simp [Act.skip]
        rw [eo] at h2
        rw [seq_out (by rw [eo]), eo]
        simp only
        rw [seq_out h2, seq_out (hfin _).1]
        simp only [Act.skip, List.append_nil]
        exact .start (weaves_append ((hmid _).2 h2) (hfin _).2)

theorem text_weaves (r : Range) (t : TextLike) : NodeWeaves (.text r t) := by
  intro cx lay fs hlay _
  simp only [processNode]
  cases t with
  | space s =>
    obtain ⟨h1, h2⟩ := space_weaves hlay (s := s) fs (piece := pieceOf cx.cfg.isXml cx.src)
    rw [nodeItems]
    refine ⟨?_, fun _ => h2⟩
    simp only [h1, true_iff, List.mem_singleton, forall_eq]; trivial
  | text t =>
    rw [nodeItems]
    simp only [writeTextLike, List.mem_singleton, forall_eq, Writable]
    refine ⟨⟨fun h => ?_, fun ⟨u, hu⟩ => writeText_of hu fs⟩, fun hok => ?_⟩
    · obtain ⟨u, hu, -⟩ := writeText_iff h
      exact ⟨u, hu⟩
    · obtain ⟨u, hu, -, ho⟩ := writeText_iff hok
      have := Weaves.text (piece := pieceOf cx.cfg.isXml cx.src) (indent := cx.cfg.indent)
        (v := t.raw || (!cx.cfg.isXml && (!t.escapeOut || cx.isRaw))) hu (writeText_stop hok) .nil
      rw [pieceOf_eq (.text hu)] at this
      rw [ho]
      simpa [rawMode] using this
  | comment s =>
    rw [nodeItems]
    have := Weaves.comment (piece := pieceOf cx.cfg.isXml cx.src) (src := cx.src) (indent := cx.cfg.indent) (ws := fs) (s := s) .nil
    rw [pieceOf_eq .comment] at this
    refine ⟨by simp [writeTextLike, writeComment, Act.seq, Act.write, Act.setFs, Writable], fun _ => ?_⟩
    simpa [writeTextLike, writeComment, Act.seq, Act.write, Act.setFs] using this

mutual
  theorem node_weaves : ∀ n : Node, NodeWeaves n
    | .text r t => text_weaves r t
    | .elem _ _ ch => elem_weaves (nodes_weaves ch)
  theorem nodes_weaves : ∀ ns : List Node, ∀ n ∈ ns, NodeWeaves n
    | [], n, h => by simp at h
    | m :: ms, n, h => by
      rcases List.mem_cons.1 h with e | h
      · exact e ▸ node_weaves m
      · exact nodes_weaves ms n h
end

/-- The output of a document. -/
theorem document_weaves {src : Str} {doc : Document} {cfg : OutputConfig} (hs : Singles doc.nodes) :
    ((outputHtmlTo src doc cfg).2 = true ↔ ∀ i ∈ documentItems cfg src doc, Writable cfg.isXml src i) ∧
    ((outputHtmlTo src doc cfg).2 = true → ∃ ws, Weaves (pieceOf cfg.isXml src) src cfg.indent true (documentItems cfg src doc)
      (outputHtmlTo src doc cfg).1 ws) := by
  let cx : OutCx := { cfg, src, indentLevel := 0, fmtInline := false, isRaw := false }
  have hx : (decide (cfg.xml = some true)) = cfg.isXml := by rw [OutputConfig.isXml, Bool.eq_iff_iff]; simp
  let P : Act := if cfg.completePage.getD false then Act.write "<!DOCTYPE html>\n".toList else Act.skip
  let pre : List OutItem := if cfg.completePage.getD false then [.doctype] else []
  have hpre : ∀ fs, (P fs).ok = true ∧ Weaves (pieceOf cfg.isXml src) src cfg.indent fs pre (P fs).out (P fs).fs := by
    intro fs
    simp only [P, pre]
    cases cfg.completePage.getD false with
    | false => exact ⟨rfl, .nil⟩
    | true =>
      refine ⟨rfl, ?_⟩
      have := Weaves.doctype (piece := pieceOf cfg.isXml src) (src := src) (indent := cfg.indent) (ws := fs) .nil
      rw [pieceOf_eq .doctype] at this
      simpa [Act.write] using this
  have hall := all_weaves cx ⟨false, 0⟩ ⟨rfl, fun _ => rfl⟩ (inner doc.nodes) (fun n hn => nodes_weaves _ n (inner_mem hn))
    (fun n hn => singles_iff.1 hs n (inner_mem hn))
  rw [← contentActs_eq, ← trimSpaces_eq] at hall
  have hline := fun fs => line_weaves (cx := cx) (l := ⟨false, 0⟩) ⟨rfl, fun _ => rfl⟩ fs (piece := pieceOf cfg.isXml src)
  have ho : outputHtmlTo src doc cfg =
      ((Act.seq P (Act.seq (contentActs (nodeActs doc.nodes cx)) (line cx)) true).out,
        (Act.seq P (Act.seq (contentActs (nodeActs doc.nodes cx)) (line cx)) true).ok) := rfl
  rw [ho, documentItems, hx]
  constructor
  · dsimp only
    rw [seq_ok, seq_ok, (hall _).1]
    simp only [(hpre _).1, (hline _).1, true_and, and_true]
    simp only [List.mem_append, List.mem_singleton]
    constructor
    · rintro h i ((hi | hi) | rfl)
      · split at hi
        · simp only [List.mem_singleton] at hi; subst hi; trivial
        · simp at hi
      · exact h i hi
      · trivial
    · exact fun h i hi => h i (.inl (.inr hi))
  · dsimp only
    intro hok
    rw [seq_ok, seq_ok] at hok
    rw [seq_out hok.1, seq_out hok.2.1]
    have := weaves_append (hpre true).2 (weaves_append ((hall _).2 hok.2.1) (hline _).2)
    rw [List.append_assoc]
    exact ⟨_, this⟩

end Mty
