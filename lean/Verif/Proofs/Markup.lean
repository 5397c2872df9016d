import Verif.Proofs.Text
import Verif.Proofs.Transform
import Verif.Spec.Markup

/-! # Reading the output -/

set_option autoImplicit false

namespace Mty
open Spec

/-! ## The reader -/

theorem readRun_append (xml : Bool) : ∀ (a b : Str) (st : ReadState), readRun xml st (a ++ b) =
    (readRun xml st a).bind fun p => (readRun xml p.1 b).map fun q => (q.1, p.2 ++ q.2)
  | [], b, st => by simp [readRun]
  | c :: a, b, st => by
    rw [List.cons_append, readRun, readRun]
    cases readStep xml st c with
    | none => rfl
    | some p =>
      simp only [Option.bind_some, readRun_append xml a b p.1]
      cases readRun xml p.1 a with
      | none => rfl
      | some q =>
        simp only [Option.map_some, Option.bind_some]
        cases readRun xml q.1 b <;> simp

theorem readRun_trans {xml : Bool} {a b : Str} {st st1 st2 : ReadState} {t1 t2 : List Token}
    (h1 : readRun xml st a = some (st1, t1)) (h2 : readRun xml st1 b = some (st2, t2)) :
    readRun xml st (a ++ b) = some (st2, t1 ++ t2) := by
  rw [readRun_append, h1]; simp [h2]

theorem readRun_cons {xml : Bool} {c : Char} {s : Str} {st st1 st2 : ReadState} {t1 t2 : List Token}
    (h1 : readStep xml st c = some (st1, t1)) (h2 : readRun xml st1 s = some (st2, t2)) :
    readRun xml st (c :: s) = some (st2, t1 ++ t2) := by
  rw [readRun, h1]; simp [h2]

theorem readRun_one {xml : Bool} {c : Char} {st st1 : ReadState} {t1 : List Token}
    (h1 : readStep xml st c = some (st1, t1)) : readRun xml st [c] = some (st1, t1) := by
  rw [readRun, h1]; simp [readRun]

theorem readRun_text (xml : Bool) : ∀ (s t : Str) (acc : Option Str),
    readChars (charRef codePoint xml) literalText acc s = some t →
    readRun xml (match acc with | none => .data | some a => .ref a) s = some (.data, t.map .char)
  | [], t, none, h => by simp only [readChars, Option.some.injEq] at h; subst h; rfl
  | [], t, some a, h => by simp [readChars] at h
  | c :: s, t, none, h => by
    rw [readChars] at h
    by_cases h1 : c = '&'
    · rw [if_pos h1] at h
      subst h1
      exact readRun_cons (t1 := []) (by rfl) (readRun_text xml s t (some []) h)
    · rw [if_neg h1] at h
      by_cases h2 : literalText c = false
      · rw [if_pos h2] at h; cases h
      · rw [if_neg h2] at h
        simp only [Bool.not_eq_false] at h2
        obtain ⟨t', ht', rfl⟩ := Option.map_eq_some_iff.1 h
        have h3 : c ≠ '<' := by rintro rfl; simp [literalText] at h2
        exact readRun_cons (t1 := [.char c]) (by simp [readStep, h1, h2, h3]) (readRun_text xml s t' none ht')
  | c :: s, t, some a, h => by
    rw [readChars] at h
    by_cases h1 : c = ';'
    · rw [if_pos h1] at h
      obtain ⟨ch, hch, h⟩ := Option.bind_eq_some_iff.1 h
      obtain ⟨t', ht', rfl⟩ := Option.map_eq_some_iff.1 h
      exact readRun_cons (t1 := [.char ch]) (by simp [readStep, h1, hch]) (readRun_text xml s t' none ht')
    · rw [if_neg h1] at h
      exact readRun_cons (t1 := []) (by simp [readStep, h1]) (readRun_text xml s t (some (a ++ [c])) h)

theorem readRun_value (xml : Bool) (n : Str) (as : List (Str × Option Str)) (a : Str) :
    ∀ (s t : Str) (acc : Option Str) (v : Str),
    readChars (charRef codePoint xml) literalQuoted acc s = some t →
    readRun xml (match acc with | none => .value n as a v | some r => .valueRef n as a v r) s =
      some (.value n as a (v ++ t), [])
  | [], t, none, v, h => by simp only [readChars, Option.some.injEq] at h; subst h; simp [readRun]
  | [], t, some _, v, h => by simp [readChars] at h
  | c :: s, t, none, v, h => by
    rw [readChars] at h
    by_cases h1 : c = '&'
    · rw [if_pos h1] at h
      subst h1
      exact readRun_cons (t1 := []) (by rfl) (readRun_value xml n as a s t (some []) v h)
    · rw [if_neg h1] at h
      by_cases h2 : literalQuoted c = false
      · rw [if_pos h2] at h; cases h
      · rw [if_neg h2] at h
        simp only [Bool.not_eq_false] at h2
        obtain ⟨t', ht', rfl⟩ := Option.map_eq_some_iff.1 h
        have h3 : c ≠ '"' := by rintro rfl; simp [literalQuoted] at h2
        have := readRun_value xml n as a s t' none (v ++ [c]) ht'
        rw [List.append_assoc] at this
        exact readRun_cons (t1 := []) (by simp [readStep, h1, h2, h3]) this
  | c :: s, t, some r, v, h => by
    rw [readChars] at h
    by_cases h1 : c = ';'
    · rw [if_pos h1] at h
      obtain ⟨ch, hch, h⟩ := Option.bind_eq_some_iff.1 h
      obtain ⟨t', ht', rfl⟩ := Option.map_eq_some_iff.1 h
      have := readRun_value xml n as a s t' none (v ++ [ch]) ht'
      rw [List.append_assoc] at this
      exact readRun_cons (t1 := []) (by simp [readStep, h1, hch]) this
    · rw [if_neg h1] at h
      exact readRun_cons (t1 := []) (by simp [readStep, h1]) (readRun_value xml n as a s t (some (r ++ [c])) v h)

theorem readRun_escText (xml : Bool) (u : Str) :
    readRun xml .data (escWriteStr xml false u) = some (.data, u.map .char) :=
  readRun_text xml _ _ none (readText_esc xml u)

theorem readRun_escValue (xml : Bool) (n : Str) (as : List (Str × Option Str)) (a v u : Str) :
    readRun xml (.value n as a v) (escWriteStr xml true u) = some (.value n as a (v ++ u), []) :=
  readRun_value xml n as a _ _ none v (readQuoted_esc xml u)

theorem readRun_blank (xml : Bool) : ∀ (s : Str), Blank s → readRun xml .data s = some (.data, s.map .char)
  | [], _ => rfl
  | c :: s, h => by
    refine readRun_cons (t1 := [.char c]) ?_ (readRun_blank xml s fun d hd => h d (List.mem_cons_of_mem _ hd))
    obtain ⟨h1, h2⟩ := h c (List.mem_cons_self ..)
    have h3 : c ≠ '<' := by rintro rfl; revert h1; decide
    have h4 : c ≠ '>' := by rintro rfl; revert h1; decide
    have h5 : c ≠ '&' := by rintro rfl; revert h1; decide
    simp [readStep, literalText, h2, h3, h4, h5]

theorem readRun_name (xml : Bool) (n : Str) : ∀ (s : Str), (∀ d ∈ s, nameChar d = true) →
    readRun xml (.name n) s = some (.name (n ++ s), []) := by
  intro s
  induction s generalizing n with
  | nil => intro _; simp [readRun]
  | cons c s ih =>
    intro h
    have hc := h c (List.mem_cons_self ..)
    have := ih (n ++ [c]) fun d hd => h d (List.mem_cons_of_mem _ hd)
    rw [List.append_assoc] at this
    refine readRun_cons (t1 := []) ?_ this
    have h1 : c ≠ ' ' := by rintro rfl; revert hc; decide
    have h2 : c ≠ '/' := by rintro rfl; revert hc; decide
    have h3 : c ≠ '>' := by rintro rfl; revert hc; decide
    simp [readStep, h1, h2, h3, hc]

theorem readRun_open (xml : Bool) (n : Str) (h : SafeName n) : readRun xml .data ('<' :: n) = some (.name n, []) := by
  obtain ⟨c, s, rfl, h1, h2⟩ := h
  refine readRun_cons (t1 := []) (st1 := .open_) (by rfl) ?_
  have h3 : c ≠ '/' := by rintro rfl; revert h1; decide
  have h4 : c ≠ '!' := by rintro rfl; revert h1; decide
  refine readRun_cons (t1 := []) (st1 := .name [c]) (by simp [readStep, h1, h3, h4]) ?_
  exact readRun_name xml [c] s h2

theorem readRun_stopName (xml : Bool) (n : Str) : ∀ (s : Str), (∀ d ∈ s, nameChar d = true) →
    readRun xml (.stopName n) s = some (.stopName (n ++ s), []) := by
  intro s
  induction s generalizing n with
  | nil => intro _; simp [readRun]
  | cons c s ih =>
    intro h
    have hc := h c (List.mem_cons_self ..)
    have := ih (n ++ [c]) fun d hd => h d (List.mem_cons_of_mem _ hd)
    rw [List.append_assoc] at this
    refine readRun_cons (t1 := []) ?_ this
    have h3 : c ≠ '>' := by rintro rfl; revert hc; decide
    simp [readStep, h3, hc]

theorem safeName_chars {n : Str} (h : SafeName n) : ∀ d ∈ n, nameChar d = true := by
  obtain ⟨c, s, rfl, h1, h2⟩ := h
  intro d hd
  rcases List.mem_cons.1 hd with rfl | hd
  · simp [nameChar, h1]
  · exact h2 d hd

theorem readRun_close (xml : Bool) (n : Str) (h : SafeName n) :
    readRun xml .data ("</".toList ++ n ++ ['>']) = some (.data, [.stop n]) := by
  have e1 : readRun xml .data "</".toList = some (.stopName [], []) := by cases xml <;> rfl
  have e2 := readRun_stopName xml [] n (safeName_chars h)
  refine readRun_trans (t1 := []) (readRun_trans (t1 := []) e1 e2) (readRun_one ?_)
  obtain ⟨c, s, rfl, -, -⟩ := h
  simp [readStep]

/-- The state of the reader inside a tag after the name and some attributes. -/
inductive Mid (xml : Bool) (n : Str) : List (Str × Option Str) → ReadState → Prop
  | name : Mid xml n [] (.name n)
  | value {as} : Mid xml n as (.afterValue n as)
  | bare {as a} : xml = false → Mid xml n (as ++ [(a, none)]) (.attrName n as a)

theorem Mid.space {xml : Bool} {n : Str} {as : List (Str × Option Str)} {st : ReadState} (h : Mid xml n as st) :
    readStep xml st ' ' = some (.beforeAttr n as, []) := by
  cases h with
  | name => rfl
  | value => rfl
  | bare h => subst h; rfl

theorem Mid.close {xml : Bool} {n : Str} {as : List (Str × Option Str)} {st : ReadState} (h : Mid xml n as st) :
    readStep xml st '>' = some (.data, [.start n as false]) := by
  cases h with
  | name => cases xml <;> rfl
  | value => cases xml <;> rfl
  | bare h => subst h; rfl

theorem Mid.slash {n : Str} {as : List (Str × Option Str)} {st : ReadState} (h : Mid true n as st) :
    readStep true st '/' = some (.slash n as, []) := by
  cases h with
  | name => rfl
  | value => rfl
  | bare h => cases h

theorem readRun_attrName (xml : Bool) (n : Str) (as : List (Str × Option Str)) (a : Str) : ∀ (s : Str),
    (∀ d ∈ s, attrChar d = true) → readRun xml (.attrName n as a) s = some (.attrName n as (a ++ s), []) := by
  intro s
  induction s generalizing a with
  | nil => intro _; simp [readRun]
  | cons c s ih =>
    intro h
    have hc := h c (List.mem_cons_self ..)
    have := ih (a ++ [c]) fun d hd => h d (List.mem_cons_of_mem _ hd)
    rw [List.append_assoc] at this
    refine readRun_cons (t1 := []) ?_ this
    have h1 : c ≠ '=' := by rintro rfl; revert hc; decide
    have h2 : c ≠ ' ' := by rintro rfl; revert hc; decide
    have h3 : c ≠ '>' := by rintro rfl; revert hc; decide
    simp [readStep, h1, h2, h3, hc]

theorem Mid.attr {xml : Bool} {n : Str} {as : List (Str × Option Str)} {st : ReadState} (h : Mid xml n as st) {a : Str}
    (ha : SafeAttrName a) : readRun xml st (' ' :: a) = some (.attrName n as a, []) := by
  obtain ⟨h1, h2⟩ := ha
  cases a with
  | nil => exact absurd rfl h1
  | cons c s =>
    refine readRun_cons (t1 := []) h.space (readRun_cons (t1 := []) (st1 := .attrName n as [c]) ?_ ?_)
    · simp [readStep, h2 c (List.mem_cons_self ..)]
    · exact readRun_attrName xml n as [c] s fun d hd => h2 d (List.mem_cons_of_mem _ hd)

/-- An attribute whose value is written by `body`. -/
theorem Mid.attrValue {xml : Bool} {n : Str} {as : List (Str × Option Str)} {st : ReadState} (h : Mid xml n as st)
    {a : Str} (ha : SafeAttrName a) {body v : Str}
    (hb : readRun xml (.value n as a []) body = some (.value n as a v, [])) :
    readRun xml st ((' ' :: a) ++ ("=\"".toList ++ body ++ ['"'])) = some (.afterValue n (as ++ [(a, some v)]), []) := by
  refine readRun_trans (t1 := []) (h.attr ha) (readRun_trans (t1 := []) (readRun_trans (t1 := []) ?_ hb) (readRun_one rfl))
  cases xml <;> rfl

theorem readRun_comment (xml : Bool) (body : Str) (h : CommentBody body) :
    readRun xml .data ("<!--".toList ++ body ++ "-->".toList) = some (.data, [.comment body]) := by
  have e1 : readRun xml .data "<!--".toList = some (.comment [], []) := by cases xml <;> rfl
  have key : ∀ s acc : Str, acc ++ s = body → readRun xml (.comment acc) s = some (.comment body, []) := by
    intro s
    induction s with
    | nil => intro acc e; simp at e; simp [readRun, e]
    | cons c s ih =>
      intro acc e
      refine readRun_cons (t1 := []) (st1 := .comment (acc ++ [c])) ?_ (ih _ (by simp [e]))
      rw [readStep, if_neg]
      intro hd
      have : acc = acc.take (acc.length - 2) ++ ['-', '-'] := by
        rw [← hd, List.take_append_drop]
      refine h.noDashes (acc.take (acc.length - 2)) (c :: s) ?_
      rw [← e]
      conv => lhs; rw [this]
      simp
  have hnd : ∀ b : Str, b.drop (b.length - 2) = ['-', '-'] → b = b.take (b.length - 2) ++ ['-', '-'] := by
    intro b hd
    rw [← hd, List.take_append_drop]
  refine readRun_trans (t1 := []) (readRun_trans (t1 := []) e1 (key body [] rfl)) ?_
  show readRun xml _ ['-', '-', '>'] = _
  refine readRun_cons (t1 := []) (st1 := .comment (body ++ ['-'])) ?_ (readRun_cons (t1 := []) (st1 := .comment (body ++ ['-', '-'])) ?_
    (readRun_one ?_))
  · rw [readStep, if_neg]
    intro hd
    exact h.noDashes _ [] (hnd _ hd)
  · rw [readStep, if_neg (by
      intro hd
      have := hnd _ hd
      generalize List.take ((body ++ ['-']).length - 2) (body ++ ['-']) = q at this
      have : body = q ++ ['-'] := by
        have e : body ++ ['-'] = (q ++ ['-']) ++ ['-'] := by simpa using this
        exact List.append_cancel_right e
      exact h.endDash q this)]
    simp
  · have : (body ++ ['-', '-']).length - 2 = body.length := by simp
    rw [readStep, this, if_pos (by simp)]
    simp

/-! ## Actions -/

theorem seq_ok {a b : Act} {fs : Bool} : (Act.seq a b fs).ok = true ↔
    (a fs).ok = true ∧ (b (a fs).fs).ok = true := by
  unfold Act.seq
  cases h : (a fs).ok <;> simp [h]

theorem seq_out {a b : Act} {fs : Bool} (h : (a fs).ok = true) :
    Act.seq a b fs = ⟨(a fs).out ++ (b (a fs).fs).out, (b (a fs).fs).fs, (b (a fs).fs).ok⟩ := by
  unfold Act.seq; rw [if_pos h]

/-- If the action succeeds, the reader gets from one state to the other by what is written. -/
def Runs (xml : Bool) (a : Act) (fs : Bool) (st st' : ReadState) (toks : List Token) : Prop :=
  readRun xml st (a fs).out = some (st', toks)

theorem getLast?_snoc {α : Type} (l : List α) (x : α) : (l ++ [x]).getLast? = some x := by simp

/-- The end of an escape sequence is not white space. -/
theorem accepted_last {e : Str} {c : Char} (h : Accepted e c) :
    ∃ d, e.getLast? = some d ∧ d ≠ ' ' ∧ d ≠ '\t' := by
  have hex : ∀ {c : Char} {n : Nat}, hexVal c = some n → c ≠ ' ' ∧ c ≠ '\t' := by
    intro c n h
    have h1 : hexVal ' ' = none := by decide
    have h2 : hexVal '\t' = none := by decide
    constructor
    · rintro rfl; rw [h1] at h; cases h
    · rintro rfl; rw [h2] at h; cases h
  have hexl : ∀ {s : Str} {n : Nat}, HexNum s n → ∃ d, s.getLast? = some d ∧ d ≠ ' ' ∧ d ≠ '\t' := by
    intro s n h
    cases h with
    | one h => exact ⟨_, rfl, hex h⟩
    | snoc _ h => exact ⟨_, by simp, hex h⟩
  rcases h with h | h
  · cases h with
    | tab => exact ⟨'t', rfl, by decide, by decide⟩
    | newline => exact ⟨'n', rfl, by decide, by decide⟩
    | cr => exact ⟨'r', rfl, by decide, by decide⟩
    | self h =>
      refine ⟨c, rfl, ?_, ?_⟩ <;> (rintro rfl; revert h; decide)
    | @byte a b n h1 h2 h3 =>
      obtain ⟨d, h4, h5⟩ := hexl h2
      exact ⟨d, by simpa using h4, h5⟩
    | unicode => exact ⟨'}', getLast?_snoc _ _, by decide, by decide⟩
  · cases h with
    | @byte a n h1 h2 =>
      obtain ⟨d, h4, h5⟩ := hexl h2
      exact ⟨d, by simpa using h4, h5⟩
    | unicode => exact ⟨'}', getLast?_snoc _ _, by decide, by decide⟩

theorem unescapes_last {s u : Str} (h : Unescapes Accepted s u) {c : Char} (hc : c = ' ' ∨ c = '\t')
    (hs : s.getLast? = some c) : u.getLast? = some c := by
  induction h with
  | nil => simp at hs
  | @plain d s t hd h ih =>
    cases s with
    | nil =>
      cases h
      simpa using hs
    | cons x s =>
      have := ih (by simpa using hs)
      cases t with
      | nil => simp at this
      | cons y t => simpa using this
  | @esc e d s t he h ih =>
    cases s with
    | nil =>
      exfalso
      obtain ⟨f, hf, h1, h2⟩ := accepted_last he
      cases e with
      | nil => simp at hf
      | cons x e =>
        simp at hs hf
        rw [hf] at hs
        cases hs
        rcases hc with rfl | rfl
        · exact h1 rfl
        · exact h2 rfl
    | cons x s =>
      have := ih (by rw [← hs, List.getLast?_append]; simp [List.getLast?_cons])
      cases t with
      | nil => simp at this
      | cons y t => simpa using this

theorem endsWithBlank_iff {s : Str} : endsWithBlank s = true ↔ ∃ c, (c = ' ' ∨ c = '\t') ∧ s.getLast? = some c := by
  simp [endsWithBlank]

theorem slice_empty {t : TextSlice} {src : Str} (h : t.isEmpty = true) : t.asStr src = [] := by
  cases t with
  | fromSource r =>
    simp [TextSlice.isEmpty] at h
    have : r.stop - r.start = 0 := by omega
    simp only [TextSlice.asStr, Range.slice, this]
    cases dropBytes r.start src with
    | nil => rfl
    | cons c s =>
      have : 0 < c.utf8Size := Char.utf8Size_pos c
      simp [takeBytes]
  | provided v => simpa [TextSlice.isEmpty, TextSlice.asStr] using h

/-! ## Texts -/

theorem textWriter_iff {cx : OutCx} {t : Text} {b : Bool} {v : Str} (h : (textWriter cx t b v).2 = true) :
    ∃ u, (if t.unescapeIn then Unescapes Accepted v u else u = v) ∧
      textWriter cx t b v = (if b then u else escWriteStr cx.cfg.isXml false u, true) := by
  cases hu : t.unescapeIn with
  | false => exact ⟨v, by simp, textWriter_plain hu b v⟩
  | true =>
    have : ∃ u, Unescapes Accepted v u := by
      cases b with
      | true => simp only [textWriter, hu] at h; exact (writeUnescape_iff v).1 h
      | false => simp only [textWriter, hu] at h; exact (writeEscapeUnescape_iff _ _ v).1 h
    obtain ⟨u, hu'⟩ := this
    exact ⟨u, by simpa using hu', textWriter_unescape hu b hu'⟩

theorem writeLines_iff {cx : OutCx} {t : Text} {b : Bool} : ∀ (ls : List Str) (fs : Bool),
    (writeLines (textWriter cx t b) ls fs).ok = true →
    ∃ u, (if t.unescapeIn then Unescapes Accepted ls.flatten u else u = ls.flatten) ∧
      writeLines (textWriter cx t b) ls fs = ⟨if b then u else escWriteStr cx.cfg.isXml false u, fs, true⟩
  | [], fs, _ => ⟨[], by cases t.unescapeIn <;> simp [Unescapes.nil], by cases b <;> rfl⟩
  | l :: ls, fs, h => by
    rw [writeLines, seq_ok] at h
    obtain ⟨h1, h2⟩ := h
    obtain ⟨u, hu, e⟩ := textWriter_iff h1
    obtain ⟨v, hv, e'⟩ := writeLines_iff ls fs h2
    refine ⟨u ++ v, ?_, ?_⟩
    · cases ht : t.unescapeIn with
      | false => simp [ht] at hu hv; simp [hu, hv]
      | true =>
        simp only [ht, if_true] at hu hv
        simpa using unescapes_append hu hv
    · rw [writeLines, seq_out h1]
      simp only [Act.writeR, e, e']
      cases b <;> simp [escWriteStr_append]

theorem writeText_iff {cx : OutCx} {t : Text} {fs : Bool} (h : (writeText cx t fs).ok = true) :
    ∃ u, TextChars cx.src t u ∧ TextEnd t u fs (writeText cx t fs).fs ∧
      (writeText cx t fs).out = if rawMode cx t then u else escWriteStr cx.cfg.isXml false u := by
  by_cases hne : t.slice.isEmpty = true
  · refine ⟨[], ?_, ?_, ?_⟩
    · cases hm : t.multiline with
      | true => exact .short hm (by rw [slice_empty hne]; simp)
      | false =>
        refine .plain hm ?_
        rw [slice_empty hne]
        cases t.unescapeIn <;> simp [Unescapes.nil]
    · simp [TextEnd, writeText, hne, Act.skip]
      intro h; exact .inl h
    · simp [writeText, hne, Act.skip, escWriteStr_eq]
  · simp only [Bool.not_eq_true] at hne
    cases hm : t.multiline with
    | false =>
      have e : writeText cx t = Act.seq (Act.writeR (textWriter cx t (rawMode cx t) (t.slice.asStr cx.src)))
          (Act.setFs (endsWithBlank (t.slice.asStr cx.src))) := by
        funext fs; simp [writeText, hne, hm, rawMode]
      rw [e] at h ⊢
      rw [seq_ok] at h
      obtain ⟨u, hu, e'⟩ := textWriter_iff h.1
      rw [seq_out h.1]
      refine ⟨u, .plain hm hu, ?_, ?_⟩
      · intro hb
        obtain ⟨c, hc, hl⟩ := endsWithBlank_iff.1 hb
        have : u.getLast? = some c := by
          cases hui : t.unescapeIn with
          | false => simp only [hui] at hu; rw [show u = _ from hu]; exact hl
          | true => simp only [hui, if_true] at hu; exact unescapes_last hu hc hl
        rw [this]; exact hc
      · simp [Act.writeR, e', Act.setFs]
    | true =>
      have e : writeText cx t = Act.seq (writeLines (textWriter cx t (rawMode cx t)) (trimMultiline (t.slice.asStr cx.src)))
          (Act.setFs (endsWithBlank ((trimMultiline (t.slice.asStr cx.src)).getLast?.getD (t.slice.asStr cx.src)))) := by
        funext fs; simp [writeText, hne, hm, rawMode]
      rw [e] at h ⊢
      rw [seq_ok] at h
      obtain ⟨u, hu, e'⟩ := writeLines_iff _ _ h.1
      rw [seq_out h.1]
      refine ⟨u, ?_, ?_, ?_⟩
      · by_cases hc : 2 ≤ (t.slice.asStr cx.src).count '\n'
        · obtain ⟨body, hb⟩ := trimmed_exists hc
          rw [trimMultiline_of_trimmed hb] at hu
          exact .block hm hb hu
        · rw [trimMultiline_short (by omega)] at hu
          have : u = [] := by
            cases hui : t.unescapeIn with
            | false => simp [hui] at hu; exact hu
            | true =>
              simp [hui] at hu
              cases hu; rfl
          subst this
          exact .short hm (by omega)
      · intro hb
        obtain ⟨c, hc, hl⟩ := endsWithBlank_iff.1 hb
        cases hlast : (trimMultiline (t.slice.asStr cx.src)).getLast? with
        | none =>
          rw [List.getLast?_eq_none_iff] at hlast
          rw [hlast] at hu
          have : u = [] := by
            cases hui : t.unescapeIn with
            | false => simp [hui] at hu; exact hu
            | true =>
              simp [hui] at hu
              cases hu; rfl
          subst this
          exact .inr hm
        | some l =>
          rw [hlast] at hl
          simp only [Option.getD_some] at hl
          obtain ⟨ls, hls⟩ := List.getLast?_eq_some_iff.1 hlast
          have hf : (trimMultiline (t.slice.asStr cx.src)).flatten.getLast? = some c := by
            rw [hls]; simp [hl]
          have : u.getLast? = some c := by
            cases hui : t.unescapeIn with
            | false => simp only [hui] at hu; rw [show u = _ from hu]; exact hf
            | true => simp only [hui, if_true] at hu; exact unescapes_last hu hc hf
          rw [this]; exact hc
      · simp [Act.setFs, e']

/-! ## Tags -/

theorem idItems (s : Selector) : (idsOf s.items).take 1 = s.id.toList := by
  unfold Selector.id idsOf
  induction s.items with
  | nil => rfl
  | cons i is ih => cases i <;> simp_all

theorem writeValue_iff {xml : Bool} {s : Str} {fs : Bool} (h : (Act.writeR (writeEscapeUnescape xml true s) fs).ok = true) :
    ∃ u, Unescapes Accepted s u ∧ Act.writeR (writeEscapeUnescape xml true s) fs = ⟨escWriteStr xml true u, fs, true⟩ := by
  obtain ⟨u, hu⟩ := (writeEscapeUnescape_iff xml true s).1 h
  exact ⟨u, hu, by simp [Act.writeR, writeEscapeUnescape_ok hu]⟩

theorem writeMoreClasses_iff {cx : OutCx} {n : Str} {as : List (Str × Option Str)} {a : Str} :
    ∀ (cls : List TextSlice) (fs : Bool), (writeMoreClasses cx cls fs).ok = true →
    ∃ xs, List.Forall₂ (fun (i : TextSlice) x => Unescapes Accepted (i.asStr cx.src) x) cls xs ∧
      (writeMoreClasses cx cls fs).fs = fs ∧
      ∀ v, readRun cx.cfg.isXml (.value n as a v) (writeMoreClasses cx cls fs).out =
        some (.value n as a (v ++ (xs.map (' ' :: ·)).flatten), [])
  | [], fs, _ => ⟨[], .nil, rfl, fun v => by simp [writeMoreClasses, Act.skip, readRun]⟩
  | c :: cls, fs, h => by
    rw [writeMoreClasses, seq_ok, seq_ok] at h
    obtain ⟨h0, h1, h2⟩ := h
    obtain ⟨u, hu, e⟩ := writeValue_iff h1
    rw [e] at h2
    obtain ⟨xs, hxs, e1, e2⟩ := writeMoreClasses_iff cls _ h2
    have ho : writeMoreClasses cx (c :: cls) fs = ⟨' ' :: (escWriteStr cx.cfg.isXml true u ++ (writeMoreClasses cx cls fs).out),
        (writeMoreClasses cx cls fs).fs, (writeMoreClasses cx cls fs).ok⟩ := by
      rw [writeMoreClasses, seq_out h0, seq_out h1, e]
      simp [Act.write]
    refine ⟨u :: xs, .cons hu hxs, by rw [ho]; exact e1, fun v => ?_⟩
    rw [ho]
    refine readRun_cons (t1 := []) (st1 := .value n as a (v ++ [' '])) (by simp [readStep, literalQuoted]; decide) ?_
    have e3 := readRun_trans (t1 := []) (readRun_escValue cx.cfg.isXml n as a (v ++ [' ']) u) (e2 _)
    simpa [Act.write] using e3

theorem intercalate_flatten (x : Str) (xs : List Str) :
    List.intercalate [' '] (x :: xs) = x ++ (xs.map (' ' :: ·)).flatten := by
  induction xs generalizing x with
  | nil => simp [List.intercalate]
  | cons y xs ih =>
    have := ih y
    simp only [List.intercalate, List.intersperse, List.flatten_cons] at *
    simp_all

theorem safe_id : SafeAttrName "id".toList := by unfold SafeAttrName; decide
theorem safe_class : SafeAttrName "class".toList := by unfold SafeAttrName; decide

/-- The value of an attribute. -/
def attrTail (cx : OutCx) : Option TextSlice → Act
  | some v =>
    Act.seq (Act.write "=\"".toList) <|
    Act.seq (Act.writeR (writeEscapeUnescape cx.cfg.isXml true (v.asStr cx.src))) <|
    Act.write ['"']
  | none => if cx.cfg.isXml then Act.write "=\"\"".toList else Act.skip

theorem writeAttributes_cons (cx : OutCx) (a : Attribute) (l : List Attribute) :
    writeAttributes cx ((a :: l).map fun a => (a.name, a.value)) =
      Act.seq (Act.write [' ']) (Act.seq (Act.writeR (writeUnescape (a.name.asStr cx.src)))
        (Act.seq (attrTail cx a.value) (writeAttributes cx (l.map fun a => (a.name, a.value))))) := by
  simp only [List.map_cons, writeAttributes]
  cases a.value <;> rfl

theorem writeAttributes_iff {cx : OutCx} {n : Str} : ∀ (l : List Attribute) (fs : Bool)
    (as : List (Str × Option Str)) (st : ReadState), Mid cx.cfg.isXml n as st →
    (∀ a ∈ l, ∀ x, Unescapes Accepted (a.name.asStr cx.src) x → SafeAttrName x) →
    (writeAttributes cx (l.map fun a => (a.name, a.value)) fs).ok = true →
    ∃ xs st', List.Forall₂ (fun (a : Attribute) (p : Str × Option Str) =>
          Unescapes Accepted (a.name.asStr cx.src) p.1 ∧
          match a.value with
          | some v => ∃ x, p.2 = some x ∧ Unescapes Accepted (v.asStr cx.src) x
          | none => p.2 = if cx.cfg.isXml then some [] else none) l xs ∧
      Mid cx.cfg.isXml n (as ++ xs) st' ∧
      (writeAttributes cx (l.map fun a => (a.name, a.value)) fs).fs = fs ∧
      readRun cx.cfg.isXml st (writeAttributes cx (l.map fun a => (a.name, a.value)) fs).out = some (st', [])
  | [], fs, as, st, hm, _, _ => ⟨[], st, .nil, by simpa using hm, rfl, rfl⟩
  | a :: l, fs, as, st, hm, hs, h => by
    rw [writeAttributes_cons, seq_ok, seq_ok, seq_ok] at h
    obtain ⟨h0, h1, h2, h3⟩ := h
    obtain ⟨nm, hnm⟩ := (writeUnescape_iff _).1 h1
    have hsafe := hs a (List.mem_cons_self ..) nm hnm
    have en : Act.writeR (writeUnescape (a.name.asStr cx.src)) fs = ⟨nm, fs, true⟩ := by
      simp [Act.writeR, writeUnescape_ok hnm]
    have key : ∃ (o : Str) (v : Option Str) (st' : ReadState), attrTail cx a.value fs = ⟨o, fs, true⟩ ∧
        (match a.value with
          | some w => ∃ x, v = some x ∧ Unescapes Accepted (w.asStr cx.src) x
          | none => v = if cx.cfg.isXml then some [] else none) ∧
        Mid cx.cfg.isXml n (as ++ [(nm, v)]) st' ∧
        readRun cx.cfg.isXml st ((' ' :: nm) ++ o) = some (st', []) := by
      cases hv : a.value with
      | some w =>
        simp only [hv, Act.write] at h2
        rw [en] at h2
        simp only [attrTail] at h2 ⊢
        rw [seq_ok, seq_ok] at h2
        obtain ⟨h4, h5, h6⟩ := h2
        obtain ⟨u, hu, e⟩ := writeValue_iff h5
        refine ⟨"=\"".toList ++ escWriteStr cx.cfg.isXml true u ++ ['"'], some u, _, ?_, ⟨u, rfl, hu⟩, .value, ?_⟩
        · rw [seq_out (by rfl), seq_out h5]
          simp only [Act.write] at e ⊢
          rw [e]; simp
        · exact hm.attrValue hsafe (by simpa using readRun_escValue cx.cfg.isXml n as nm [] u)
      | none =>
        cases hx : cx.cfg.isXml with
        | true =>
          rw [hx] at hm
          refine ⟨"=\"\"".toList, some [], _, by simp [attrTail, hx, Act.write], by simp, .value, ?_⟩
          have := hm.attrValue hsafe (body := []) (v := []) (by simp [readRun])
          simpa using this
        | false =>
          rw [hx] at hm
          refine ⟨[], none, _, by simp [attrTail, hx, Act.skip], by simp, .bare rfl, ?_⟩
          simpa using hm.attr hsafe
    obtain ⟨o, v, st1, e1, hv, hm1, hr⟩ := key
    have h3' : (writeAttributes cx (l.map fun a => (a.name, a.value)) fs).ok = true := by
      simp only [Act.write] at h3
      rw [en] at h3
      dsimp only at h3
      rw [e1] at h3
      exact h3
    obtain ⟨xs, st', hf, hm2, hfs, hrun⟩ := writeAttributes_iff l fs _ _ hm1
      (fun b hb => hs b (List.mem_cons_of_mem _ hb)) h3'
    have ho : writeAttributes cx ((a :: l).map fun a => (a.name, a.value)) fs =
        ⟨((' ' :: nm) ++ o) ++ (writeAttributes cx (l.map fun a => (a.name, a.value)) fs).out, fs, true⟩ := by
      rw [writeAttributes_cons, seq_out h0, seq_out h1]
      simp only [Act.write]
      rw [en]
      rw [seq_out (by rw [e1])]
      rw [e1]
      simp [hfs, h3']
    refine ⟨(nm, v) :: xs, st', .cons ⟨hnm, hv⟩ hf, by simpa using hm2, by rw [ho], ?_⟩
    rw [ho]
    exact readRun_trans (t1 := []) hr hrun

/-- The id of a tag. -/
def idAct (cx : OutCx) : Option TextSlice → Act
  | some id =>
    Act.seq (Act.write " id=\"".toList) <|
    Act.seq (Act.writeR (writeEscapeUnescape cx.cfg.isXml true (id.asStr cx.src))) <|
    Act.write ['"']
  | none => Act.skip

/-- The classes of a tag. -/
def classAct (cx : OutCx) : List TextSlice → Act
  | first :: rest =>
    Act.seq (Act.write " class=\"".toList) <|
    Act.seq (Act.writeR (writeEscapeUnescape cx.cfg.isXml true (first.asStr cx.src))) <|
    Act.seq (writeMoreClasses cx rest) <|
    Act.write ['"']
  | [] => Act.skip

theorem writeOpenTag_eq (cx : OutCx) (tag : Str) (sel : Selector) (selfClose : Bool) :
    writeOpenTag cx tag sel selfClose =
      Act.seq (Act.write ('<' :: tag)) (Act.seq (idAct cx sel.id) (Act.seq (classAct cx sel.classNames)
        (Act.seq (writeAttributes cx sel.attributes) (Act.seq (if selfClose then Act.write ['/'] else Act.skip)
          (Act.seq (Act.write ['>']) (Act.setFs false)))))) := by
  unfold writeOpenTag
  cases sel.id <;> cases sel.classNames <;> rfl

theorem idAct_iff {cx : OutCx} {n : Str} {as : List (Str × Option Str)} {st : ReadState} (hm : Mid cx.cfg.isXml n as st)
    (id : Option TextSlice) {fs : Bool} (h : (idAct cx id fs).ok = true) :
    ∃ xs st', List.Forall₂ (fun (i : TextSlice) x => Unescapes Accepted (i.asStr cx.src) x) id.toList xs ∧
      Mid cx.cfg.isXml n (as ++ xs.map fun x => ("id".toList, some x)) st' ∧
      (idAct cx id fs).fs = fs ∧ readRun cx.cfg.isXml st (idAct cx id fs).out = some (st', []) := by
  cases id with
  | none => exact ⟨[], st, .nil, by simpa using hm, rfl, rfl⟩
  | some i =>
    simp only [idAct] at h ⊢
    rw [seq_ok, seq_ok] at h
    obtain ⟨h4, h5, h6⟩ := h
    obtain ⟨u, hu, e⟩ := writeValue_iff h5
    have ho : (Act.seq (Act.write " id=\"".toList) (Act.seq (Act.writeR (writeEscapeUnescape cx.cfg.isXml true (i.asStr cx.src)))
        (Act.write ['"']))) fs = ⟨(' ' :: "id".toList) ++ ("=\"".toList ++ escWriteStr cx.cfg.isXml true u ++ ['"']), fs, true⟩ := by
      rw [seq_out (by rfl), seq_out h5]
      simp only [Act.write] at e ⊢
      rw [e]
      simp
    rw [ho]
    exact ⟨[u], _, .cons hu .nil, .value, rfl,
      hm.attrValue safe_id (by simpa using readRun_escValue cx.cfg.isXml n as "id".toList [] u)⟩

theorem classAct_iff {cx : OutCx} {n : Str} {as : List (Str × Option Str)} {st : ReadState} (hm : Mid cx.cfg.isXml n as st)
    (cls : List TextSlice) {fs : Bool} (h : (classAct cx cls fs).ok = true) :
    ∃ xs st', List.Forall₂ (fun (i : TextSlice) x => Unescapes Accepted (i.asStr cx.src) x) cls xs ∧
      Mid cx.cfg.isXml n (as ++ if xs.isEmpty then [] else [("class".toList, some (List.intercalate [' '] xs))]) st' ∧
      (classAct cx cls fs).fs = fs ∧ readRun cx.cfg.isXml st (classAct cx cls fs).out = some (st', []) := by
  cases cls with
  | nil => exact ⟨[], st, .nil, by simpa using hm, rfl, rfl⟩
  | cons i rest =>
    simp only [classAct] at h ⊢
    rw [seq_ok, seq_ok, seq_ok] at h
    obtain ⟨h4, h5, h6, h7⟩ := h
    obtain ⟨u, hu, e⟩ := writeValue_iff h5
    simp only [Act.write] at e
    simp only [Act.write] at h6
    rw [e] at h6
    obtain ⟨xs, hxs, e1, e2⟩ := writeMoreClasses_iff (n := n) (as := as) (a := "class".toList) rest _ h6
    have ho : (Act.seq (Act.write " class=\"".toList) (Act.seq (Act.writeR (writeEscapeUnescape cx.cfg.isXml true (i.asStr cx.src)))
        (Act.seq (writeMoreClasses cx rest) (Act.write ['"'])))) fs =
        ⟨(' ' :: "class".toList) ++ ("=\"".toList ++ (escWriteStr cx.cfg.isXml true u ++ (writeMoreClasses cx rest fs).out) ++ ['"']),
          fs, true⟩ := by
      rw [seq_out (by rfl), seq_out h5]
      simp only [Act.write]
      rw [e]
      simp only
      rw [seq_out h6]
      simp only at e1
      simp [e1, Act.write]
    rw [ho]
    refine ⟨u :: xs, _, .cons hu hxs, .value, rfl, hm.attrValue safe_class ?_⟩
    have := readRun_trans (readRun_escValue cx.cfg.isXml n as "class".toList [] u) (e2 _)
    rw [intercalate_flatten]
    simpa using this

theorem writeOpenTag_iff {cx : OutCx} {tag : Str} {sel : Selector} {selfClose : Bool} {fs : Bool}
    (hsc : selfClose = true → cx.cfg.isXml = true) (hn : SafeName tag)
    (ha : ∀ a ∈ attributesOf sel.items,
        ∀ x, Unescapes Accepted (a.name.asStr cx.src) x → SafeAttrName x)
    (h : (writeOpenTag cx tag sel selfClose fs).ok = true) :
    ∃ attrs, AttrsRead cx.cfg.isXml cx.src sel.items attrs ∧ (writeOpenTag cx tag sel selfClose fs).fs = false ∧
      readRun cx.cfg.isXml .data (writeOpenTag cx tag sel selfClose fs).out =
        some (.data, [.start tag attrs selfClose]) := by
  rw [writeOpenTag_eq] at h ⊢
  rw [seq_ok, seq_ok, seq_ok, seq_ok, seq_ok] at h
  obtain ⟨h0, h1, h2, h3, h4, h5⟩ := h
  obtain ⟨ids, st1, f1, m1, e1, r1⟩ := idAct_iff (.name (n := tag)) _ h1
  obtain ⟨cls, st2, f2, m2, e2, r2⟩ := classAct_iff m1 _ h2
  unfold Selector.attributes at h3
  obtain ⟨as, st3, f3, m3, e3, r3⟩ := writeAttributes_iff _ _ _ _ m2 ha h3
  rw [← idItems] at f1
  refine ⟨_, .mk f1 f2 f3, ?_, ?_⟩
  · rw [seq_out h0, seq_out h1, seq_out h2, seq_out (by exact h3), seq_out (by exact h4), seq_out (by rfl)]; rfl
  · rw [seq_out h0, seq_out h1, seq_out h2, seq_out (by exact h3), seq_out (by exact h4), seq_out (by rfl)]
    refine readRun_trans (t1 := []) (readRun_open _ tag hn) (readRun_trans (t1 := []) r1 (readRun_trans (t1 := []) r2
      (readRun_trans (t1 := []) r3 ?_)))
    simp only [List.nil_append] at m3
    cases selfClose with
    | false =>
      show readRun cx.cfg.isXml st3 ['>'] = _
      exact readRun_one (by simpa using m3.close)
    | true =>
      have hx := hsc rfl
      rw [hx] at m3 ⊢
      show readRun true st3 ['/', '>'] = _
      exact readRun_cons (t1 := []) m3.slash (readRun_one (by simp [readStep]))

theorem writeCloseTag_iff {xml : Bool} {tag : Str} (hn : SafeName tag) (fs : Bool) :
    (writeCloseTag tag fs).ok = true ∧ (writeCloseTag tag fs).fs = false ∧
      readRun xml .data (writeCloseTag tag fs).out = some (.data, [.stop tag]) := by
  refine ⟨rfl, rfl, ?_⟩
  have := readRun_close xml tag hn
  simpa [writeCloseTag, Act.seq, Act.write, Act.setFs] using this

/-! ## White space -/

theorem blank_line {i : Str} (h : Blank i) (k : Nat) : Blank ('\n' :: (List.replicate k i).flatten) := by
  intro c hc
  rcases List.mem_cons.1 hc with rfl | hc
  · decide
  · obtain ⟨l, hl, hc⟩ := List.mem_flatten.1 hc
    rw [List.mem_replicate] at hl
    exact h c (hl.2 ▸ hc)

theorem line_gap {cx : OutCx} (hi : ∀ i, cx.cfg.indent = some i → Blank i) (fs : Bool) :
    (line cx fs).ok = true ∧ ∃ toks, readRun cx.cfg.isXml .data (line cx fs).out = some (.data, toks) ∧
      Gap cx.cfg.indent cx.fmtInline fs (line cx fs).fs toks := by
  unfold line
  by_cases hc : (fs || cx.fmtInline) = true
  · rw [if_pos hc]
    exact ⟨rfl, [], rfl, .none⟩
  · rw [if_neg hc]
    simp only [Bool.or_eq_true, not_or, Bool.not_eq_true] at hc
    unfold lineRaw
    cases hn : cx.cfg.indent with
    | none => exact ⟨rfl, [], rfl, .none⟩
    | some i =>
      have hb := blank_line (hi i hn) cx.indentLevel
      refine ⟨rfl, _, ?_, .line (.line cx.indentLevel rfl hc.2) (by simp)⟩
      have := readRun_blank cx.cfg.isXml _ hb
      simpa [Act.seq, Act.write, Act.setFs] using this

theorem space_read {cx : OutCx} (hi : ∀ i, cx.cfg.indent = some i → Blank i) {s : Space}
    (hs : ∀ t, s = .inline (some t) → Blank (t.asStr cx.src)) (fs : Bool) :
    (writeTextLike cx (.space s) fs).ok = true ∧ (writeTextLike cx (.space s) fs).fs = true ∧
    ∃ toks, readRun cx.cfg.isXml .data (writeTextLike cx (.space s) fs).out = some (.data, toks) ∧
      ((fs = true ∧ toks = []) ∨ (fs = false ∧ Separator cx.cfg.indent cx.src cx.fmtInline s toks)) := by
  simp only [writeTextLike]
  cases fs with
  | true => exact ⟨rfl, rfl, [], rfl, .inl ⟨rfl, rfl⟩⟩
  | false =>
    have broken : (!cx.fmtInline && cx.cfg.indent.isSome) = true →
        ∃ toks, readRun cx.cfg.isXml .data (lineRaw cx false).out = some (.data, toks) ∧ (lineRaw cx false).ok = true ∧
          Break cx.cfg.indent cx.fmtInline toks ∧ toks ≠ [] := by
      intro hb
      simp only [Bool.and_eq_true, Bool.not_eq_true', Option.isSome_iff_exists] at hb
      obtain ⟨h1, i, h2⟩ := hb
      have hb := blank_line (hi i h2) cx.indentLevel
      refine ⟨_, ?_, ?_, .line cx.indentLevel h2 h1, by simp⟩
      · have := readRun_blank cx.cfg.isXml _ hb
        simpa [lineRaw, h2, Act.seq, Act.write, Act.setFs] using this
      · simp [lineRaw, h2, Act.seq, Act.write, Act.setFs]
    have hnb : (!cx.fmtInline && cx.cfg.indent.isSome) = false → cx.cfg.indent = none ∨ cx.fmtInline = true := by
      intro hb
      cases hf : cx.fmtInline with
      | true => exact .inr rfl
      | false => simp [hf] at hb; exact .inl hb
    cases s with
    | inline o =>
      cases o with
      | none => exact ⟨rfl, rfl, [.char ' '], by cases cx.cfg.isXml <;> rfl, .inr ⟨rfl, .blank⟩⟩
      | some t =>
        refine ⟨rfl, rfl, _, ?_, .inr ⟨rfl, .written⟩⟩
        have := readRun_blank cx.cfg.isXml _ (hs t rfl)
        simpa [space, Act.seq, Act.write, Act.setFs] using this
    | lineEnd =>
      cases hb : (!cx.fmtInline && cx.cfg.indent.isSome) with
      | true =>
        obtain ⟨toks, h1, h2, h3, h4⟩ := broken hb
        have e : space cx .lineEnd false = Act.seq (lineRaw cx) (Act.setFs true) false := by
          simp only [space, hb]; rfl
        have e' : Act.seq (space cx .lineEnd) (Act.setFs true) false = ⟨(lineRaw cx false).out, true, true⟩ := by
          rw [seq_out (by rw [e, seq_ok]; exact ⟨h2, rfl⟩), e, seq_out h2]; simp [Act.setFs]
        rw [e']
        exact ⟨rfl, rfl, toks, h1, .inr ⟨rfl, .brokenLine h3 h4⟩⟩
      | false =>
        have e' : Act.seq (space cx .lineEnd) (Act.setFs true) false = ⟨[' '], true, true⟩ := by
          simp [space, hb, Act.seq, Act.write, Act.setFs]
        rw [e']
        exact ⟨rfl, rfl, [.char ' '], by cases cx.cfg.isXml <;> rfl, .inr ⟨rfl, .lineEnd (hnb hb)⟩⟩
    | paragraphEnd =>
      cases hb : (!cx.fmtInline && cx.cfg.indent.isSome) with
      | true =>
        obtain ⟨toks, h1, h2, h3, h4⟩ := broken hb
        have e : space cx .paragraphEnd false = Act.seq (lineRaw cx) (Act.setFs true) false := by
          simp only [space, hb]; rfl
        have e' : Act.seq (space cx .paragraphEnd) (Act.setFs true) false = ⟨(lineRaw cx false).out, true, true⟩ := by
          rw [seq_out (by rw [e, seq_ok]; exact ⟨h2, rfl⟩), e, seq_out h2]; simp [Act.setFs]
        rw [e']
        exact ⟨rfl, rfl, toks, h1, .inr ⟨rfl, .brokenParagraph h3 h4⟩⟩
      | false =>
        have e' : Act.seq (space cx .paragraphEnd) (Act.setFs true) false = ⟨[' '], true, true⟩ := by
          simp [space, hb, Act.seq, Act.write, Act.setFs]
        rw [e']
        exact ⟨rfl, rfl, [.char ' '], by cases cx.cfg.isXml <;> rfl, .inr ⟨rfl, .paragraphEnd (hnb hb)⟩⟩

theorem asciiLower_eq (s : Str) : asciiLower s = s.map Char.toLower := by
  have hf : asciiLowerChar = Char.toLower := funext asciiLowerChar_eq
  unfold asciiLower
  split
  · rename_i h
    rw [List.all_eq_true] at h
    conv => lhs; rw [← List.map_id s]
    apply List.map_congr_left
    intro c hc
    have := h c hc
    simp only [decide_eq_true_eq] at this
    rw [← hf, asciiLowerChar, if_neg]
    · rfl
    · rintro ⟨h1, h2⟩
      exact absurd (Char.le_trans this.1 h2) (by decide)
  · rw [hf]

theorem getInfo_void (cfg : OutputConfig) (tag : Str) : (getInfo cfg tag).isVoid = voidName cfg.isXml tag := by
  simp only [getInfo, voidName, isVoidTag, asciiLower_eq]
  simp

/-! ## Documents -/

theorem readsAs_append {xml : Bool} {src : Str} {indent : Option Str} {inl ws w ws' : Bool} {a b : List Node}
    {t1 t2 : List Token} (h1 : ReadsAs xml src indent inl ws a t1 w) (h2 : ReadsAs xml src indent inl w b t2 ws') :
    ReadsAs xml src indent inl ws (a ++ b) (t1 ++ t2) ws' := by
  induction h1 with
  | nil => exact h2
  | dropped _ ih => exact .dropped (ih h2)
  | space hs _ ih => rw [List.append_assoc]; exact .space hs (ih h2)
  | text hs he _ ih => rw [List.append_assoc]; exact .text hs he (ih h2)
  | comment hs _ ih => exact .comment hs (ih h2)
  | unnamed hs hb _ _ ih => rw [List.append_assoc]; exact .unnamed hs hb (ih h2)
  | empty h1 h2' h3 h4 _ ih => exact .empty h1 h2' h3 h4 (ih h2)
  | void h1 h2' h3 h4 h5 h6 h7 _ _ ih =>
    simpa using ReadsAs.void h1 h2' h3 h4 h5 h6 h7 (ih h2)
  | named h1 h2' h3 h4 h5 h6 h7 h8 _ _ ih => simpa using ReadsAs.named h1 h2' h3 h4 h5 h6 h7 h8 (ih h2)

theorem isSpaceNode_eq : inner.isSpaceNode = Node.isSpace := by
  funext n
  cases n with
  | text r t => cases t <;> rfl
  | elem => rfl

theorem nodeActs_eq (ch : List Node) (cx : OutCx) :
    nodeActs ch cx = ch.map fun n => (n.isSpace, processNode n cx) := by
  induction ch with
  | nil => simp [nodeActs]
  | cons n ch ih => simp [nodeActs, ih]

theorem contentActs_eq (ch : List Node) (cx : OutCx) :
    contentActs (nodeActs ch cx) = Act.all ((inner ch).map fun n => processNode n cx) := by
  rw [contentActs, nodeActs_eq, inner, isSpaceNode_eq]
  congr 1
  have e : ((fun x : Bool × Act => x.1) ∘ fun n => (n.isSpace, processNode n cx)) = Node.isSpace := rfl
  rw [List.dropWhile_map, e, ← List.map_reverse, List.dropWhile_map, e, ← List.map_reverse, List.map_map]
  rfl

theorem inner_mem {n : Node} {ch : List Node} (h : n ∈ inner ch) : n ∈ ch := by
  rw [inner, List.mem_reverse] at h
  have h := (List.dropWhile_sublist _).subset h
  rw [List.mem_reverse] at h
  exact (List.dropWhile_sublist _).subset h

/-- What is to be shown for a node. -/
def NodeReads (n : Node) : Prop :=
  ∀ (cx : OutCx), (∀ i, cx.cfg.indent = some i → Blank i) → Readable cx.cfg.isXml cx.src cx.isRaw n →
    ∀ fs, (processNode n cx fs).ok = true →
    ∃ toks, readRun cx.cfg.isXml .data (processNode n cx fs).out = some (.data, toks) ∧
      ReadsAs cx.cfg.isXml cx.src cx.cfg.indent cx.fmtInline fs [n] toks (processNode n cx fs).fs

theorem all_reads (cx : OutCx) (hi : ∀ i, cx.cfg.indent = some i → Blank i) : ∀ (l : List Node),
    (∀ n ∈ l, NodeReads n) → (∀ n ∈ l, Readable cx.cfg.isXml cx.src cx.isRaw n) → ∀ fs,
    (Act.all (l.map fun n => processNode n cx) fs).ok = true →
    ∃ toks, readRun cx.cfg.isXml .data (Act.all (l.map fun n => processNode n cx) fs).out = some (.data, toks) ∧
      ReadsAs cx.cfg.isXml cx.src cx.cfg.indent cx.fmtInline fs l toks
        (Act.all (l.map fun n => processNode n cx) fs).fs
  | [], _, _, fs, _ => ⟨[], rfl, .nil⟩
  | n :: l, h1, h2, fs, hok => by
    rw [List.map_cons, Act.all] at hok ⊢
    rw [seq_ok] at hok
    obtain ⟨t1, r1, a1⟩ := h1 n (List.mem_cons_self ..) cx hi (h2 n (List.mem_cons_self ..)) fs hok.1
    obtain ⟨t2, r2, a2⟩ := all_reads cx hi l (fun m hm => h1 m (List.mem_cons_of_mem _ hm))
      (fun m hm => h2 m (List.mem_cons_of_mem _ hm)) _ hok.2
    rw [seq_out hok.1]
    exact ⟨t1 ++ t2, readRun_trans r1 r2, readsAs_append (a := [n]) a1 a2⟩

theorem elem_reads {r : Range} {h : EHead} {ch : List Node} (hch : ∀ n ∈ ch, NodeReads n) : NodeReads (.elem r h ch) := by
  intro cx hi hR fs hok
  cases hR with
  | elem hlen hname hattr hchR =>
  have hcontent : ∀ cx' : OutCx, cx'.cfg = cx.cfg → cx'.src = cx.src → cx'.isRaw = (cx.isRaw || h.isRaw) →
      cx'.fmtInline = h.fmtInline → ∀ fs, (contentActs (nodeActs ch cx') fs).ok = true →
      ∃ toks, readRun cx.cfg.isXml .data (contentActs (nodeActs ch cx') fs).out = some (.data, toks) ∧
        ReadsAs cx.cfg.isXml cx.src cx.cfg.indent h.fmtInline fs (inner ch) toks
          (contentActs (nodeActs ch cx') fs).fs := by
    intro cx' e1 e2 e3 e4 fs hok
    rw [contentActs_eq] at hok ⊢
    have := all_reads cx' (by rw [e1]; exact hi) (inner ch) (fun n hn => hch n (inner_mem hn))
      (fun n hn => by rw [e1, e2, e3]; exact hchR n (inner_mem hn)) fs hok
    rwa [e1, e2, e4] at this
  simp only [processNode] at hok ⊢
  have hvt : (validTags h = [] ∧ ∀ s ∈ h.selectors, s.tag.name = none) ∨
      ∃ s n, h.selectors = [s] ∧ s.tag.name = some n ∧ validTags h = [(n, s)] := by
    unfold validTags
    rcases hs : h.selectors with _ | ⟨s, _ | ⟨s2, ss⟩⟩
    · exact .inl ⟨rfl, by simp⟩
    · cases hn : s.tag.name with
      | none => exact .inl ⟨by simp [hn], by simpa using hn⟩
      | some n => exact .inr ⟨s, n, rfl, hn, by simp [hn]⟩
    · rw [hs] at hlen; simp at hlen
  rcases hvt with ⟨hvt, hnone⟩ | ⟨s, n, hs, hn, hvt⟩
  · have e : ∀ c, elementAct cx h ch.isEmpty c = c (cx.inContent h) := by
      intro c; simp [elementAct, hvt]
    rw [e] at hok ⊢
    obtain ⟨toks, r1, a1⟩ := hcontent (cx.inContent h) rfl rfl rfl rfl fs hok
    refine ⟨toks, r1, ?_⟩
    have := ReadsAs.unnamed (inl := cx.fmtInline) (r := r) (ns := []) (rest := []) hnone a1 .nil
    simpa using this
  · have hsafe := hname s (by simp [hs]) n hn
    have hsa := hattr s (by simp [hs])
    cases hx : (ch.isEmpty && cx.cfg.isXml) with
    | true =>
      simp only [Bool.and_eq_true, List.isEmpty_iff] at hx
      obtain ⟨hch0, hxml⟩ := hx
      subst hch0
      have e : ∀ c, elementAct cx h ([] : List Node).isEmpty c =
          Act.seq (Act.seq (writeOpenTag cx (n.asStr cx.src) s true) Act.skip) (Act.seq Act.skip Act.skip) := by
        intro c
        simp [elementAct, hvt, hxml, writeOpenTags, writeCloseTags]
      rw [e] at hok ⊢
      rw [seq_ok, seq_ok] at hok
      obtain ⟨attrs, ha, hfs, hrun⟩ := writeOpenTag_iff (fun _ => hxml) hsafe hsa hok.1.1
      refine ⟨[.start (n.asStr cx.src) attrs true], ?_, ?_⟩
      · simp [Act.seq, hok.1.1, Act.skip]
        exact hrun
      · have := ReadsAs.empty (r := r) (indent := cx.cfg.indent) (inl := cx.fmtInline) (ws := fs) (h := h) hxml hs hn ha
          (.nil (ws := false))
        rw [seq_out (by rw [seq_ok]; exact hok.1), seq_out hok.1.1]
        simp only [Act.seq, Act.skip]
        simp only [if_true]
        rw [hfs]
        exact this
    | false =>
      let icx := cx.inContent h
      let bcx := icx.indent (if (getInfo cx.cfg (n.asStr cx.src)).isRoot then 0 else 1)
      have e : ∀ c, elementAct cx h ch.isEmpty c =
          Act.seq (Act.seq (writeOpenTag cx (n.asStr cx.src) s false) Act.skip)
            (Act.seq (if !ch.isEmpty then Act.seq (Act.seq (line bcx) (c bcx)) (line icx) else Act.skip)
              (Act.seq (if !(getInfo cx.cfg (n.asStr cx.src)).isVoid then writeCloseTag (n.asStr cx.src) else Act.skip)
                Act.skip)) := by
        intro c
        simp [elementAct, hvt, hx, writeOpenTags, writeCloseTags, bcx, icx, OutCx.inContent]
      have hb : bcx.cfg = cx.cfg ∧ bcx.src = cx.src ∧ bcx.isRaw = (cx.isRaw || h.isRaw) ∧ bcx.fmtInline = h.fmtInline := by
        simp only [bcx, icx, OutCx.indent, OutCx.inContent]
        split <;> exact ⟨rfl, rfl, rfl, rfl⟩
      rw [e] at hok ⊢
      rw [seq_ok, seq_ok, seq_ok] at hok
      obtain ⟨⟨h1, -⟩, h2, h3⟩ := hok
      obtain ⟨attrs, ha, hfs, hrun⟩ := writeOpenTag_iff (fun h => absurd h (by simp)) hsafe hsa h1
      -- the content with the white space around it
      have hmid : ∃ a body b w1 w2 w3 o, (if !ch.isEmpty then
            Act.seq (Act.seq (line bcx) (contentActs (nodeActs ch bcx))) (line icx) else Act.skip) false = ⟨o, w3, true⟩ ∧
          readRun cx.cfg.isXml .data o = some (.data, a ++ body ++ b) ∧
          Gap cx.cfg.indent h.fmtInline false w1 a ∧
          ReadsAs cx.cfg.isXml cx.src cx.cfg.indent h.fmtInline w1 (inner ch) body w2 ∧
          Gap cx.cfg.indent h.fmtInline w2 w3 b := by
        have h2' : ((if !ch.isEmpty then
            Act.seq (Act.seq (line bcx) (contentActs (nodeActs ch bcx))) (line icx) else Act.skip) false).ok = true := by
          have : (Act.seq (writeOpenTag cx (n.asStr cx.src) s false) Act.skip fs).fs = false := by
            rw [seq_out h1]; exact hfs
          rw [this] at h2
          exact h2
        cases hce : ch.isEmpty with
        | true =>
          rw [List.isEmpty_iff] at hce
          subst hce
          exact ⟨[], [], [], false, false, false, [], rfl, rfl, .none, .nil, .none⟩
        | false =>
          simp only [hce, Bool.not_false, if_true] at h2' ⊢
          rw [seq_ok, seq_ok] at h2'
          obtain ⟨⟨k1, k2⟩, k3⟩ := h2'
          have hib : ∀ i, bcx.cfg.indent = some i → Blank i := by rw [hb.1]; exact hi
          obtain ⟨-, a, ra, ga⟩ := line_gap hib false
          obtain ⟨body, rb, gb⟩ := hcontent bcx hb.1 hb.2.1 hb.2.2.1 hb.2.2.2 _ k2
          obtain ⟨-, b, rc, gc⟩ := line_gap (cx := icx) hi
            (Act.seq (line bcx) (contentActs (nodeActs ch bcx)) false).fs
          rw [hb.1] at ra
          rw [hb.1, hb.2.2.2] at ga
          rw [seq_out (by rw [seq_ok]; exact ⟨k1, k2⟩)]
          rw [seq_out k1] at rc gc k3 ⊢
          refine ⟨a, body, b, _, _, _, ((line bcx false).out ++ (contentActs (nodeActs ch bcx) (line bcx false).fs).out) ++
            (line icx (contentActs (nodeActs ch bcx) (line bcx false).fs).fs).out, ?_, ?_, ga, gb, gc⟩
          · rw [k3]
          · exact readRun_trans (readRun_trans ra rb) rc
      obtain ⟨a, body, b, w1, w2, w3, o, em, rm, ga, gb, gc⟩ := hmid
      have hx' : ch = [] → cx.cfg.isXml = false := by
        intro hc; simpa [hc] using hx
      have hw : (writeOpenTag cx (n.asStr cx.src) s false fs).ok = true := h1
      have eo : Act.seq (writeOpenTag cx (n.asStr cx.src) s false) Act.skip fs =
          ⟨(writeOpenTag cx (n.asStr cx.src) s false fs).out, false, true⟩ := by
        rw [seq_out h1, hfs]; simp [Act.skip]
      cases hv : (getInfo cx.cfg (n.asStr cx.src)).isVoid with
      | true =>
        have e2 : (Act.seq (Act.seq (writeOpenTag cx (n.asStr cx.src) s false) Act.skip)
            (Act.seq (if !ch.isEmpty then Act.seq (Act.seq (line bcx) (contentActs (nodeActs ch bcx))) (line icx) else Act.skip)
              (Act.seq (if !true then writeCloseTag (n.asStr cx.src) else Act.skip)
                Act.skip))) fs = ⟨(writeOpenTag cx (n.asStr cx.src) s false fs).out ++ o, w3, true⟩ := by
          rw [seq_out (by rw [eo]), eo]
          simp only
          rw [seq_out (by rw [em]), em]
          simp [Act.seq, Act.skip]
        rw [e2]
        rw [getInfo_void] at hv
        refine ⟨_, readRun_trans hrun rm, ?_⟩
        have := ReadsAs.void (inl := cx.fmtInline) (ws := fs) (r := r) (ns := []) (rest := []) hs hn hv ha ga gb gc .nil
        simpa using this
      | false =>
        obtain ⟨-, kf, kr⟩ := writeCloseTag_iff (xml := cx.cfg.isXml) hsafe w3
        have e2 : (Act.seq (Act.seq (writeOpenTag cx (n.asStr cx.src) s false) Act.skip)
            (Act.seq (if !ch.isEmpty then Act.seq (Act.seq (line bcx) (contentActs (nodeActs ch bcx))) (line icx) else Act.skip)
              (Act.seq (if !false then writeCloseTag (n.asStr cx.src) else Act.skip)
                Act.skip))) fs =
            ⟨(writeOpenTag cx (n.asStr cx.src) s false fs).out ++ (o ++ (writeCloseTag (n.asStr cx.src) w3).out), false, true⟩ := by
          rw [seq_out (by rw [eo]), eo]
          simp only
          rw [seq_out (by rw [em]), em]
          simp [Act.seq, Act.skip, writeCloseTag, Act.write, Act.setFs]
        rw [e2]
        rw [getInfo_void] at hv
        refine ⟨_, readRun_trans hrun (readRun_trans rm kr), ?_⟩
        have := ReadsAs.named (inl := cx.fmtInline) (ws := fs) (r := r) (ns := []) (rest := []) hs hn hv hx' ha ga gb gc .nil
        simpa using this

theorem text_reads (r : Range) (t : TextLike) : NodeReads (.text r t) := by
  intro cx hi hR fs hok
  simp only [processNode] at hok ⊢
  cases hR with
  | space hs =>
    obtain ⟨-, e, toks, rt, hc⟩ := space_read hi (fun t ht => (hs t ht).1) fs
    refine ⟨toks, rt, ?_⟩
    rw [e]
    rcases hc with ⟨rfl, rfl⟩ | ⟨rfl, hsep⟩
    · exact .dropped .nil
    · simpa using ReadsAs.space hsep .nil
  | @text _ _ t h1 h2 =>
    simp only [writeTextLike] at hok ⊢
    obtain ⟨u, hu, he, ho⟩ := writeText_iff hok
    have hraw : rawMode cx t = false := by
      simp only [rawMode, h1, Bool.false_or]
      cases hx : cx.cfg.isXml with
      | true => rfl
      | false => simp [(h2 hx).1, (h2 hx).2]
    rw [hraw] at ho
    refine ⟨u.map .char, ?_, ?_⟩
    · rw [ho]; exact readRun_escText _ _
    · simpa using ReadsAs.text hu he .nil
  | @comment _ _ sl =>
    refine ⟨[.comment (writeCommentBody (sl.asStr cx.src))], ?_, ?_⟩
    · have := readRun_comment cx.cfg.isXml _ (writeCommentBody_spec (sl.asStr cx.src))
      simpa [writeTextLike, writeComment, Act.seq, Act.write, Act.setFs] using this
    · exact .comment (.mk (writeCommentBody_insert _) (writeCommentBody_spec _) writeCommentBody_id) .nil

mutual
  theorem node_reads : ∀ n : Node, NodeReads n
    | .text r t => text_reads r t
    | .elem _ _ ch => elem_reads (nodes_reads ch)
  theorem nodes_reads : ∀ ns : List Node, ∀ n ∈ ns, NodeReads n
    | [], n, h => by simp at h
    | m :: ms, n, h => by
      rcases List.mem_cons.1 h with e | h
      · exact e ▸ node_reads m
      · exact nodes_reads ms n h
end

end Mty
