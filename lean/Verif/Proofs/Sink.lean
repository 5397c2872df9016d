import Verif.Spec.Sink

/-! # Output to any writer is a list of calls (for C75) -/

set_option autoImplicit false

namespace Mty.Sink
open Spec

theorem feed_append {σ : Type} (o : Out σ) : ∀ (a b : List Call) (st : σ),
    feed o st (a ++ b) = if (feed o st a).2 then feed o (feed o st a).1 b else feed o st a
  | [], b, st => by simp [feed]
  | c :: a, b, st => by
    rw [List.cons_append, feed, feed]
    rcases h : c.run o st with ⟨st', _ | _⟩
    · simp
    · simp only
      exact feed_append o a b st'

theorem callsText_append (a b : List Call) : callsText (a ++ b) = callsText a ++ callsText b := by simp [callsText]

/-! ## Code that only writes -/

/-- Whatever the writer, `A` makes calls that pass `r.1`; afterwards it succeeds if `r.2`. -/
def LikeW (A : ∀ σ : Type, Out σ → W σ) (r : Str × Bool) : Prop :=
  ∃ cs : List Call, callsText cs = r.1 ∧ ∀ (σ : Type) (o : Out σ) (st : σ), A σ o st = ((feed o st cs).1, (feed o st cs).2 && r.2)

theorem likeW_str (s : Str) : LikeW (fun _ o => o.str s) (s, true) := by
  refine ⟨[.str s], by simp [callsText, Call.text], fun σ o st => ?_⟩
  simp only [feed, Call.run]
  rcases o.str s st with ⟨st', _ | _⟩ <;> rfl

theorem likeW_char (c : Char) : LikeW (fun _ o => o.char c) ([c], true) := by
  refine ⟨[.char c], by simp [callsText, Call.text], fun σ o st => ?_⟩
  simp only [feed, Call.run]
  rcases o.char c st with ⟨st', _ | _⟩ <;> rfl

theorem likeW_ok : LikeW (fun _ _ => W.ok) ([], true) := ⟨[], rfl, fun _ _ _ => rfl⟩

theorem likeW_fail : LikeW (fun _ _ => W.fail) ([], false) := ⟨[], rfl, fun _ _ _ => rfl⟩

theorem likeW_seq {A B : ∀ σ : Type, Out σ → W σ} {a : Str} {r : Str × Bool} (ha : LikeW A (a, true)) (hb : LikeW B r) :
    LikeW (fun σ o => W.seq (A σ o) (B σ o)) (a ++ r.1, r.2) := by
  obtain ⟨ca, ta, ha⟩ := ha
  obtain ⟨cb, tb, hb⟩ := hb
  refine ⟨ca ++ cb, by rw [callsText_append, ta, tb], fun σ o st => ?_⟩
  simp only [W.seq, ha, hb, feed_append, Bool.and_true]
  cases h : (feed o st ca).2
  · simp [h, Prod.ext_iff]
  · simp

theorem likeW_kind (e : EscapeKind) : LikeW (fun _ o => writeEscapeKind o e) (Mty.writeEscapeKind e, true) := by
  cases e with
  | number n =>
    have := likeW_seq (likeW_str "&#".toList) (likeW_seq (likeW_str (Nat.toDigits 10 n)) (likeW_str [';']))
    simpa [Mty.writeEscapeKind, writeEscapeKind, List.append_assoc] using this
  | special s => exact likeW_str s

theorem likeW_nonempty (s : Str) : LikeW (fun _ o => writeNonempty o s) (s, true) := by
  cases s with
  | nil => exact likeW_ok
  | cons c s => exact likeW_str (c :: s)

theorem likeW_escChar (xml quote : Bool) (c : Char) :
    LikeW (fun _ o => escWriteChar o xml quote c) (Mty.escWriteChar xml quote c, true) := by
  unfold escWriteChar Mty.escWriteChar
  cases getEscape xml quote c with
  | some e => exact likeW_kind e
  | none => exact likeW_char c

theorem likeW_escStr (xml quote : Bool) : ∀ (s p : Str),
    LikeW (fun _ o => escWriteStrLoop o xml quote p s) (Mty.escWriteStrLoop xml quote p s, true)
  | [], p => likeW_nonempty p
  | c :: s, p => by
    unfold escWriteStrLoop Mty.escWriteStrLoop
    cases getEscape xml quote c with
    | some e =>
      have := likeW_seq (likeW_nonempty p) (likeW_seq (likeW_kind e) (likeW_escStr xml quote s []))
      simpa [List.append_assoc] using this
    | none => exact likeW_escStr xml quote s (p ++ [c])

theorem likeW_parts {O : ∀ σ : Type, Out σ → Out σ} {ws : Str → Str} {wc : Char → Str}
    (hs : ∀ s, LikeW (fun σ o => (O σ o).str s) (ws s, true)) (hc : ∀ c, LikeW (fun σ o => (O σ o).char c) (wc c, true)) :
    ∀ l : List (Except Range Part), LikeW (fun σ o => writeParts (O σ o) l) (Mty.writeParts ws wc l)
  | [] => likeW_ok
  | .error _ :: _ => likeW_fail
  | .ok (.slice s) :: l => likeW_seq (hs s) (likeW_parts hs hc l)
  | .ok (.char c) :: l => likeW_seq (hc c) (likeW_parts hs hc l)

theorem likeW_escapeUnescape (xml quote : Bool) (s : Str) :
    LikeW (fun _ o => writeEscapeUnescape o xml quote s) (Mty.writeEscapeUnescape xml quote s) :=
  likeW_parts (O := fun _ o => escOut o xml quote) (fun s => likeW_escStr xml quote s []) (likeW_escChar xml quote) _

theorem likeW_unescape (s : Str) : LikeW (fun _ o => writeUnescape o s) (Mty.writeUnescape s) :=
  likeW_parts (O := fun _ o => o) likeW_str likeW_char _

theorem likeW_escape (xml quote : Bool) (s : Str) :
    LikeW (fun _ o => writeEscape o xml quote s) (Mty.writeEscape xml quote s) :=
  likeW_escStr xml quote s []

theorem likeW_comment : ∀ (f : Nat) (s : Str), LikeW (fun _ o => commentLoop o f s) (Mty.commentLoop f s, true)
  | 0, s => likeW_str s
  | f + 1, s => by
    unfold commentLoop Mty.commentLoop
    cases splitDashes s with
    | some x =>
      obtain ⟨chunk, rest⟩ := x
      have := likeW_seq (likeW_str chunk) (likeW_seq (likeW_char ' ') (likeW_comment f rest))
      simpa using this
    | none =>
      dsimp only
      split
      · exact likeW_seq (likeW_str s) (likeW_char ' ')
      · simpa using likeW_seq (likeW_str s) likeW_ok

theorem likeW_commentBody (s : Str) : LikeW (fun _ o => writeCommentBody o s) (Mty.writeCommentBody s, true) := by
  unfold writeCommentBody Mty.writeCommentBody
  split
  · exact likeW_seq (likeW_char ' ') (likeW_comment _ s)
  · exact likeW_seq likeW_ok (likeW_comment _ s)

theorem likeW_indent (i : Str) : ∀ n : Nat, LikeW (fun _ o => writeIndent o i n) ((List.replicate n i).flatten, true)
  | 0 => likeW_ok
  | n + 1 => by
    have := likeW_seq (likeW_str i) (likeW_indent i n)
    simpa [writeIndent, List.replicate_succ] using this

/-! ## Actions -/

/-- Whatever the writer, `A` makes the calls for the characters of `e`; if they succeed, the rest is as in `e`. -/
def LikeA (A : ∀ σ : Type, Out σ → Act σ) (e : Mty.Act) : Prop :=
  ∀ fs : Bool, ∃ cs : List Call, callsText cs = (e fs).out ∧ ∀ (σ : Type) (o : Out σ) (st : σ),
    (A σ o st fs).st = (feed o st cs).1 ∧ (A σ o st fs).ok = ((feed o st cs).2 && (e fs).ok) ∧
    ((feed o st cs).2 = true → (A σ o st fs).fs = (e fs).fs)

theorem likeA_skip : LikeA (fun _ _ => Act.skip) Mty.Act.skip := fun _ => ⟨[], rfl, fun _ _ _ => ⟨rfl, rfl, fun _ => rfl⟩⟩

theorem likeA_setFs (b : Bool) : LikeA (fun _ _ => Act.setFs b) (Mty.Act.setFs b) :=
  fun _ => ⟨[], rfl, fun _ _ _ => ⟨rfl, rfl, fun _ => rfl⟩⟩

theorem likeA_writeR {A : ∀ σ : Type, Out σ → W σ} {r : Str × Bool} (h : LikeW A r) :
    LikeA (fun σ o => Act.write (A σ o)) (Mty.Act.writeR r) := by
  obtain ⟨cs, ht, h⟩ := h
  exact fun fs => ⟨cs, ht, fun σ o st => by simp [Act.write, Mty.Act.writeR, h]⟩

theorem likeA_write {A : ∀ σ : Type, Out σ → W σ} {s : Str} (h : LikeW A (s, true)) :
    LikeA (fun σ o => Act.write (A σ o)) (Mty.Act.write s) := likeA_writeR h

theorem likeA_seq {A B : ∀ σ : Type, Out σ → Act σ} {e f : Mty.Act} (ha : LikeA A e) (hb : LikeA B f) :
    LikeA (fun σ o => Act.seq (A σ o) (B σ o)) (Mty.Act.seq e f) := by
  intro fs
  obtain ⟨ca, ta, ha⟩ := ha fs
  obtain ⟨cb, tb, hb⟩ := hb (e fs).fs
  cases hok : (e fs).ok with
  | false =>
    refine ⟨ca, by simp [Mty.Act.seq, hok, ta], fun σ o st => ?_⟩
    obtain ⟨h1, h2, h3⟩ := ha σ o st
    rw [hok, Bool.and_false] at h2
    simp [Act.seq, Mty.Act.seq, h1, h2, h3, hok]
    exact h3
  | true =>
    refine ⟨ca ++ cb, by simp [Mty.Act.seq, hok, callsText_append, ta, tb], fun σ o st => ?_⟩
    obtain ⟨h1, h2, h3⟩ := ha σ o st
    rw [hok, Bool.and_true] at h2
    rw [feed_append]
    cases hf : (feed o st ca).2 with
    | false =>
      rw [hf] at h2
      simp [Act.seq, h2, h1, hf]
    | true =>
      rw [hf] at h2
      have := hb σ o (feed o st ca).1
      simp only [Act.seq, h2, h1, h3 hf, if_true, Mty.Act.seq, hok]
      exact this

theorem likeA_line (cx : OutCx) : LikeA (fun _ o => line o cx) (Mty.line cx) := by
  have hr : LikeA (fun _ o => lineRaw o cx) (Mty.lineRaw cx) := by
    unfold lineRaw Mty.lineRaw
    cases cx.cfg.indent with
    | none => exact likeA_skip
    | some i => exact likeA_seq (likeA_write (likeW_seq (likeW_char '\n') (likeW_indent i _))) (likeA_setFs true)
  intro fs
  unfold line Mty.line
  dsimp only
  split
  · exact likeA_skip fs
  · exact hr fs

theorem likeA_lineRaw (cx : OutCx) : LikeA (fun _ o => lineRaw o cx) (Mty.lineRaw cx) := by
  unfold lineRaw Mty.lineRaw
  cases cx.cfg.indent with
  | none => exact likeA_skip
  | some i => exact likeA_seq (likeA_write (likeW_seq (likeW_char '\n') (likeW_indent i _))) (likeA_setFs true)

theorem likeA_space (cx : OutCx) (s : Space) : LikeA (fun _ o => space o cx s) (Mty.space cx s) := by
  intro fs
  cases fs with
  | true => exact likeA_skip true
  | false =>
    have key : ∀ b : Bool, LikeA (fun _ o => if b then Act.seq (lineRaw o cx) (Act.setFs true)
        else Act.seq (Act.write (o.str [' '])) (Act.setFs true))
        (if b then Mty.Act.seq (Mty.lineRaw cx) (Mty.Act.setFs true) else Mty.Act.seq (Mty.Act.write [' ']) (Mty.Act.setFs true)) := by
      intro b
      cases b with
      | true => exact likeA_seq (likeA_lineRaw cx) (likeA_setFs true)
      | false => exact likeA_seq (likeA_write (likeW_str _)) (likeA_setFs true)
    match s with
    | .inline (some t) => exact likeA_seq (likeA_write (likeW_str _)) (likeA_setFs true) false
    | .inline none => exact likeA_seq (likeA_write (likeW_str _)) (likeA_setFs true) false
    | .lineEnd => exact key _ false
    | .paragraphEnd => exact key _ false

theorem likeA_attributes (cx : OutCx) : ∀ l : List (TextSlice × Option TextSlice),
    LikeA (fun _ o => writeAttributes o cx l) (Mty.writeAttributes cx l)
  | [] => likeA_skip
  | (n, v) :: l => by
    unfold writeAttributes Mty.writeAttributes
    refine likeA_seq (likeA_write (likeW_char ' ')) (likeA_seq (likeA_writeR (likeW_unescape _)) (likeA_seq ?_ (likeA_attributes cx l)))
    cases v with
    | some v =>
      exact likeA_seq (likeA_write (likeW_str _)) (likeA_seq (likeA_writeR (likeW_escapeUnescape _ _ _)) (likeA_write (likeW_char _)))
    | none =>
      cases cx.cfg.isXml with
      | true => exact likeA_write (likeW_str _)
      | false => exact likeA_skip

theorem likeA_moreClasses (cx : OutCx) : ∀ l : List TextSlice,
    LikeA (fun _ o => writeMoreClasses o cx l) (Mty.writeMoreClasses cx l)
  | [] => likeA_skip
  | _ :: l => likeA_seq (likeA_write (likeW_char ' '))
      (likeA_seq (likeA_writeR (likeW_escapeUnescape _ _ _)) (likeA_moreClasses cx l))

theorem likeA_openTag (cx : OutCx) (tag : Str) (sel : Selector) (b : Bool) :
    LikeA (fun _ o => writeOpenTag o cx tag sel b) (Mty.writeOpenTag cx tag sel b) := by
  unfold writeOpenTag Mty.writeOpenTag
  refine likeA_seq (likeA_write (likeW_seq (likeW_str ['<']) (likeW_str tag))) (likeA_seq ?_ (likeA_seq ?_
    (likeA_seq (likeA_attributes cx _) (likeA_seq ?_ (likeA_seq (likeA_write (likeW_char '>')) (likeA_setFs false))))))
  · cases sel.id with
    | some i =>
      exact likeA_seq (likeA_write (likeW_str _)) (likeA_seq (likeA_writeR (likeW_escapeUnescape _ _ _)) (likeA_write (likeW_char _)))
    | none => exact likeA_skip
  · cases sel.classNames with
    | cons c l =>
      exact likeA_seq (likeA_write (likeW_str _)) (likeA_seq (likeA_writeR (likeW_escapeUnescape _ _ _))
        (likeA_seq (likeA_moreClasses cx l) (likeA_write (likeW_char _))))
    | nil => exact likeA_skip
  · cases b with
    | true => exact likeA_write (likeW_char _)
    | false => exact likeA_skip

theorem likeA_closeTag (tag : Str) : LikeA (fun _ o => writeCloseTag o tag) (Mty.writeCloseTag tag) := by
  have := likeA_seq (likeA_write (likeW_seq (likeW_str "</".toList) (likeW_seq (likeW_str tag) (likeW_str ['>'])))) (likeA_setFs false)
  unfold Mty.writeCloseTag
  rw [List.append_assoc]
  exact this

theorem likeA_openTags (cx : OutCx) (b : Bool) : ∀ l : List (TextSlice × Selector),
    LikeA (fun _ o => writeOpenTags o cx b l) (Mty.writeOpenTags cx b l)
  | [] => likeA_skip
  | (_, _) :: l => likeA_seq (likeA_openTag cx _ _ _) (likeA_openTags cx b l)

theorem likeA_closeTags (cx : OutCx) (b : Bool) : ∀ l : List (TextSlice × Selector),
    LikeA (fun _ o => writeCloseTags o cx b l) (Mty.writeCloseTags cx b l)
  | [] => likeA_skip
  | (t, _) :: l => by
    unfold writeCloseTags Mty.writeCloseTags
    refine likeA_seq ?_ (likeA_closeTags cx b l)
    split
    · exact likeA_closeTag _
    · exact likeA_skip

theorem likeA_lines {A : ∀ σ : Type, Out σ → Str → W σ} {w : Str → Str × Bool} (h : ∀ s, LikeW (fun σ o => A σ o s) (w s)) :
    ∀ l : List Str, LikeA (fun σ o => writeLines (A σ o) l) (Mty.writeLines w l)
  | [] => likeA_skip
  | _ :: l => likeA_seq (likeA_writeR (h _)) (likeA_lines h l)

theorem likeW_textWriter (cx : OutCx) (t : Text) (r : Bool) (s : Str) :
    LikeW (fun _ o => textWriter o cx t r s) (Mty.textWriter cx t r s) := by
  unfold textWriter Mty.textWriter
  cases t.unescapeIn <;> cases r
  · exact likeW_escape _ _ _
  · exact likeW_str _
  · exact likeW_escapeUnescape _ _ _
  · exact likeW_unescape _

theorem likeA_text (cx : OutCx) (t : Text) : LikeA (fun _ o => writeText o cx t) (Mty.writeText cx t) := by
  unfold writeText Mty.writeText
  split
  · exact likeA_skip
  · dsimp only
    split
    · exact likeA_seq (likeA_lines (A := fun _ o => textWriter o cx t _) (fun s => likeW_textWriter cx t _ s) _) (likeA_setFs _)
    · exact likeA_seq (likeA_writeR (likeW_textWriter cx t _ _)) (likeA_setFs _)

theorem likeA_comment (cx : OutCx) (s : TextSlice) : LikeA (fun _ o => writeComment o cx s) (Mty.writeComment cx s) := by
  have := likeA_seq (likeA_write (likeW_seq (likeW_str "<!--".toList) (likeW_seq (likeW_commentBody (s.asStr cx.src))
    (likeW_str "-->".toList)))) (likeA_setFs false)
  unfold Mty.writeComment
  rw [List.append_assoc]
  exact this

theorem likeA_textLike (cx : OutCx) : ∀ t : TextLike, LikeA (fun _ o => writeTextLike o cx t) (Mty.writeTextLike cx t)
  | .text t => likeA_text cx t
  | .comment s => likeA_comment cx s
  | .space s => likeA_seq (likeA_space cx s) (likeA_setFs true)

/-! ## Nodes -/

/-- An action for any writer, with the action on strings. -/
structure Fam where
  space : Bool
  act : ∀ σ : Type, Out σ → Act σ
  ref : Mty.Act
  like : LikeA act ref

/-- Lists of actions that correspond. -/
def LikeL (L : ∀ σ : Type, Out σ → List (Bool × Act σ)) (l : List (Bool × Mty.Act)) : Prop :=
  ∃ fs : List Fam, (∀ σ o, L σ o = fs.map fun f => (f.space, f.act σ o)) ∧ l = fs.map fun f => (f.space, f.ref)

theorem dropWhile_map_fst {α : Type _} {β : Type _} (g : α → Bool × β) : ∀ l : List α,
    (l.map g).dropWhile (·.1) = (l.dropWhile fun y => (g y).1).map g
  | [] => rfl
  | x :: l => by
    rw [List.map_cons, List.dropWhile_cons, List.dropWhile_cons]
    split
    · exact dropWhile_map_fst g l
    · rfl

theorem likeA_all : ∀ fs : List Fam, LikeA (fun σ o => Act.all (fs.map fun f => f.act σ o)) (Mty.Act.all (fs.map Fam.ref))
  | [] => likeA_skip
  | f :: fs => likeA_seq f.like (likeA_all fs)

theorem likeA_content {L : ∀ σ : Type, Out σ → List (Bool × Act σ)} {l : List (Bool × Mty.Act)} (h : LikeL L l) :
    LikeA (fun σ o => contentActs (L σ o)) (Mty.contentActs l) := by
  obtain ⟨fs, h1, rfl⟩ := h
  have := likeA_all ((fs.dropWhile Fam.space).reverse.dropWhile Fam.space).reverse
  have e1 : ∀ (σ : Type) (o : Out σ), contentActs (L σ o) =
      Act.all ((((fs.dropWhile Fam.space).reverse.dropWhile Fam.space).reverse).map fun f => f.act σ o) := by
    intro σ o
    unfold contentActs
    rw [h1, dropWhile_map_fst, ← List.map_reverse, dropWhile_map_fst, ← List.map_reverse, List.map_map]
    rfl
  have e2 : Mty.contentActs (fs.map fun f => (f.space, f.ref)) =
      Mty.Act.all ((((fs.dropWhile Fam.space).reverse.dropWhile Fam.space).reverse).map Fam.ref) := by
    unfold Mty.contentActs
    rw [dropWhile_map_fst, ← List.map_reverse, dropWhile_map_fst, ← List.map_reverse, List.map_map]
    rfl
  rw [e2]
  simp only [e1]
  exact this

theorem likeA_element (cx : OutCx) (h : EHead) (b : Bool) {A : ∀ σ : Type, Out σ → OutCx → Act σ} {c : OutCx → Mty.Act}
    (hc : ∀ cx, LikeA (fun σ o => A σ o cx) (c cx)) :
    LikeA (fun σ o => elementAct o cx h b (A σ o)) (Mty.elementAct cx h b c) := by
  unfold elementAct Mty.elementAct
  dsimp only
  split
  · exact hc _
  · refine likeA_seq (likeA_openTags cx _ _) (likeA_seq ?_ (likeA_closeTags _ _ _))
    split
    · exact likeA_seq (likeA_seq (likeA_line _) (hc _)) (likeA_line _)
    · exact likeA_skip

mutual
  theorem likeA_node : ∀ (n : Node) (cx : OutCx), LikeA (fun _ o => processNode o n cx) (Mty.processNode n cx)
    | .text _ t, cx => by
      simp only [processNode, Mty.processNode]
      exact likeA_textLike cx t
    | .elem _ h ch, cx => by
      simp only [processNode, Mty.processNode]
      exact likeA_element cx h _ (A := fun _ o cx' => contentActs (nodeActs o ch cx'))
        fun cx' => likeA_content (likeL_nodes ch cx')
  theorem likeL_nodes : ∀ (ns : List Node) (cx : OutCx), LikeL (fun _ o => nodeActs o ns cx) (Mty.nodeActs ns cx)
    | [], _ => ⟨[], fun _ _ => by simp only [nodeActs, List.map_nil], by simp only [Mty.nodeActs, List.map_nil]⟩
    | n :: ns, cx => by
      obtain ⟨fs, h1, h2⟩ := likeL_nodes ns cx
      refine ⟨⟨n.isSpace, fun _ o => processNode o n cx, Mty.processNode n cx, likeA_node n cx⟩ :: fs, fun σ o => ?_, ?_⟩
      · simp only [nodeActs, List.map_cons, ← h1]
      · simp only [Mty.nodeActs, List.map_cons, ← h2]
end

theorem like_output (src : Str) (doc : Document) (cfg : OutputConfig) :
    LikeW (fun _ o => outputHtmlTo o src doc cfg) (Mty.outputHtmlTo src doc cfg) := by
  have h : LikeA (fun σ o => Act.seq (if cfg.completePage.getD false then Act.write (o.str "<!DOCTYPE html>\n".toList) else Act.skip)
      (Act.seq (contentActs (nodeActs o doc.nodes { cfg, src, indentLevel := 0, fmtInline := false, isRaw := false }))
        (line o { cfg, src, indentLevel := 0, fmtInline := false, isRaw := false })))
      (Mty.Act.seq (if cfg.completePage.getD false then Mty.Act.write "<!DOCTYPE html>\n".toList else Mty.Act.skip)
      (Mty.Act.seq (processContent doc.nodes { cfg, src, indentLevel := 0, fmtInline := false, isRaw := false })
        (Mty.line { cfg, src, indentLevel := 0, fmtInline := false, isRaw := false }))) := by
    refine likeA_seq ?_ (likeA_seq (likeA_content (likeL_nodes _ _)) (likeA_line _))
    split
    · exact likeA_write (likeW_str _)
    · exact likeA_skip
  obtain ⟨cs, ht, hc⟩ := h true
  exact ⟨cs, ht, fun σ o st => Prod.ext (hc σ o st).1 (hc σ o st).2.1⟩

end Mty.Sink
