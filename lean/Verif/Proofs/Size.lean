import Verif.Model.Convert
import Verif.Proofs.OutEscape
import Verif.Proofs.Multiline

/-! # The size of the output (for C82): texts, and what is written for a document -/

set_option autoImplicit false

namespace Mty.Size

/-! ## Texts -/

theorem escapes {xml quote : Bool} {c : Char} {e : EscapeKind} (h : getEscape xml quote c = some e) : (writeEscapeKind e).length ≤ 9 := by
  unfold getEscape at h
  split at h
  · cases h; decide
  split at h
  · cases h; decide
  split at h
  · cases h; decide
  split at h
  · cases h; decide
  split at h
  · cases h; decide
  split at h
  · cases h; decide
  split at h
  · rename_i hn
    cases h
    have hl : c.toNat < 1000 := by omega
    have : (Nat.toDigits 10 c.toNat).length ≤ 3 := by
      generalize c.toNat = n at hl
      revert n
      decide +kernel
    simp only [writeEscapeKind, List.length_append, List.length_cons, List.length_nil]
    have : "&#".toList.length = 2 := by decide
    omega
  · cases h

theorem chr_le (xml quote : Bool) (c : Char) : (escWriteChar xml quote c).length ≤ 9 := by
  rw [escWriteChar]
  split
  · rename_i h; exact escapes h
  · simp

theorem flatMap_le {f : Char → Str} {k : Nat} (h : ∀ c, (f c).length ≤ k) (s : Str) : (s.flatMap f).length ≤ k * s.length := by
  induction s with
  | nil => simp
  | cons c s ih =>
    have := h c
    simp only [List.flatMap_cons, List.length_append, List.length_cons, Nat.mul_succ]
    omega

theorem str_le (xml quote : Bool) (s : Str) : (escWriteStr xml quote s).length ≤ 9 * s.length := by
  rw [escWriteStr_eq]
  exact flatMap_le (chr_le xml quote) s

theorem splitAtChar_len (p : Char) : ∀ s : Str, (Cursor.splitAtChar p s).1.length + ((Cursor.splitAtChar p s).2.getD []).length = s.length
  | [] => rfl
  | c :: s => by
    rw [Cursor.splitAtChar]
    split
    · simp
    · have := splitAtChar_len p s
      simp only [List.length_cons]
      omega

theorem advance_len (c : Cursor) (p : Char) : match c.advanceToChar p with
    | (.ok a, c') => a.length + c'.post.length = c.post.length
    | (.error a, c') => a.length + c'.post.length = c.post.length := by
  have := splitAtChar_len p c.post
  rw [Cursor.advanceToChar]
  rcases h : Cursor.splitAtChar p c.post with ⟨a, _ | b⟩ <;> rw [h] at this <;> simpa using this

theorem next_len (c : Cursor) : c.next.2.post.length ≤ c.post.length := by
  rw [Cursor.next]
  split
  · exact Nat.le_refl _
  · rename_i h; rw [h]; simp

theorem body_len (f : Char) (c : Cursor) : (escapeBody f c).2.post.length ≤ c.post.length := by
  rw [escapeBody]
  split
  · exact Nat.le_refl _
  split
  · exact Nat.le_refl _
  split
  · exact Nat.le_refl _
  split
  · simp only [Cursor.advanceBy]
    split
    · exact Nat.le_refl _
    · split <;> simp
  split
  · split
    · exact Nat.le_refl _
    · have h1 := next_len c
      have h2 := advance_len c.next.2 '}'
      dsimp only
      generalize Cursor.advanceToChar c.next.2 '}' = x at h2 ⊢
      rcases x with ⟨_ | a, c'⟩
      · simp only at h2 ⊢; omega
      · simp only at h2 ⊢
        split
        · have := next_len c'; dsimp only; omega
        · dsimp only; omega
  split <;> exact Nat.le_refl _

/-- What one step of `unescape_parts` takes from the rest. -/
theorem step_len {o : Nat} {c c' : Cursor} {p : Part} (h : unescapeStep o c = some (.ok p, c')) :
    match p with
    | .slice s => s.length + c'.post.length = c.post.length
    | .char _ => c'.post.length + 1 ≤ c.post.length := by
  rw [unescapeStep] at h
  have h1 := advance_len c '\\'
  rcases hc : c.advanceToChar '\\' with ⟨_ | a, c1⟩
  · rw [hc] at h h1
    rename_i a
    cases a with
    | nil => cases h
    | cons p ps => cases h; exact h1
  · rw [hc] at h h1
    cases a with
    | cons p ps => cases h; exact h1
    | nil =>
      simp only [List.length_nil, Nat.zero_add] at h1
      simp only at h
      have h2 := next_len c1
      rcases hn : c1.next.2.next with ⟨_ | f, c3⟩
      · rw [hn] at h; cases h
      · rw [hn] at h
        have h3 : c3.post.length + 1 = c1.next.2.post.length := by
          rw [Cursor.next] at hn
          split at hn
          · cases hn
          · rename_i e; cases hn; rw [e]; simp
        have h4 := body_len f c3
        simp only at h
        rcases hb : escapeBody f c3 with ⟨_ | x, c4⟩
        · rw [hb] at h; cases h
        · rw [hb] at h h4
          cases h
          simp only at h4 ⊢
          omega

theorem loop_le {ws : Str → Str} {wc : Char → Str} {k : Nat} (h1 : ∀ s, (ws s).length ≤ k * s.length) (h2 : ∀ c, (wc c).length ≤ k) (o : Nat) :
    ∀ (n : Nat) (c : Cursor), (writeParts ws wc (unescapeLoop o n c)).1.length ≤ k * c.post.length
  | 0, _ => by simp [unescapeLoop, writeParts]
  | n + 1, c => by
    rw [unescapeLoop]
    cases h : unescapeStep o c with
    | none => simp [writeParts]
    | some x =>
      obtain ⟨r, c'⟩ := x
      have ih := loop_le h1 h2 o n c'
      cases r with
      | error r => simp [writeParts]
      | ok p =>
        have h3 := step_len h
        cases p with
        | slice s =>
          have := h1 s
          simp only at h3 ⊢
          simp only [writeParts, List.length_append]
          rw [← h3, Nat.mul_add]
          omega
        | char x =>
          have := h2 x
          simp only at h3 ⊢
          simp only [writeParts, List.length_append]
          have := Nat.mul_le_mul_left k h3
          rw [Nat.mul_add, Nat.mul_one] at this
          omega

theorem escapeUnescape_le (xml quote : Bool) (s : Str) : (writeEscapeUnescape xml quote s).1.length ≤ 9 * s.length :=
  loop_le (str_le xml quote) (chr_le xml quote) 0 _ (Cursor.new s)

theorem unescape_le (s : Str) : (writeUnescape s).1.length ≤ 9 * s.length :=
  loop_le (fun s => by omega) (fun c => by simp) 0 _ (Cursor.new s)

theorem comment_le : ∀ (n : Nat) (s : Str), (commentLoop n s).length ≤ 2 * s.length
  | 0, s => by rw [commentLoop]; omega
  | n + 1, s => by
    rw [commentLoop]
    split
    · rename_i a b h
      obtain ⟨rfl, _, ⟨c, rfl⟩, _⟩ := splitDashes_some h
      have := comment_le n b
      simp only [List.length_append, List.length_cons, List.length_nil] at this ⊢
      omega
    · split
      · rename_i h
        cases s with
        | nil => cases h
        | cons x s => simp; omega
      · omega

theorem commentBody_le (s : Str) : (writeCommentBody s).length ≤ 2 * s.length + 1 := by
  rw [writeCommentBody]
  have := comment_le (s.length + 1) s
  split <;> simp <;> omega

theorem strip_le (p l : Str) : (stripPrefix p l).length ≤ l.length := by
  rw [stripPrefix]
  split
  · simp
  · exact Nat.le_refl _

theorem strips_le (p : Str) : ∀ ls : List Str, ((ls.map (stripPrefix p)).flatten).length ≤ ls.flatten.length
  | [] => Nat.le_refl _
  | l :: ls => by
    have := strip_le p l; have := strips_le p ls
    simp only [List.map_cons, List.flatten_cons, List.length_append]
    omega

theorem trim_le (s : Str) : (trimMultiline s).flatten.length ≤ s.length := by
  rw [trimMultiline]
  split
  · simp
  · rename_i a b h
    obtain ⟨rfl, -⟩ := splitOnce_some h
    split
    · simp
    · rename_i c d h'
      obtain ⟨rfl, -⟩ := rsplitOnce_some h'
      refine Nat.le_trans (strips_le _ _) ?_
      rw [splitInclusive_flatten]
      have : (stripCr c).length ≤ c.length := by
        rw [stripCr]
        split <;> simp
      simp
      omega

/-! ## Weights -/

variable (src : Str)

/-- The length of a text. -/
def len (t : TextSlice) : Nat := (t.asStr src).length

/-- A name, or room for one that is inferred. -/
def tagW : Tag → Nat
  | .explicit v => max 8 (len src v)
  | _ => 8

def attrW (a : Attribute) : Nat := 4 + 9 * len src a.name + 9 * ((a.value.map (len src)).getD 0)

def attrsW : List Attribute → Nat
  | [] => 0
  | a :: as => attrW src a + attrsW as

def itemW : SelectorItem → Nat
  | .id _ v => 6 + 9 * len src v
  | .cls _ v => 9 + 9 * len src v
  | .attributes _ as => attrsW src as

def itemsW : List SelectorItem → Nat
  | [] => 0
  | i :: is => itemW src i + itemsW is

/-- Two tags and two line breaks. -/
def selW (s : Selector) : Nat := 8 + 2 * tagW src s.tag + itemsW src s.items

def selsW : List Selector → Nat
  | [] => 0
  | s :: ss => selW src s + selsW ss

def headW (ss : List Selector) : Nat := max 24 (selsW src ss)

def textW : TextLike → Nat
  | .text t => 9 * len src t.slice
  | .comment s => 8 + 2 * len src s
  | .space (.inline (some s)) => 1 + len src s
  | .space _ => 1

mutual
  def nodeW : Node → Nat
    | .text _ t => textW src t
    | .elem _ h ch => headW src h.selectors + nodesW ch
  def nodesW : List Node → Nat
    | [] => 0
    | n :: ns => nodeW n + nodesW ns
end

mutual
  def depth : Node → Nat
    | .text _ _ => 0
    | .elem _ _ ch => 1 + depths ch
  def depths : List Node → Nat
    | [] => 0
    | n :: ns => max (depth n) (depths ns)
end

/-! ## What is written -/

variable {src}

/-- The action writes at most so much. -/
def Le (a : Act) (n : Nat) : Prop := ∀ fs, (a fs).out.length ≤ n

theorem Le.seq {a b : Act} {m n : Nat} (h1 : Le a m) (h2 : Le b n) : Le (Act.seq a b) (m + n) := by
  intro fs
  have h1 := h1 fs
  simp only [Act.seq]
  split
  · have h2 := h2 (a fs).fs
    simp only [List.length_append]
    omega
  · omega

theorem Le.mono {a : Act} {m n : Nat} (h : Le a m) (hn : m ≤ n) : Le a n := fun fs => Nat.le_trans (h fs) hn
theorem Le.skip {n : Nat} : Le Act.skip n := fun _ => Nat.zero_le _
theorem Le.setFs {b : Bool} {n : Nat} : Le (Act.setFs b) n := fun _ => Nat.zero_le _
theorem Le.write {s : Str} {n : Nat} (h : s.length ≤ n) : Le (Act.write s) n := fun _ => h
theorem Le.writeR {r : Str × Bool} {n : Nat} (h : r.1.length ≤ n) : Le (Act.writeR r) n := fun _ => h

variable {cx : OutCx} (hs : cx.src = src)

include hs in
theorem attributes_le : ∀ as : List Attribute, Le (writeAttributes cx (as.map fun a => (a.name, a.value))) (attrsW src as)
  | [] => .skip
  | ⟨_, name, value⟩ :: as => by
    rw [List.map_cons, attrsW, attrW]
    unfold writeAttributes
    dsimp only
    refine (Le.seq (.write (n := 1) (by simp)) (.seq (.writeR (unescape_le _)) (.seq (n := attrsW src as)
      (m := 3 + 9 * ((value.map (len src)).getD 0)) ?_ (attributes_le as)))).mono ?_
    · cases value with
      | none =>
        dsimp only
        split
        · exact .write (by simp)
        · exact .skip
      | some v =>
        refine (Le.seq (.write (n := 2) (by decide)) (.seq (.writeR (escapeUnescape_le _ _ _)) (.write (n := 1) (by simp)))).mono ?_
        simp only [Option.map_some, Option.getD_some, len, hs]
        omega
    · simp only [len, hs]
      omega

include hs in
theorem classes_le : ∀ cs : List TextSlice, Le (writeMoreClasses cx cs) ((cs.map fun c => 1 + 9 * len src c).sum)
  | [] => .skip
  | c :: cs => by
    rw [writeMoreClasses, List.map_cons, List.sum_cons]
    refine (Le.seq (.write (n := 1) (by simp)) (.seq (.writeR (escapeUnescape_le _ _ _)) (classes_le cs))).mono ?_
    simp only [len, hs]
    omega

def idW (l : Option TextSlice) : Nat := (l.map fun v => 6 + 9 * len src v).getD 0
def clsW (l : List TextSlice) : Nat := (l.map fun c => 9 + 9 * len src c).sum

theorem attrsW_append (a b : List Attribute) : attrsW src (a ++ b) = attrsW src a + attrsW src b := by
  induction a with
  | nil => simp [attrsW]
  | cons x a ih => simp only [List.cons_append, attrsW, ih]; omega

theorem items_le : ∀ is : List SelectorItem,
    idW (src := src) (is.findSome? fun | .id _ v => some v | _ => none) +
      clsW (src := src) (is.filterMap fun | .cls _ v => some v | _ => none) +
      attrsW src (is.flatMap fun | .attributes _ as => as | _ => []) ≤ itemsW src is
  | [] => Nat.le_refl _
  | .id _ v :: is => by
    have := items_le is
    simp only [List.findSome?_cons, List.filterMap_cons, List.flatMap_cons, itemsW, itemW, List.nil_append, idW, Option.map_some,
      Option.getD_some] at this ⊢
    omega
  | .cls _ v :: is => by
    have := items_le is
    simp only [List.findSome?_cons, List.filterMap_cons, List.flatMap_cons, itemsW, itemW, List.nil_append, clsW, List.map_cons,
      List.sum_cons] at this ⊢
    omega
  | .attributes _ as :: is => by
    have := items_le is
    simp only [List.findSome?_cons, List.filterMap_cons, List.flatMap_cons, itemsW, itemW, attrsW_append] at this ⊢
    omega

include hs in
theorem openTag_le (tag : Str) (s : Selector) (b : Bool) : Le (writeOpenTag cx tag s b) (3 + tag.length + itemsW src s.items) := by
  obtain ⟨n, ha, hi⟩ : ∃ n, Le (writeAttributes cx s.attributes) n ∧
      idW (src := src) s.id + clsW (src := src) s.classNames + n ≤ itemsW src s.items :=
    ⟨_, attributes_le hs _, items_le s.items⟩
  rw [writeOpenTag]
  refine (Le.seq (.write (n := 1 + tag.length) (by simp; omega)) (.seq (m := idW (src := src) s.id) ?_ (.seq (m := clsW (src := src) s.classNames) ?_
    (.seq ha (.seq (m := 1) ?_ (.seq (.write (n := 1) (by simp)) (.setFs (n := 0)))))))).mono ?_
  · split
    · rename_i v hv
      rw [hv]
      refine (Le.seq (.write (n := 5) (by decide)) (.seq (.writeR (escapeUnescape_le _ _ _)) (.write (n := 1) (by simp)))).mono ?_
      simp only [idW, Option.map_some, Option.getD_some, len, hs]
      omega
    · exact .skip
  · split
    · rename_i c cs hv
      rw [hv]
      refine (Le.seq (.write (n := 8) (by decide)) (.seq (.writeR (escapeUnescape_le _ _ _)) (.seq (classes_le hs cs) (.write (n := 1) (by simp))))).mono ?_
      have : ∀ l : List TextSlice, (l.map fun c => 1 + 9 * len src c).sum ≤ clsW (src := src) l := by
        intro l
        induction l with
        | nil => exact Nat.le_refl _
        | cons a l ih => simp only [clsW, List.map_cons, List.sum_cons] at ih ⊢; omega
      have := this cs
      simp only [clsW, List.map_cons, List.sum_cons, len, hs] at this ⊢
      omega
    · exact .skip
  · split
    · exact .write (by simp)
    · exact .skip
  · omega

theorem closeTag_le (tag : Str) : Le (writeCloseTag tag) (3 + tag.length) := by
  refine (Le.seq (.write (n := 3 + tag.length) ?_) (.setFs (n := 0))).mono (Nat.le_refl _)
  have : "</".toList.length = 2 := by decide
  simp only [List.length_append, List.length_cons, List.length_nil]
  omega

/-- The weights of tags. -/
def tagsW (l : List (TextSlice × Selector)) : Nat := (l.map fun x => len src x.1 + itemsW src x.2.items).sum
def namesW (l : List (TextSlice × Selector)) : Nat := (l.map fun x => len src x.1).sum

include hs in
theorem openTags_le (b : Bool) : ∀ l, Le (writeOpenTags cx b l) (3 * l.length + tagsW (src := src) l)
  | [] => .skip
  | (t, s) :: l => by
    unfold writeOpenTags
    refine (Le.seq (openTag_le hs _ _ _) (openTags_le b l)).mono ?_
    simp only [tagsW, List.map_cons, List.sum_cons, List.length_cons, len, hs]
    omega

include hs in
theorem closeTags_le (b : Bool) : ∀ l, Le (writeCloseTags cx b l) (3 * l.length + namesW (src := src) l)
  | [] => .skip
  | (t, s) :: l => by
    unfold writeCloseTags
    refine (Le.seq (m := 3 + len src t) ?_ (closeTags_le b l)).mono ?_
    · split
      · exact (closeTag_le _).mono (by simp only [len, hs]; omega)
      · exact .skip
    · simp only [namesW, List.map_cons, List.sum_cons, List.length_cons]
      omega

theorem names_perm {l l' : List (TextSlice × Selector)} (h : l.Perm l') : namesW (src := src) l = namesW (src := src) l' :=
  (h.map _).sum_nat

theorem names_drop (k : Nat) (l : List (TextSlice × Selector)) : namesW (src := src) (l.drop k) ≤ namesW (src := src) l := by
  induction l generalizing k with
  | nil => simp
  | cons a l ih =>
    cases k with
    | zero => exact Nat.le_refl _
    | succ k =>
      have := ih k
      simp only [List.drop_succ_cons, namesW, List.map_cons, List.sum_cons] at this ⊢
      omega

theorem valid_le : ∀ ss : List Selector,
    8 * (ss.filterMap fun s => s.tag.name.map fun n => (n, s)).length +
      tagsW (src := src) (ss.filterMap fun s => s.tag.name.map fun n => (n, s)) +
      namesW (src := src) (ss.filterMap fun s => s.tag.name.map fun n => (n, s)) ≤ selsW src ss
  | [] => Nat.le_refl _
  | ⟨r, t, is⟩ :: ss => by
    have := valid_le ss
    cases t with
    | explicit v =>
      simp only [List.filterMap_cons, Tag.name, Option.map_some, List.length_cons, tagsW, namesW, List.map_cons, List.sum_cons, selsW, selW,
        tagW] at this ⊢
      omega
    | implicit =>
      simp only [List.filterMap_cons, Tag.name, Option.map_none, selsW] at this ⊢
      omega
    | wildcard =>
      simp only [List.filterMap_cons, Tag.name, Option.map_none, selsW] at this ⊢
      omega

/-- The width of an indentation. -/
def width (cfg : OutputConfig) : Nat := (cfg.indent.map List.length).getD 0

theorem lineRaw_le {L : Nat} (h : cx.indentLevel ≤ L) : Le (lineRaw cx) (1 + L * width cx.cfg) := by
  rw [lineRaw]
  split
  · rename_i i hi
    refine (Le.seq (.write (n := 1 + L * width cx.cfg) ?_) (.setFs (n := 0))).mono (Nat.le_refl _)
    have : width cx.cfg = i.length := by rw [width, hi]; rfl
    have := Nat.mul_le_mul_right i.length h
    simp [*]
    omega
  · exact .skip

theorem line_le {L : Nat} (h : cx.indentLevel ≤ L) : Le (line cx) (1 + L * width cx.cfg) := by
  intro fs
  rw [line]
  split
  · exact Nat.zero_le _
  · exact lineRaw_le h fs

include hs in
theorem text_le {L : Nat} (h : cx.indentLevel ≤ L) (t : TextLike) : Le (writeTextLike cx t) (textW src t * (1 + L * width cx.cfg)) := by
  have hm : ∀ a, a ≤ a * (1 + L * width cx.cfg) := fun a => Nat.le_mul_of_pos_right a (by omega)
  cases t with
  | text t =>
    refine Le.mono (m := 9 * len src t.slice) ?_ (hm _)
    simp only [writeTextLike, writeText]
    have hw : ∀ b s, (textWriter cx t b s).1.length ≤ 9 * s.length := by
      intro b s
      unfold textWriter
      split
      · exact unescape_le s
      · exact escapeUnescape_le _ _ s
      · dsimp only; omega
      · exact str_le _ _ s
    split
    · exact .skip
    · split
      · refine (Le.seq (m := 9 * (trimMultiline (t.slice.asStr cx.src)).flatten.length) ?_ (.setFs (n := 0))).mono ?_
        · generalize trimMultiline (t.slice.asStr cx.src) = ls
          induction ls with
          | nil => exact .skip
          | cons l ls ih =>
            rw [writeLines]
            refine (Le.seq (.writeR (hw _ _)) ih).mono ?_
            simp only [List.flatten_cons, List.length_append]
            omega
        · have := trim_le (t.slice.asStr cx.src)
          simp only [len, ← hs]
          omega
      · refine (Le.seq (.writeR (hw _ _)) (.setFs (n := 0))).mono ?_
        simp only [len, ← hs]
        omega
  | comment s =>
    refine Le.mono (m := 8 + 2 * len src s) ?_ (hm _)
    simp only [writeTextLike, writeComment]
    refine (Le.seq (.write (n := 8 + 2 * len src s) ?_) (.setFs (n := 0))).mono (Nat.le_refl _)
    have := commentBody_le (s.asStr cx.src)
    have h1 : "<!--".toList.length = 4 := by decide
    have h2 : "-->".toList.length = 3 := by decide
    simp only [List.length_append, len, ← hs, h1, h2]
    omega
  | space s =>
    simp only [writeTextLike]
    refine (Le.seq (m := textW src (.space s) * (1 + L * width cx.cfg)) ?_ (.setFs (n := 0))).mono (Nat.le_refl _)
    intro fs
    have hb : (if !cx.fmtInline && cx.cfg.indent.isSome then Act.seq (lineRaw cx) (Act.setFs true)
        else Act.seq (Act.write [' ']) (Act.setFs true) : Act) |> fun a => Le a (1 * (1 + L * width cx.cfg)) := by
      dsimp only
      split
      · exact (Le.seq (lineRaw_le h) (.setFs (n := 0))).mono (by omega)
      · exact (Le.seq (.write (n := 1) (by simp)) (.setFs (n := 0))).mono (by omega)
    unfold space
    split
    · cases s with
      | lineEnd => exact hb fs
      | paragraphEnd => exact hb fs
      | inline s =>
        cases s with
        | none => exact (Le.seq (.write (n := 1) (by simp)) (.setFs (n := 0))).mono (hm _) fs
        | some s =>
          refine Le.mono (m := 1 + len src s) ?_ (hm _) fs
          exact (Le.seq (.write (n := len src s) (by simp only [len, hs]; omega)) (.setFs (n := 0))).mono (by omega)
    · exact Nat.zero_le _

/-- The sum of bounds of actions. -/
inductive Sum : List (Bool × Act) → Nat → Prop
  | nil {n} : Sum [] n
  | cons {b a l m n} : Le a m → Sum l n → Sum ((b, a) :: l) (m + n)

theorem Sum.mono {l : List (Bool × Act)} {m n : Nat} (h : Sum l m) (hn : m ≤ n) : Sum l n := by
  induction h generalizing n with
  | nil => exact .nil
  | @cons b a l m k h1 _ ih =>
    have := ih (n := n - m) (by omega)
    have e : n = m + (n - m) := by omega
    rw [e]
    exact .cons h1 this

theorem Sum.right {a b : List (Bool × Act)} {n : Nat} (h : Sum (a ++ b) n) : Sum b n := by
  induction a generalizing n with
  | nil => exact h
  | cons x a ih =>
    cases h with
    | cons _ h => exact (ih h).mono (by omega)

theorem Sum.left {a b : List (Bool × Act)} {n : Nat} (h : Sum (a ++ b) n) : Sum a n := by
  induction a generalizing n with
  | nil => exact .nil
  | cons x a ih =>
    cases h with
    | cons h1 h => exact .cons h1 (ih h)

theorem Sum.all {l : List (Bool × Act)} {n : Nat} (h : Sum l n) : Le (Act.all (l.map (·.2))) n := by
  induction h with
  | nil => exact .skip
  | cons h1 _ ih => exact .seq h1 ih

theorem Sum.content {l : List (Bool × Act)} {n : Nat} (h : Sum l n) : Le (contentActs l) n := by
  rw [contentActs]
  refine Sum.all ?_
  have h1 : Sum (l.dropWhile (·.1)) n := by
    rw [← List.takeWhile_append_dropWhile (p := (·.1)) (l := l)] at h
    exact h.right
  generalize l.dropWhile (·.1) = l at h1
  have e : l = (l.reverse.dropWhile (·.1)).reverse ++ (l.reverse.takeWhile (·.1)).reverse := by
    rw [← List.reverse_append, List.takeWhile_append_dropWhile, List.reverse_reverse]
  rw [e] at h1
  exact h1.left

theorem element_le {L D W : Nat} (hd : cx.indentLevel + 1 + D ≤ L) {h : EHead} {no : Bool} {content : OutCx → Act} (hs : cx.src = src)
    (hc : ∀ cx' : OutCx, cx'.src = src → cx'.cfg = cx.cfg → cx'.indentLevel + D ≤ L → Le (content cx') (W * (1 + L * width cx.cfg))) :
    Le (elementAct cx h no content) ((headW src h.selectors + W) * (1 + L * width cx.cfg)) := by
  rw [Nat.add_mul]
  unfold elementAct
  dsimp only
  split
  · exact (hc (cx.inContent h) hs rfl (by simp only [OutCx.inContent]; omega)).mono (Nat.le_add_left _ _)
  · rename_i ht
    have hv : 8 * (validTags h).length + tagsW (src := src) (validTags h) + namesW (src := src) (validTags h) ≤ _ := valid_le h.selectors
    have hl : 1 ≤ (validTags h).length := by
      cases hh : validTags h with
      | nil => exact absurd (by rw [hh]; rfl) ht
      | cons a l => simp
    have hw : selsW src h.selectors * (1 + L * width cx.cfg) ≤ headW src h.selectors * (1 + L * width cx.cfg) :=
      Nat.mul_le_mul_right _ (Nat.le_max_right _ _)
    generalize hF : 1 + L * width cx.cfg = F at *
    have h1 : (8 * (validTags h).length + tagsW (src := src) (validTags h) + namesW (src := src) (validTags h)) * F ≤ selsW src h.selectors * F :=
      Nat.mul_le_mul_right _ hv
    have h2 : 8 * (validTags h).length + tagsW (src := src) (validTags h) + namesW (src := src) (validTags h) - 2 + 2 * F ≤
        (8 * (validTags h).length + tagsW (src := src) (validTags h) + namesW (src := src) (validTags h)) * F := by
      generalize hN : 8 * (validTags h).length + tagsW (src := src) (validTags h) + namesW (src := src) (validTags h) = N
      have hN2 : 2 ≤ N := by omega
      obtain ⟨M, rfl⟩ : ∃ M, N = M + 2 := ⟨N - 2, by omega⟩
      have : M ≤ M * F := Nat.le_mul_of_pos_right M (by omega)
      rw [Nat.add_mul]
      omega
    have hcl : ∀ k, 3 * ((validTags h).reverse.drop k).length + namesW (src := src) ((validTags h).reverse.drop k) ≤
        3 * (validTags h).length + namesW (src := src) (validTags h) := by
      intro k
      have h3 := names_drop (src := src) k (validTags h).reverse
      rw [names_perm (List.reverse_perm _)] at h3
      have : ((validTags h).reverse.drop k).length ≤ (validTags h).length := by simp
      omega
    refine (Le.seq (openTags_le hs _ _) (.seq (m := 2 * F + W * F) ?_ (closeTags_le (src := src) ?_ _ _))).mono ?_
    · split
      · generalize hb : (cx.inContent h).indent _ = bcx
        have hy : ∀ m, m ≤ 1 → ((cx.inContent h).indent m).src = src ∧ ((cx.inContent h).indent m).cfg = cx.cfg ∧
            ((cx.inContent h).indent m).indentLevel ≤ cx.indentLevel + 1 := by
          intro m hm
          rw [OutCx.indent]
          split
          · exact ⟨hs, rfl, by simp only [OutCx.inContent]; omega⟩
          · exact ⟨hs, rfl, by simp only [OutCx.inContent]; omega⟩
        have hx : bcx.src = src ∧ bcx.cfg = cx.cfg ∧ bcx.indentLevel ≤ cx.indentLevel + 1 := by
          rw [← hb]
          refine hy _ ?_
          split <;> omega
        obtain ⟨x1, x2, x3⟩ := hx
        refine (Le.seq (.seq (line_le (L := L) (by omega)) (hc bcx x1 x2 (by omega))) (line_le (L := L) (by simp only [OutCx.inContent]; omega))).mono ?_
        rw [x2]
        simp only [OutCx.inContent]
        omega
      · exact .skip
    · exact hs
    · have := hcl (if (no && cx.cfg.isXml) = true then 1 else 0)
      omega

mutual
  theorem node_le {L : Nat} : ∀ (n : Node) (cx : OutCx), cx.src = src → cx.indentLevel + depth n ≤ L →
      Le (processNode n cx) (nodeW src n * (1 + L * width cx.cfg))
    | .text _ t, cx, hs, hd => by
      rw [processNode, nodeW]
      exact text_le hs (by omega) t
    | .elem _ h ch, cx, hs, hd => by
      simp only [processNode, nodeW]
      rw [depth] at hd
      refine element_le (D := depths ch) (by omega) hs ?_
      intro cx' h1 h2 h3
      rw [← h2]
      exact (nodes_le ch cx' h1 h3).content
  theorem nodes_le {L : Nat} : ∀ (ns : List Node) (cx : OutCx), cx.src = src → cx.indentLevel + depths ns ≤ L →
      Sum (nodeActs ns cx) (nodesW src ns * (1 + L * width cx.cfg))
    | [], _, _, _ => .nil
    | n :: ns, cx, hs, hd => by
      simp only [nodeActs, nodesW, Nat.add_mul]
      rw [depths] at hd
      exact .cons (node_le n cx hs (by omega)) (nodes_le ns cx hs (by omega))
end

mutual
  theorem depth_le : ∀ n : Node, depth n ≤ nodeW src n
    | .text _ _ => Nat.zero_le _
    | .elem _ h ch => by
      have := depths_le ch
      rw [depth, nodeW, headW]
      omega
  theorem depths_le : ∀ ns : List Node, depths ns ≤ nodesW src ns
    | [] => Nat.le_refl _
    | n :: ns => by
      have := depth_le n; have := depths_le ns
      rw [depths, nodesW]
      omega
end

/-- The output for a document. -/
theorem output_le (doc : Document) (cfg : OutputConfig) :
    (outputHtmlTo src doc cfg).1.length ≤ (nodesW src doc.nodes + 20) * (1 + nodesW src doc.nodes * width cfg) := by
  simp only [outputHtmlTo]
  have hd := depths_le (src := src) doc.nodes
  have h1 : Le (processContent doc.nodes { cfg, src, indentLevel := 0, fmtInline := false, isRaw := false }) _ :=
    (nodes_le (L := nodesW src doc.nodes) doc.nodes { cfg, src, indentLevel := 0, fmtInline := false, isRaw := false } rfl (by simpa using hd)).content
  have h2 := line_le (cx := { cfg, src, indentLevel := 0, fmtInline := false, isRaw := false }) (L := nodesW src doc.nodes) (Nat.zero_le _)
  refine Nat.le_trans (Le.seq (m := 16) ?_ (h1.seq h2) true) ?_
  · split
    · exact .write (by decide)
    · exact .skip
  · dsimp only
    rw [Nat.add_mul]
    omega

end Mty.Size
