import Verif.Proofs.WriteFence
import Verif.Proofs.WriteElem

/-!
# Reading what is written: the tree of a written document
-/

set_option autoImplicit false

namespace Mty.Write
open Spec Grammar Pat Lex

/-! ## Selectors -/

theorem ascii_start {c : Char} (h : Ascii c) (hd : ¬ ('0' ≤ c ∧ c ≤ '9')) : nameStart c = true := by
  unfold Ascii at h
  simp only [nameStart, Bool.or_eq_true, Bool.and_eq_true, decide_eq_true_eq]
  tauto

theorem ascii_name {c : Char} (h : Ascii c ∨ c = '-') : nameChar c = true := by
  unfold Ascii at h
  simp only [nameChar, nameStart, Bool.or_eq_true, Bool.and_eq_true, decide_eq_true_eq]
  rcases h with (h | h | h) | rfl
  · tauto
  · tauto
  · tauto
  · right; decide

theorem name_attr {c : Char} (h : Ascii c ∨ c = '-') : attrChar c = true := by
  have h2 : c ∈ '-' :: asciiList := by
    rcases h with h | rfl
    · exact List.mem_cons_of_mem _ (ascii_mem h)
    · simp
  have : ∀ c ∈ '-' :: asciiList, attrChar c = true := by decide +kernel
  exact this c h2

theorem word_safe {n : Str} (h : Word n) : SafeName n := by
  obtain ⟨h1, ⟨c, h2, h3, h4⟩, -⟩ := h
  cases n with
  | nil => simp at h2
  | cons d s =>
    simp at h2; subst h2
    exact ⟨_, _, rfl, ascii_start h3 h4, fun x hx => ascii_name (h1 x (by simp [hx]))⟩

theorem word_attr {n : Str} (h : Word n) : SafeAttrName n := by
  obtain ⟨h1, ⟨c, h2, h3, h4⟩, -⟩ := h
  exact ⟨by rintro rfl; simp at h2, fun x hx => name_attr (h1 x hx)⟩

theorem attribute_name {s : Str} {p : Spec.Part} (h : AttributeSource s p) : ∀ n v, .attribute n v = p → Word n := by
  intro n v hp
  cases h <;> cases hp <;> assumption

theorem attributes_names {s : Str} {ps : List Spec.Part} (h : AttributesSource s ps) : ∀ n v, .attribute n v ∈ ps → Word n := by
  induction h with
  | one h => intro n v hm; simp at hm; exact attribute_name h n v hm
  | more h _ _ _ ih =>
    intro n v hm
    rcases List.mem_cons.1 hm with hm | hm
    · exact attribute_name h n v hm
    · exact ih n v hm

theorem classes_names {s : Str} {ps : List Spec.Part} (h : ClassesSource s ps) : ∀ n v, .attribute n v ∉ ps := by
  induction h with
  | nil => simp
  | cls _ _ ih => intro n v hm; simp at hm; exact ih n v hm
  | id _ _ ih => intro n v hm; simp at hm; exact ih n v hm

theorem brackets_names {s : Str} {ps : List Spec.Part} (h : BracketsSource s ps) : ∀ n v, .attribute n v ∈ ps → Word n := by
  cases h with
  | none => simp
  | some _ h _ => exact attributes_names h

theorem selector_names {s : Str} {n : Option Str} {ps : List Spec.Part} (h : SelectorSource s n ps) :
    (∀ w, n = some w → Word w) ∧ ∀ n v, .attribute n v ∈ ps → Word n := by
  have key : ∀ {s t : Str} {ps qs : List Spec.Part}, ClassesSource s ps → BracketsSource t qs → ∀ n v, .attribute n v ∈ ps ++ qs → Word n := by
    intro s t ps qs h1 h2 n v hm
    rcases List.mem_append.1 hm with hm | hm
    · exact absurd hm (classes_names h1 n v)
    · exact brackets_names h2 n v hm
  cases h with
  | named h1 h2 h3 => exact ⟨fun w hw => by cases hw; exact h1, key h2 h3⟩
  | star h2 h3 => exact ⟨fun w hw => absurd hw (by simp), key h2 h3⟩
  | unnamed _ h2 h3 => exact ⟨fun w hw => absurd hw (by simp), key h2 h3⟩


theorem selSem_of {xml : Bool} {src : Str} {h : Str} {n : Option Str} {ps : List Spec.Part} {sel : Ast.Selector} (hs : SelectorSource h n ps) (h1 : SelectorOk sel)
    (h2 : writtenName src sel = n) (h3 : List.Forall₂ PartIs (writtenParts src sel) ps) : SelSem xml src sel n ps := by
  obtain ⟨h4, h5⟩ := selector_names hs
  refine ⟨h1, fun w hw => word_safe (h4 w hw), fun t ht => ?_⟩
  obtain ⟨ht1, ht2, -⟩ := ht
  refine ⟨?_, attrs_of (by rw [ht2]; exact h3) fun n v hm => word_attr (h5 n v hm)⟩
  rw [selOf, ← h2]
  unfold TagIs at ht1
  unfold writtenName
  split at ht1
  · rename_i r l hl
    obtain ⟨x, hx, hx'⟩ := ht1
    simp only [hl, hx, Tag.name, Option.map, hx']
  · rename_i r l hl
    simp only [hl, ht1, Tag.name, Option.map]
  · rename_i h1 h2
    simp only [ht1, Tag.name, Option.map]
    try split
    all_goals try rfl
    all_goals (rename_i r l hl; exact absurd hl (h1 r l))

/-! ## First characters -/

section
variable {names : Names}

theorem item_head {p : Spot} {k : ItemKind} {s : Str} {m : List Piece} (h : ItemSource names p k s m) :
    ∃ x s', s = x :: s' ∧ ¬ White x ∧ (k ≠ .text → x = '<') := by
  cases h with
  | text h _ =>
    obtain ⟨x, s', h1, h2⟩ := line_head (lexesLine h)
    exact ⟨x, s', h1, (starts_spec h2).1, by simp⟩
  | element => exact ⟨_, _, rfl, not_white (by decide), fun _ => rfl⟩
  | span => exact ⟨_, _, rfl, not_white (by decide), fun _ => rfl⟩
  | @special p f =>
    cases f <;> exact ⟨_, _, rfl, not_white (by decide), fun _ => rfl⟩
  | code => exact ⟨_, _, rfl, not_white (by decide), fun _ => rfl⟩
  | verbatim => exact ⟨_, _, rfl, not_white (by decide), fun _ => rfl⟩
  | comment => exact ⟨_, _, rfl, not_white (by decide), fun _ => rfl⟩

theorem inline_head {p : Spot} {k : ItemKind} {v : Bool} {s : Str} {m : List Piece} (h : InlineSource names p k v s m) :
    ∃ x s', s = x :: s' ∧ ¬ White x ∧ (k ≠ .text → x = '<') := by
  cases h with
  | one h => exact item_head h
  | more h =>
    obtain ⟨x, s', rfl, h1⟩ := item_head h
    exact ⟨x, _, rfl, h1⟩

theorem fenced_head {q : Char} {s b : Str} (hq : isWhitespace q = false) (h : FencedSource q s b) : ∃ x s', s = x :: s' ∧ ¬ White x := by
  cases h with
  | mk => exact ⟨_, _, rfl, not_white hq⟩

theorem row_head {p : Spot} {f v : Bool} {s : Str} {m : List Piece} (h : RowSource names p f v s m) : ∃ x s', s = x :: s' ∧ ¬ White x := by
  cases h with
  | inline h =>
    obtain ⟨x, s', h1, h2, _⟩ := inline_head h
    exact ⟨x, s', h1, h2⟩
  | text _ h =>
    cases h with
    | verbatim h => exact fenced_head (by decide) h
    | escaped h => exact fenced_head (by decide) h
  | code _ h => exact fenced_head (by decide) h

theorem lines_head {p : Spot} {f v : Bool} {s : Str} {m : List Piece} (h : LinesSource names p f v s m) : ∃ x s', s = x :: s' ∧ ¬ White x := by
  cases h with
  | one h => exact row_head h
  | more h =>
    obtain ⟨x, s', rfl, h2⟩ := row_head h
    exact ⟨x, _, rfl, h2⟩

theorem selector_white {h : Str} {n : Option Str} {ps : List Spec.Part} (hs : SelectorSource h n ps) : ∃ x s', h = x :: s' ∧ ¬ White x := by
  obtain ⟨x, s', h1, h2⟩ := selector_head hs
  have : ∀ c ∈ '.' :: '#' :: '*' :: '[' :: asciiList, isWhitespace c = false := by decide +kernel
  exact ⟨x, s', h1, not_white (this x h2)⟩

theorem elem_head {p : Spot} {f : ElementForm} {s : Str} {m : List Piece} (h : ElementSource names p f s m) : ∃ x s', s = x :: s' ∧ ¬ White x := by
  cases h with
  | line h => obtain ⟨x, s', rfl, h2⟩ := selector_white h; exact ⟨x, _, rfl, h2⟩
  | empty h => obtain ⟨x, s', rfl, h2⟩ := selector_white h; exact ⟨x, _, rfl, h2⟩
  | bare => exact ⟨_, _, rfl, not_white (by decide)⟩
  | block h => obtain ⟨x, s', rfl, h2⟩ := selector_white h; exact ⟨x, _, rfl, h2⟩
  | lineBlock h => obtain ⟨x, s', rfl, h2⟩ := selector_white h; exact ⟨x, _, rfl, h2⟩
  | chain h => obtain ⟨x, s', rfl, h2⟩ := selector_white h; exact ⟨x, _, rfl, h2⟩

theorem block_head {p : Spot} {k : BlockKind} {s : Str} {m : List Piece} (h : BlockSource names p k s m) : ∃ x s', s = x :: s' ∧ ¬ White x := by
  cases h with
  | paragraph _ h => exact lines_head h
  | plain _ h => exact lines_head h
  | line h => exact elem_head h
  | block _ h => exact elem_head h
  | code h => exact row_head h
  | comment h =>
    obtain ⟨x, s', h1, h2, _⟩ := inline_head h
    exact ⟨x, s', h1, h2⟩

theorem blocks_head {p : Spot} {v : Bool} {k : BlockKind} {s : Str} {m : List Piece} (h : BlocksSource names p v k s m) : ∃ x s', s = x :: s' ∧ ¬ White x := by
  cases h with
  | one h => exact block_head h
  | more h => obtain ⟨x, s', rfl, h2⟩ := block_head h; exact ⟨x, _, rfl, h2⟩

end

theorem pair_eq {ns : List Ast.Node} {a b r : Str} (h : a = b) : (ns, Pos.mk a r) = (ns, Pos.mk b r) := by rw [h]

theorem head_of {x : Char} {s s' r : Str} (h : s = x :: s' ∧ ¬ White x) : ∀ d, (s ++ r).head? = some d → ¬ White d := by
  obtain ⟨rfl, h⟩ := h
  intro d hd
  simp at hd; subst hd; exact h

theorem space_of {s : Str} (h : ∀ d, s.head? = some d → ¬ White d) : ∀ d, s.head? = some d → isSpace d = false := by
  intro d hd
  rw [Bool.eq_false_iff]
  exact fun h' => h d hd ((isSpace_iff d).1 h').1

theorem blanks_space {w : Str} (h : Blanks w) : ∀ d ∈ w, isSpace d = true := fun d hd => (isSpace_iff d).2 (h d hd)

theorem tabs_space {w : Str} (h : Tabs w) : ∀ d ∈ w, isSpace d = true := by
  intro d hd
  rcases h d hd with rfl | rfl <;> decide

theorem space_white {w : Str} (h : ∀ d ∈ w, isSpace d = true) : ∀ d ∈ w, White d := fun d hd => ((isSpace_iff d).1 (h d hd)).1

/-- White space and the end of an element: what follows a row. -/
theorem rest_white {w r : Str} (hw : ∀ d ∈ w, White d) (hr : Stop r) : Rest (w ++ r) := by
  obtain ⟨sp, w', rfl, h1, h2⟩ := split_blank w hw
  rw [List.append_assoc]
  refine ⟨sp, w' ++ r, rfl, h1, ?_⟩
  cases w' with
  | nil => exact hr
  | cons d w' => rw [h2 d rfl]; exact .line

/-! ## What is read -/

/-- A quotation mark does not follow a fence. -/
def Fits (s r : Str) : Prop := r.head? = some '"' → ¬ EndsFenced s

theorem Fits.right {u s r : Str} (h : Fits (u ++ s) r) : Fits s r := by
  rintro h1 ⟨a, w, h2, rfl⟩
  exact h h1 ⟨u ++ a, w, h2, by simp⟩

theorem Fits.of {s r : Str} (h : r.head? ≠ some '"') : Fits s r := fun h1 => absurd h1 h

theorem Fits.brace {s r : Str} : Fits (s ++ ['}']) r := by
  rintro - ⟨a, w, -, h⟩
  have := congrArg List.reverse h
  simp at this

theorem Fits.white {s w r : Str} (hw : ∀ d ∈ w, White d) (hr : r.head? ≠ some '"') : Fits s (w ++ r) := by
  cases w with
  | nil => exact .of hr
  | cons d w =>
    refine .of fun h => ?_
    simp at h; subst h
    exact absurd (hw '"' (by simp)) (not_white (by decide))

theorem Fits.space {s w r : Str} (hw : ∀ d ∈ w, isSpace d = true) (hr : r.head? ≠ some '"') : Fits s (w ++ r) := .white (space_white hw) hr

section
variable (al : Char → Bool) (xml : Bool) (src : Str) (c : SpecialTagConfig)

/-- The node at this place of the source. -/
def ItemReads (p : Spot) (k : ItemKind) (s : Str) (m : List Piece) : Prop :=
  ∀ b r n, src = b ++ (s ++ r) → (k = .text → After' r) → 8 * (s ++ r).length + 2 ≤ n →
    ∃ ty, nodeType al n ⟨b, s ++ r⟩ = some (ty, ⟨b ++ s, r⟩) ∧ ItemSem xml src c p k ty m

/-- The nodes of a row. -/
def NodesRead (P : List Ast.Node → Prop) (s : Str) : Prop :=
  ∀ b w r n, src = b ++ (w ++ (s ++ r)) → (∀ d ∈ w, isSpace d = true) → Rest r → Fits s r → 8 * (w ++ (s ++ r)).length + 3 ≤ n →
    ∃ ns, nodes al n ⟨b, w ++ (s ++ r)⟩ = (ns, ⟨b ++ w ++ s, r⟩) ∧ P ns ∧ headSpace ns = spaceOf b w

/-- Some lines. -/
def LinesRead (P : List Ast.Line → Prop) (s : Str) : Prop :=
  ∀ b sp r n, src = b ++ (s ++ (sp ++ r)) → (∀ d ∈ sp, isSpace d = true) → Stop r → Fits s (sp ++ r) → 8 * (s ++ (sp ++ r)).length + 4 ≤ n →
    ∃ rows n', linesFrom al n ⟨b, s ++ (sp ++ r)⟩ =
        (rows ++ (moreLines al n' ⟨b ++ s ++ sp, r⟩).1, (moreLines al n' ⟨b ++ s ++ sp, r⟩).2) ∧ P rows ∧ 8 * r.length + 1 ≤ n'

/-- The lines of a content, with the white space at its end. -/
def ContentReads (P : List Ast.Line → Prop) (s : Str) : Prop :=
  ∀ b w r n, src = b ++ (s ++ (w ++ r)) → (∀ d ∈ w, White d) → Shuts r → Fits s (w ++ r) → 8 * (s ++ (w ++ r)).length + 4 ≤ n →
    ∃ lines, linesFrom al n ⟨b, s ++ (w ++ r)⟩ = (lines, ⟨b ++ s ++ w, r⟩) ∧ P lines

end

variable {al : Char → Bool} {xml : Bool} {src : Str} {c : SpecialTagConfig}

theorem shuts_close {x : Char} (h : x ∈ [')', '/', '#', '_', '~', '"']) (r : Str) : Shuts (x :: '>' :: r) := by
  refine ⟨.close h, fun d hd => ?_⟩
  simp at hd; subst hd
  simp only [List.mem_cons, List.not_mem_nil, or_false] at h
  rcases h with rfl | rfl | rfl | rfl | rfl | rfl <;> exact not_white (by decide)

theorem shuts_brace (r : Str) : Shuts ('}' :: r) := by
  refine ⟨.brace, fun d hd => ?_⟩
  simp at hd; subst hd
  exact not_white (by decide)

variable (hal : RightForAscii al)

include hal in
theorem ContentReads.ofLines {P : List Ast.Line → Prop} {s : Str} (h : LinesRead al src P s) :
    ContentReads al src (fun lines => ∃ rows blanks, lines = rows ++ blanks ∧ P rows ∧ Empty blanks) s := by
  intro b w r n hsrc hw hr hfit hn
  obtain ⟨sp, w', rfl, h1, h2⟩ := split_blank w hw
  have hst : Stop (w' ++ r) := by
    cases w' with
    | nil => exact hr.1
    | cons d w' => rw [h2 d rfl]; exact .line
  rw [List.append_assoc] at hsrc hn hfit ⊢
  obtain ⟨rows, n', h3, h4, h5⟩ := h b sp (w' ++ r) n hsrc h1 hst hfit hn
  obtain ⟨bl, h6, h7⟩ := moreLines_end hal (b := b ++ s ++ sp) (n := n') (fun d hd => hw d (by simp [hd])) (fun d hd => by rw [h2 d hd]; decide) hr h5
  rw [h6] at h3
  exact ⟨_, by rw [h3]; simp, rows, bl, rfl, h4, h7⟩

theorem content_start {n : Nat} {b a x : Str} {lines : List Ast.Line} {s2 : Pos} (ha : ∀ d ∈ a, White d) (hx : ∀ d, x.head? = some d → ¬ White d)
    (h : linesFrom al n ⟨b ++ a, x⟩ = (lines, s2)) : content al (n + 1) (skip isWhitespace ⟨b, a ++ x⟩) = (.mk (byteLen (b ++ a)) lines s2.at, s2) := by
  have h1 := skip_white (b := b ++ a) (w := []) (by simp) hx
  rw [List.nil_append, List.append_nil] at h1
  rw [skip_white ha hx, content_lines, h1, h]
  rfl

/-! ## Items -/

include hal in
theorem ItemReads.text {p : Spot} {s t : Str} (h : LineText s t) (hf : ¬ BeginsWithFence (s ++ ['"'])) : ItemReads al xml src c p .text s [.text t] := by
  intro b r n hsrc hr hn
  obtain ⟨n, rfl⟩ : ∃ k, n = k + 1 := ⟨n - 1, by omega⟩
  refine ⟨_, node_text hal h hf (hr rfl) n b, ItemSem.text ?_⟩
  rw [hsrc, slice_mid]
  exact h

include hal in
theorem ItemReads.code {p : Spot} {s : Str} (hs : s ≠ []) (hc : ∀ a b, s ≠ a ++ '`' :: '>' :: b) (hn : SafeName (configuredTag c .code))
    (hh : Holds (configuredTag c .code) [.text s]) :
    ItemReads al xml src c p .element ("<`".toList ++ s ++ "`>".toList) [.elem (configuredTag c .code) [] [.text s]] := by
  intro b r n hsrc hr hn'
  obtain ⟨n, rfl⟩ : ∃ k, n = k + 1 := ⟨n - 1, by omega⟩
  have h := node_code hal (r := r) hc n b
  simp only [List.append_assoc] at h hsrc ⊢
  refine ⟨_, h, ?_⟩
  have hsl : Range.slice ⟨byteLen b + 2, byteLen (b ++ ("<`".toList ++ (s ++ "`>".toList))) - 2⟩ src = s := by
    have e1 : byteLen b + 2 = byteLen (b ++ "<`".toList) := by rw [byteLen_app]; rfl
    have e2 : byteLen (b ++ ("<`".toList ++ (s ++ "`>".toList))) - 2 = byteLen (b ++ "<`".toList ++ s) := by
      have : byteLen "`>".toList = 2 := rfl
      simp only [byteLen_app, this]
      omega
    rw [e1, e2, hsrc]
    have := slice_mid (b ++ "<`".toList) s ("`>".toList ++ r)
    simpa only [List.append_assoc] using this
  have := ItemSem.code (xml := xml) (src := src) (c := c) (p := p) (r := ⟨byteLen b, byteLen (b ++ ("<`".toList ++ (s ++ "`>".toList)))⟩)
    (by rw [hsl]; exact hs) hn (by rw [hsl]; exact hh)
  rw [hsl] at this
  exact this

include hal in
theorem ItemReads.verbatim {p : Spot} {k : Nat} {s : Str} (hk : k ≤ 2) (hs : s ≠ []) (h1 : s.getLast? ≠ some ' ') (h2 : s.getLast? ≠ some '\t')
    (hc : ∀ a b, s ≠ a ++ (verbatimDelimiters k).2 ++ b) :
    ItemReads al xml src c p .element ((verbatimDelimiters k).1 ++ s ++ (verbatimDelimiters k).2) [.text s] := by
  intro b r n hsrc hr hn'
  obtain ⟨n, rfl⟩ : ∃ k, n = k + 1 := ⟨n - 1, by omega⟩
  have h := node_verbatim hal (r := r) hk hc n b
  simp only [List.append_assoc] at h hsrc ⊢
  refine ⟨_, h, ItemSem.verbatim ?_ hs h1 h2⟩
  have e0 : ∀ x, verbatimRange (tailOf k x) = ⟨x.start + (k + 1), x.stop - (k + 3)⟩ := by
    intro x
    match k, hk with
    | 0, _ => rfl
    | 1, _ => rfl
    | 2, _ => rfl
  have l1 : byteLen (verbatimDelimiters k).1 = k + 3 := by
    match k, hk with
    | 0, _ => rfl
    | 1, _ => rfl
    | 2, _ => rfl
  have l2 : byteLen (verbatimDelimiters k).2 = k + 3 := by
    match k, hk with
    | 0, _ => rfl
    | 1, _ => rfl
    | 2, _ => rfl
  have e1 : byteLen (b ++ "<[".toList) + (k + 1) = byteLen (b ++ (verbatimDelimiters k).1) := by
    rw [byteLen_app, byteLen_app, l1, show byteLen "<[".toList = 2 from rfl]
    omega
  have e2 : byteLen (b ++ ((verbatimDelimiters k).1 ++ (s ++ (verbatimDelimiters k).2))) - (k + 3) = byteLen (b ++ (verbatimDelimiters k).1 ++ s) := by
    simp only [byteLen_app, l2]
    omega
  rw [e0]
  simp only
  rw [e1, e2, hsrc]
  have := slice_mid (b ++ (verbatimDelimiters k).1) s ((verbatimDelimiters k).2 ++ r)
  simpa only [List.append_assoc] using this

include hal in
theorem ItemReads.comment {p : Spot} {s : Str} (hs : CommentSource s) (hb : CommentBody s) :
    ItemReads al xml src c p .comment ("<!".toList ++ s ++ "!>".toList) [.comment s] := by
  intro b r n hsrc hr hn'
  obtain ⟨n, rfl⟩ : ∃ k, n = k + 1 := ⟨n - 1, by omega⟩
  have h := node_comment hal (r := r) hs n b
  simp only [List.append_assoc] at h hsrc ⊢
  refine ⟨_, h, ItemSem.comment rfl ?_ hb⟩
  simp only
  rw [hsrc]
  have := slice_mid (b ++ "<!".toList) s ("!>".toList ++ r)
  simpa only [List.append_assoc] using this

/-- The node of `<( .. )>`. -/
theorem reads_inline {P : List Ast.Node → Prop} {a s e : Str} (hal : RightForAscii al) (ha : ∀ d ∈ a, White d) (he : ∀ d ∈ e, White d)
    (hs : ∃ x s', s = x :: s' ∧ ¬ White x) (hne : ∀ ns, P ns → ns ≠ []) (h : NodesRead al src P s) (b r : Str) (n : Nat)
    (hsrc : src = b ++ ("<(".toList ++ a ++ s ++ e ++ ")>".toList ++ r)) (hn : 8 * ("<(".toList ++ a ++ s ++ e ++ ")>".toList ++ r).length + 2 ≤ n) :
    ∃ o cl ns, nodeType al n ⟨b, "<(".toList ++ a ++ s ++ e ++ ")>".toList ++ r⟩ =
      some (.inline o ns (some cl), ⟨b ++ ("<(".toList ++ a ++ s ++ e ++ ")>".toList), r⟩) ∧ P ns ∧ headSpace ns = none := by
  obtain ⟨n, rfl⟩ : ∃ k, n = k + 2 := ⟨n - 2, by omega⟩
  obtain ⟨x, s', hs⟩ := hs
  have hx := head_of (r := e ++ (")>".toList ++ r)) hs
  have hrest : Rest (e ++ (")>".toList ++ r)) := rest_white he (.close (by decide))
  obtain ⟨ns, h1, h2, h3⟩ := h (b ++ "<(".toList ++ a) [] (e ++ (")>".toList ++ r)) n (by rw [hsrc]; simp [List.append_assoc]) (by simp) hrest (.white he (by simp))
    (by simp only [List.length_append, List.nil_append] at hn ⊢; have : "<(".toList.length = 2 := rfl; omega)
  rw [List.nil_append, List.append_nil] at h1
  rw [← skip_white ha hx] at h1
  cases ns with
  | nil => exact absurd rfl (hne _ h2)
  | cons y ns =>
    have h4 := node_inline hal (a ++ (s ++ (e ++ (")>".toList ++ r)))) n b h1 (closing_some he (fun d hd => by
      simp at hd; subst hd; exact not_white (by decide)))
    exact ⟨_, _, y :: ns, by simpa only [List.append_assoc] using h4, h2, by rw [h3]; rfl⟩

include hal in
theorem ItemReads.element {p : Spot} {f : ElementForm} {a s e : Str} {m : List Piece} (hf : f ≠ .block) (ha : ∀ d ∈ a, White d) (he : ∀ d ∈ e, White d)
    (hs : ∃ x s', s = x :: s' ∧ ¬ White x) (h : NodesRead al src (fun ns => ElemSem xml src c p f ns m) s) :
    ItemReads al xml src c p .element ("<(".toList ++ a ++ s ++ e ++ ")>".toList) m := by
  intro b r n hsrc _ hn
  obtain ⟨o, cl, ns, h1, h2, h3⟩ := reads_inline hal ha he hs (fun ns h => h.ne) h b r n hsrc hn
  exact ⟨_, h1, ItemSem.element hf h2 h3⟩

include hal in
theorem ItemReads.span {p : Spot} {v : Bool} {name : Str} {a s e : Str} {m : List Piece} (ha : ∀ d ∈ a, White d) (he : ∀ d ∈ e, White d)
    (hn : HasName p (some .line) none name) (hh : Holds name m)
    (hs : ∃ x s', s = x :: s' ∧ ¬ White x) (h : NodesRead al src (fun ns => RowSem xml src c (p.inside (some name) (some .line)) true v ns m) s) :
    ItemReads al xml src c p .element ("<(".toList ++ a ++ s ++ e ++ ")>".toList) [.elem name [] m] := by
  intro b r n hsrc _ hn'
  obtain ⟨o, cl, ns, h1, h2, h3⟩ := reads_inline hal ha he hs (fun ns h => h.ne) h b r n hsrc hn'
  exact ⟨_, h1, ItemSem.span hn hh h2⟩

include hal in
theorem ItemReads.special {p : Spot} {g : Bool} {f : Ast.SpecialForm} {a s e : Str} {m : List Piece} (ha : ∀ d ∈ a, White d) (he : ∀ d ∈ e, White d)
    (hn : SafeName (configuredTag c (delimiters f).2.2)) (hh : Holds (configuredTag c (delimiters f).2.2) m)
    (hs : ∃ x s', s = x :: s' ∧ ¬ White x)
    (h : LinesRead al src (fun ls => Rows xml src c (p.inside (some (configuredTag c (delimiters f).2.2)) none) g true ls m) s)
    (hq : f = .quote → e = [] → ¬ EndsFenced s) :
    ItemReads al xml src c p .element ((delimiters f).1 ++ a ++ s ++ e ++ (delimiters f).2.1) [.elem (configuredTag c (delimiters f).2.2) [] m] := by
  have hd1 : (delimiters f).1 = (specialDelims f).1 := by cases f <;> rfl
  have hd2 : (delimiters f).2.1 = (specialDelims f).2 := by cases f <;> rfl
  have hd3 : (delimiters f).2.2 = formKind f := by cases f <;> rfl
  have hlen : (specialDelims f).1.length = 2 := by cases f <;> rfl
  have hsh : ∀ r, Shuts ((specialDelims f).2 ++ r) := fun r => by cases f <;> exact shuts_close (by decide) r
  rw [hd3] at hn hh h
  rw [hd1, hd2, hd3]
  intro b r n hsrc _ hn'
  obtain ⟨n, rfl⟩ : ∃ k, n = k + 3 := ⟨n - 3, by simp only [List.length_append] at hn'; omega⟩
  obtain ⟨x, s', hs⟩ := hs
  have hx := head_of (r := e ++ ((specialDelims f).2 ++ r)) hs
  have hfit : Fits s (e ++ ((specialDelims f).2 ++ r)) := by
    cases e with
    | nil =>
      cases f with
      | quote => exact fun _ => hq rfl rfl
      | emphasis => exact .of (by simp [specialDelims])
      | strong => exact .of (by simp [specialDelims])
      | underline => exact .of (by simp [specialDelims])
      | strike => exact .of (by simp [specialDelims])
    | cons d e =>
      refine .of fun h => ?_
      simp at h; subst h
      exact absurd (he '"' (by simp)) (not_white (by decide))
  obtain ⟨lines, h1, rows, bl, rfl, h2, h3⟩ := ContentReads.ofLines hal h (b ++ (specialDelims f).1 ++ a) e ((specialDelims f).2 ++ r) n
    (by rw [hsrc]; simp only [List.append_assoc]) he (hsh r) hfit (by simp only [List.length_append] at hn' ⊢; omega)
  have h4 := content_start (b := b ++ (specialDelims f).1) ha hx h1
  have h5 := node_special hal f (a ++ (s ++ (e ++ ((specialDelims f).2 ++ r)))) (n + 1) b h4
    (closing_some (w := []) (by simp) (hsh r).2)
  refine ⟨_, by simpa only [List.append_assoc, List.append_nil, List.nil_append] using h5, ItemSem.special hn hh h2 h3⟩

/-! ## Rows -/

include hal in
theorem reads_one {p : Spot} {k : ItemKind} {s : Str} {m : List Piece} (hs : ∃ x s', s = x :: s' ∧ ¬ White x) (h : ItemReads al xml src c p k s m) :
    NodesRead al src (fun ns => RowSem xml src c p true (k.shows false) ns m ∧ Inl src ns) s := by
  intro b w r n hsrc hw hr _ hn
  obtain ⟨n, rfl⟩ : ∃ k, n = k + 1 := ⟨n - 1, by omega⟩
  obtain ⟨x, s', hs⟩ := hs
  obtain ⟨ty, h1, h2⟩ := h (b ++ w) r n (by rw [hsrc]; simp) (fun _ => hr.after) (by simp only [List.length_append] at hn ⊢; omega)
  rw [nodes_step hw (space_of (head_of hs)) h1, nodes_stop hal hr]
  exact ⟨_, rfl, RowSem.one h2, rfl⟩

include hal in
theorem reads_more {p : Spot} {k k' : ItemKind} {v : Bool} {s w' s' : Str} {m m' : List Piece} (hs : ∃ x s', s = x :: s' ∧ ¬ White x)
    (hs' : ∃ x s'', s' = x :: s'' ∧ ¬ White x ∧ (k' ≠ .text → x = '<'))
    (h : ItemReads al xml src c p k s m) (h' : NodesRead al src (fun ns => RowSem xml src c p true v ns m' ∧ Inl src ns) s') (ht : ¬ (k = .text ∧ k' = .text))
    (hw : Blanks w') (hcr : '\r' ∉ w') :
    NodesRead al src (fun ns => RowSem xml src c p true (k.shows v) ns (m ++ gapPieces w' ++ m') ∧ Inl src ns) (s ++ w' ++ s') := by
  intro b w r n hsrc hw0 hr hfit hn
  obtain ⟨n, rfl⟩ : ∃ k, n = k + 1 := ⟨n - 1, by omega⟩
  obtain ⟨x, y, hs⟩ := hs
  have hlen : 1 ≤ s.length := by rw [hs.1]; simp
  simp only [List.append_assoc] at hsrc hn ⊢
  obtain ⟨ty, h1, h2⟩ := h (b ++ w) (w' ++ (s' ++ r)) n (by rw [hsrc]; simp only [List.append_assoc]) (fun htt => by
    obtain ⟨z, s'', h3, h4, h5⟩ := hs'
    refine ⟨w', s' ++ r, rfl, blanks_space hw, .inr ?_⟩
    have : k' ≠ .text := fun hk => ht ⟨htt, hk⟩
    rw [h3, h5 this]; rfl) (by simp only [List.length_append] at hn ⊢; omega)
  obtain ⟨ns, h3, h4, h5⟩ := h' (b ++ w ++ s) w' r n (by rw [hsrc]; simp only [List.append_assoc]) (blanks_space hw) hr hfit.right
    (by simp only [List.length_append] at hn ⊢; omega)
  rw [nodes_step hw0 (space_of (head_of hs)) h1, h3]
  refine ⟨_, pair_eq (by simp only [List.append_assoc]), ?_, rfl⟩
  rw [← List.append_assoc]
  refine RowSem.more h2 h4 ?_
  by_cases hne : w' = []
  · left; rw [h5, spaceOf, if_pos hne]; exact ⟨rfl, hne⟩
  · right
    refine ⟨_, by rw [h5, spaceOf, if_neg hne], ?_, hne, fun d hd => ⟨(hw d hd).1, fun h => hcr (h ▸ hd)⟩⟩
    rw [hsrc]
    have := slice_mid (b ++ w ++ s) w' (s' ++ r)
    simpa only [List.append_assoc] using this

theorem NodesRead.imp {P Q : List Ast.Node → Prop} {s : Str} (hPQ : ∀ ns, P ns → Q ns) (h : NodesRead al src P s) : NodesRead al src Q s := by
  intro b w r n h1 h2 h3 h3' h4
  obtain ⟨ns, h5, h6, h7⟩ := h b w r n h1 h2 h3 h3' h4
  exact ⟨ns, h5, hPQ _ h6, h7⟩

theorem rest_fence {k : MultilineKind} {r s : Str} (hr : Rest r) (hf : Fits s r) (hs : k = .escaped → EndsFenced s) : r.head? ≠ some (fence k) := by
  obtain ⟨sp, r', rfl, h1, h2⟩ := hr
  intro h
  cases sp with
  | cons d sp =>
    simp at h; subst h
    have := h1 (fence k) (by simp)
    cases k <;> revert this <;> decide
  | nil =>
    cases h2 with
    | nil => simp at h
    | line => cases k <;> simp [fence] at h
    | brace => cases k <;> simp [fence] at h
    | close h3 =>
      simp at h; subst h
      cases k with
      | escaped => exact hf rfl (hs rfl)
      | unescaped => simp [fence] at h3
      | code => simp [fence] at h3

include hal in
/-- Lines between fences. -/
theorem reads_fenced {P : List Ast.Node → Prop} {k : MultilineKind} {s body : Str} (h : FencedSource (fence k) s body)
    (hP : ∀ sp i j x y, Trimmed (Range.slice ⟨x, y⟩ src) body → body ≠ [] →
      ((∃ t, Unescapes Accepted body t) → EscapesOk (Range.slice ⟨x, y⟩ src)) → P [.mk sp i j (.multiline k x y)]) : NodesRead al src P s := by
  cases h with
  | @mk info indent lines l l₁ l₂ lines' h1 h2 h3 h4 h5 h6 h7 =>
    intro b w r n hsrc hw hr hfit hn
    obtain ⟨n, rfl⟩ : ∃ k, n = k + 2 := ⟨n - 2, by omega⟩
    have hr' := rest_fence (k := k) hr hfit (fun hk => ⟨fence k :: fence k :: fence k :: info ++ '\n' :: joinLines (lines ++ [l]), indent, h2, by subst hk; rfl⟩)
    have e0 : fence k :: fence k :: fence k :: info ++ '\n' :: joinLines (lines ++ [l]) ++ '\n' :: indent ++ [fence k, fence k, fence k] ++ r =
        fence k :: fence k :: fence k :: info ++ (fenceBody lines l indent ++ fence k :: fence k :: fence k :: r) := by
      simp [fenceBody]
    rw [e0] at hsrc hn ⊢
    have hx : ∀ c, (fence k :: fence k :: fence k :: info ++ (fenceBody lines l indent ++ fence k :: fence k :: fence k :: r)).head? = some c →
        isSpace c = false := by
      intro c hc
      simp at hc; subst hc
      cases k <;> decide
    rw [nodes_step hw hx (node_multiline (b := b ++ w) h1 h2 h3 hr' n), nodes_stop hal hr]
    have hsl : Range.slice ⟨byteLen (b ++ w ++ (fence k :: fence k :: fence k :: info)),
        byteLen (b ++ w ++ (fence k :: fence k :: fence k :: info) ++ fenceBody lines l indent)⟩ src = fenceBody lines l indent := by
      rw [hsrc]
      have := slice_mid (b ++ w ++ (fence k :: fence k :: fence k :: info)) (fenceBody lines l indent) (fence k :: fence k :: fence k :: r)
      simpa only [List.append_assoc] using this
    refine ⟨_, pair_eq (by simp [fenceBody]), hP _ _ _ _ _ ?_ h7 fun ht => ?_, rfl⟩
    · rw [hsl]
      exact fence_trimmed h2 h3 h4 h5 h6
    · rw [hsl]
      exact fence_unescapes h2 h4 h5 h6 ht

include hal in
theorem reads_text {p : Spot} {s t : Str} (hp : Nameless p) (h : FencedText s t) :
    NodesRead al src (fun ns => RowSem xml src c p true true ns [.text t]) s := by
  cases h with
  | verbatim h h1 h2 =>
    exact reads_fenced hal (k := .unescaped) h fun sp i j x y g1 g2 _ => RowSem.fenced (by simp) hp trivial g1 g2 (by simp) h1 h2
  | escaped h ht h1 h2 =>
    refine reads_fenced hal (k := .escaped) h fun sp i j x y g1 g2 g3 => ?_
    exact RowSem.fenced (by simp) hp (g3 ⟨t, unescapes_weaken ht⟩) g1 g2 (by simpa using unescapes_weaken ht) h1 h2

include hal in
theorem reads_code {p : Spot} {s body : Str} (hc : c.emphasis = c.codeBlockContainer) (h : FencedSource '`' s body)
    (hn1 : SafeName (configuredTag c .codeBlockContainer)) (hn2 : SafeName (configuredTag c .code))
    (hh1 : Holds (configuredTag c .codeBlockContainer) [.text body]) (hh2 : Holds (configuredTag c .code) [.text body]) :
    NodesRead al src (fun ns => RowSem xml src c p false true ns
      [.elem (configuredTag c .codeBlockContainer) [] [.elem (configuredTag c .code) [] [.text body]]]) s :=
  reads_fenced hal (k := .code) h fun _ _ _ _ _ g1 g2 _ => RowSem.code hc g1 g2 hn1 hn2 hh1 hh2

/-! ## Lines -/

theorem LinesRead.ofNodes {P : List Ast.Node → Prop} {s : Str} (hs : ∃ x s', s = x :: s' ∧ ¬ White x) (hne : ∀ ns, P ns → ns ≠ [])
    (h : NodesRead al src P s) : LinesRead al src (fun ls => ∃ i ns j, ls = [.mk i ns j] ∧ P ns ∧ headSpace ns = none) s := by
  intro b sp r n hsrc hsp hr hfit hn
  obtain ⟨n, rfl⟩ : ∃ k, n = k + 1 := ⟨n - 1, by omega⟩
  obtain ⟨x, s', hs⟩ := hs
  obtain ⟨ns, h1, h2, h4⟩ := h b [] (sp ++ r) n (by rw [hsrc]; rfl) (by simp) ⟨sp, r, rfl, hsp, hr⟩ hfit (by simp only [List.nil_append]; omega)
  rw [List.nil_append, List.append_nil] at h1
  obtain ⟨i, j, h3⟩ := line_row (b := b) (w := []) (r := s ++ (sp ++ r)) (by simp) (space_of (head_of hs)) (by rw [List.append_nil]; exact h1) (hne _ h2) hsp hr
  rw [List.nil_append] at h3
  refine ⟨[.mk i ns j], n + 1, ?_, ⟨i, ns, j, rfl, h2, by rw [h4]; rfl⟩, by simp only [List.length_append] at hn; omega⟩
  rw [linesFrom, h3]
  rfl

omit hal in
theorem reads_lines {p : Spot} {f f' v v' : Bool} {s a e s' : Str} {m m' : List Piece} (hs : ∃ x s', s = x :: s' ∧ ¬ White x) (hs' : ∃ x s'', s' = x :: s'' ∧ ¬ White x)
    (h : NodesRead al src (fun ns => RowSem xml src c p f v ns m) s) (h' : LinesRead al src (fun ls => Rows xml src c p f' v' ls m') s')
    (ha : Blanks a) (he : Blanks e) :
    LinesRead al src (fun ls => Rows xml src c p (f && f') v ls (m ++ .gap [' '] :: m')) (s ++ a ++ '\n' :: e ++ s') := by
  intro b sp r n hsrc hsp hr hfit hn
  have e0 : s ++ a ++ '\n' :: e ++ s' ++ (sp ++ r) = s ++ (a ++ ('\n' :: (e ++ (s' ++ (sp ++ r))))) := by simp
  rw [e0] at hsrc hn ⊢
  obtain ⟨rows, n', h1, ⟨i, ns, j, rfl, h2, -⟩, h3⟩ := LinesRead.ofNodes hs (fun ns h => h.ne) h b a ('\n' :: (e ++ (s' ++ (sp ++ r)))) n hsrc (blanks_space ha) .line
    (.space (blanks_space ha) (by simp)) hn
  obtain ⟨n', rfl⟩ : ∃ k, n' = k + 1 := ⟨n' - 1, by omega⟩
  obtain ⟨z, s'', hs'⟩ := hs'
  rw [moreLines_step (blanks_space he) (space_of (head_of hs'))] at h1
  obtain ⟨rows', n'', h4, h5, h6⟩ := h' (b ++ s ++ a ++ '\n' :: e) sp r n' (by rw [hsrc]; simp) hsp hr hfit.right
    (by simp only [List.length_append, List.length_cons] at h3 ⊢; omega)
  rw [h4] at h1
  refine ⟨.mk i ns j :: rows', n'', ?_, .more h2 h5, h6⟩
  rw [h1]
  simp

/-! ## Elements -/

theorem headEnd_arrow {a r : Str} (ha : Tabs a) : HeadEnd (a ++ '>' :: r) := ⟨a, '>' :: r, rfl, ha, .inl rfl⟩

theorem headEnd_brace {a w r : Str} (ha : Tabs a) (hw : w ≠ []) (hw' : ∀ d ∈ w, White d) : HeadEnd (a ++ '{' :: (w ++ r)) := by
  cases w with
  | nil => exact absurd rfl hw
  | cons d w => exact ⟨a, _, rfl, ha, .inr ⟨d, w ++ r, rfl, hw' d (by simp)⟩⟩

include hal in
/-- A selector and the nodes after it. -/
theorem reads_head {P : List Ast.Node → Prop} {Q : Str → List Ast.Node → Prop} {h u : Str} {n : Option Str} {ps : List Spec.Part} (hs : SelectorSource h n ps)
    (hu : ∀ r, HeadEnd (u ++ r))
    (htail : ∀ b r k, src = b ++ (u ++ r) → Rest r → Fits u r → 8 * (u ++ r).length + 3 ≤ k →
      ∃ ns, nodes al k ⟨b, u ++ r⟩ = (ns, ⟨b ++ u, r⟩) ∧ Q b ns)
    (hP : ∀ b' sp a b sel ns, SelSem xml src sel n ps → Q b' ns → P (.mk sp a b (.selector sel) :: ns)) : NodesRead al src P (h ++ u) := by
  intro b w r k hsrc hw hr hfit hk
  obtain ⟨k, rfl⟩ : ∃ j, k = j + 1 + 1 := ⟨k - 2, by omega⟩
  rw [List.append_assoc] at hsrc hk ⊢
  obtain ⟨x, s', hx⟩ := selector_white hs
  have hlen : 1 ≤ h.length := by rw [hx.1]; simp
  obtain ⟨sel, h1, h2, h3, h4⟩ := node_selector hal hs (hu r) k (b ++ w)
  have e : b ++ w ++ h ++ (u ++ r) = src := by rw [hsrc]; simp only [List.append_assoc]
  rw [e] at h3 h4
  obtain ⟨ns, h5, h6⟩ := htail (b ++ w ++ h) r (k + 1) e.symm hr hfit.right (by simp only [List.length_append] at hk ⊢; omega)
  rw [nodes_step hw (space_of (head_of hx)) h1, h5]
  exact ⟨_, pair_eq (by simp only [List.append_assoc]), hP _ _ _ _ _ _ (selSem_of hs h2 h3 h4) h6, rfl⟩

include hal in
/-- `>` and the nodes after it. -/
theorem reads_arrow {Q : List Ast.Node → Prop} {u : Str} (h : NodesRead al src Q u) {a e : Str} (ha : ∀ x ∈ a, isSpace x = true) (he : Blanks e) :
    ∀ b r k, src = b ++ (a ++ '>' :: e ++ u ++ r) → Rest r → Fits u r → 8 * (a ++ '>' :: e ++ u ++ r).length + 3 ≤ k →
      ∃ ns, nodes al k ⟨b, a ++ '>' :: e ++ u ++ r⟩ = (ns, ⟨b ++ (a ++ '>' :: e ++ u), r⟩) ∧
        ∃ sp i j cr ms, ns = .mk sp i j (.line cr) :: ms ∧ Q ms ∧ sp = spaceOf b a := by
  intro b r k hsrc hr hfit hk
  have e0 : a ++ '>' :: e ++ u ++ r = a ++ '>' :: (e ++ (u ++ r)) := by simp
  rw [e0] at hsrc hk ⊢
  obtain ⟨k, rfl⟩ : ∃ j, k = j + 1 + 1 := ⟨k - 2, by omega⟩
  obtain ⟨ms, h1, h2, -⟩ := h (b ++ a ++ ['>']) e r (k + 1) (by rw [hsrc]; simp) (blanks_space he) hr hfit
    (by simp only [List.length_append, List.length_cons] at hk ⊢; omega)
  rw [nodes_step ha (by simp; decide) (node_arrow hal (e ++ (u ++ r)) k (b ++ a)), h1]
  exact ⟨_, pair_eq (by simp), _, _, _, _, _, rfl, h2, rfl⟩

include hal in
/-- `>` at the end. -/
theorem reads_last {a : Str} (ha : Tabs a) :
    ∀ b r k, src = b ++ (a ++ ['>'] ++ r) → Rest r → Fits (a ++ ['>']) r → 8 * (a ++ ['>'] ++ r).length + 3 ≤ k →
      ∃ ns, nodes al k ⟨b, a ++ ['>'] ++ r⟩ = (ns, ⟨b ++ (a ++ ['>']), r⟩) ∧ ∃ sp i j cr, ns = [.mk sp i j (.line cr)] := by
  intro b r k hsrc hr hfit hk
  have e0 : a ++ ['>'] ++ r = a ++ '>' :: r := by simp
  rw [e0] at hsrc hk ⊢
  obtain ⟨k, rfl⟩ : ∃ j, k = j + 1 + 1 := ⟨k - 2, by omega⟩
  rw [nodes_step (tabs_space ha) (by simp; decide) (node_arrow hal r k (b ++ a)), nodes_stop hal hr]
  exact ⟨_, pair_eq (by simp), _, _, _, _, rfl⟩

include hal in
/-- `{ .. }` -/
theorem reads_block {P : List Ast.Line → Prop} {a e s d : Str} (ha : ∀ x ∈ a, isSpace x = true) (he : e ≠ []) (he' : ∀ x ∈ e, White x)
    (hs : ∃ x s', s = x :: s' ∧ ¬ White x) (hd : ∀ x ∈ d, White x) (h : ContentReads al src P s) :
    ∀ b r k, src = b ++ (a ++ '{' :: e ++ s ++ d ++ ['}'] ++ r) → Rest r → Fits (a ++ '{' :: e ++ s ++ d ++ ['}']) r → 8 * (a ++ '{' :: e ++ s ++ d ++ ['}'] ++ r).length + 3 ≤ k →
      ∃ ns, nodes al k ⟨b, a ++ '{' :: e ++ s ++ d ++ ['}'] ++ r⟩ = (ns, ⟨b ++ (a ++ '{' :: e ++ s ++ d ++ ['}']), r⟩) ∧
        ∃ sp i j l st lines en cl, ns = [.mk sp i j (.block l (.mk st lines en) (some cl))] ∧ P lines ∧ sp = spaceOf b a := by
  intro b r k hsrc hr hfit hk
  have e0 : a ++ '{' :: e ++ s ++ d ++ ['}'] ++ r = a ++ '{' :: (e ++ (s ++ (d ++ ('}' :: r)))) := by simp
  rw [e0] at hsrc hk ⊢
  obtain ⟨k, rfl⟩ : ∃ j, k = j + 4 := ⟨k - 4, by simp only [List.length_append, List.length_cons] at hk; omega⟩
  obtain ⟨x, s', hs⟩ := hs
  have hx := head_of (r := d ++ ('}' :: r)) hs
  obtain ⟨lines, h1, h2⟩ := h (b ++ a ++ ['{'] ++ e) d ('}' :: r) k (by rw [hsrc]; simp) hd (shuts_brace r) (.white hd (by simp))
    (by simp only [List.length_append, List.length_cons] at hk ⊢; omega)
  have h4 := content_start (b := b ++ a ++ ['{']) he' hx h1
  have h5 := node_block hal he he' (k + 1) (b ++ a) h4 (closing_some (t := "}".toList) (w := []) (by simp) (shuts_brace r).2)
  rw [nodes_step ha (by simp; decide) h5, nodes_stop hal hr]
  exact ⟨_, pair_eq (by simp), _, _, _, _, _, _, _, _, rfl, h2, rfl⟩

include hal in
theorem nodes_block {P : List Ast.Line → Prop} {e s d : Str} (he : e ≠ []) (he' : ∀ x ∈ e, White x)
    (hs : ∃ x s', s = x :: s' ∧ ¬ White x) (hd : ∀ x ∈ d, White x) (h : ContentReads al src P s) :
    NodesRead al src (fun ns => ∃ sp i j l st lines en cl, ns = [.mk sp i j (.block l (.mk st lines en) (some cl))] ∧ P lines)
      ('{' :: e ++ s ++ d ++ ['}']) := by
  intro b w r n hsrc hw hr _ hn
  obtain ⟨ns, h1, sp, i, j, l, st, lines, en, cl, rfl, h2, h3⟩ := reads_block hal hw he he' hs hd h b r n (by rw [hsrc]; simp) hr .brace (by simpa using hn)
  exact ⟨_, by simpa using h1, ⟨_, _, _, _, _, _, _, _, rfl, h2⟩, h3⟩

section
variable {p : Spot} {g v : Bool} {h : Str} {n : Option Str} {ps : List Spec.Part} {name a e s : Str} {m : List Piece}

include hal in
theorem elemReads_line (h1 : SelectorSource h n ps) (h2 : HasName p (some .line) n name) (h3 : Tabs a) (h4 : Blanks e) (h6 : Holds name m)
    (ih : NodesRead al src (fun ns => RowSem xml src c (p.inside (some name) (some .line)) g v ns m) s) :
    NodesRead al src (fun ns => ElemSem xml src c p .line ns [.elem name ps m]) (h ++ a ++ '>' :: e ++ s) := by
  have hw := fun w hw => word_safe ((selector_names h1).1 w hw)
  have := reads_head (xml := xml) (src := src) (P := fun ns => ElemSem xml src c p .line ns [.elem name ps m]) hal h1 (u := a ++ '>' :: e ++ s) (fun r => by
    simpa using headEnd_arrow h3) (fun b r k g1 g2 g3 => reads_arrow hal ih (tabs_space h3) h4 b r k g1 g2 g3.right) ?_
  · simpa using this
  · rintro b' sp i j sel ns hs ⟨sp', i', j', cr, ms, rfl, hq, -⟩
    exact ElemSem.ofTail hs (TailSem.line h2 hw h6 hq)

include hal in
theorem elemReads_empty (h1 : SelectorSource h n ps) (h2 : HasName p (some .line) n name) (h3 : Tabs a) (h6 : Holds name []) :
    NodesRead al src (fun ns => ElemSem xml src c p .line ns [.elem name ps []]) (h ++ a ++ ['>']) := by
  have hw := fun w hw => word_safe ((selector_names h1).1 w hw)
  have := reads_head (xml := xml) (src := src) (P := fun ns => ElemSem xml src c p .line ns [.elem name ps []]) hal h1 (u := a ++ ['>']) (fun r => by
    simpa using headEnd_arrow h3) (reads_last hal h3) ?_
  · simpa using this
  · rintro b' sp i j sel ns hs ⟨sp', i', j', cr, rfl⟩
    exact ElemSem.ofTail hs (TailSem.empty h2 hw h6)

include hal in
theorem elemReads_bare (h1 : HasName p (some .line) none name) (h2 : Blanks e) (h4 : Holds name m)
    (ih : NodesRead al src (fun ns => RowSem xml src c (p.inside (some name) (some .line)) g v ns m) s) :
    NodesRead al src (fun ns => ElemSem xml src c p .line ns [.elem name [] m]) ('>' :: e ++ s) := by
  intro b w r n hsrc hw hr hfit hn
  obtain ⟨ns, h5, sp, i, j, cr, ms, rfl, h6, h7⟩ := reads_arrow hal ih hw h2 b r n (by rw [hsrc]; simp) hr hfit.right (by simpa using hn)
  exact ⟨_, by simpa using h5, ElemSem.bare h1 h4 h6, h7⟩

include hal in
theorem elemReads_block {d : Str} {k : BlockKind} (h1 : SelectorSource h n ps) (h2 : HasName p (some .block) n name) (h3 : Tabs a) (h4 : e ≠ []) (h5 : ∀ x ∈ e, White x)
    (hs : ∃ x s', s = x :: s' ∧ ¬ White x) (h7 : ∀ x ∈ d, White x) (h8 : Holds name m)
    (ih : ContentReads al src (fun ls => Blocks xml src c (p.inside (some name) (some .block)) false k ls m) s) :
    NodesRead al src (fun ns => ElemSem xml src c p .block ns [.elem name ps m]) (h ++ a ++ '{' :: e ++ s ++ d ++ ['}']) := by
  have hw := fun w hw => word_safe ((selector_names h1).1 w hw)
  have := reads_head (xml := xml) (src := src) (P := fun ns => ElemSem xml src c p .block ns [.elem name ps m]) hal h1 (u := a ++ '{' :: e ++ s ++ d ++ ['}']) (fun r => by
    simpa using headEnd_brace h3 h4 h5) (reads_block hal (tabs_space h3) h4 h5 hs h7 ih) ?_
  · simpa using this
  · rintro b' sp i j sel ns hs ⟨sp', i', j', l, st, lines, en, cl, rfl, hq, -⟩
    exact ElemSem.ofTail hs (TailSem.block h2 hw h8 hq)

include hal in
theorem elemReads_lineBlock {o d : Str} (h1 : SelectorSource h n ps) (h2 : HasName p (some .line) n name) (h3 : Tabs a) (h4 : Blanks e) (h5 : o ≠ [])
    (h6 : ∀ x ∈ o, White x) (hs : ∃ x s', s = x :: s' ∧ ¬ White x) (h8 : ∀ x ∈ d, White x) (h9 : Holds name m)
    (ih : LinesRead al src (fun ls => Rows xml src c (p.inside (some name) (some .line)) g true ls m) s) :
    NodesRead al src (fun ns => ElemSem xml src c p .lineBlock ns [.elem name ps m]) (h ++ a ++ '>' :: e ++ '{' :: o ++ s ++ d ++ ['}']) := by
  have ih' := nodes_block hal h5 h6 hs h8 (ContentReads.ofLines hal ih)
  have hw := fun w hw => word_safe ((selector_names h1).1 w hw)
  have := reads_head (xml := xml) (src := src) (P := fun ns => ElemSem xml src c p .lineBlock ns [.elem name ps m]) hal h1 (u := a ++ '>' :: e ++ ('{' :: o ++ s ++ d ++ ['}']))
    (fun r => by simpa using headEnd_arrow h3) (fun b r k g1 g2 g3 => reads_arrow hal ih' (tabs_space h3) h4 b r k g1 g2 g3.right) ?_
  · simpa using this
  · rintro b' sp i j sel ns hs ⟨sp', i', j', cr, ms, rfl, ⟨sp'', i'', j'', l, st, lines, en, cl, rfl, rows, bl, rfl, h10, h11⟩, -⟩
    exact ElemSem.ofTail hs (TailSem.lineBlock h2 hw h9 h10 h11)

include hal in
theorem elemReads_chain {f : ElementForm} (h1 : SelectorSource h n ps) (h2 : HasName p (some f.form) n name) (h3 : Tabs a) (h4 : Blanks e) (h6 : Holds name m)
    (ih : NodesRead al src (fun ns => ElemSem xml src c (p.inside (some name) (some f.form)) f ns m) s) :
    NodesRead al src (fun ns => ElemSem xml src c p f ns [.elem name ps m]) (h ++ a ++ '>' :: e ++ s) := by
  have hw := fun w hw => word_safe ((selector_names h1).1 w hw)
  have := reads_head (xml := xml) (src := src) (P := fun ns => ElemSem xml src c p f ns [.elem name ps m]) hal h1 (u := a ++ '>' :: e ++ s) (fun r => by
    simpa using headEnd_arrow h3) (fun b r k g1 g2 g3 => reads_arrow hal ih (tabs_space h3) h4 b r k g1 g2 g3.right) ?_
  · simpa using this
  · rintro b' sp i j sel ns hs ⟨sp', i', j', cr, ms, rfl, hq, -⟩
    exact ElemSem.ofTail hs (TailSem.chain h2 hw h6 hq)

end

/-! ## Blocks -/

theorem LinesRead.imp {P Q : List Ast.Line → Prop} {s : Str} (hPQ : ∀ ls, P ls → Q ls) (h : LinesRead al src P s) : LinesRead al src Q s := by
  intro b sp r n h1 h2 h3 h3' h4
  obtain ⟨rows, n', h5, h6, h7⟩ := h b sp r n h1 h2 h3 h3' h4
  exact ⟨rows, n', h5, hPQ _ h6, h7⟩

theorem ContentReads.imp {P Q : List Ast.Line → Prop} {s : Str} (hPQ : ∀ ls, P ls → Q ls) (h : ContentReads al src P s) : ContentReads al src Q s := by
  intro b w r n h1 h2 h3 h3' h4
  obtain ⟨ls, h5, h6⟩ := h b w r n h1 h2 h3 h3' h4
  exact ⟨ls, h5, hPQ _ h6⟩

include hal in
theorem reads_blocks {p : Spot} {v : Bool} {k k' : BlockKind} {s sep s' : Str} {m m' : List Piece} (hs' : ∃ x s'', s' = x :: s'' ∧ ¬ White x)
    (h : LinesRead al src (fun ls => Unit xml src c p k ls m) s) (h' : ContentReads al src (fun ls => Blocks xml src c p (v || k ≠ .comment) k' ls m') s')
    (hw : ∀ d ∈ sep, White d) (hf : lineFeeds k k' ≤ sep.count '\n') :
    ContentReads al src (fun ls => Blocks xml src c p v k ls (m ++ between (v || k ≠ .comment) (sep.count '\n') ++ m')) (s ++ sep ++ s') := by
  intro b w r n hsrc hw' hr hfit hn
  simp only [List.append_assoc] at hsrc hn ⊢
  obtain ⟨sp, w0, rfl, h1, h2⟩ := split_blank sep hw
  have hc : (sp ++ w0).count '\n' = w0.count '\n' := by rw [List.count_append, count_space h1, Nat.zero_add]
  rw [hc] at hf ⊢
  have hne : w0 ≠ [] := by
    rintro rfl
    cases k <;> cases k' <;> simp [lineFeeds] at hf
  obtain ⟨z, s'', hs'⟩ := hs'
  have hz := head_of (r := w ++ r) hs'
  simp only [List.append_assoc] at hsrc hn ⊢
  cases w0 with
  | nil => exact absurd rfl hne
  | cons d w0 =>
    have hd := h2 d rfl
    subst hd
    obtain ⟨rows, n', h3, h4, h5⟩ := h b sp (('\n' :: w0) ++ (s' ++ (w ++ r))) n hsrc h1 .line (.space h1 (by simp)) hn
    obtain ⟨bl, n'', h6, h7, h8, h9⟩ := moreLines_blanks hal _ ('\n' :: w0) (s' ++ (w ++ r)) (b ++ s ++ sp) n' (Nat.le_refl _)
      (fun d hd => hw d (by simp at hd ⊢; tauto)) rfl hz h5
    obtain ⟨lines, h10, h11⟩ := h' (b ++ s ++ sp ++ '\n' :: w0) w r n'' (by rw [hsrc]; simp) hw' hr hfit.right (by omega)
    rw [h6, h10] at h3
    rw [← h8, ← List.append_assoc m]
    refine ⟨_, ?_, .more (lines := rows) (blanks := bl) (lines' := lines) h4 h7 ?_ h11⟩
    · rw [h3]; simp
    · rintro hp hk hk' rfl
      have : lineFeeds k k' = 2 := by
        rcases hp with rfl | rfl <;> cases k <;> first | rfl | exact absurd rfl hk | exact absurd rfl hk'
      rw [this, ← h8] at hf
      simp at hf

theorem comment_item {names : Names} {p : Spot} {k : ItemKind} {s : Str} {m : List Piece} (h : ItemSource names p k s m) (hk : k = .comment) :
    ∃ t, m = [.comment t] := by
  cases h <;> first | exact ⟨_, rfl⟩ | cases hk

/-- A line in which nothing is shown consists of comments. -/
theorem commentRow {names : Names} {p : Spot} {k : ItemKind} {v : Bool} {s : Str} {m : List Piece} (h : InlineSource names p k v s m) (hv : v = false) :
    CommentRow m :=
  match h with
  | .one h1 => by
    obtain ⟨t, rfl⟩ := comment_item h1 (by revert hv; cases k <;> simp [ItemKind.shows])
    exact .one
  | .more h1 h2 _ _ _ => by
    obtain ⟨t, rfl⟩ := comment_item h1 (by revert hv; cases k <;> simp [ItemKind.shows])
    exact .more (commentRow h2 (by revert hv; cases k <;> simp [ItemKind.shows]))

section
variable (hsafe : ∀ k, SafeName (configuredTag c k))

include hal hsafe

mutual
  theorem item_reads {p : Spot} {k : ItemKind} {s : Str} {m : List Piece} (h : ItemSource (namesOf c) p k s m) : ItemReads al xml src c p k s m :=
    match h with
    | .text h1 h2 => ItemReads.text hal h1 h2
    | .element h1 h2 h3 h4 => by
      have ih := elem_reads h3
      exact ItemReads.element hal h1 h2 h4 (elem_head h3) ih
    | .span h1 h2 h3 h4 h5 => by
      have ih := row_reads h3
      exact ItemReads.span hal h1 h5 h2 h4 (row_head h3) ih
    | .special h1 h2 h3 h4 h5 => by
      have ih := lines_reads h2
      exact ItemReads.special hal h1 h4 (hsafe _) h3 (lines_head h2) ih h5
    | .code h1 h2 h3 => ItemReads.code hal h1 h2 (hsafe _) h3
    | .verbatim h1 h2 h3 h4 h5 => ItemReads.verbatim hal h1 h2 h3 h4 h5
    | .comment h1 h2 => ItemReads.comment hal h1 h2
  theorem inline_reads {p : Spot} {k : ItemKind} {v : Bool} {s : Str} {m : List Piece} (h : InlineSource (namesOf c) p k v s m) :
      NodesRead al src (fun ns => RowSem xml src c p true v ns m ∧ Inl src ns) s :=
    match h with
    | .one h1 => by
      have ih := item_reads h1
      obtain ⟨x, s', h6, h7, _⟩ := item_head h1
      exact reads_one hal ⟨x, s', h6, h7⟩ ih
    | .more h1 h2 h3 h4 h5 => by
      have ih := item_reads h1
      have ih' := inline_reads h2
      obtain ⟨x, s', h6, h7, _⟩ := item_head h1
      exact reads_more hal ⟨x, s', h6, h7⟩ (inline_head h2) ih ih' h3 h4 h5
  theorem row_reads {p : Spot} {f v : Bool} {s : Str} {m : List Piece} (h : RowSource (namesOf c) p f v s m) :
      NodesRead al src (fun ns => RowSem xml src c p f v ns m) s :=
    match h with
    | .inline h1 => by
      have ih := inline_reads h1
      exact ih.imp fun _ h => h.1
    | .text h1 h2 => reads_text hal h1 h2
    | .code h1 h2 h3 h4 => reads_code hal h1 h2 (hsafe _) (hsafe _) h3 h4
  theorem lines_reads {p : Spot} {f v : Bool} {s : Str} {m : List Piece} (h : LinesSource (namesOf c) p f v s m) :
      LinesRead al src (fun ls => Rows xml src c p f v ls m) s :=
    match h with
    | .one h1 => by
      have ih := row_reads h1
      refine (LinesRead.ofNodes (row_head h1) (fun _ h => h.ne) ih).imp ?_
      rintro _ ⟨i, ns, j, rfl, h2, -⟩
      exact .one h2
    | .more h1 h2 h3 h4 => by
      have ih := row_reads h1
      have ih' := lines_reads h4
      exact reads_lines (row_head h1) (lines_head h4) ih ih' h2 h3
  theorem elem_reads {p : Spot} {f : ElementForm} {s : Str} {m : List Piece} (h : ElementSource (namesOf c) p f s m) :
      NodesRead al src (fun ns => ElemSem xml src c p f ns m) s :=
    match h with
    | .line h1 h2 h3 h4 h5 h6 => by
      have ih := row_reads h5
      exact elemReads_line hal h1 h2 h3 h4 h6 ih
    | .empty h1 h2 h3 h4 => elemReads_empty hal h1 h2 h3 h4
    | .bare h1 h2 h3 h4 => by
      have ih := row_reads h3
      exact elemReads_bare hal h1 h2 h4 ih
    | .block h1 h2 h3 h4 h5 h6 h7 h8 => by
      have ih := blocks_reads h6
      exact elemReads_block hal h1 h2 h3 h4 h5 (blocks_head h6) h7 h8 ih
    | .lineBlock h1 h2 h3 h4 h5 h6 h7 h8 h9 => by
      have ih := lines_reads h7
      exact elemReads_lineBlock hal h1 h2 h3 h4 h5 h6 (lines_head h7) h8 h9 ih
    | .chain h1 h2 h3 h4 h5 h6 => by
      have ih := elem_reads h5
      exact elemReads_chain hal h1 h2 h3 h4 h6 ih
  theorem block_reads {p : Spot} {k : BlockKind} {s : Str} {m : List Piece} (h : BlockSource (namesOf c) p k s m) :
      LinesRead al src (fun ls => Unit xml src c p k ls m) s :=
    match h with
    | .paragraph h1 h2 h3 => by
      have ih := lines_reads h2
      exact ih.imp fun ls h => .paragraph h1 h h3
    | .plain h1 h2 => by
      have ih := lines_reads h2
      exact ih.imp fun ls h => .plain h1 h
    | .line h1 => by
      have ih := elem_reads h1
      refine (LinesRead.ofNodes (elem_head h1) (fun _ h => h.ne) ih).imp ?_
      rintro _ ⟨i, ns, j, rfl, h2, h3⟩
      exact .line h3 h2
    | .block h0 h1 => by
      have ih := elem_reads h1
      refine (LinesRead.ofNodes (elem_head h1) (fun _ h => h.ne) ih).imp ?_
      rintro _ ⟨i, ns, j, rfl, h2, h3⟩
      exact .block h0 h3 h2
    | .code h1 => by
      have ih := row_reads h1
      refine (LinesRead.ofNodes (row_head h1) (fun _ h => h.ne) ih).imp ?_
      rintro _ ⟨i, ns, j, rfl, h2, h3⟩
      exact .code h3 h2
    | .comment h1 => by
      have ih := inline_reads h1
      obtain ⟨x, s', h6, h7, _⟩ := inline_head h1
      refine (LinesRead.ofNodes ⟨x, s', h6, h7⟩ (fun _ h => h.1.ne) ih).imp ?_
      rintro _ ⟨i, ns, j, rfl, h2, h3⟩
      exact .comment h3 h2.1 (commentRow h1 rfl)
  theorem blocks_reads {p : Spot} {v : Bool} {k : BlockKind} {s : Str} {m : List Piece} (h : BlocksSource (namesOf c) p v k s m) :
      ContentReads al src (fun ls => Blocks xml src c p v k ls m) s :=
    match h with
    | .one h1 => by
      have ih := block_reads h1
      refine (ContentReads.ofLines hal ih).imp ?_
      rintro _ ⟨rows, bl, rfl, h2, h3⟩
      exact .one h2 h3
    | .more h1 h2 h3 h4 => by
      have ih := block_reads h1
      have ih' := blocks_reads h4
      exact reads_blocks hal (blocks_head h4) ih ih' h2 h3
end

end

end Mty.Write
