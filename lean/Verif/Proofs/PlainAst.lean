import Verif.Proofs.Lexer
import Verif.Proofs.Ranges
import Verif.Model.Build

/-!
# The syntax trees of plain text
-/

set_option autoImplicit false

namespace Mty.Grammar
open Spec Pat Lex

/-! ## Tokens and gaps at a known position -/

theorem append_cancel {b b' r r' : Str} (h : b ++ r = b' ++ r') (hl : byteLen b = byteLen b') : b = b' ∧ r = r' := by
  have h1 := splitBytes_append b r
  have h2 := splitBytes_append b' r'
  rw [h, hl, h2] at h1
  cases h1
  exact ⟨rfl, rfl⟩

theorem byteLen_inj {b m m' r r' : Str} (h : m ++ r = m' ++ r') (hl : byteLen (b ++ m) = byteLen (b ++ m')) :
    m = m' ∧ r = r' := by
  refine append_cancel h ?_
  rw [byteLen_app, byteLen_app] at hl
  omega

theorem reads_at {src b r : Str} {p : Pat} {q : Nat} (hs : src = b ++ r) (h : reads src p ⟨byteLen b, q⟩ = true) :
    ∃ m a, r = m ++ a ∧ p b r = some (m, a) ∧ q = byteLen (b ++ m) := by
  obtain ⟨b', m, a, h1, h2, h3⟩ := reads_iff.mp h
  have h4 : byteLen b = byteLen b' := congrArg Range.start h2
  obtain ⟨rfl, rfl⟩ := append_cancel (hs ▸ h1) h4
  exact ⟨m, a, rfl, h3, congrArg Range.stop h2⟩

theorem reads_at' {src b r : Str} {p : Pat} {x : Range} (hs : src = b ++ r) (h0 : x.start = byteLen b)
    (h : reads src p x = true) : ∃ m a, r = m ++ a ∧ p b r = some (m, a) ∧ x.stop = byteLen (b ++ m) := by
  obtain ⟨x1, x2⟩ := x
  simp only at h0
  subst h0
  exact reads_at hs h

theorem gap_at {src b r : Str} {p : Char → Bool} {q : Nat} (hs : src = b ++ r) (h : gap src p (byteLen b) q = true) :
    ∃ m a, r = m ++ a ∧ (∀ c ∈ m, p c = true) ∧ q = byteLen (b ++ m) := by
  obtain ⟨b', m, a, h1, h2, h3, h4⟩ := gap_iff.mp h
  obtain ⟨rfl, rfl⟩ := append_cancel (hs ▸ h1) h2
  exact ⟨m, a, rfl, h4, h3⟩

/-- No node but text and selectors begins like a word, or at the end of a line. -/
theorem exact_head {t b r : Str} {c : Char} (ht : t.head? = some c) (hr : r.head? ≠ some c) : Pat.exact t b r = none := by
  cases t with
  | nil => cases ht
  | cons d t =>
    cases ht
    cases r with
    | nil => rfl
    | cons e r =>
      have : ¬ c = e := by rintro rfl; exact hr rfl
      simp [Pat.exact, List.isPrefixOf, this]

/-- Where only words can begin. -/
def Wordy (r : Str) : Prop := (∀ c, r.head? = some c → c ∉ ['[', '{', '<', '>']) ∧ ¬ BeginsWithFence r

theorem wordy_reads {src b r t : Str} {x : Range} {c : Char} (hs : src = b ++ r) (hw : Wordy r)
    (ht : t.head? = some c) (hc : c ∈ ['[', '{', '<', '>']) (h0 : x.start = byteLen b) :
    reads src (Pat.exact t) x = false := by
  rw [Bool.eq_false_iff]
  intro h
  obtain ⟨m, a, -, h2, -⟩ := reads_at' hs h0 h
  rw [exact_head ht fun h => hw.1 c h hc] at h2
  cases h2

theorem interpolation_none {b r : Str} (hw : Wordy r) : interpolation b r = none := by
  have h : ∀ t : Str, ∀ c ∈ ['{', '<'], t.head? = some c → ∀ b, Pat.exact t b r = none := fun t c hc ht b =>
    exact_head ht fun h => hw.1 c h (by
      simp only [List.mem_cons, List.not_mem_nil, or_false] at hc ⊢; tauto)
  have h1 : ∀ p b, seq (notFollows fun c => decide (c ∈ ['\\', '{'])) (seq (Pat.exact "{{".toList) p) b r = none := by
    intro p b
    rw [seq]
    cases hn : notFollows (fun c => decide (c ∈ ['\\', '{'])) b r with
    | none => rfl
    | some x =>
      obtain ⟨m, r1⟩ := x
      have : m = [] ∧ r1 = r := by
        rw [notFollows] at hn
        split at hn
        · split at hn <;> cases hn; exact ⟨rfl, rfl⟩
        · cases hn; exact ⟨rfl, rfl⟩
      obtain ⟨rfl, rfl⟩ := this
      simp only
      rw [seq, h _ '{' (by decide) rfl]
  rw [interpolation, alt, h1]
  simp only
  rw [alt, seq, h _ '{' (by decide) rfl]
  simp only
  rw [alt, seq, h _ '<' (by decide) rfl]
  simp only
  rw [seq, h _ '<' (by decide) rfl]

theorem fence_none {src b r : Str} {x : Range} (hs : src = b ++ r) (hw : Wordy r) (h0 : x.start = byteLen b) (k : MultilineKind) :
    reads src (multilineOpen [fence k, fence k, fence k]) x = false := by
  rw [Bool.eq_false_iff]
  intro h
  obtain ⟨m, a, -, h2, -⟩ := reads_at' hs h0 h
  rw [multilineOpen] at h2
  obtain ⟨m1, r1, m2, h3, -, -⟩ := seq_some h2
  obtain ⟨-, rfl⟩ := exact_some h3
  refine hw.2 ⟨r1, ?_⟩
  cases k <;> simp [fence]

theorem specialDelims_head (f : Ast.SpecialForm) : (specialDelims f).1.head? = some '<' := by cases f <;> rfl

/-- At a place where only words can begin: a segment or a selector chain. -/
theorem wordy_type {al : Char → Bool} {src b r : Str} {e : Nat} {ty : Ast.NodeType} (hs : src = b ++ r) (hw : Wordy r)
    (h : typeOk al src (byteLen b) e ty = true) :
    (∃ m a, ty = .text (.segment ⟨byteLen b, e⟩) ∧ textSegment al b r = some (m, a) ∧ r = m ++ a ∧ e = byteLen (b ++ m)) ∨
    (selectorChain al b r).isSome := by
  cases ty with
  | multiline k s e' =>
    rw [typeOk] at h
    simp only [Bool.and_eq_true] at h
    rw [fence_none hs hw rfl] at h
    exact absurd h.1.1 (by simp)
  | text t =>
    rw [typeOk] at h
    cases t with
    | segment x =>
      rw [inlineTextOk] at h
      simp only [Bool.and_eq_true, beq_iff_eq] at h
      obtain ⟨rfl, h⟩ := h
      obtain ⟨m, a, h1, h2, h3⟩ := reads_at hs h
      exact .inl ⟨m, a, rfl, h2, h1, h3⟩
    | verbatim o raw tail =>
      rw [inlineTextOk.eq_def] at h
      simp only [Bool.and_eq_true, beq_iff_eq] at h
      rw [wordy_reads hs hw (c := '<') rfl (by decide) h.1.1.1.1] at h
      exact absurd h.1.1.1.2 (by simp)
    | comment c =>
      rw [inlineTextOk] at h
      simp only [Bool.and_eq_true, beq_iff_eq] at h
      have h1 := h.1.1.1.2
      rw [wordy_reads hs hw (c := '<') rfl (by decide) h.1.1.1.1.2] at h1
      cases h1
    | interpolation x =>
      rw [inlineTextOk] at h
      simp only [Bool.and_eq_true, beq_iff_eq] at h
      obtain ⟨rfl, h⟩ := h
      obtain ⟨m, a, h1, h2, h3⟩ := reads_at hs h
      rw [interpolation_none hw] at h2
      cases h2
  | selector s =>
    rw [typeOk] at h
    simp only [Bool.and_eq_true, beq_iff_eq] at h
    obtain ⟨⟨h1, h2⟩, h3⟩ := h
    rw [selectorOk] at h3
    simp only [Bool.and_eq_true] at h3
    obtain ⟨h3, -⟩ := h3
    cases hf : s.first with
    | attributes a =>
      rw [hf] at h3
      simp only [Bool.and_eq_true, beq_iff_eq] at h3
      obtain ⟨h4, h5⟩ := h3
      rw [attributesOk] at h5
      simp only [Bool.and_eq_true, beq_iff_eq] at h5
      have h6 := h5.1.1.2
      rw [wordy_reads hs hw (c := '[') rfl (by decide) (by rw [h5.1.1.1, h4, h1])] at h6
      cases h6
    | tag el cs =>
      rw [hf] at h3
      simp only at h3
      rw [chainOk.eq_def] at h3
      simp only [Bool.and_eq_true] at h3
      obtain ⟨m, a, -, h5, -⟩ := reads_at' hs h1 h3.1
      right
      rw [h5]; rfl
  | line c =>
    rw [typeOk] at h
    simp only [Bool.and_eq_true, beq_iff_eq] at h
    obtain ⟨rfl, h⟩ := h
    rw [wordy_reads hs hw (c := '>') rfl (by decide) rfl] at h
    cases h
  | block l c x =>
    obtain ⟨s, ls, e'⟩ := c
    rw [typeOk] at h
    simp only [Bool.and_eq_true, beq_iff_eq] at h
    have h1 := h.1.1.1.2
    rw [wordy_reads hs hw (c := '{') rfl (by decide) h.1.1.1.1] at h1
    cases h1
  | inline o inner c =>
    rw [typeOk] at h
    simp only [Bool.and_eq_true, beq_iff_eq] at h
    have h1 := h.1.1.1.2
    rw [wordy_reads hs hw (c := '<') rfl (by decide) h.1.1.1.1] at h1
    cases h1
  | special f o c x =>
    obtain ⟨s, ls, e'⟩ := c
    rw [typeOk] at h
    simp only [Bool.and_eq_true, beq_iff_eq] at h
    have h1 := h.1.1.1.2
    rw [wordy_reads hs hw (c := '<') (specialDelims_head f) (by decide) h.1.1.1.1] at h1
    cases h1
  | code x =>
    rw [typeOk] at h
    simp only [Bool.and_eq_true, beq_iff_eq] at h
    obtain ⟨rfl, h⟩ := h
    obtain ⟨m, a, -, h2, -⟩ := reads_at hs h
    rw [inlineCode] at h2
    obtain ⟨m1, r1, m2, h3, -, -⟩ := seq_some h2
    rw [exact_head (c := '<') rfl (fun h => hw.1 _ h (by decide))] at h3
    cases h3

/-! ## Nodes of a line -/

theorem nl_wordEnd {r : Str} (h : ∀ c, r.head? = some c → c = '\n') : WordEnd r := fun c hc => by
  rw [h c hc, ← white_iff]; decide

theorem wordEnd_wordy {r : Str} (h : WordEnd r) : Wordy r := by
  constructor
  · intro c hc hm
    have := h c hc
    rw [← white_iff] at this
    simp only [List.mem_cons, List.not_mem_nil, or_false] at hm
    rcases hm with rfl | rfl | rfl | rfl <;> exact absurd this (by decide)
  · rintro ⟨r', rfl | rfl | rfl⟩ <;>
      (have := h _ rfl; rw [← white_iff] at this; exact absurd this (by decide))

theorem no_type {al : Char → Bool} (hal : LettersAndDigits al) {src b r : Str} {e : Nat} {ty : Ast.NodeType} (hs : src = b ++ r) (hw : WordEnd r) :
    typeOk al src (byteLen b) e ty = false := by
  rw [Bool.eq_false_iff]
  intro h
  rcases wordy_type hs (wordEnd_wordy hw) h with ⟨m, a, -, h1, -⟩ | h1
  · rw [textSegment_end hal hw] at h1; cases h1
  · rw [selectorChain_end hal hw] at h1; cases h1

theorem space_at {src b sp r : Str} {x : Range} (hs : src = b ++ (sp ++ r)) (h1 : ∀ c ∈ sp, isSpace c = true)
    (h2 : ∀ c, r.head? = some c → isSpace c = false) (h0 : x.start = byteLen b) (h : reads src space x = true) :
    x.stop = byteLen (b ++ sp) := by
  obtain ⟨m, a, h3, h4, h5⟩ := reads_at' hs h0 h
  by_cases he : sp = []
  · subst he
    rw [List.nil_append, space_none h2] at h4
    cases h4
  · rw [space_some h1 he h2] at h4
    cases h4
    exact h5

variable {al : Char → Bool} (hal : LettersAndDigits al) {src : Str}

include hal in
/-- There are no nodes at the end of a line. -/
theorem nodes_blank {b sp r : Str} {q : Nat} {ns : List Ast.Node} (hs : src = b ++ (sp ++ r)) (h1 : ∀ c ∈ sp, isSpace c = true)
    (h2 : ∀ c, r.head? = some c → c = '\n') (h : nodesOk al src (byteLen b) q ns = true) : ns = [] ∧ q = byteLen b := by
  have h3 : ∀ c, r.head? = some c → isSpace c = false := fun c hc => by rw [h2 c hc]; decide
  cases ns with
  | nil => rw [nodesOk] at h; exact ⟨rfl, (beq_iff_eq.mp h).symm⟩
  | cons n ns =>
    obtain ⟨x, a, e, ty⟩ := n
    rw [nodesOk] at h
    simp only [Bool.and_eq_true] at h
    obtain ⟨⟨h4, h5⟩, -⟩ := h
    exfalso
    cases x with
    | none =>
      rw [spaceOk, beq_iff_eq] at h4
      subst h4
      rw [no_type hal hs] at h5
      · cases h5
      · intro c hc
        cases sp with
        | nil => exact nl_wordEnd h2 c hc
        | cons d sp => simp at hc; subst hc; exact ((isSpace_iff _).1 (h1 _ (by simp))).1
    | some x =>
      rw [spaceOk] at h4
      simp only [Bool.and_eq_true, beq_iff_eq] at h4
      obtain ⟨⟨h6, h7⟩, h8⟩ := h4
      rw [← h8, space_at hs h1 h3 h6 h7] at h5
      rw [no_type hal (b := b ++ sp) (r := r) (by rw [hs]; simp) (nl_wordEnd h2)] at h5
      cases h5

/-- The source after a line of text. -/
structure After (al : Char → Bool) (r : Str) : Prop where
  blanks : ∃ sp r', r = sp ++ r' ∧ (∀ c ∈ sp, isSpace c = true) ∧ ∀ c, r'.head? = some c → c = '\n'
  quiet : Quiet r

theorem After.wordEnd {r : Str} (h : After al r) : WordEnd r := by
  obtain ⟨sp, r', rfl, h1, h2⟩ := h.blanks
  intro c hc
  cases sp with
  | nil => exact nl_wordEnd h2 c hc
  | cons d sp => simp at hc; subst hc; exact ((isSpace_iff _).1 (h1 _ (by simp))).1

include hal in
theorem After.done {r : Str} (h : After al r) : Done al r := by
  obtain ⟨sp, r', rfl, h1, h2⟩ := h.blanks
  exact done_of hal h1 h2

theorem wordy_line {s r : Str} (hs : LexesLine s) (hf : ¬ BeginsWithFence s) (hr : WordEnd r) : Wordy (s ++ r) := by
  obtain ⟨c, s', rfl, hc⟩ := line_head hs
  constructor
  · intro d hd hm
    simp at hd; subst hd
    refine (starts_spec hc).2 ?_
    simp only [List.mem_cons, List.not_mem_nil, or_false] at hm ⊢
    tauto
  · intro h
    apply hf
    have hw : ∀ d ∈ ['"', '\'', '`'], ∀ r', r ≠ d :: r' := by
      rintro d hd r' rfl
      have := hr d rfl
      rw [← white_iff] at this
      simp only [List.mem_cons, List.not_mem_nil, or_false] at hd
      rcases hd with rfl | rfl | rfl <;> exact absurd this (by decide)
    have key : ∀ d ∈ ['"', '\'', '`'], ∀ x, c :: s' ++ r = d :: d :: d :: x → ∃ y, c :: s' = d :: d :: d :: y := by
      intro d hd x hx
      rcases s' with _ | ⟨e, _ | ⟨f, s'⟩⟩
      · simp at hx; exact absurd hx.2 (hw d hd _)
      · simp at hx; exact absurd hx.2.2 (hw d hd _)
      · simp at hx; exact ⟨s', by simp [hx.1, hx.2.1, hx.2.2.1]⟩
    obtain ⟨x, h | h | h⟩ := h
    · obtain ⟨y, hy⟩ := key '"' (by decide) x h; exact ⟨y, .inl hy⟩
    · obtain ⟨y, hy⟩ := key '\'' (by decide) x h; exact ⟨y, .inr (.inl hy)⟩
    · obtain ⟨y, hy⟩ := key '`' (by decide) x h; exact ⟨y, .inr (.inr hy)⟩

include hal in
/-- The nodes of a line of text: one segment. -/
theorem nodes_line {b w s r : Str} {q : Nat} {ns : List Ast.Node} (hsrc : src = b ++ (w ++ (s ++ r)))
    (hw : ∀ c ∈ w, isSpace c = true) (hs : LexesLine s) (hf : ¬ BeginsWithFence s) (hr : After al r)
    (h : nodesOk al src (byteLen b) q ns = true) :
    ns = [] ∨ ∃ sp, ns = [.mk sp (byteLen (b ++ w)) (byteLen (b ++ w ++ s))
      (.text (.segment ⟨byteLen (b ++ w), byteLen (b ++ w ++ s)⟩))] := by
  cases ns with
  | nil => exact .inl rfl
  | cons n ns =>
    right
    obtain ⟨x, a, e, ty⟩ := n
    obtain ⟨c0, s0, hs0, hc0⟩ := line_head hs
    have hns : ∀ c, (s ++ r).head? = some c → isSpace c = false := fun c hc => by
      rw [hs0] at hc; simp at hc; subst hc; exact starts_not_space hc0
    rw [nodesOk] at h
    simp only [Bool.and_eq_true] at h
    obtain ⟨⟨h4, h5⟩, h6⟩ := h
    have ha : a = byteLen (b ++ w) := by
      cases x with
      | none =>
        rw [spaceOk, beq_iff_eq] at h4
        subst h4
        cases w with
        | nil => simp
        | cons d w =>
          rw [no_type hal hsrc (fun c hc => by
            simp at hc; subst hc; exact ((isSpace_iff _).1 (hw _ (by simp))).1)] at h5
          cases h5
      | some x =>
        rw [spaceOk] at h4
        simp only [Bool.and_eq_true, beq_iff_eq] at h4
        obtain ⟨⟨h6, h7⟩, h8⟩ := h4
        rw [← h8, space_at hsrc hw hns h6 h7]
    subst ha
    have hsrc' : src = (b ++ w) ++ (s ++ r) := by rw [hsrc]; simp
    have hseg := textSegment_line hal (b := b ++ w) hs ⟨hr.wordEnd, hr.quiet⟩ (hr.done hal)
    rcases wordy_type hsrc' (wordy_line hs hf hr.wordEnd) h5 with ⟨m, a', h1, h2, h3, h7⟩ | h1
    · rw [hseg] at h2
      cases h2
      subst h7
      obtain ⟨sp', r', rfl, h8, h9⟩ := hr.blanks
      obtain ⟨rfl, -⟩ := nodes_blank hal (b := b ++ w ++ s) (by rw [hsrc]; simp) h8 h9 h6
      exact ⟨x, by rw [h1]⟩
    · rw [selectorChain_line hal hs ⟨hr.wordEnd, hr.quiet⟩] at h1
      cases h1

/-! ## Lines -/

/-- The nodes of a line between two positions (a part of `linesOk`). -/
def bodyOk (al : Char → Bool) (src : Str) (s : Nat) (ns : List Ast.Node) (e : Nat) : Prop :=
  gap src isSpace s (nodesStart s ns) = true ∧ nodesOk al src (nodesStart s ns) (nodesEnd s ns) ns = true ∧
    gap src isSpace (nodesEnd s ns) e = true

theorem linesOk_cons {first : Bool} {p q s e : Nat} {ns : List Ast.Node} {ls : List Ast.Line} :
    linesOk al src first p q (.mk s ns e :: ls) = true ↔
      (if first then gap src isWhitespace p s else reads src newLine ⟨p, s⟩) = true ∧ bodyOk al src s ns e ∧
        linesOk al src false e q ls = true := by
  rw [linesOk, bodyOk]
  simp only [Bool.and_eq_true]
  tauto

/-- A list that begins like a list of white characters followed by another one. -/
theorem prefix_white {p : Char → Bool} {m a w s : Str} (h : m ++ a = w ++ s) (hm : ∀ c ∈ m, p c = true)
    (hs : ∀ c, s.head? = some c → p c = false) : ∃ w', w = m ++ w' ∧ a = w' ++ s := by
  induction m generalizing w with
  | nil => exact ⟨w, rfl, by simpa using h⟩
  | cons c m ih =>
    cases w with
    | nil =>
      exfalso
      cases s with
      | nil => simp at h
      | cons d s =>
        simp at h
        have := hs d rfl
        rw [← h.1, hm c (by simp)] at this
        cases this
    | cons d w =>
      simp at h
      obtain ⟨rfl, h⟩ := h
      obtain ⟨w', rfl, h'⟩ := ih h (fun c hc => hm c (by simp [hc]))
      exact ⟨w', rfl, h'⟩

theorem prefix_any {p : Char → Bool} {m a w s : Str} (h : m ++ a = w ++ s) (hm : ∀ c ∈ m, p c = true)
    (hs : ∀ c, s.head? = some c → p c = false) : ∃ w', w = m ++ w' := by
  obtain ⟨w', h', -⟩ := prefix_white h hm hs
  exact ⟨w', h'⟩

theorem nl_not_space {r : Str} (h : ∀ c, r.head? = some c → c = '\n') : ∀ c, r.head? = some c → isSpace c = false :=
  fun c hc => by rw [h c hc]; decide

theorem nodesStart_ne {p p' : Nat} {ns : List Ast.Node} (h : ns ≠ []) : nodesStart p ns = nodesStart p' ns := by
  rcases ns with _ | ⟨⟨x, _, _, _⟩, _⟩
  · exact absurd rfl h
  · cases x <;> rfl

include hal in
theorem body_blank {b w r : Str} {ns : List Ast.Node} {e : Nat} (hsrc : src = b ++ (w ++ r)) (hw : ∀ c ∈ w, isSpace c = true)
    (hr : ∀ c, r.head? = some c → c = '\n') (h : bodyOk al src (byteLen b) ns e) :
    ns = [] ∧ ∃ m w', w = m ++ w' ∧ e = byteLen (b ++ m) := by
  obtain ⟨h1, h2, h3⟩ := h
  obtain ⟨m0, a0, h4, h5, h6⟩ := gap_at hsrc h1
  obtain ⟨w0, rfl, rfl⟩ := prefix_white h4.symm h5 (nl_not_space hr)
  rw [h6] at h2
  obtain ⟨rfl, h7⟩ := nodes_blank hal (b := b ++ m0) (sp := w0) (r := r) (by rw [hsrc]; simp)
    (fun c hc => hw c (by simp [hc])) hr h2
  refine ⟨rfl, ?_⟩
  obtain ⟨m, a, h8, h9, h10⟩ := gap_at hsrc h3
  obtain ⟨w', h11⟩ := prefix_any h8.symm h9 (nl_not_space hr)
  exact ⟨m, w', h11, h10⟩

include hal in
theorem body_line {b w s r : Str} {ns : List Ast.Node} {e : Nat} (hsrc : src = b ++ (w ++ (s ++ r)))
    (hw : ∀ c ∈ w, isSpace c = true) (hs : LexesLine s) (hf : ¬ BeginsWithFence s) (hr : After al r)
    (h : bodyOk al src (byteLen b) ns e) :
    (ns = [] ∧ ∃ m w', w = m ++ w' ∧ e = byteLen (b ++ m)) ∨
    (∃ sp, ns = [.mk sp (byteLen (b ++ w)) (byteLen (b ++ w ++ s))
      (.text (.segment ⟨byteLen (b ++ w), byteLen (b ++ w ++ s)⟩))]) ∧
      ∃ m r', r = m ++ r' ∧ (∀ c ∈ m, isSpace c = true) ∧ e = byteLen (b ++ w ++ s ++ m) := by
  obtain ⟨h1, h2, h3⟩ := h
  obtain ⟨c0, s0, hs0, hc0⟩ := line_head hs
  have hns : ∀ c, (s ++ r).head? = some c → isSpace c = false := fun c hc => by
    rw [hs0] at hc; simp at hc; subst hc; exact starts_not_space hc0
  by_cases hne : ns = []
  · subst hne
    obtain ⟨m, a, h8, h9, h10⟩ := gap_at hsrc h3
    obtain ⟨w', h11⟩ := prefix_any h8.symm h9 hns
    exact .inl ⟨rfl, m, w', h11, h10⟩
  · obtain ⟨m0, a0, h4, h5, h6⟩ := gap_at hsrc h1
    obtain ⟨w0, rfl, rfl⟩ := prefix_white h4.symm h5 hns
    rw [h6] at h2
    rcases nodes_line hal (b := b ++ m0) (w := w0) (by rw [hsrc]; simp) (fun c hc => hw c (by simp [hc])) hs hf hr h2 with h7 | ⟨sp, rfl⟩
    · exact absurd h7 hne
    · refine .inr ⟨⟨sp, by simp⟩, ?_⟩
      simp only [nodesEnd] at h3
      obtain ⟨m, a, h8, h9, h10⟩ := gap_at (b := b ++ m0 ++ w0 ++ s) (r := r) (by rw [hsrc]; simp) h3
      exact ⟨m, a, h8, h9, by rw [h10]; simp⟩

/-- The token at the end of a line. -/
theorem newLine_at {b sp sp' r : Str} {q : Nat} (hsrc : src = b ++ (sp ++ '\n' :: (sp' ++ r))) (h1 : ∀ c ∈ sp, isSpace c = true)
    (h2 : ∀ c ∈ sp', isSpace c = true) (h3 : ∀ c, r.head? = some c → isSpace c = false)
    (h : reads src newLine ⟨byteLen b, q⟩ = true) : q = byteLen (b ++ (sp ++ '\n' :: sp')) := by
  obtain ⟨m, a, h4, h5, h6⟩ := reads_at hsrc h
  have h7 : newLine b (sp ++ '\n' :: (sp' ++ r)) = some (sp ++ '\n' :: sp', r) := by
    rw [newLine, seq, many_chr h1 (fun c hc => by simp at hc; subst hc; decide)]
    simp only
    rw [seq, show chr (fun x => decide (x = '\n')) (b ++ sp) ('\n' :: (sp' ++ r)) = some (['\n'], sp' ++ r) from rfl]
    simp only
    rw [many_chr h2 h3]
    rfl
  rw [h7] at h5
  cases h5
  exact h6

theorem newLine_none {b sp r : Str} {q : Nat} (hsrc : src = b ++ (sp ++ r)) (h1 : ∀ c ∈ sp, isSpace c = true)
    (h2 : ∀ c, r.head? = some c → ¬ White c) : reads src newLine ⟨byteLen b, q⟩ = false := by
  rw [Bool.eq_false_iff]
  intro h
  obtain ⟨m, a, h4, h5, h6⟩ := reads_at hsrc h
  have h3 : ∀ c, r.head? = some c → isSpace c = false := fun c hc => by
    rw [Bool.eq_false_iff, ne_eq, isSpace_iff]; exact fun h => h2 c hc h.1
  rw [newLine, seq, many_chr h1 h3] at h5
  simp only at h5
  rw [seq] at h5
  cases r with
  | nil => simp [chr] at h5
  | cons c r =>
    have : c ≠ '\n' := by rintro rfl; exact h2 _ rfl (by rw [← white_iff]; decide)
    simp [chr, this] at h5

/-- The white space of a separator up to its first line feed. -/
theorem split_blank : ∀ w : Str, (∀ c ∈ w, White c) → ∃ sp w', w = sp ++ w' ∧ (∀ c ∈ sp, isSpace c = true) ∧
    ∀ c, w'.head? = some c → c = '\n'
  | [], _ => ⟨[], [], rfl, by simp, by simp⟩
  | c :: w, h => by
    by_cases hc : c = '\n'
    · exact ⟨[], c :: w, rfl, by simp, by simp [hc]⟩
    · obtain ⟨sp, w', rfl, h1, h2⟩ := split_blank w fun d hd => h d (by simp [hd])
      exact ⟨c :: sp, w', rfl, by
        intro d hd
        rw [List.mem_cons] at hd
        rcases hd with rfl | hd
        · exact (isSpace_iff _).2 ⟨h _ (by simp), hc⟩
        · exact h1 d hd, h2⟩

/-- The end of the document is only white space away. -/
def EndsAt (src : Str) (q : Nat) : Prop := gap src isWhitespace q (byteLen src) = true

theorem endsAt_white {b r : Str} (hsrc : src = b ++ r) (h : EndsAt src (byteLen b)) : ∀ c ∈ r, White c := by
  obtain ⟨m, a, rfl, h2, h3⟩ := gap_at hsrc h
  rw [hsrc] at h3
  have : a = [] := by
    have h4 : byteLen (b ++ (m ++ a)) = byteLen (b ++ m) := h3
    rw [byteLen_app, byteLen_app, byteLen_app] at h4
    cases a with
    | nil => rfl
    | cons c a =>
      have := Char.utf8Size_pos c
      simp only [byteLen] at h4
      omega
  subst this
  intro c hc
  rw [List.append_nil] at hc
  exact (white_iff c).1 (h2 c hc)

include hal in
theorem lines_none {b sp s r : Str} {q : Nat} {ls : List Ast.Line} (hsrc : src = b ++ (sp ++ (s ++ r)))
    (h1 : ∀ c ∈ sp, isSpace c = true) (hs : LexesLine s) (he : EndsAt src q)
    (h : linesOk al src false (byteLen b) q ls = true) : False := by
  obtain ⟨c0, s0, rfl, hc0⟩ := line_head hs
  rcases ls with _ | ⟨⟨s1, ns, e⟩, ls⟩
  · rw [linesOk] at h
    simp only [Bool.false_eq_true, if_false, beq_iff_eq] at h
    subst h
    exact (starts_spec hc0).1 (endsAt_white hsrc he c0 (by simp))
  · rw [linesOk_cons] at h
    simp only [Bool.false_eq_true, if_false] at h
    rw [newLine_none hsrc h1 (fun c hc => by simp at hc; subst hc; exact (starts_spec hc0).1)] at h
    exact absurd h.1 (by simp)

/-- A line without nodes, or with one segment. -/
def LineIs (src : Str) : Ast.Line → Option Str → Prop
  | .mk _ ns _, none => ns = []
  | .mk _ ns _, some s => ∃ sp a b, ns = [.mk sp a b (.text (.segment ⟨a, b⟩))] ∧ (Range.mk a b).slice src = s ∧ s ≠ []

theorem slice_mid (a m b : Str) : (Range.mk (byteLen a) (byteLen (a ++ m))).slice (a ++ (m ++ b)) = m := by
  simp [Range.slice, dropBytes_append, byteLen_app, takeBytes_append]

theorem count_space {sp : Str} (h : ∀ c ∈ sp, isSpace c = true) : sp.count '\n' = 0 :=
  List.count_eq_zero.2 fun hc => ((isSpace_iff _).1 (h _ hc)).2 rfl

/-- The parts of a separator with a line feed. -/
theorem split_sep {w : Str} (h : ∀ c ∈ w, White c) (hn : 1 ≤ w.count '\n') :
    ∃ sp sp' w', w = sp ++ '\n' :: (sp' ++ w') ∧ (∀ c ∈ sp, isSpace c = true) ∧ (∀ c ∈ sp', isSpace c = true) ∧
      (∀ c, w'.head? = some c → c = '\n') ∧ w'.count '\n' + 1 = w.count '\n' ∧ ∀ c ∈ w', White c := by
  obtain ⟨sp, w1, rfl, h1, h2⟩ := split_blank w h
  cases w1 with
  | nil => rw [List.append_nil, count_space h1] at hn; omega
  | cons c w1 =>
    obtain rfl := h2 c rfl
    obtain ⟨sp', w', rfl, h3, h4⟩ := split_blank w1 fun c hc => h c (by simp [hc])
    refine ⟨sp, sp', w', rfl, h1, h3, h4, ?_, fun c hc => h c (by simp [hc])⟩
    rw [List.count_append, List.count_cons, List.count_append, count_space h1, count_space h3]
    simp

include hal in
/-- From the end of a line over a separator to the next line. -/
theorem lines_sep {s r : Str} (hs : LexesLine s) (hf : ¬ BeginsWithFence s) (hr : After al r) : ∀ (k : Nat) (b sep : Str) {q : Nat} {ls : List Ast.Line},
    src = b ++ (sep ++ (s ++ r)) → (∀ c ∈ sep, White c) → sep.count '\n' = k + 1 → EndsAt src q →
    linesOk al src false (byteLen b) q ls = true →
    ∃ bl l ls' m r', ls = bl ++ l :: ls' ∧ bl.length = k ∧ (∀ x ∈ bl, LineIs src x none) ∧ LineIs src l (some s) ∧
      r = m ++ r' ∧ (∀ c ∈ m, isSpace c = true) ∧ linesOk al src false (byteLen (b ++ sep ++ s ++ m)) q ls' = true := by
  obtain ⟨c0, s0, hs0, hc0⟩ := line_head hs
  have hsw : ∀ c, (s ++ r).head? = some c → Starts c := fun c hc => by
    rw [hs0] at hc; simp at hc; subst hc; exact hc0
  intro k
  induction k with
  | zero =>
    intro b sep q ls hsrc hw hk he h
    obtain ⟨sp, sp', w', rfl, h1, h2, h3, h4, h5⟩ := split_sep hw (by omega)
    have hw' : w' = [] := by
      cases w' with
      | nil => rfl
      | cons c w' => obtain rfl := h3 c rfl; rw [hk] at h4; simp at h4
    subst hw'
    rcases ls with _ | ⟨⟨s1, ns, e⟩, ls⟩
    · rw [linesOk] at h
      simp only [Bool.false_eq_true, if_false, beq_iff_eq] at h
      subst h
      exact absurd (endsAt_white hsrc he c0 (by simp [hs0])) (starts_spec hc0).1
    · rw [linesOk_cons] at h
      simp only [Bool.false_eq_true, if_false] at h
      obtain ⟨h6, h7, h8⟩ := h
      obtain rfl := newLine_at (b := b) (sp := sp) (sp' := sp') (r := s ++ r) (by rw [hsrc]; simp) h1 h2
        (fun c hc => starts_not_space (hsw c hc)) h6
      rcases body_line hal (b := b ++ (sp ++ '\n' :: sp')) (w := []) (by rw [hsrc]; simp) (by simp) hs hf hr h7 with
        ⟨-, m, w', h9, h10⟩ | ⟨⟨x, h9⟩, m, r', h10, h11, h12⟩
      · obtain ⟨rfl, rfl⟩ := List.append_eq_nil_iff.1 h9.symm
        subst h10
        exact (lines_none hal (b := b ++ (sp ++ '\n' :: sp') ++ []) (sp := []) (s := s) (r := r) (by rw [hsrc]; simp) (by simp) hs he h8).elim
      · subst h12
        refine ⟨[], _, ls, m, r', rfl, rfl, by simp, ⟨x, _, _, h9, ?_, by simp [hs0]⟩, h10, h11, ?_⟩
        · have := slice_mid (b ++ (sp ++ '\n' :: sp') ++ []) s r
          rw [show src = b ++ (sp ++ '\n' :: sp') ++ [] ++ (s ++ r) by rw [hsrc]; simp]
          exact this
        · simpa using h8
  | succ k ih =>
    intro b sep q ls hsrc hw hk he h
    obtain ⟨sp, sp', w', rfl, h1, h2, h3, h4, h5⟩ := split_sep hw (by omega)
    rcases ls with _ | ⟨⟨s1, ns, e⟩, ls⟩
    · rw [linesOk] at h
      simp only [Bool.false_eq_true, if_false, beq_iff_eq] at h
      subst h
      exact absurd (endsAt_white hsrc he c0 (by simp [hs0])) (starts_spec hc0).1
    · rw [linesOk_cons] at h
      simp only [Bool.false_eq_true, if_false] at h
      obtain ⟨h6, h7, h8⟩ := h
      have hwn : w' ≠ [] := by rintro rfl; rw [hk] at h4; simp at h4
      have hh : ∀ c, (w' ++ (s ++ r)).head? = some c → c = '\n' := by
        intro c hc
        cases w' with
        | nil => exact absurd rfl hwn
        | cons d w' => simp at hc; subst hc; exact h3 _ rfl
      obtain rfl := newLine_at (b := b) (sp := sp) (sp' := sp') (r := w' ++ (s ++ r)) (by rw [hsrc]; simp) h1 h2
        (nl_not_space hh) h6
      obtain ⟨rfl, m, w2, h9, rfl⟩ := body_blank hal (b := b ++ (sp ++ '\n' :: sp')) (w := []) (by rw [hsrc]; simp) (by simp) hh h7
      obtain ⟨rfl, rfl⟩ := List.append_eq_nil_iff.1 h9.symm
      obtain ⟨bl, l, ls', m, r', rfl, h10, h11, h12, h13, h14, h15⟩ := ih (b ++ (sp ++ '\n' :: sp') ++ []) w' (by rw [hsrc]; simp) h5 (by omega) he h8
      refine ⟨_ :: bl, l, ls', m, r', rfl, by simp [h10], ?_, h12, h13, h14, ?_⟩
      · intro x hx
        rw [List.mem_cons] at hx
        rcases hx with rfl | hx
        · exact rfl
        · exact h11 x hx
      · simpa using h15

theorem white_split {r : Str} (h : ∀ c ∈ r, White c) : ∃ sp r', r = sp ++ r' ∧ (∀ c ∈ sp, isSpace c = true) ∧
    ∀ c, r'.head? = some c → c = '\n' := split_blank r h

include hal in
/-- After the last line of text there are only empty lines. -/
theorem lines_tail : ∀ (ls : List Ast.Line) (b r : Str) {q : Nat}, src = b ++ r → (∀ c ∈ r, White c) →
    linesOk al src false (byteLen b) q ls = true → ∀ x ∈ ls, LineIs src x none
  | [], _, _, _, _, _, _ => by simp
  | ⟨s1, ns, e⟩ :: ls, b, r, q, hsrc, hw, h => by
    rw [linesOk_cons] at h
    simp only [Bool.false_eq_true, if_false] at h
    obtain ⟨h6, h7, h8⟩ := h
    obtain ⟨m, a, rfl, -, rfl⟩ := reads_at hsrc h6
    obtain ⟨sp, r', rfl, h1, h2⟩ := white_split (r := a) fun c hc => hw c (by simp [hc])
    obtain ⟨rfl, m2, w2, rfl, rfl⟩ := body_blank hal (b := b ++ m) (w := sp) (r := r') (by rw [hsrc]; simp) h1 h2 h7
    intro x hx
    rw [List.mem_cons] at hx
    rcases hx with rfl | hx
    · exact rfl
    · refine lines_tail ls (b ++ m ++ m2) (w2 ++ r') (by rw [hsrc]; simp) (fun c hc => ?_) h8 x hx
      refine hw c ?_
      simp only [List.mem_append] at hc ⊢
      tauto

/-- What follows a line of text: white space, further lines after separators. -/
inductive Tail : Str → List (Option Str) → Prop
  | done {w} : (∀ c ∈ w, White c) → Tail w []
  | line {sep s r L} (k : Nat) : (∀ c ∈ sep, White c) → sep.count '\n' = k + 1 → LexesLine s → ¬ BeginsWithFence s → Tail r L →
      Tail (sep ++ (s ++ r)) (List.replicate k none ++ some s :: L)

theorem Tail.after {r : Str} {L : List (Option Str)} (h : Tail r L) : After al r := by
  cases h with
  | done h => exact ⟨white_split h, r, [], by simp, h, by simp⟩
  | @line sep s r L k h hk hs hf hr =>
    obtain ⟨c0, s0, rfl, hc0⟩ := line_head hs
    refine ⟨?_, sep, c0 :: s0 ++ r, rfl, h, by simpa using hc0⟩
    obtain ⟨sp, w', rfl, h1, h2⟩ := split_blank sep h
    refine ⟨sp, w' ++ (c0 :: s0 ++ r), by simp, h1, ?_⟩
    intro c hc
    cases w' with
    | nil => rw [List.append_nil, count_space h1] at hk; omega
    | cons d w' => simp at hc; subst hc; exact h2 _ rfl

include hal in
/-- The lines after a line of text. -/
theorem lines_after {r : Str} {L : List (Option Str)} (h : Tail r L) : ∀ (b m r' : Str) {q : Nat} {ls : List Ast.Line},
    src = b ++ r → r = m ++ r' → (∀ c ∈ m, isSpace c = true) → EndsAt src q →
    linesOk al src false (byteLen (b ++ m)) q ls = true →
    ∃ j, List.Forall₂ (LineIs src) ls (L ++ List.replicate j none) := by
  induction h with
  | @done w hw =>
    rintro b m r' q ls hsrc rfl hm he hl
    have := lines_tail hal ls (b ++ m) r' (by rw [hsrc]; simp) (fun c hc => hw c (by simp [hc])) hl
    refine ⟨ls.length, ?_⟩
    rw [List.nil_append]
    clear hl
    induction ls with
    | nil => exact .nil
    | cons l ls ih => exact .cons (this l (by simp)) (ih fun x hx => this x (by simp [hx]))
  | @line sep s r L k hw hk hs hf hr ih =>
    intro b m r' q ls hsrc hm hms he hl
    obtain ⟨c0, s0, hs0, hc0⟩ := line_head hs
    obtain ⟨sep', rfl, rfl⟩ := prefix_white hm.symm hms (fun c hc => by
      rw [hs0] at hc; simp at hc; subst hc; exact starts_not_space hc0)
    obtain ⟨bl, l, ls', m2, r2, rfl, h1, h2, h3, h4, h5, h6⟩ := lines_sep hal hs hf (hr.after (al := al)) k (b ++ m) sep'
      (by rw [hsrc]; simp) (fun c hc => hw c (by simp [hc])) (by
        rw [List.count_append, count_space hms] at hk; omega) he hl
    obtain ⟨j, h7⟩ := ih (b ++ m ++ sep' ++ s) m2 r2 (by rw [hsrc]; simp) h4 h5 he h6
    refine ⟨j, ?_⟩
    rw [List.append_assoc, List.cons_append]
    refine List.rel_append ?_ (.cons h3 h7)
    rw [← h1]
    clear hl h1
    induction bl with
    | nil => exact .nil
    | cons x bl ih => exact .cons (h2 x (by simp)) (ih fun y hy => h2 y (by simp [hy]))

include hal in
/-- The lines of a document. -/
theorem lines_document {w s r : Str} {L : List (Option Str)} {ast : Ast.Document} (hsrc : src = w ++ (s ++ r)) (hw : ∀ c ∈ w, White c)
    (hs : LexesLine s) (hf : ¬ BeginsWithFence s) (hr : Tail r L) (h : Conforms al src ast = true) :
    ∃ a ls e i j, ast.content = .mk a ls e ∧
      List.Forall₂ (LineIs src) ls (List.replicate i none ++ some s :: (L ++ List.replicate j none)) := by
  obtain ⟨c0, s0, hs0, hc0⟩ := line_head hs
  have hns : ∀ c, (s ++ r).head? = some c → isWhitespace c = false := fun c hc => by
    rw [hs0] at hc; simp at hc; subst hc
    rw [Bool.eq_false_iff, ne_eq, white_iff]; exact (starts_spec hc0).1
  rw [Conforms] at h
  cases hc : ast.content with
  | mk a ls e =>
    rw [hc] at h
    simp only [Bool.and_eq_true] at h
    obtain ⟨⟨h1, h2⟩, he⟩ := h
    refine ⟨a, ls, e, ?_⟩
    have h1 : gap src isWhitespace (byteLen []) a = true := h1
    obtain ⟨m0, a0, h3, h4, rfl⟩ := gap_at (b := []) hsrc h1
    obtain ⟨w0, rfl, rfl⟩ := prefix_white h3.symm h4 hns
    rcases ls with _ | ⟨⟨s1, ns, e1⟩, ls⟩
    · exfalso
      rw [linesOk] at h2
      simp only [if_true] at h2
      obtain ⟨m1, a1, h5, h6, rfl⟩ := gap_at (b := [] ++ m0) (r := w0 ++ (s ++ r)) (by rw [hsrc]; simp) h2
      obtain ⟨w1, rfl, rfl⟩ := prefix_white h5.symm h6 hns
      have := endsAt_white (src := src) (b := [] ++ m0 ++ m1) (r := w1 ++ (s ++ r)) (by rw [hsrc]; simp) he c0 (by simp [hs0])
      exact (starts_spec hc0).1 this
    · rw [linesOk_cons] at h2
      simp only [if_true] at h2
      obtain ⟨h5, h6, h7⟩ := h2
      obtain ⟨m1, a1, h8, h9, rfl⟩ := gap_at (b := [] ++ m0) (r := w0 ++ (s ++ r)) (by rw [hsrc]; simp) h5
      obtain ⟨w1, rfl, rfl⟩ := prefix_white h8.symm h9 hns
      simp only [List.nil_append] at h5 h6 h7
      have hw1 : ∀ c ∈ w1, White c := fun c hc => hw c (by simp [hc])
      by_cases hn : w1.count '\n' = 0
      · have hw2 : ∀ c ∈ w1, isSpace c = true := fun c hc => (isSpace_iff c).2 ⟨hw1 c hc, by
          rintro rfl; exact List.count_eq_zero.1 hn hc⟩
        rcases body_line hal (b := m0 ++ m1) (w := w1) (by rw [hsrc]; simp) hw2 hs hf (hr.after (al := al)) h6 with
          ⟨rfl, m, w', rfl, rfl⟩ | ⟨⟨x, rfl⟩, m, r', h10, h11, rfl⟩
        · exact (lines_none hal (b := m0 ++ m1 ++ m) (sp := w') (s := s) (r := r) (by rw [hsrc]; simp) (fun c hc => hw2 c (by simp [hc])) hs he h7).elim
        · obtain ⟨j, h12⟩ := lines_after hal hr (m0 ++ m1 ++ w1 ++ s) m r' (by rw [hsrc]; simp) h10 h11 he h7
          refine ⟨0, j, rfl, .cons ⟨x, _, _, rfl, ?_, by simp [hs0]⟩ h12⟩
          have := slice_mid (m0 ++ m1 ++ w1) s r
          rw [show src = m0 ++ m1 ++ w1 ++ (s ++ r) by rw [hsrc]; simp]
          exact this
      · obtain ⟨sp, w2, rfl, h10, h11⟩ := split_blank w1 hw1
        have hh : ∀ c, (w2 ++ (s ++ r)).head? = some c → c = '\n' := by
          intro c hc
          cases w2 with
          | nil => rw [List.append_nil] at hn; exact absurd (count_space h10) hn
          | cons d w2 => simp at hc; subst hc; exact h11 _ rfl
        obtain ⟨rfl, m, w3, rfl, rfl⟩ := body_blank hal (b := m0 ++ m1) (w := sp) (r := w2 ++ (s ++ r)) (by rw [hsrc]; simp) h10 hh h6
        have hms : ∀ c ∈ m, isSpace c = true := fun c hc => h10 c (by simp [hc])
        have hcm := count_space hms
        obtain ⟨bl, l, ls', m2, r2, rfl, h13, h14, h15, h16, h17, h18⟩ := lines_sep hal hs hf (hr.after (al := al))
          ((w3 ++ w2).count '\n' - 1) (m0 ++ m1 ++ m) (w3 ++ w2) (by rw [hsrc]; simp)
          (fun c hc => hw1 c (by simp only [List.mem_append] at hc ⊢; tauto)) (by
            simp only [List.count_append] at hn ⊢; omega) he h7
        obtain ⟨j, h19⟩ := lines_after hal hr (m0 ++ m1 ++ m ++ (w3 ++ w2) ++ s) m2 r2 (by rw [hsrc]; simp) h16 h17 he h18
        refine ⟨bl.length + 1, j, rfl, ?_⟩
        rw [List.replicate_succ, List.cons_append]
        refine .cons rfl (List.rel_append ?_ (.cons h15 h19))
        clear h7 h13 hc
        induction bl with
        | nil => exact .nil
        | cons x bl ih => exact .cons (h14 x (by simp)) (ih fun y hy => h14 y (by simp [hy]))

end Mty.Grammar
