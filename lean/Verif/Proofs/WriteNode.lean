import Verif.Proofs.WriteSel
import Verif.Proofs.PlainAst

/-!
# Reading what is written: nodes, rows and lines
-/

set_option autoImplicit false

namespace Mty.Grammar
open Spec Pat Lex

variable {al : Char → Bool}

/-! ## Alternatives -/

theorem firstOf_skip {f : Pos → Option (Ast.NodeType × Pos)} {fs : List (Pos → Option (Ast.NodeType × Pos))} {s : Pos} (h : f s = none) :
    firstOf (f :: fs) s = firstOf fs s := by rw [firstOf, h]

theorem firstOf_take {f : Pos → Option (Ast.NodeType × Pos)} {fs : List (Pos → Option (Ast.NodeType × Pos))} {s : Pos} {x : Ast.NodeType × Pos}
    (h : f s = some x) : firstOf (f :: fs) s = some x := by rw [firstOf, h]

theorem token_none {p : Pat} {b r : Str} (h : p b r = none) : token p ⟨b, r⟩ = none := by rw [token]; simp only [h]

theorem token_some {p : Pat} {b r m r' : Str} (h : p b r = some (m, r')) :
    token p ⟨b, r⟩ = some (⟨byteLen b, byteLen (b ++ m)⟩, ⟨b ++ m, r'⟩) := by rw [token]; simp only [h]; rfl

theorem leaf_none {p : Pat} {f : Range → Ast.NodeType} {b r : Str} (h : p b r = none) : leaf p f ⟨b, r⟩ = none := by
  rw [leaf, token_none h]

theorem leaf_some {p : Pat} {f : Range → Ast.NodeType} {b r m r' : Str} (h : p b r = some (m, r')) :
    leaf p f ⟨b, r⟩ = some (f ⟨byteLen b, byteLen (b ++ m)⟩, ⟨b ++ m, r'⟩) := by rw [leaf, token_some h]

theorem exact_none {t b r : Str} (h : t.isPrefixOf r = false) : Pat.exact t b r = none := by simp [Pat.exact, h]

theorem exact_app (t b r : Str) : Pat.exact t b (t ++ r) = some (t, r) := by
  have : t.isPrefixOf (t ++ r) = true := by rw [List.isPrefixOf_iff_prefix]; exact List.prefix_append ..
  simp [Pat.exact, this]

theorem multiline_none {k : MultilineKind} {b r : Str} (h : [fence k, fence k, fence k].isPrefixOf r = false) : multiline k ⟨b, r⟩ = none := by
  rw [multiline, token_none]
  rw [multilineOpen, seq, exact_none h]

theorem verbatim_none {b r : Str} (h : "<[".toList.isPrefixOf r = false) : verbatim ⟨b, r⟩ = none := by
  rw [verbatim, token_none (exact_none h)]

theorem comment_none {b r : Str} (h : "<!".toList.isPrefixOf r = false) : comment ⟨b, r⟩ = none := by
  rw [comment, token_none (exact_none h)]

theorem interp_none {b r : Str} (h1 : "{{".toList.isPrefixOf r = false) (h2 : "{%".toList.isPrefixOf r = false)
    (h3 : "<%".toList.isPrefixOf r = false) (h4 : "<?".toList.isPrefixOf r = false) : interpolation b r = none := by
  rw [interpolation, alt, alt, alt]
  have e1 : seq (notFollows fun c => c ∈ ['\\', '{'])
      (seq (Pat.exact "{{".toList)
        (seq (notPrecedes (chr (· = '{')))
          (lazyThen (seq (notFollows fun c => c ∈ ['\\', '}']) (seq (Pat.exact "}}".toList) (notPrecedes (chr (· = '}')))))))) b r = none := by
    rw [seq]
    split
    · rfl
    · rename_i m r1 hm
      rw [notFollows] at hm
      have : r1 = r := by
        split at hm
        · split at hm <;> simp_all
        · simp_all
      subst this
      rw [seq, exact_none h1]
  rw [e1, seq, exact_none h2, seq, exact_none h3, seq, exact_none h4]

theorem selector_none {b r : Str} (h1 : r.head? ≠ some '[') (h2 : wordPat (fun c => al c || c = '*') b r = none) : selector al ⟨b, r⟩ = none := by
  rw [selector, selectorStart, attributeSelector_none h1]
  have : selectorChain al b r = none := by
    rw [selectorChain, seq, many1, seq]
    rw [wordPat] at h2
    rw [h2]
  simp only [chain, this]

theorem block_none {n : Nat} {b r : Str} (h : r.head? ≠ some '{') : block al n ⟨b, r⟩ = none := by
  cases n with
  | zero => rw [block]
  | succ n =>
    rw [block, token_none]
    cases r with
    | nil => rfl
    | cons c r => exact exact_one_none _ _ (by rintro rfl; exact h rfl)

theorem inline_none {n : Nat} {b r : Str} (h : "<(".toList.isPrefixOf r = false) : inline al n ⟨b, r⟩ = none := by
  cases n with
  | zero => rw [inline]
  | succ n => rw [inline, token_none (exact_none h)]

theorem special_none {n : Nat} {f : Ast.SpecialForm} {b r : Str} (h : (specialDelims f).1.isPrefixOf r = false) : special al n f ⟨b, r⟩ = none := by
  cases n with
  | zero => rw [special]
  | succ n => rw [special, token_none (exact_none h)]

theorem inlineCode_none {b r : Str} (h : "<`".toList.isPrefixOf r = false) : inlineCode b r = none := by
  rw [inlineCode, seq, exact_none h]

theorem prefix_cons {c d : Char} {t r : Str} (h : c ≠ d) : (c :: t).isPrefixOf (d :: r) = false := by
  simp [List.isPrefixOf, h]

theorem prefix_second (c d : Char) {e : Char} {t r : Str} (h : d ≠ e) : (c :: d :: t).isPrefixOf (c :: e :: r) = false := by
  simp [List.isPrefixOf, h]

/-! ## Kinds of nodes by their first characters -/

theorem node_front {n : Nat} {b r : Str} {c : Char} (hc : c ∉ ['"', '\'', '`']) (ht : textSegment al b (c :: r) = none) :
    nodeType al (n + 1) ⟨b, c :: r⟩ = firstOf
      [verbatim, comment, leaf interpolation (fun r => .text (.interpolation r)),
        selector al,
        leaf (Pat.exact ">".toList) .line,
        fun s => block al n s,
        fun s => inline al n s,
        fun s => special al n .emphasis s, fun s => special al n .strong s, fun s => special al n .underline s, fun s => special al n .strike s,
        fun s => special al n .quote s,
        leaf inlineCode .code] ⟨b, c :: r⟩ := by
  have hf : ∀ k, [fence k, fence k, fence k].isPrefixOf (c :: r) = false := fun k => by
    refine prefix_cons fun h => hc ?_
    rw [← h]
    cases k <;> decide
  rw [nodeType, firstOf_skip (multiline_none (hf _)), firstOf_skip (multiline_none (hf _)), firstOf_skip (multiline_none (hf _)),
    firstOf_skip (leaf_none ht)]

/-- Nodes that do not begin with `<`, `{`. -/
theorem node_plain {n : Nat} {b r : Str} {c : Char} (hc : c ∉ ['"', '\'', '`', '<', '{']) (ht : textSegment al b (c :: r) = none) :
    nodeType al (n + 1) ⟨b, c :: r⟩ = firstOf
      [selector al,
        leaf (Pat.exact ">".toList) .line,
        fun s => block al n s,
        fun s => inline al n s,
        fun s => special al n .emphasis s, fun s => special al n .strong s, fun s => special al n .underline s, fun s => special al n .strike s,
        fun s => special al n .quote s,
        leaf inlineCode .code] ⟨b, c :: r⟩ := by
  simp only [List.mem_cons, List.not_mem_nil, or_false, not_or] at hc
  have h1 : '<' ≠ c := fun h => hc.2.2.2.1 h.symm
  have h2 : '{' ≠ c := fun h => hc.2.2.2.2 h.symm
  rw [node_front (by simp [hc.1, hc.2.1, hc.2.2.1]) ht, firstOf_skip (verbatim_none (prefix_cons h1)), firstOf_skip (comment_none (prefix_cons h1)),
    firstOf_skip (leaf_none (interp_none (prefix_cons h2) (prefix_cons h2) (prefix_cons h1) (prefix_cons h1)))]

section
variable (hal : RightForAscii al)

include hal in
/-- No node begins at the end of a row. -/
theorem node_stop {r : Str} (hr : Stop r) (n : Nat) (b : Str) : nodeType al n ⟨b, r⟩ = none := by
  have hm := marks hal
  have h1 := stop_ends (marks_star hm) hr
  have h2 := stop_ends hm hr
  have h3 := stop_head hr
  cases n with
  | zero => rw [nodeType]
  | succ n =>
    have hb : r.head? ≠ some '[' := fun h => (h3 _ h).2 (by decide)
    cases r with
    | nil =>
      rw [nodeType, firstOf_skip (multiline_none rfl), firstOf_skip (multiline_none rfl), firstOf_skip (multiline_none rfl),
        firstOf_skip (leaf_none rfl), firstOf_skip (verbatim_none rfl), firstOf_skip (comment_none rfl),
        firstOf_skip (leaf_none (interp_none rfl rfl rfl rfl)), firstOf_skip (selector_none (by simp) rfl),
        firstOf_skip (leaf_none rfl), firstOf_skip (block_none (by simp)), firstOf_skip (inline_none rfl),
        firstOf_skip (special_none rfl), firstOf_skip (special_none rfl), firstOf_skip (special_none rfl), firstOf_skip (special_none rfl),
        firstOf_skip (special_none rfl), firstOf_skip (leaf_none rfl), firstOf]
    | cons c r =>
      have hlt : '<' ≠ c := by
        rintro rfl
        cases hr with
        | close h => exact absurd h (by decide)
      have hgt : '>' ≠ c := by rintro rfl; exact (h3 _ rfl).2 (by simp)
      have hbr : '{' ≠ c := by rintro rfl; exact (h3 _ rfl).2 (by simp)
      have hq : ∀ k, [fence k, fence k, fence k].isPrefixOf (c :: r) = false := by
        intro k
        cases hr with
        | line => cases k <;> exact prefix_cons (by decide)
        | brace => cases k <;> exact prefix_cons (by decide)
        | close h =>
          simp only [List.mem_cons, List.not_mem_nil, or_false] at h
          rcases h with rfl | rfl | rfl | rfl | rfl | rfl <;> cases k <;>
            first | exact prefix_cons (by decide) | exact prefix_second '"' '"' (by decide)
      rw [nodeType, firstOf_skip (multiline_none (hq _)), firstOf_skip (multiline_none (hq _)), firstOf_skip (multiline_none (hq _)),
        firstOf_skip (leaf_none (textSegment_end' h2)), firstOf_skip (verbatim_none (prefix_cons hlt)), firstOf_skip (comment_none (prefix_cons hlt)),
        firstOf_skip (leaf_none (interp_none (prefix_cons hbr) (prefix_cons hbr) (prefix_cons hlt) (prefix_cons hlt))),
        firstOf_skip (selector_none hb (h1.1 b)),
        firstOf_skip (f := leaf (Pat.exact ">".toList) .line) (leaf_none (exact_none (prefix_cons hgt))), firstOf_skip (block_none (by simp; exact fun h => hbr h.symm)),
        firstOf_skip (inline_none (prefix_cons hlt)),
        firstOf_skip (special_none (f := .emphasis) (prefix_cons hlt)), firstOf_skip (special_none (f := .strong) (prefix_cons hlt)), firstOf_skip (special_none (f := .underline) (prefix_cons hlt)),
        firstOf_skip (special_none (f := .strike) (prefix_cons hlt)),
        firstOf_skip (special_none (f := .quote) (prefix_cons hlt)), firstOf_skip (leaf_none (inlineCode_none (prefix_cons hlt))), firstOf]

include hal in
theorem node_text {s r t : Str} (hs : LineText s t) (hf : ¬ BeginsWithFence (s ++ ['"'])) (hr : After' r) (n : Nat) (b : Str) :
    nodeType al (n + 1) ⟨b, s ++ r⟩ = some (.text (.segment ⟨byteLen b, byteLen (b ++ s)⟩), ⟨b ++ s, r⟩) := by
  obtain ⟨c, s', hs', -⟩ := line_head (lexesLine hs)
  have hr0 : ∀ c, r.head? = some c → c = '"' ∨ c ∉ ['\'', '`', '"'] := by
    obtain ⟨sp, r', rfl, h1, h2⟩ := hr
    intro c hc
    cases sp with
    | cons d sp =>
      simp at hc; subst hc
      refine .inr fun h => ?_
      have := h1 d (by simp)
      simp only [List.mem_cons, List.not_mem_nil, or_false] at h
      rcases h with rfl | rfl | rfl <;> exact absurd this (by decide)
    | nil =>
      rcases h2 with h2 | h2
      · cases h2 with
        | nil => simp at hc
        | line => simp at hc; subst hc; exact .inr (by decide)
        | brace => simp at hc; subst hc; exact .inr (by decide)
        | close h =>
          simp at hc; subst hc
          simp only [List.mem_cons, List.not_mem_nil, or_false] at h
          rcases h with rfl | rfl | rfl | rfl | rfl | rfl <;> simp
      · rw [List.nil_append, h2] at hc; cases hc; exact .inr (by decide)
  have hr1 : ∀ c d r', r = c :: d :: r' → c = '"' → d ≠ '"' := by
    obtain ⟨sp, r', rfl, h1, h2⟩ := hr
    rintro c d x hx rfl rfl
    cases sp with
    | cons d sp =>
      simp at hx; obtain ⟨rfl, _⟩ := hx
      exact absurd (h1 '"' (by simp)) (by decide)
    | nil =>
      rcases h2 with h2 | h2
      · rw [List.nil_append] at hx; subst hx; cases h2
      · rw [List.nil_append] at hx; subst hx; simp at h2
  have hq : ∀ k, [fence k, fence k, fence k].isPrefixOf (s ++ r) = false := by
    intro k
    rw [Bool.eq_false_iff]
    intro h
    rw [List.isPrefixOf_iff_prefix] at h
    obtain ⟨x, hx⟩ := h
    have hk : ∀ (y : Str), ¬ s ++ ['"'] = fence k :: fence k :: fence k :: y := by
      intro y hy
      refine hf ⟨y, ?_⟩
      cases k <;> first | exact .inl hy | exact .inr (.inl hy) | exact .inr (.inr hy)
    have hk' : fence k ∈ ['\'', '`', '"'] := by cases k <;> decide
    match s, hs', hx, hk with
    | [], h, _, _ => exact absurd h (by simp)
    | [c1], _, hx, hk =>
      simp at hx
      obtain ⟨-, hx⟩ := hx
      rcases hr0 _ (by rw [← hx]; rfl) with h | h
      · exact hr1 _ _ _ hx.symm h h
      · exact h hk'
    | [c1, c2], _, hx, hk =>
      simp at hx
      obtain ⟨h1, h2, hx⟩ := hx
      rcases hr0 _ (by rw [← hx]; rfl) with h | h
      · exact hk [] (by simp [← h1, ← h2, h])
      · exact h hk'
    | c1 :: c2 :: c3 :: s1, _, hx, hk =>
      simp at hx
      obtain ⟨h1, h2, h3, -⟩ := hx
      exact hk (s1 ++ ['"']) (by rw [← h1, ← h2, ← h3]; rfl)
  rw [nodeType, firstOf_skip (multiline_none (hq _)), firstOf_skip (multiline_none (hq _)), firstOf_skip (multiline_none (hq _)),
    firstOf_take (leaf_some (textSegment_text (marks hal) (lexesLine hs) hr))]

include hal in
theorem node_selector {h r : Str} {name : Option Str} {ps : List Spec.Part} (hs : SelectorSource h name ps) (hr : HeadEnd r) (n : Nat) (b : Str) :
    ∃ sel, nodeType al (n + 1) ⟨b, h ++ r⟩ = some (.selector sel, ⟨b ++ h, r⟩) ∧ SelectorOk sel ∧
      writtenName (b ++ h ++ r) sel = name ∧ List.Forall₂ PartIs (writtenParts (b ++ h ++ r) sel) ps := by
  obtain ⟨sel, h1, h2⟩ := selector_reads hal hs b r hr
  refine ⟨sel, ?_, h2⟩
  have ht := segment_selector hal hs b r hr
  obtain ⟨c, s, rfl, hc⟩ := selector_head hs
  rw [List.cons_append] at ht h1 ⊢
  rw [node_plain (by
    revert hc; revert c
    intro c _ _ _ _ hc
    have : ∀ c ∈ '.' :: '#' :: '*' :: '[' :: asciiList, c ∉ ['"', '\'', '`', '<', '{'] := by decide
    exact this c hc) ht, firstOf_take h1]

include hal in
theorem ends_char {c : Char} {r b : Str} (h : c ∈ ['{', '<', '>']) : textSegment al b (c :: r) = none ∧ wordPat (fun c => al c || c = '*') b (c :: r) = none := by
  have hm := marks hal
  have h1 : c ∈ ['\\', '[', ']', '{', '}', '<', '>'] := by revert h; simp; rintro (rfl | rfl | rfl) <;> simp
  have h2 : c ≠ '\\' := by rintro rfl; revert h; decide
  refine ⟨?_, ends_special (marks_star hm) h1 h2⟩
  rw [textSegment, seq]
  rw [show textWord al b (c :: r) = none from ?_]
  have := ends_special hm (r := r) (b := b) h1 h2
  rw [wordPat] at this
  rw [textWord, seq, many1, seq, this]

include hal in
theorem node_arrow (r : Str) (n : Nat) (b : Str) :
    nodeType al (n + 1) ⟨b, '>' :: r⟩ = some (.line ⟨byteLen b, byteLen (b ++ ['>'])⟩, ⟨b ++ ['>'], r⟩) := by
  obtain ⟨h1, h2⟩ := ends_char hal (c := '>') (r := r) (b := b) (by simp)
  rw [node_plain (by decide) h1, firstOf_skip (selector_none (by simp) h2), firstOf_take (f := leaf (Pat.exact ">".toList) .line) (leaf_some (exact_one '>' b r))]

include hal in
theorem node_block {w r : Str} (hw : w ≠ []) (hw' : ∀ c ∈ w, White c) (n : Nat) (b : Str) {c : Ast.Content} {s2 s3 : Pos} {cl : Option Range}
    (hc : content al n (skip isWhitespace ⟨b ++ ['{'], w ++ r⟩) = (c, s2)) (hs : closing "}".toList s2 = (cl, s3)) :
    nodeType al (n + 2) ⟨b, '{' :: (w ++ r)⟩ = some (.block ⟨byteLen b, byteLen (b ++ ['{'])⟩ c cl, s3) := by
  obtain ⟨h1, h2⟩ := ends_char hal (c := '{') (r := w ++ r) (b := b) (by simp)
  cases w with
  | nil => exact absurd rfl hw
  | cons d w =>
    have hd : ∀ c ∈ ['{', '%'], c ≠ d := by
      intro x hx hxd
      have hx' := (white_iff _).2 (hw' d (by simp))
      rw [← hxd] at hx'
      simp only [List.mem_cons, List.not_mem_nil, or_false] at hx
      rcases hx with rfl | rfl <;> exact absurd hx' (by decide)
    rw [List.cons_append] at h1 h2 hc ⊢
    rw [node_front (by decide) h1, firstOf_skip (verbatim_none (prefix_cons (by decide))), firstOf_skip (comment_none (prefix_cons (by decide))),
      firstOf_skip (leaf_none (interp_none (prefix_second '{' '{' (hd _ (by simp))) (prefix_second '{' '%' (hd _ (by simp))) (prefix_cons (by decide)) (prefix_cons (by decide)))),
      firstOf_skip (selector_none (by simp) h2), firstOf_skip (f := leaf (Pat.exact ">".toList) .line) (leaf_none (exact_none (prefix_cons (by decide))))]
    refine firstOf_take ?_
    rw [block]
    rw [show token (Pat.exact "{".toList) ⟨b, '{' :: d :: (w ++ r)⟩ = _ from token_some (exact_one '{' b _)]
    simp only [hc, hs]

include hal in
theorem node_lt {c : Char} {r b : Str} {n : Nat} (hc : c ∉ ['[', '!', '%', '?']) :
    nodeType al (n + 1) ⟨b, '<' :: c :: r⟩ = firstOf
      [fun s => inline al n s,
        fun s => special al n .emphasis s, fun s => special al n .strong s, fun s => special al n .underline s, fun s => special al n .strike s,
        fun s => special al n .quote s,
        leaf inlineCode .code] ⟨b, '<' :: c :: r⟩ := by
  obtain ⟨h1, h2⟩ := ends_char hal (c := '<') (r := c :: r) (b := b) (by simp)
  have hd : ∀ d ∈ ['[', '!', '%', '?'], d ≠ c := by rintro d hd rfl; exact hc hd
  rw [node_front (by decide) h1, firstOf_skip (verbatim_none (prefix_second '<' '[' (hd _ (by simp)))), firstOf_skip (comment_none (prefix_second '<' '!' (hd _ (by simp)))),
    firstOf_skip (leaf_none (interp_none (prefix_cons (by decide)) (prefix_cons (by decide)) (prefix_second '<' '%' (hd _ (by simp))) (prefix_second '<' '?' (hd _ (by simp))))),
    firstOf_skip (selector_none (by simp) h2), firstOf_skip (f := leaf (Pat.exact ">".toList) .line) (leaf_none (exact_none (prefix_cons (by decide)))), firstOf_skip (block_none (by simp))]

include hal in
theorem node_inline (r : Str) (n : Nat) (b : Str) {x : Ast.Node} {xs : List Ast.Node} {s2 s3 : Pos} {cl : Option Range}
    (hc : nodes al n (skip isWhitespace ⟨b ++ "<(".toList, r⟩) = (x :: xs, s2)) (hs : closing ")>".toList s2 = (cl, s3)) :
    nodeType al (n + 2) ⟨b, "<(".toList ++ r⟩ = some (.inline ⟨byteLen b, byteLen (b ++ "<(".toList)⟩ (x :: xs) cl, s3) := by
  rw [show "<(".toList ++ r = '<' :: '(' :: r from rfl, node_lt hal (by decide)]
  refine firstOf_take ?_
  rw [inline, show token (Pat.exact "<(".toList) ⟨b, '<' :: '(' :: r⟩ = _ from token_some (exact_app "<(".toList b r)]
  simp only [hc, hs]

include hal in
theorem node_special (f : Ast.SpecialForm) (r : Str) (n : Nat) (b : Str) {c : Ast.Content} {s2 s3 : Pos} {cl : Option Range}
    (hc : content al n (skip isWhitespace ⟨b ++ (specialDelims f).1, r⟩) = (c, s2)) (hs : closing (specialDelims f).2 s2 = (cl, s3)) :
    nodeType al (n + 2) ⟨b, (specialDelims f).1 ++ r⟩ = some (.special f ⟨byteLen b, byteLen (b ++ (specialDelims f).1)⟩ c cl, s3) := by
  have key : special al (n + 1) f ⟨b, (specialDelims f).1 ++ r⟩ = some (.special f ⟨byteLen b, byteLen (b ++ (specialDelims f).1)⟩ c cl, s3) := by
    rw [special, token_some (exact_app (specialDelims f).1 b r)]
    simp only [hc, hs]
  cases f
  · rw [show (specialDelims .emphasis).1 ++ r = '<' :: '/' :: r from rfl] at key ⊢
    rw [node_lt hal (by decide), firstOf_skip (inline_none (prefix_second '<' '(' (by decide))), firstOf_take key]
  · rw [show (specialDelims .strong).1 ++ r = '<' :: '#' :: r from rfl] at key ⊢
    rw [node_lt hal (by decide), firstOf_skip (inline_none (prefix_second '<' '(' (by decide))), firstOf_skip (special_none (f := .emphasis) (prefix_second '<' '/' (by decide))), firstOf_take key]
  · rw [show (specialDelims .underline).1 ++ r = '<' :: '_' :: r from rfl] at key ⊢
    rw [node_lt hal (by decide), firstOf_skip (inline_none (prefix_second '<' '(' (by decide))), firstOf_skip (special_none (f := .emphasis) (prefix_second '<' '/' (by decide))),
      firstOf_skip (special_none (f := .strong) (prefix_second '<' '#' (by decide))), firstOf_take key]
  · rw [show (specialDelims .strike).1 ++ r = '<' :: '~' :: r from rfl] at key ⊢
    rw [node_lt hal (by decide), firstOf_skip (inline_none (prefix_second '<' '(' (by decide))), firstOf_skip (special_none (f := .emphasis) (prefix_second '<' '/' (by decide))),
      firstOf_skip (special_none (f := .strong) (prefix_second '<' '#' (by decide))), firstOf_skip (special_none (f := .underline) (prefix_second '<' '_' (by decide))), firstOf_take key]
  · rw [show (specialDelims .quote).1 ++ r = '<' :: '"' :: r from rfl] at key ⊢
    rw [node_lt hal (by decide), firstOf_skip (inline_none (prefix_second '<' '(' (by decide))), firstOf_skip (special_none (f := .emphasis) (prefix_second '<' '/' (by decide))),
      firstOf_skip (special_none (f := .strong) (prefix_second '<' '#' (by decide))), firstOf_skip (special_none (f := .underline) (prefix_second '<' '_' (by decide))),
      firstOf_skip (special_none (f := .strike) (prefix_second '<' '~' (by decide))), firstOf_take key]

/-- A closing delimiter that ends with its only `>` cannot overlap with itself. -/
theorem lazyThen_until {x s r : Str} (hx : '>' ∉ x) (hs : ∀ a b, s ≠ a ++ (x ++ ['>']) ++ b) (b : Str) :
    lazyThen (Pat.exact (x ++ ['>'])) b (s ++ ((x ++ ['>']) ++ r)) = some (s ++ (x ++ ['>']), r) := by
  induction s generalizing b with
  | nil =>
    have := exact_app (x ++ ['>']) b r
    rw [List.nil_append, List.nil_append]
    generalize hq : x ++ ['>'] = q at this ⊢
    generalize hy : q ++ r = y at this ⊢
    cases y with
    | nil => rw [← hq] at hy; simp at hy
    | cons c y => rw [lazyThen, this]
  | cons c s ih =>
    have h1 : Pat.exact (x ++ ['>']) b (c :: (s ++ ((x ++ ['>']) ++ r))) = none := by
      apply exact_none
      rw [Bool.eq_false_iff]
      intro h
      rw [List.isPrefixOf_iff_prefix, ← List.cons_append] at h
      by_cases hl : (x ++ ['>']).length ≤ (c :: s).length
      · obtain ⟨y, hy⟩ := List.prefix_of_prefix_length_le h (List.prefix_append (c :: s) _) hl
        exact hs [] y (by simpa using hy.symm)
      · obtain ⟨u, hu⟩ := List.prefix_of_prefix_length_le (List.prefix_append (c :: s) _) h (by omega)
        have h2 : u <+: (x ++ ['>']) ++ r := (List.prefix_append_right_inj (c :: s)).1 (hu.symm ▸ h)
        have hul : u.length < (x ++ ['>']).length := by rw [← hu]; simp; omega
        have h3 : u <+: x := by
          rw [List.append_assoc] at h2
          exact List.prefix_of_prefix_length_le h2 (List.prefix_append _ _) (by simp at hul; omega)
        have hne : u ≠ [] := by rintro rfl; rw [← hu] at hl; simp at hl
        have h4 : u.getLast? = some '>' := by
          have := congrArg List.getLast? hu
          rw [List.getLast?_append] at this
          cases h5 : u.getLast? with
          | none => exact absurd (List.getLast?_eq_none_iff.1 h5) hne
          | some d => rw [h5] at this; simpa using this
        exact hx (h3.subset (List.mem_of_getLast? h4))
    rw [List.cons_append, lazyThen, h1]
    simp only
    rw [ih fun a b' h => hs (c :: a) b' (by simp [h])]
    rfl

include hal in
theorem node_code {s r : Str} (hs : ∀ a b, s ≠ a ++ '`' :: '>' :: b) (n : Nat) (b : Str) :
    nodeType al (n + 1) ⟨b, "<`".toList ++ (s ++ ("`>".toList ++ r))⟩ =
      some (.code ⟨byteLen b, byteLen (b ++ ("<`".toList ++ (s ++ "`>".toList)))⟩, ⟨b ++ ("<`".toList ++ (s ++ "`>".toList)), r⟩) := by
  have key : inlineCode b ("<`".toList ++ (s ++ ("`>".toList ++ r))) = some ("<`".toList ++ (s ++ "`>".toList), r) := by
    rw [inlineCode, seq, exact_app]
    simp only
    rw [show lazyThen (Pat.exact "`>".toList) _ (s ++ ("`>".toList ++ r)) = some (s ++ "`>".toList, r) from
      lazyThen_until (x := ['`']) (by decide) (fun a b => by simpa using hs a b) _]
  rw [show "<`".toList ++ (s ++ ("`>".toList ++ r)) = '<' :: '`' :: (s ++ ("`>".toList ++ r)) from rfl] at key ⊢
  rw [node_lt hal (by decide), firstOf_skip (inline_none (prefix_second '<' '(' (by decide))), firstOf_skip (special_none (f := .emphasis) (prefix_second '<' '/' (by decide))),
    firstOf_skip (special_none (f := .strong) (prefix_second '<' '#' (by decide))), firstOf_skip (special_none (f := .underline) (prefix_second '<' '_' (by decide))),
    firstOf_skip (special_none (f := .strike) (prefix_second '<' '~' (by decide))), firstOf_skip (special_none (f := .quote) (prefix_second '<' '"' (by decide))), firstOf_take (leaf_some key)]

/-- The end of verbatim text. -/
def tailOf (n : Nat) (r : Range) : Ast.VerbatimTail := match n with
  | 0 => .verbatim0 r
  | 1 => .verbatim1 r
  | _ => .verbatim2 r

include hal in
theorem node_verbatim {k : Nat} (hk : k ≤ 2) {s r : Str} (hs : ∀ a b, s ≠ a ++ (verbatimDelimiters k).2 ++ b) (n : Nat) (b : Str) :
    nodeType al (n + 1) ⟨b, (verbatimDelimiters k).1 ++ (s ++ ((verbatimDelimiters k).2 ++ r))⟩ =
      some (.text (.verbatim ⟨byteLen b, byteLen (b ++ "<[".toList)⟩ none
          (tailOf k ⟨byteLen (b ++ "<[".toList), byteLen (b ++ ((verbatimDelimiters k).1 ++ (s ++ (verbatimDelimiters k).2)))⟩)),
        ⟨b ++ ((verbatimDelimiters k).1 ++ (s ++ (verbatimDelimiters k).2)), r⟩) := by
  have key : ∀ b, verbatimTail k b (List.replicate k '#' ++ "[".toList ++ (s ++ ((verbatimDelimiters k).2 ++ r))) =
      some (List.replicate k '#' ++ "[".toList ++ (s ++ (verbatimDelimiters k).2), r) := by
    intro b
    rw [verbatimTail, seq, exact_app]
    simp only
    have := lazyThen_until (x := "]".toList ++ List.replicate k '#' ++ "]".toList) (s := s) (r := r)
      (by simp [List.mem_replicate]) (fun a b => by simpa [verbatimDelimiters] using hs a b) (b ++ (List.replicate k '#' ++ "[".toList))
    simp only [verbatimDelimiters]
    simp only [List.append_assoc] at this ⊢
    rw [show ['>'] = ">".toList from rfl] at this
    rw [show "]>".toList = "]".toList ++ ">".toList from rfl]
    simp only [List.append_assoc] at this ⊢
    rw [this]
  have hd : (verbatimDelimiters k).1 = "<[".toList ++ (List.replicate k '#' ++ "[".toList) := by simp [verbatimDelimiters]
  have skipped : ∀ j, j ≠ k → ∀ b, verbatimTail j b (List.replicate k '#' ++ "[".toList ++ (s ++ ((verbatimDelimiters k).2 ++ r))) = none := by
    intro j hj b
    rw [verbatimTail, seq, exact_none]
    rw [Bool.eq_false_iff]
    intro h
    rw [List.isPrefixOf_iff_prefix] at h
    obtain ⟨y, hy⟩ := h
    have : ∀ (j k : Nat) (y z : Str), List.replicate j '#' ++ '[' :: y = List.replicate k '#' ++ '[' :: z → j = k := by
      intro j
      induction j with
      | zero =>
        intro k y z h
        cases k with
        | zero => rfl
        | succ k => simp [List.replicate_succ] at h
      | succ j ih =>
        intro k y z h
        cases k with
        | zero => simp [List.replicate_succ] at h
        | succ k =>
          simp only [List.replicate_succ, List.cons_append, List.cons.injEq, true_and] at h
          rw [ih k y z h]
    exact hj (this j k y (s ++ ((verbatimDelimiters k).2 ++ r)) (by simpa using hy))
  have hend : verbatimEnd ⟨b ++ "<[".toList, List.replicate k '#' ++ "[".toList ++ (s ++ ((verbatimDelimiters k).2 ++ r))⟩ =
      some (tailOf k ⟨byteLen (b ++ "<[".toList), byteLen (b ++ ((verbatimDelimiters k).1 ++ (s ++ (verbatimDelimiters k).2)))⟩,
        ⟨b ++ ((verbatimDelimiters k).1 ++ (s ++ (verbatimDelimiters k).2)), r⟩) := by
    have e : b ++ "<[".toList ++ (List.replicate k '#' ++ "[".toList ++ (s ++ (verbatimDelimiters k).2)) =
        b ++ ((verbatimDelimiters k).1 ++ (s ++ (verbatimDelimiters k).2)) := by rw [hd]; simp only [List.append_assoc]
    rw [verbatimEnd]
    match k, hk with
    | 0, _ => rw [token_some (key _), e]; rfl
    | 1, _ =>
      rw [token_none (skipped 0 (by decide) _)]
      simp only
      rw [token_some (key _), e]; rfl
    | 2, _ =>
      rw [token_none (skipped 0 (by decide) _)]
      simp only
      rw [token_none (skipped 1 (by decide) _)]
      simp only
      rw [token_some (key _), e]; rfl
  obtain ⟨h1, h2⟩ := ends_char hal (c := '<') (r := '[' :: (List.replicate k '#' ++ "[".toList ++ (s ++ ((verbatimDelimiters k).2 ++ r)))) (b := b) (by simp)
  have hraw : ∀ b, Pat.exact "raw".toList b (List.replicate k '#' ++ "[".toList ++ (s ++ ((verbatimDelimiters k).2 ++ r))) = none := by
    intro b
    cases k with
    | zero => exact exact_none (prefix_cons (by decide))
    | succ k => exact exact_none (prefix_cons (by decide))
  have hv : verbatim ⟨b, '<' :: '[' :: (List.replicate k '#' ++ "[".toList ++ (s ++ ((verbatimDelimiters k).2 ++ r)))⟩ =
      some (.text (.verbatim ⟨byteLen b, byteLen (b ++ "<[".toList)⟩ none
          (tailOf k ⟨byteLen (b ++ "<[".toList), byteLen (b ++ ((verbatimDelimiters k).1 ++ (s ++ (verbatimDelimiters k).2)))⟩)),
        ⟨b ++ ((verbatimDelimiters k).1 ++ (s ++ (verbatimDelimiters k).2)), r⟩) := by
    rw [verbatim, show token (Pat.exact "<[".toList) ⟨b, '<' :: '[' :: (List.replicate k '#' ++ "[".toList ++ (s ++ ((verbatimDelimiters k).2 ++ r)))⟩ = _ from
      token_some (exact_app "<[".toList b _)]
    simp only
    rw [show token (Pat.exact "raw".toList) ⟨b ++ "<[".toList, (List.replicate k '#' ++ "[".toList).append (s ++ ((verbatimDelimiters k).2 ++ r))⟩ = none from
      token_none (hraw _)]
    exact (congrArg (fun x => match x with
      | none => none
      | some (t, s3) => some (Ast.NodeType.text (.verbatim ⟨byteLen b, byteLen (b ++ "<[".toList)⟩ none t), s3)) hend)
  rw [show (verbatimDelimiters k).1 ++ (s ++ ((verbatimDelimiters k).2 ++ r)) =
    '<' :: '[' :: (List.replicate k '#' ++ "[".toList ++ (s ++ ((verbatimDelimiters k).2 ++ r))) from by rw [hd]; simp]
  rw [node_front (by decide) h1]
  exact firstOf_take hv

theorem commentParts_source {s : Str} (hs : CommentSource s) : ∀ (d : Nat) (r : Str),
    commentParts d (s ++ '!' :: '>' :: r) = (s ++ (commentParts d ('!' :: '>' :: r)).1, (commentParts d ('!' :: '>' :: r)).2) := by
  induction hs with
  | nil => intro d r; rfl
  | @char c s h1 h2 _ ih =>
    intro d r
    rw [List.cons_append, commentParts.eq_5, ih]
    · rfl
    · rintro x rfl hx
      refine h1 ⟨rfl, ?_⟩
      cases s with
      | nil => exact .inl rfl
      | cons e s => simp at hx; exact .inr (by simp [hx.1])
    · rintro x _ rfl hx
      refine h2 ⟨rfl, ?_⟩
      cases s with
      | nil => simp at hx
      | cons e s => simp at hx; simp [hx.1]
    · rintro m x _ rfl hx
      refine h2 ⟨rfl, ?_⟩
      cases s with
      | nil => simp at hx
      | cons e s => simp at hx; simp [hx.1]
  | @nested a s _ _ iha ihs =>
    intro d r
    rw [show "<!".toList ++ a ++ "!>".toList ++ s ++ '!' :: '>' :: r = '<' :: '!' :: (a ++ '!' :: '>' :: (s ++ '!' :: '>' :: r)) from by simp,
      commentParts.eq_2]
    simp only
    rw [iha, commentParts.eq_4]
    simp only
    rw [ihs]
    simp

include hal in
theorem node_comment {s r : Str} (hs : CommentSource s) (n : Nat) (b : Str) :
    nodeType al (n + 1) ⟨b, "<!".toList ++ (s ++ ("!>".toList ++ r))⟩ =
      some (.text (.comment ⟨byteLen b, ⟨byteLen b, byteLen (b ++ "<!".toList)⟩, ⟨byteLen (b ++ "<!".toList), byteLen (b ++ "<!".toList ++ s)⟩,
          some ⟨byteLen (b ++ "<!".toList ++ s), byteLen (b ++ ("<!".toList ++ (s ++ "!>".toList)))⟩, byteLen (b ++ ("<!".toList ++ (s ++ "!>".toList)))⟩),
        ⟨b ++ ("<!".toList ++ (s ++ "!>".toList)), r⟩) := by
  have h3 : commentParts 0 (s ++ ("!>".toList ++ r)) = (s, "!>".toList ++ r) := by
    have := commentParts_source hs 0 r
    rw [commentParts.eq_3, List.append_nil] at this
    exact this
  obtain ⟨h1, h2⟩ := ends_char hal (c := '<') (r := '!' :: (s ++ ("!>".toList ++ r))) (b := b) (by simp)
  rw [show "<!".toList ++ (s ++ ("!>".toList ++ r)) = '<' :: '!' :: (s ++ ("!>".toList ++ r)) from rfl, node_front (by decide) h1,
    firstOf_skip (verbatim_none (prefix_second '<' '[' (by decide)))]
  refine firstOf_take ?_
  rw [comment, show token (Pat.exact "<!".toList) ⟨b, '<' :: '!' :: (s ++ ("!>".toList ++ r))⟩ = _ from token_some (exact_app "<!".toList b _)]
  simp only
  rw [show token (fun _ r => some (commentParts 0 r)) ⟨b ++ "<!".toList, List.append s ("!>".toList ++ r)⟩ = _ from
    token_some (m := s) (r' := "!>".toList ++ r) (congrArg some h3)]
  simp only
  rw [token_some (exact_app "!>".toList _ r)]
  simp only [List.append_assoc]

end

/-! ## Rows and lines -/

/-- The space before the first node of a row. -/
def spaceOf (b w : Str) : Option Range := if w = [] then none else some ⟨byteLen b, byteLen (b ++ w)⟩

theorem nodes_step {n : Nat} {b w x r b' : Str} {ty : Ast.NodeType} (hw : ∀ c ∈ w, isSpace c = true) (hx : ∀ c, x.head? = some c → isSpace c = false)
    (hn : nodeType al n ⟨b ++ w, x⟩ = some (ty, ⟨b', r⟩)) :
    nodes al (n + 1) ⟨b, w ++ x⟩ =
      (.mk (spaceOf b w) (byteLen (b ++ w)) (byteLen b') ty :: (nodes al n ⟨b', r⟩).1, (nodes al n ⟨b', r⟩).2) := by
  rw [nodes]
  by_cases h : w = []
  · subst h
    rw [List.nil_append, List.append_nil] at *
    rw [token_none (space_none hx)]
    simp only [hn]
    rfl
  · rw [token_some (space_some hw h hx)]
    simp only [hn, spaceOf, if_neg h]
    rfl

theorem skip_space {b w r : Str} (hw : ∀ c ∈ w, isSpace c = true) (hr : ∀ c, r.head? = some c → isSpace c = false) :
    skip isSpace ⟨b, w ++ r⟩ = ⟨b ++ w, r⟩ := by
  have h1 : (w ++ r).takeWhile isSpace = w ∧ (w ++ r).dropWhile isSpace = r := by
    induction w with
    | nil =>
      cases r with
      | nil => simp
      | cons c r => simp [hr c rfl]
    | cons c w ih =>
      have := ih fun c hc => hw c (by simp [hc])
      simp [hw c (by simp), this]
  rw [skip]
  simp only [h1]

theorem closing_some {t b w r : Str} (hw : ∀ c ∈ w, White c) (ht : ∀ c, (t ++ r).head? = some c → ¬ White c) :
    closing t ⟨b, w ++ (t ++ r)⟩ = (some ⟨byteLen (b ++ w), byteLen (b ++ w ++ t)⟩, ⟨b ++ w ++ t, r⟩) := by
  rw [closing, skip_white hw ht, token_some (exact_app t _ r)]

/-- The first line of some text and the lines after it. -/
def linesFrom (al : Char → Bool) (n : Nat) (s : Pos) : List Ast.Line × Pos :=
  ((line al n s).1 :: (moreLines al n (line al n s).2).1, (moreLines al n (line al n s).2).2)

theorem content_lines (n : Nat) (s : Pos) :
    content al (n + 1) s = (.mk s.at (linesFrom al n (skip isWhitespace s)).1 (linesFrom al n (skip isWhitespace s)).2.at, (linesFrom al n (skip isWhitespace s)).2) := by
  rw [content]
  rfl

theorem newLine_reads {b w r : Str} (hw : ∀ c ∈ w, isSpace c = true) (hr : ∀ c, r.head? = some c → isSpace c = false) :
    newLine b ('\n' :: (w ++ r)) = some ('\n' :: w, r) := by
  have h1 : many (chr isSpace) b ('\n' :: (w ++ r)) = some ([], '\n' :: (w ++ r)) := by
    have := many_chr (p := isSpace) (s := []) (r := '\n' :: (w ++ r)) (b := b) (by simp) (by simp; decide)
    simpa using this
  rw [newLine, seq, h1]
  simp only
  rw [seq]
  simp only [chr, decide_true, if_true]
  rw [many_chr hw hr]
  rfl

theorem noLine {b r : Str} (hr : ∀ c, r.head? = some c → isSpace c = false ∧ c ≠ '\n') : newLine b r = none := by
  have h1 : many (chr isSpace) b r = some ([], r) := by
    have := many_chr (p := isSpace) (s := []) (r := r) (b := b) (by simp) (fun c hc => (hr c hc).1)
    simpa using this
  rw [newLine, seq, h1]
  simp only
  rw [seq]
  cases r with
  | nil => rfl
  | cons c r =>
    have := (hr c rfl).2
    simp [chr, this]

theorem moreLines_step {n : Nat} {b w r : Str} (hw : ∀ c ∈ w, isSpace c = true) (hr : ∀ c, r.head? = some c → isSpace c = false) :
    moreLines al (n + 1) ⟨b, '\n' :: (w ++ r)⟩ = linesFrom al n ⟨b ++ '\n' :: w, r⟩ := by
  rw [moreLines, token_some (newLine_reads hw hr)]
  rfl

theorem moreLines_none {n : Nat} {b r : Str} (hr : ∀ c, r.head? = some c → isSpace c = false ∧ c ≠ '\n') : moreLines al n ⟨b, r⟩ = ([], ⟨b, r⟩) := by
  cases n with
  | zero => rw [moreLines]
  | succ n => rw [moreLines, token_none (noLine hr)]

section
variable (hal : RightForAscii al)

include hal in
theorem nodes_stop {r : Str} (hr : Rest r) (n : Nat) (b : Str) : nodes al n ⟨b, r⟩ = ([], ⟨b, r⟩) := by
  obtain ⟨sp, r', rfl, h1, h2⟩ := hr
  cases n with
  | zero => rw [nodes]
  | succ n =>
    rw [nodes]
    have h3 := fun c hc => (stop_head h2 c hc).1
    by_cases h : sp = []
    · subst h
      rw [List.nil_append, token_none (space_none h3), node_stop hal h2]
    · rw [token_some (space_some h1 h h3)]
      simp only [node_stop hal h2]

include hal in
theorem line_blank {r : Str} (hr : Stop r) (n : Nat) (b : Str) : ∃ x y, line al n ⟨b, r⟩ = (.mk x [] y, ⟨b, r⟩) := by
  cases n with
  | zero => exact ⟨_, _, by rw [line]⟩
  | succ n =>
    have h := skip_space (b := b) (w := []) (r := r) (by simp) (fun c hc => (stop_head hr c hc).1)
    rw [List.nil_append, List.append_nil] at h
    rw [line, h, nodes_stop hal (r := r) ⟨[], r, rfl, by simp, hr⟩]
    exact ⟨_, _, rfl⟩

theorem line_row {n : Nat} {b r : Str} {w sp r1 b' : Str} {ns : List Ast.Node} (hw : ∀ c ∈ w, isSpace c = true) (hr : ∀ c, r.head? = some c → isSpace c = false)
    (hn : nodes al n ⟨b ++ w, r⟩ = (ns, ⟨b', sp ++ r1⟩)) (hne : ns ≠ []) (hsp : ∀ c ∈ sp, isSpace c = true) (hr1 : Stop r1) :
    ∃ x y, line al (n + 1) ⟨b, w ++ r⟩ = (.mk x ns y, ⟨b' ++ sp, r1⟩) := by
  rw [line, skip_space hw hr, hn]
  cases ns with
  | nil => exact absurd rfl hne
  | cons x ns =>
    simp only
    rw [skip_space hsp fun c hc => (stop_head hr1 c hc).1]
    exact ⟨_, _, rfl⟩

include hal in
/-- Empty lines. -/
theorem moreLines_blanks : ∀ (k : Nat) (sep x b : Str) (n : Nat), sep.length ≤ k → (∀ c ∈ sep, White c) → sep.head? = some '\n' →
    (∀ c, x.head? = some c → ¬ White c) → 8 * (sep ++ x).length + 1 ≤ n →
    ∃ blanks n', moreLines al n ⟨b, sep ++ x⟩ = (blanks ++ (linesFrom al n' ⟨b ++ sep, x⟩).1, (linesFrom al n' ⟨b ++ sep, x⟩).2) ∧
      (∀ l ∈ blanks, ∃ i j, l = .mk i [] j) ∧ blanks.length + 1 = sep.count '\n' ∧ 8 * x.length + 8 ≤ n' := by
  intro k
  induction k with
  | zero =>
    intro sep x b n hk hw hh
    cases sep with
    | nil => simp at hh
    | cons => simp at hk
  | succ k ih =>
    intro sep x b n hk hw hh hx hn
    cases sep with
    | nil => simp at hh
    | cons c sep =>
      simp at hh; subst hh
      obtain ⟨w, sep', rfl, h1, h2⟩ : ∃ w sep', sep = w ++ sep' ∧ (∀ c ∈ w, isSpace c = true) ∧ ∀ c, sep'.head? = some c → isSpace c = false :=
        by
        obtain ⟨w, sep', h1, h2, h3⟩ := split_blank sep fun c hc => hw c (by simp [hc])
        exact ⟨w, sep', h1, h2, fun c hc => by rw [h3 c hc]; decide⟩
      have hcount : w.count '\n' = 0 := count_space h1
      obtain ⟨n, rfl⟩ : ∃ j, n = j + 1 := ⟨n - 1, by omega⟩
      have hx' : ∀ c, (sep' ++ x).head? = some c → isSpace c = false := by
        intro c hc
        cases sep' with
        | nil =>
          rw [Bool.eq_false_iff]
          exact fun h => hx c hc ((isSpace_iff c).1 h).1
        | cons d s => simp at hc; subst hc; exact h2 _ rfl
      rw [List.cons_append, List.append_assoc, moreLines_step h1 hx']
      simp only [List.length_append, List.length_cons] at hn hk
      cases sep' with
      | nil =>
        refine ⟨[], n, ?_, by simp, by simp [hcount], by simp at hn ⊢; omega⟩
        simp
      | cons d s =>
        have hd : d = '\n' := by
          have h3 := h2 d rfl
          have h4 := hw d (by simp)
          by_contra h
          rw [(isSpace_iff d).2 ⟨h4, h⟩] at h3
          cases h3
        subst hd
        obtain ⟨i, j, hl⟩ := line_blank hal (r := '\n' :: s ++ x) (b := b ++ '\n' :: w) .line n
        obtain ⟨bl, n', h5, h6, h7, h8⟩ := ih ('\n' :: s) x (b ++ '\n' :: w) n (by simp at hk ⊢; omega) (fun c hc => hw c (by simp at hc ⊢; tauto)) rfl hx
          (by simp at hn ⊢; omega)
        refine ⟨.mk i [] j :: bl, n', ?_, ?_, ?_, h8⟩
        · rw [linesFrom, hl]
          simp only
          rw [h5]
          simp
        · intro l hl
          rcases List.mem_cons.1 hl with rfl | hl
          · exact ⟨_, _, rfl⟩
          · exact h6 l hl
        · simp [hcount] at h7 ⊢; omega

/-- What ends a content: the end, `}` or the end of a short form. -/
def Shuts (r : Str) : Prop := Stop r ∧ ∀ c, r.head? = some c → ¬ White c

include hal in
/-- White space at the end. -/
theorem moreLines_end {w r b : Str} {n : Nat} (hw : ∀ c ∈ w, White c) (hh : ∀ c, w.head? = some c → isSpace c = false) (hr : Shuts r)
    (hn : 8 * (w ++ r).length + 1 ≤ n) :
    ∃ blanks, moreLines al n ⟨b, w ++ r⟩ = (blanks, ⟨b ++ w, r⟩) ∧ ∀ l ∈ blanks, ∃ i j, l = .mk i [] j := by
  have hr' : ∀ c, r.head? = some c → isSpace c = false ∧ c ≠ '\n' := fun c hc =>
    ⟨(stop_head hr.1 c hc).1, fun h => hr.2 c hc (by rw [h, ← white_iff]; decide)⟩
  cases w with
  | nil => exact ⟨[], by rw [List.nil_append, moreLines_none hr', List.append_nil], by simp⟩
  | cons d w =>
    have hd : d = '\n' := by
      have h3 := hh d rfl
      by_contra h
      rw [(isSpace_iff d).2 ⟨hw d (by simp), h⟩] at h3
      cases h3
    subst hd
    obtain ⟨bl, n', h1, h2, -, -⟩ := moreLines_blanks hal _ ('\n' :: w) r b n (Nat.le_refl _) hw rfl hr.2 hn
    obtain ⟨i, j, hl⟩ := line_blank hal hr.1 n' (b ++ '\n' :: w)
    rw [linesFrom, hl] at h1
    simp only at h1
    rw [moreLines_none hr'] at h1
    refine ⟨_, h1, ?_⟩
    intro l hl
    rcases List.mem_append.1 hl with hl | hl
    · exact h2 l hl
    · simp at hl; exact ⟨_, _, hl⟩

end

end Mty.Grammar
