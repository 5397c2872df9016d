import Verif.Proofs.PartsSome

/-! # The parser with more text after the source (for C76) -/

set_option autoImplicit false

namespace Mty.Grammar.More
open Pat Lex Spec

variable {y src : Str} {alnum : Char → Bool}

/-- Whether a character is alphanumeric, for some characters that are not. -/
structure PlainMarks (alnum : Char → Bool) : Prop where
  newLine : alnum '\n' = false
  less : alnum '<' = false
  brace : alnum '{' = false

/-- The beginnings of nodes that are only what they are if their end follows. -/
structure Fails (s : Pos) : Prop where
  multiline : ∀ k, multiline k s = none → ¬ [fence k, fence k, fence k] <+: s.after
  verbatim : verbatim s = none → ¬ "<[".toList <+: s.after
  interpolation : interpolation s.before s.after = none → NoInterpolation s.after
  code : inlineCode s.before s.after = none → ¬ "<`".toList <+: s.after

theorem NoStart.fails {s : Pos} (h : NoStart s.after) : Fails s := by
  have h1 : ∀ t : Str, ¬ '<' :: t <+: s.after := by
    rintro t ⟨r, hr⟩
    exact h.1 (by rw [← hr]; rfl)
  have h2 : ∀ t : Str, ¬ '{' :: t <+: s.after := by
    rintro t ⟨r, hr⟩
    exact h.2.1 (by rw [← hr]; rfl)
  exact ⟨fun k _ => h.2.2 k, fun _ => h1 _, fun _ => ⟨h2 _, h2 _, h1 _, h1 _⟩, fun _ => h1 _⟩

/-- What cannot be read is not read with more text after it either. -/
theorem fails_more (hal : PlainMarks alnum) {n : Nat} {s : Pos} (hs : NoSlash s.after) (hf : Fails s) :
    ∀ f ∈ [multiline .escaped, multiline .unescaped, multiline .code,
        leaf (textSegment alnum) (fun r => .text (.segment r)), verbatim, comment, leaf interpolation (fun r => .text (.interpolation r)),
        selector alnum,
        leaf (exact ">".toList) .line,
        fun s => block alnum n s,
        fun s => inline alnum n s,
        fun s => special alnum n .emphasis s, fun s => special alnum n .strong s, fun s => special alnum n .underline s,
        fun s => special alnum n .strike s, fun s => special alnum n .quote s,
        leaf inlineCode .code], f s = none → f (more y s) = none := by
  have hm : ∀ k, multiline k s = none → multiline k (more y s) = none := fun k h =>
    multiline_none fun hp => hf.multiline k h ((prefix_more (fence_ne k)).1 hp)
  have hsp : ∀ f, special alnum n f s = none → special alnum n f (more y s) = none := by
    intro f h
    cases n with
    | zero => rw [special]
    | succ n =>
      rw [special_none_iff] at h ⊢
      exact fun hp => h ((prefix_more (by cases f <;> decide)).1 hp)
  intro f hmem h
  simp only [List.mem_cons, List.not_mem_nil, or_false] at hmem
  rcases hmem with rfl | rfl | rfl | rfl | rfl | rfl | rfl | rfl | rfl | rfl | rfl | rfl | rfl | rfl | rfl | rfl | rfl
  · exact hm _ h
  · exact hm _ h
  · exact hm _ h
  · rw [leaf_more (ext_textSegment hal.newLine) _ hs, h]; rfl
  · exact verbatim_none fun hp => hf.verbatim h ((prefix_more (by decide)).1 hp)
  · refine comment_none fun hp => ?_
    rw [comment] at h
    cases h1 : token (exact "<!".toList) s with
    | none => exact token_exact_none.1 h1 ((prefix_more (by decide)).1 hp)
    | some x =>
      rw [h1] at h
      dsimp only at h
      rw [show token (fun _ r => some (commentParts 0 r)) x.2 = some (⟨x.2.at, Pos.at ⟨x.2.before ++ (commentParts 0 x.2.after).1, (commentParts 0 x.2.after).2⟩⟩,
        ⟨x.2.before ++ (commentParts 0 x.2.after).1, (commentParts 0 x.2.after).2⟩) from rfl] at h
      dsimp only at h
      split at h <;> cases h
  · rw [leaf_none_iff] at h ⊢
    exact interpolation_none (noInterpolation_more.2 (hf.interpolation h))
  · exact selector_more_none hal.newLine hs h
  · rw [leaf_more (ext_exact (by decide)) _ hs, h]; rfl
  · cases n with
    | zero => simp only [block]
    | succ n =>
      rw [block_none_iff] at h ⊢
      exact fun hp => h ((prefix_more (by decide)).1 hp)
  · cases n with
    | zero => simp only [inline]
    | succ n =>
      rw [inline_none_iff] at h ⊢
      exact fun hp => h ((prefix_more (by decide)).1 hp)
  · exact hsp _ h
  · exact hsp _ h
  · exact hsp _ h
  · exact hsp _ h
  · exact hsp _ h
  · rw [leaf_none_iff] at h ⊢
    exact code_none fun hp => hf.code h ((prefix_more (by decide)).1 hp)

theorem firstOf_none : ∀ {fs : List (Pos → Option (Ast.NodeType × Pos))} {s : Pos}, firstOf fs s = none ↔ ∀ f ∈ fs, f s = none
  | [], s => by simp [firstOf]
  | f :: fs, s => by
    rw [firstOf]
    cases h : f s with
    | none => simp [firstOf_none, h]
    | some x => simp [h]

theorem firstOf_more {s s1 : Pos} {ty} : ∀ {fs : List (Pos → Option (Ast.NodeType × Pos))}, firstOf fs s = some (ty, s1) →
    (∀ f ∈ fs, f s = some (ty, s1) → f (more y s) = some (ty, more y s1)) → (∀ f ∈ fs, f s = none → f (more y s) = none) →
    firstOf fs (more y s) = some (ty, more y s1)
  | [], h, _, _ => by cases h
  | f :: fs, h, h1, h2 => by
    rw [firstOf] at h ⊢
    cases hf : f s with
    | some x =>
      rw [hf] at h
      cases h
      rw [h1 f (by simp) hf]
    | none =>
      rw [hf] at h
      rw [h2 f (by simp) hf]
      exact firstOf_more h (fun g hg => h1 g (by simp [hg])) fun g hg => h2 g (by simp [hg])

theorem firstOf_some {s : Pos} {x} : ∀ {fs : List (Pos → Option (Ast.NodeType × Pos))}, firstOf fs s = some x → ∃ f ∈ fs, f s = some x
  | [], h => by cases h
  | f :: fs, h => by
    rw [firstOf] at h
    cases hf : f s with
    | some z => rw [hf] at h; cases h; exact ⟨f, by simp, hf⟩
    | none =>
      rw [hf] at h
      obtain ⟨g, hg, h⟩ := firstOf_some h
      exact ⟨g, by simp [hg], h⟩

/-- Nodes of two characters that begin with `<`. -/
theorem fails_less {s : Pos} {o : Str} (c : Char) (ho : o = ['<', c]) (h : o <+: s.after) (h1 : c = '[' → ∃ x, verbatim s = some x)
    (h2 : c = '%' ∨ c = '?' → ∃ x, interpolation s.before s.after = some x) (h3 : c = '`' → ∃ x, inlineCode s.before s.after = some x) :
    Fails s := by
  subst ho
  obtain ⟨r, hr⟩ := h
  refine ⟨fun k _ => ?_, fun h hp => ?_, fun h => ⟨?_, ?_, fun hp => ?_, fun hp => ?_⟩, fun h hp => ?_⟩
  · rw [← hr]; cases k <;> simp [fence]
  · rw [← hr] at hp
    simp at hp
    obtain ⟨x, hx⟩ := h1 hp.symm
    rw [hx] at h
    cases h
  · rw [← hr]; simp
  · rw [← hr]; simp
  · rw [← hr] at hp
    simp at hp
    obtain ⟨x, hx⟩ := h2 (.inl hp.symm)
    rw [hx] at h
    cases h
  · rw [← hr] at hp
    simp at hp
    obtain ⟨x, hx⟩ := h2 (.inr hp.symm)
    rw [hx] at h
    cases h
  · rw [← hr] at hp
    simp at hp
    obtain ⟨x, hx⟩ := h3 hp.symm
    rw [hx] at h
    cases h

/-- Texts and selectors. -/
theorem fails_word {s : Pos} (h1 : s.after.head? ≠ some '<' ∧ s.after.head? ≠ some '{') (h2 : ∀ k, ¬ [fence k, fence k, fence k] <+: s.after) :
    Fails s := NoStart.fails ⟨h1.1, h1.2, h2⟩

theorem noFence_at {s : Pos} (hs : s.In src) (h : noFence src s.at = true) (k : MultilineKind) :
    ¬ [fence k, fence k, fence k] <+: s.after := by
  rintro ⟨r, hr⟩
  rw [Pos.In, ← hr] at hs
  have h3 : byteLen [fence k, fence k, fence k] = 3 := by cases k <;> decide
  have := slice_mid s.before [fence k, fence k, fence k] r
  rw [byteLen_append, h3, ← hs] at this
  rw [noFence, Pos.at, this] at h
  revert h
  cases k <;> decide

theorem noBraces_at {s : Pos} (hs : s.In src) (h : noBraces src s.at = true) : ¬ "{{".toList <+: s.after ∧ ¬ "{%".toList <+: s.after := by
  constructor <;>
  · rintro ⟨r, hr⟩
    rw [Pos.In, ← hr] at hs
    first
      | (have := slice_mid s.before "{{".toList r
         rw [byteLen_append, show byteLen "{{".toList = 2 by decide, ← hs] at this
         rw [noBraces, Pos.at, this] at h
         revert h
         decide)
      | (have := slice_mid s.before "{%".toList r
         rw [byteLen_append, show byteLen "{%".toList = 2 by decide, ← hs] at this
         rw [noBraces, Pos.at, this] at h
         revert h
         decide)

structure MoreAt (alnum : Char → Bool) (y src : Str) (n : Nat) : Prop where
  none : ∀ s, NoSlash s.after → NoStart s.after → nodeType alnum n s = none → nodeType alnum n (more y s) = none
  nodeType : ∀ s ty s1, s.In src → NoSlash s.after → nodeType alnum n s = some (ty, s1) → closedType src ty = true →
    nodeType alnum n (more y s) = some (ty, more y s1)
  block : ∀ s ty s1, s.In src → NoSlash s.after → block alnum n s = some (ty, s1) → closedType src ty = true →
    block alnum n (more y s) = some (ty, more y s1)
  inline : ∀ s ty s1, s.In src → NoSlash s.after → inline alnum n s = some (ty, s1) → closedType src ty = true →
    inline alnum n (more y s) = some (ty, more y s1)
  special : ∀ f s ty s1, s.In src → NoSlash s.after → special alnum n f s = some (ty, s1) → closedType src ty = true →
    special alnum n f (more y s) = some (ty, more y s1)
  nodes : ∀ s, s.In src → NoSlash s.after → closedNodes src (nodes alnum n s).1 = true → Done (nodes alnum n s).2.after →
    nodes alnum n (more y s) = ((nodes alnum n s).1, more y (nodes alnum n s).2)
  line : ∀ s, s.In src → NoSlash s.after → closedLines src [(line alnum n s).1] = true → Done (line alnum n s).2.after →
    line alnum n (more y s) = ((line alnum n s).1, more y (line alnum n s).2)
  moreLines : ∀ s, s.In src → NoSlash s.after → closedLines src (moreLines alnum n s).1 = true → Done (moreLines alnum n s).2.after →
    ∃ k, n = (moreLines alnum n s).1.length + k ∧ (k = 0 ∨ token newLine (moreLines alnum n s).2 = Option.none) ∧
      moreLines alnum n (more y s) = ((moreLines alnum n s).1 ++ (moreLines alnum k (more y (moreLines alnum n s).2)).1,
        (moreLines alnum k (more y (moreLines alnum n s).2)).2)
  content : ∀ s, s.In src → NoSlash s.after → (match (content alnum n s).1 with | .mk _ ls _ => closedLines src ls) = true →
    NonBlank (content alnum n s).2.after → Done (content alnum n s).2.after →
    content alnum n (more y s) = ((content alnum n s).1, more y (content alnum n s).2)

theorem closedLines_cons {l : Ast.Line} {ls : List Ast.Line} (h : closedLines src (l :: ls) = true) :
    closedLines src [l] = true ∧ closedLines src ls = true := by
  cases l
  simp only [closedLines, Bool.and_eq_true, Bool.and_true] at h ⊢
  exact h

theorem closedNodes_cons {a b ty} {sp : Option Range} {ns : List Ast.Node} (h : closedNodes src (.mk sp a b ty :: ns) = true) :
    closedType src ty = true ∧ closedNodes src ns = true := by
  rwa [closedNodes, Bool.and_eq_true] at h

theorem nodes_nil {n : Nat} {s e : Pos} (h : nodes alnum n s = ([], e)) : e = s := by
  cases n with
  | zero => rw [nodes] at h; cases h; rfl
  | succ n =>
    rw [nodes] at h
    split at h <;> split at h <;> cases h <;> rfl

theorem space_after {s s0 : Pos} {sp : Range} (h : token space s = some (sp, s0)) : s0.after = s.after.dropWhile isSpace := by
  obtain ⟨m, t, h0, rfl, _⟩ := token_cases h
  rw [space, many1] at h0
  obtain ⟨m1, r1, m2, h1, h2, rfl⟩ := seq_some h0
  obtain ⟨c, hc, _, e⟩ := chr_some h1
  rw [many_blank] at h2
  cases h2
  rw [e, List.dropWhile_cons, if_pos hc]

theorem space_none_after {s : Pos} (h : token space s = none) : s.after = s.after.dropWhile isSpace := by
  rw [token_none] at h
  cases ha : s.after with
  | nil => rfl
  | cons c a =>
    rw [ha] at h
    by_cases hc : isSpace c = true
    · simp [space, many1, seq, chr, hc, many] at h
    · rw [List.dropWhile_cons, if_neg hc]

/-- What is skipped at the beginning of a content. -/
theorem skip_at {s : Pos} {p : Char → Bool} (hs : s.In src) : (skip p s).In src := (skip_adv p s).isIn hs

theorem no {a b : Char} {q : Prop} (h : a ≠ b) : a = b → q := fun h' => absurd h' h

theorem no2 {a b c : Char} {q : Prop} (h : a ≠ b) (h1 : a ≠ c) : a = b ∨ a = c → q := fun h' => (h'.elim h h1).elim

theorem more_at (hal : PlainMarks alnum) : ∀ n, MoreAt alnum y src n
  | 0 => by
    refine ⟨?_, ?_, ?_, ?_, ?_, ?_, ?_, ?_, ?_⟩
    · intro s _ _ _; rw [nodeType]
    · intro s ty s1 _ _ h; rw [nodeType] at h; cases h
    · intro s ty s1 _ _ h; rw [block] at h; cases h
    · intro s ty s1 _ _ h; rw [inline] at h; cases h
    · intro f s ty s1 _ _ h; rw [special] at h; cases h
    · intro s _ _ _ _; rw [nodes, nodes]
    · intro s _ _ _ _; rw [line, line]; rfl
    · intro s _ _ _ _; exact ⟨0, by rw [moreLines]; rfl, .inl rfl, by rw [moreLines, moreLines, moreLines]; rfl⟩
    · intro s _ _ _ _ _; rw [content, content]; rfl
  | n + 1 => by
    have ih := more_at hal n
    have ea := adv_at alnum n
    have delimited : ∀ {o c : Str} {p0 p1 : Pos} {l : Range}, Closer c → p0.In src → NoSlash p0.after → token (exact o) p0 = some (l, p1) →
        (closing c (content alnum n (skip isWhitespace p1)).2).1.isSome = true →
        (match (content alnum n (skip isWhitespace p1)).1 with | .mk _ ls _ => closedLines src ls) = true →
        content alnum n (skip isWhitespace (more y p1)) =
            ((content alnum n (skip isWhitespace p1)).1, more y (content alnum n (skip isWhitespace p1)).2) ∧
          closing c (more y (content alnum n (skip isWhitespace p1)).2) =
            ((closing c (content alnum n (skip isWhitespace p1)).2).1, more y (closing c (content alnum n (skip isWhitespace p1)).2).2) := by
      intro o c p0 p1 l hc hp hns ht h1 h2
      have a1 := token_adv (sound_exact _) ht
      have a2 := a1.trans (skip_adv isWhitespace p1)
      have a3 := ea.content (skip isWhitespace p1)
      have hd := closing_some hc h1
      have hb : NonBlank p1.after := ((skip_adv isWhitespace p1).trans a3).nonBlank hd.1
      rw [skip_more hb, ih.content _ (a2.isIn hp) (a2.noSlash hns) h2 hd.1 hd.2.1]
      exact ⟨rfl, closing_more hc ((a2.trans a3).noSlash hns) h1⟩
    refine ⟨?_, ?_, ?_, ?_, ?_, ?_, ?_, ?_, ?_⟩
    · intro s hs hn h
      rw [nodeType] at h ⊢
      rw [firstOf_none] at h ⊢
      exact fun f hf => fails_more hal hs (NoStart.fails hn) f hf (h f hf)
    · intro s ty s1 hin hs h hc
      rw [nodeType] at h ⊢
      have hfails : Fails s := by
        obtain ⟨f, hmem, hf⟩ := firstOf_some h
        have pre : ∀ {o : Str}, ¬ f s = none → (¬ o <+: s.after → f s = none) → o <+: s.after := by
          intro o h1 h2
          by_contra h3
          exact h1 (h2 h3)
        have hne : ¬ f s = none := by rw [hf]; simp
        simp only [List.mem_cons, List.not_mem_nil, or_false] at hmem
        have mult : ∀ k, multiline k s = some (ty, s1) → Fails s := by
          intro k hk
          obtain ⟨r, hr⟩ := multiline_prefix hk
          refine ⟨fun k' h' hp => ?_, fun _ => ?_, fun _ => ?_, fun _ => ?_⟩
          · rw [← hr] at hp
            have : k' = k := by
              revert hp
              cases k <;> cases k' <;> simp [fence]
            rw [this, hk] at h'
            cases h'
          all_goals
            rw [← hr]
            cases k <;> simp [fence, NoInterpolation]
        have sp : ∀ f, special alnum n f s = some (ty, s1) → Fails s := by
          intro f hx
          have : (specialDelims f).1 <+: s.after := by
            by_contra hcon
            cases n with
            | zero => rw [special] at hx; cases hx
            | succ n => rw [special_none_iff.2 hcon] at hx; cases hx
          cases f
          · exact fails_less '/' (by decide) this (no (by decide)) (no2 (by decide) (by decide)) (no (by decide))
          · exact fails_less '#' (by decide) this (no (by decide)) (no2 (by decide) (by decide)) (no (by decide))
          · exact fails_less '_' (by decide) this (no (by decide)) (no2 (by decide) (by decide)) (no (by decide))
          · exact fails_less '~' (by decide) this (no (by decide)) (no2 (by decide) (by decide)) (no (by decide))
          · exact fails_less '"' (by decide) this (no (by decide)) (no2 (by decide) (by decide)) (no (by decide))
        rcases hmem with rfl | rfl | rfl | rfl | rfl | rfl | rfl | rfl | rfl | rfl | rfl | rfl | rfl | rfl | rfl | rfl | rfl
        · exact mult _ hf
        · exact mult _ hf
        · exact mult _ hf
        · rw [leaf] at hf
          cases ht : token (textSegment alnum) s with
          | none => rw [ht] at hf; cases hf
          | some x =>
            rw [ht] at hf
            cases hf
            have hst := token_start ht
            obtain ⟨m, t, h1, _, _⟩ := token_cases ht
            rw [closedType, hst] at hc
            exact fails_word (segment_head hal.less hal.brace h1) (noFence_at hin hc)
        · exact fails_less '[' (by decide) (pre hne verbatim_none) (fun _ => ⟨_, hf⟩) (no2 (by decide) (by decide)) (no (by decide))
        · exact fails_less '!' (by decide) (pre hne comment_none) (no (by decide)) (no2 (by decide) (by decide)) (no (by decide))
        · have hi : ∃ x, interpolation s.before s.after = some x := by
            cases hx : interpolation s.before s.after with
            | none => rw [leaf_none hx] at hf; cases hf
            | some x => exact ⟨x, rfl⟩
          have hni : ¬ NoInterpolation s.after := by
            intro hno
            rw [leaf_none (interpolation_none hno)] at hf
            cases hf
          by_cases h3 : "<%".toList <+: s.after
          · exact fails_less '%' (by decide) h3 (no (by decide)) (fun _ => hi) (no (by decide))
          · by_cases h4 : "<?".toList <+: s.after
            · exact fails_less '?' (by decide) h4 (no (by decide)) (fun _ => hi) (no (by decide))
            · have h5 : ∃ c r, s.after = '{' :: c :: r := by
                by_contra hcon
                refine hni ⟨?_, ?_, h3, h4⟩
                · rintro ⟨r, hr⟩; exact hcon ⟨'{', r, hr.symm⟩
                · rintro ⟨r, hr⟩; exact hcon ⟨'%', r, hr.symm⟩
              obtain ⟨c, r, hr⟩ := h5
              refine ⟨fun k _ => ?_, fun _ => ?_, fun hno => ?_, fun _ => ?_⟩
              · rw [hr]; cases k <;> simp [fence]
              · rw [hr]; simp
              · obtain ⟨x, hx⟩ := hi
                rw [hno] at hx
                cases hx
              · rw [hr]; simp
        · have hst : ∃ sel : Ast.Selector, ty = .selector sel ∧ sel.start = s.at := by
            rw [selector] at hf
            cases h1 : selectorStart alnum s with
            | none => rw [h1] at hf; cases hf
            | some x => rw [h1] at hf; cases hf; exact ⟨_, rfl, rfl⟩
          obtain ⟨sel, rfl, hst⟩ := hst
          rw [closedType, Bool.and_eq_true, hst] at hc
          exact fails_word (selector_head hal.less hal.brace hf) (noFence_at hin hc.1)
        · have : ">".toList <+: s.after := pre hne fun h => leaf_none (exact_none.2 h)
          obtain ⟨r, hr⟩ := this
          refine NoStart.fails ⟨?_, ?_, fun k => ?_⟩ <;> rw [← hr]
          · simp
          · simp
          · cases k <;> simp [fence]
        · cases n with
          | zero => simp [block] at hf
          | succ n =>
            have hp : "{".toList <+: s.after := pre hne fun h => block_none_iff.2 h
            have hst : ∃ l c r, ty = .block l c r ∧ l.start = s.at := by
              simp only [block] at hf
              cases h1 : token (exact "{".toList) s with
              | none => rw [h1] at hf; cases hf
              | some x => rw [h1] at hf; cases hf; exact ⟨_, _, _, rfl, token_start h1⟩
            obtain ⟨l, ⟨ca, lines, cb⟩, r, rfl, hst⟩ := hst
            rw [closedType, Bool.and_eq_true, Bool.and_eq_true, hst] at hc
            have hb := noBraces_at hin hc.1.1
            obtain ⟨r, hr⟩ := hp
            refine ⟨fun k _ => ?_, fun _ => ?_, fun _ => ⟨hb.1, hb.2, ?_, ?_⟩, fun _ => ?_⟩ <;> rw [← hr]
            · cases k <;> simp [fence]
            all_goals simp
        · cases n with
          | zero => simp [inline] at hf
          | succ n => exact fails_less '(' (by decide) (pre hne fun h => inline_none_iff.2 h) (no (by decide)) (no2 (by decide) (by decide)) (no (by decide))
        · exact sp _ hf
        · exact sp _ hf
        · exact sp _ hf
        · exact sp _ hf
        · exact sp _ hf
        · have hi : ∃ x, inlineCode s.before s.after = some x := by
            cases hx : inlineCode s.before s.after with
            | none => rw [leaf_none hx] at hf; cases hf
            | some x => exact ⟨x, rfl⟩
          exact fails_less '`' (by decide) (pre hne fun h => leaf_none (code_none h)) (no (by decide)) (no2 (by decide) (by decide)) (fun _ => hi)
      refine firstOf_more h ?_ (fails_more hal hs hfails)
      intro f hmem hf
      simp only [List.mem_cons, List.not_mem_nil, or_false] at hmem
      rcases hmem with rfl | rfl | rfl | rfl | rfl | rfl | rfl | rfl | rfl | rfl | rfl | rfl | rfl | rfl | rfl | rfl | rfl
      · exact multiline_more hs hf
      · exact multiline_more hs hf
      · exact multiline_more hs hf
      · rw [leaf_more (ext_textSegment hal.newLine) _ hs, hf]; rfl
      · exact verbatim_more hs hf
      · exact comment_more hs hf hc
      · exact interpolation_leaf_more hs hf
      · exact selector_more hal.newLine hs hf hc
      · rw [leaf_more (ext_exact (by decide)) _ hs, hf]; rfl
      · exact ih.block _ _ _ hin hs hf hc
      · exact ih.inline _ _ _ hin hs hf hc
      · exact ih.special _ _ _ _ hin hs hf hc
      · exact ih.special _ _ _ _ hin hs hf hc
      · exact ih.special _ _ _ _ hin hs hf hc
      · exact ih.special _ _ _ _ hin hs hf hc
      · exact ih.special _ _ _ _ hin hs hf hc
      · exact code_more hs hf
    · intro s ty s1 hin hs h hc
      rw [block] at h ⊢
      rw [token_more (ext_exact (by decide)) hs]
      cases h1 : token (exact "{".toList) s with
      | none => rw [h1] at h; cases h
      | some x =>
        obtain ⟨l, p1⟩ := x
        rw [h1] at h
        simp only [Option.some.injEq, Prod.mk.injEq] at h
        obtain ⟨rfl, rfl⟩ := h
        have hc' : (closing "}".toList (content alnum n (skip isWhitespace p1)).2).1.isSome = true ∧
            (match (content alnum n (skip isWhitespace p1)).1 with | .mk _ ls _ => closedLines src ls) = true := by
          revert hc
          cases (content alnum n (skip isWhitespace p1)).1
          simp only [closedType, Bool.and_eq_true]
          exact fun h => ⟨h.1.2, h.2⟩
        obtain ⟨k1, k2⟩ := delimited closer_brace hin hs h1 hc'.1 hc'.2
        dsimp only [Option.map]
        rw [k1]
        dsimp only
        rw [k2]
    · intro s ty s1 hin hs h hc
      rw [inline] at h ⊢
      rw [token_more (ext_exact (by decide)) hs]
      cases h1 : token (exact "<(".toList) s with
      | none => rw [h1] at h; cases h
      | some x =>
        obtain ⟨l, p1⟩ := x
        rw [h1] at h
        dsimp only [Option.map] at h ⊢
        have a1 := token_adv (sound_exact _) h1
        have a2 := a1.trans (skip_adv isWhitespace p1)
        have a3 := ea.nodes (skip isWhitespace p1)
        have hn := ih.nodes (skip isWhitespace p1) (a2.isIn hin) (a2.noSlash hs)
        cases h2 : nodes alnum n (skip isWhitespace p1) with
        | mk ns e =>
          rw [h2] at h hn a3
          cases ns with
          | nil =>
            have he := nodes_nil h2
            dsimp only at h hn
            simp only [Option.some.injEq, Prod.mk.injEq] at h
            obtain ⟨rfl, rfl⟩ := h
            rw [closedType, Bool.and_eq_true] at hc
            have hd := closing_some closer_paren hc.1
            have hde : Done e.after := by
              rw [he]
              refine done_of ?_
              rw [show (skip isWhitespace p1).after = p1.after.dropWhile isWhitespace from rfl, dropWhile_idem]
              obtain ⟨r, hr⟩ := hd.2.2
              rw [← hr]
              exact closer_paren.2.2 r
            rw [skip_more hd.1, hn hc.2 hde]
            dsimp only
            rw [closing_more closer_paren (a1.noSlash hs) hc.1]
          | cons z ns =>
            dsimp only at h hn
            simp only [Option.some.injEq, Prod.mk.injEq] at h
            obtain ⟨rfl, rfl⟩ := h
            rw [closedType, Bool.and_eq_true] at hc
            have hd := closing_some closer_paren hc.1
            rw [skip_more (((skip_adv isWhitespace p1).trans a3).nonBlank hd.1), hn hc.2 hd.2.1]
            dsimp only
            rw [closing_more closer_paren ((a2.trans a3).noSlash hs) hc.1]
    · intro f s ty s1 hin hs h hc
      rw [special] at h ⊢
      rw [token_more (ext_exact (by cases f <;> decide)) hs]
      cases h1 : token (exact (specialDelims f).1) s with
      | none => rw [h1] at h; cases h
      | some x =>
        obtain ⟨l, p1⟩ := x
        rw [h1] at h
        simp only [Option.some.injEq, Prod.mk.injEq] at h
        obtain ⟨rfl, rfl⟩ := h
        have hc' : (closing (specialDelims f).2 (content alnum n (skip isWhitespace p1)).2).1.isSome = true ∧
            (match (content alnum n (skip isWhitespace p1)).1 with | .mk _ ls _ => closedLines src ls) = true := by
          revert hc
          cases (content alnum n (skip isWhitespace p1)).1
          simp only [closedType, Bool.and_eq_true]
          exact id
        obtain ⟨k1, k2⟩ := delimited (closer_special f) hin hs h1 hc'.1 hc'.2
        dsimp only [Option.map]
        rw [k1]
        dsimp only
        rw [k2]
    · intro s hin hs hc hd
      rw [nodes] at hc hd
      rw [nodes, nodes, token_more ext_space hs]
      cases h1 : token space s with
      | none =>
        rw [h1] at hc hd
        dsimp only [Option.map] at hc hd ⊢
        cases h2 : nodeType alnum n s with
        | none =>
          rw [h2] at hd
          dsimp only at hd
          have : NoStart s.after := by rw [space_none_after h1]; exact hd
          rw [ih.none s hs this h2]
        | some x =>
          obtain ⟨ty, p1⟩ := x
          rw [h2] at hc hd
          dsimp only at hc hd ⊢
          obtain ⟨hc1, hc2⟩ := closedNodes_cons hc
          have a1 := (ea.nodeType _ _ h2).adv
          rw [ih.nodeType s ty p1 hin hs h2 hc1]
          dsimp only
          rw [ih.nodes p1 (a1.isIn hin) (a1.noSlash hs) hc2 hd]
          rfl
      | some z =>
        obtain ⟨sp, s0⟩ := z
        rw [h1] at hc hd
        dsimp only [Option.map] at hc hd ⊢
        have a0 := token_adv sound_space h1
        cases h2 : nodeType alnum n s0 with
        | none =>
          rw [h2] at hd
          dsimp only at hd
          have : NoStart s0.after := by rw [space_after h1]; exact hd
          rw [ih.none s0 (a0.noSlash hs) this h2]
        | some x =>
          obtain ⟨ty, p1⟩ := x
          rw [h2] at hc hd
          dsimp only at hc hd ⊢
          obtain ⟨hc1, hc2⟩ := closedNodes_cons hc
          have a1 := a0.trans (ea.nodeType _ _ h2).adv
          rw [ih.nodeType s0 ty p1 (a0.isIn hin) (a0.noSlash hs) h2 hc1]
          dsimp only
          rw [ih.nodes p1 (a1.isIn hin) (a1.noSlash hs) hc2 hd]
          rfl
    · intro s hin hs hc hd
      rw [line] at hc hd
      rw [line, line, skip_space_more]
      have a1 := skip_adv isSpace s
      have hn := ih.nodes (skip isSpace s) (a1.isIn hin) (a1.noSlash hs)
      cases h2 : nodes alnum n (skip isSpace s) with
      | mk ns e =>
        rw [h2] at hc hd hn
        cases ns with
        | nil =>
          have he := nodes_nil h2
          dsimp only at hd hn
          rw [hn rfl (by rw [he]; exact hd)]
          rfl
        | cons x ns =>
          dsimp only at hc hd hn
          have hd' : Done e.after := by
            rw [Done] at hd ⊢
            rwa [show (skip isSpace e).after = e.after.dropWhile isSpace from rfl, dropWhile_idem] at hd
          rw [closedLines, Bool.and_eq_true] at hc
          rw [hn hc.1 hd']
          dsimp only
          rw [skip_space_more]
          rfl
    · intro s hin hs hc hd
      rw [moreLines] at hc hd ⊢
      cases h1 : token newLine s with
      | none =>
        rw [h1] at hc hd
        refine ⟨n + 1, ?_, .inr h1, ?_⟩
        · simp
        · simp
      | some z =>
        obtain ⟨r, s1⟩ := z
        rw [h1] at hc hd
        dsimp only at hc hd ⊢
        have a1 := token_adv sound_newLine h1
        have a2 := a1.trans (ea.line s1)
        obtain ⟨hc1, hc2⟩ := closedLines_cons hc
        obtain ⟨k, k1, k2, k3⟩ := ih.moreLines (line alnum n s1).2 (a2.isIn hin) (a2.noSlash hs) hc2 hd
        have hd1 : Done (line alnum n s1).2.after := by
          cases n with
          | zero => rw [moreLines] at hd; exact hd
          | succ n =>
            cases h3 : token newLine (line alnum (n + 1) s1).2 with
            | none => rw [moreLines, h3] at hd; exact hd
            | some w => exact newLine_done h3
        refine ⟨k, ?_, k2, ?_⟩
        · rw [List.length_cons]; omega
        · rw [moreLines, token_more_some h1 fun _ _ ht => newLine_more hs ht]
          dsimp only
          rw [ih.line s1 (a1.isIn hin) (a1.noSlash hs) hc1 hd1]
          dsimp only
          rw [k3]
          rfl
    · intro s hin hs hc hb hd
      rw [content] at hc hb hd
      dsimp only at hc hb hd
      have a1 := skip_adv isWhitespace s
      have a2 := a1.trans (ea.line (skip isWhitespace s))
      have a3 := ea.moreLines (line alnum n (skip isWhitespace s)).2
      obtain ⟨hc1, hc2⟩ := closedLines_cons hc
      obtain ⟨k, k1, k2, k3⟩ := ih.moreLines _ (a2.isIn hin) (a2.noSlash hs) hc2 hd
      have hd1 : Done (line alnum n (skip isWhitespace s)).2.after := by
        cases n with
        | zero => rw [moreLines] at hd; exact hd
        | succ n =>
          cases h3 : token newLine (line alnum (n + 1) (skip isWhitespace s)).2 with
          | none => rw [moreLines, h3] at hd; exact hd
          | some w => exact newLine_done h3
      have hbs := (a2.trans a3).nonBlank hb
      have hend : moreLines alnum k (more y (moreLines alnum n (line alnum n (skip isWhitespace s)).2).2) =
          ([], more y (moreLines alnum n (line alnum n (skip isWhitespace s)).2).2) := by
        cases k with
        | zero => rw [moreLines]
        | succ k =>
          rcases k2 with k2 | k2
          · cases k2
          · rw [moreLines, token_none.2 (newLine_more_none ((a2.trans a3).noSlash hs) hb (token_none.1 k2))]
      rw [content, content, skip_more hbs, ih.line _ (a1.isIn hin) (a1.noSlash hs) hc1 hd1]
      dsimp only
      rw [k3, hend]
      simp only [List.append_nil]
      rfl

end Mty.Grammar.More
