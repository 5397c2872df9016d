import Verif.Proofs.Parse

/-! # Tokens with a line break and more text after the source (for C76) -/

set_option autoImplicit false

namespace Mty.Grammar
open Pat Lex

/-- The text does not end with a backslash. -/
def NoSlash (a : Str) : Prop := a.getLast? ≠ some '\\'

theorem NoSlash.nil : NoSlash [] := by simp [NoSlash]

theorem NoSlash.suffix {m a : Str} (h : NoSlash (m ++ a)) : NoSlash a := by
  cases a with
  | nil => exact .nil
  | cons c a => simpa [NoSlash, List.getLast?_append] using h

/-- Some text is added after a token. -/
def add (y : Str) (x : Str × Str) : Str × Str := (x.1, x.2 ++ '\n' :: y)

/-- The pattern reads the same if a line break and more text is added. -/
structure Ext (p : Pat) : Prop where
  sound : Sound p
  ext : ∀ b a y, NoSlash a → p b (a ++ '\n' :: y) = (p b a).map (add y)

/-- The same if there is some text left. -/
structure ExtNe (p : Pat) : Prop where
  sound : Sound p
  ext : ∀ b a y, NoSlash a → a ≠ [] → p b (a ++ '\n' :: y) = (p b a).map (add y)

theorem Ext.ne {p : Pat} (h : Ext p) : ExtNe p := ⟨h.sound, fun b a y h1 _ => h.ext b a y h1⟩

theorem extNe_chr (q : Char → Bool) : ExtNe (chr q) := by
  refine ⟨sound_chr q, fun b a y _ h => ?_⟩
  cases a with
  | nil => exact absurd rfl h
  | cons c a =>
    simp only [chr, List.cons_append]
    split <;> rfl

theorem ext_chr {q : Char → Bool} (h : q '\n' = false) : Ext (chr q) := by
  refine ⟨sound_chr q, fun b a y _ => ?_⟩
  cases a with
  | nil => simp [chr, h]
  | cons c a =>
    simp only [chr, List.cons_append]
    split <;> rfl

theorem isPrefixOf_ext : ∀ (t a y : Str), '\n' ∉ t → t.isPrefixOf (a ++ '\n' :: y) = t.isPrefixOf a
  | [], a, y, _ => by simp
  | c :: t, [], y, h => by
    have : c ≠ '\n' := fun e => h (by simp [e])
    simp [List.isPrefixOf, this]
  | c :: t, d :: a, y, h => by
    have := isPrefixOf_ext t a y fun e => h (List.mem_cons_of_mem _ e)
    simp [List.isPrefixOf, this]

theorem ext_exact {t : Str} (h : '\n' ∉ t) : Ext (Pat.exact t) := by
  refine ⟨sound_exact t, fun b a y _ => ?_⟩
  rw [Pat.exact, Pat.exact, isPrefixOf_ext t a y h]
  split
  · rename_i hp
    obtain ⟨r, rfl⟩ := List.isPrefixOf_iff_prefix.mp hp
    simp [add]
  · rfl

theorem Ext.some {p : Pat} (h : Ext p) {b a y m r : Str} (ha : NoSlash a) (he : p b a = some (m, r)) :
    p b (a ++ '\n' :: y) = some (m, r ++ '\n' :: y) := by rw [h.ext b a y ha, he]; rfl

theorem Ext.none {p : Pat} (h : Ext p) {b a y : Str} (ha : NoSlash a) (he : p b a = none) : p b (a ++ '\n' :: y) = none := by
  rw [h.ext b a y ha, he]; rfl

theorem Sound.noSlash {p : Pat} (h : Sound p) {b a m r : Str} (he : p b a = some (m, r)) (ha : NoSlash a) : NoSlash r := by
  rw [h _ _ _ _ he] at ha
  exact ha.suffix

theorem ext_seq {p q : Pat} (hp : Ext p) (hq : Ext q) : Ext (seq p q) := by
  refine ⟨sound_seq hp.sound hq.sound, fun b a y ha => ?_⟩
  rw [seq, seq, hp.ext b a y ha]
  cases h : p b a with
  | none => rfl
  | some x =>
    obtain ⟨m, r⟩ := x
    simp only [Option.map_some, add]
    rw [hq.ext _ r y (hp.sound.noSlash h ha)]
    cases q (b ++ m) r with
    | none => rfl
    | some z => rfl

theorem ext_alt {p q : Pat} (hp : Ext p) (hq : Ext q) : Ext (alt p q) := by
  refine ⟨sound_alt hp.sound hq.sound, fun b a y ha => ?_⟩
  rw [alt, alt, hp.ext b a y ha]
  cases h : p b a with
  | none => exact hq.ext b a y ha
  | some x => rfl

theorem extNe_alt {p q : Pat} (hp : ExtNe p) (hq : ExtNe q) : ExtNe (alt p q) := by
  refine ⟨sound_alt hp.sound hq.sound, fun b a y ha hn => ?_⟩
  rw [alt, alt, hp.ext b a y ha hn]
  cases h : p b a with
  | none => exact hq.ext b a y ha hn
  | some x => rfl

theorem ext_precedes {p : Pat} (hp : Ext p) : Ext (precedes p) := by
  refine ⟨sound_precedes p, fun b a y ha => ?_⟩
  rw [precedes, precedes, hp.ext b a y ha]
  cases p b a <;> rfl

theorem ext_notPrecedes {p : Pat} (hp : Ext p) : Ext (notPrecedes p) := by
  refine ⟨sound_notPrecedes p, fun b a y ha => ?_⟩
  rw [notPrecedes, notPrecedes, hp.ext b a y ha]
  cases p b a <;> rfl

theorem ext_notFollows (q : Char → Bool) : Ext (notFollows q) := by
  refine ⟨sound_notFollows q, fun b a y _ => ?_⟩
  rw [notFollows, notFollows]
  cases b.getLast? with
  | none => rfl
  | some c => dsimp only; split <;> rfl

/-- A repetition does not depend on the bound. -/
theorem manyLoop_enough {p : Pat} (hp : Sound p) : ∀ (n k : Nat) (b r : Str), r.length ≤ n → r.length ≤ k → manyLoop p n b r = manyLoop p k b r
  | 0, k, b, r, h, _ => by
    have : r = [] := List.length_eq_zero_iff.1 (by omega)
    subst this
    cases k with
    | zero => rfl
    | succ k =>
      rw [manyLoop, manyLoop]
      split
      · rename_i h1
        have := hp _ _ _ _ h1
        simp at this
      · rfl
  | n + 1, 0, b, r, _, h => by
    have : r = [] := List.length_eq_zero_iff.1 (by omega)
    subst this
    rw [manyLoop, manyLoop]
    split
    · rename_i h1
      have := hp _ _ _ _ h1
      simp at this
    · rfl
  | n + 1, k + 1, b, r, h, h' => by
    rw [manyLoop, manyLoop]
    split
    · rename_i c m r1 h1
      have := hp _ _ _ _ h1
      subst this
      simp only [List.cons_append, List.length_cons, List.length_append] at h h'
      rw [manyLoop_enough hp n k _ r1 (by omega) (by omega)]
    · rfl

theorem manyLoop_ext {p : Pat} (hp : Ext p) : ∀ (n : Nat) (b a y : Str), NoSlash a → a.length ≤ n →
    manyLoop p (n + (y.length + 1)) b (a ++ '\n' :: y) = add y (manyLoop p n b a)
  | 0, b, a, y, ha, h => by
    have : a = [] := List.length_eq_zero_iff.1 (by omega)
    subst this
    have h0 : p b [] = none ∨ ∃ r, p b [] = some ([], r) := by
      cases h1 : p b [] with
      | none => exact .inl rfl
      | some x =>
        obtain ⟨m, r⟩ := x
        have := hp.sound _ _ _ _ h1
        simp at this
        rw [this.1]
        exact .inr ⟨r, rfl⟩
    have h2 := hp.ext b [] y ha
    rw [Nat.zero_add, manyLoop, manyLoop, h2]
    rcases h0 with h0 | ⟨r, h0⟩ <;> rw [h0] <;> rfl
  | n + 1, b, a, y, ha, h => by
    rw [show n + 1 + (y.length + 1) = (n + (y.length + 1)) + 1 by omega, manyLoop, manyLoop, hp.ext b a y ha]
    cases h1 : p b a with
    | none => rfl
    | some x =>
      obtain ⟨m, r⟩ := x
      cases m with
      | nil => rfl
      | cons c m =>
        have hs := hp.sound _ _ _ _ h1
        subst hs
        simp only [List.cons_append, List.length_cons, List.length_append] at h
        have := manyLoop_ext hp n (b ++ c :: m) r y ha.suffix (by omega)
        simp only [Option.map_some, add, this]

theorem ext_many {p : Pat} (hp : Ext p) : Ext (many p) := by
  refine ⟨sound_many hp.sound, fun b a y ha => ?_⟩
  have := manyLoop_ext hp a.length b a y ha (Nat.le_refl _)
  rw [many, many, show (a ++ '\n' :: y).length = a.length + (y.length + 1) by simp, this]
  rfl

theorem ext_many1 {p : Pat} (hp : Ext p) : Ext (many1 p) := ext_seq hp (ext_many hp)

/-- Repetitions that end before the end. -/
theorem manyLoop_extNe {p : Pat} (hp : ExtNe p) : ∀ (n : Nat) (b a y : Str), NoSlash a → a.length ≤ n → (manyLoop p n b a).2 ≠ [] →
    manyLoop p (n + (y.length + 1)) b (a ++ '\n' :: y) = add y (manyLoop p n b a)
  | 0, b, a, y, ha, h, hr => absurd (List.length_eq_zero_iff.1 (Nat.le_zero.1 h)) hr
  | n + 1, b, a, y, ha, h, hr => by
    have hne : a ≠ [] := by
      rintro rfl
      have := manyLoop_sound hp.sound (n + 1) b []
      simp at this
      exact hr this.2
    rw [manyLoop] at hr
    rw [show n + 1 + (y.length + 1) = (n + (y.length + 1)) + 1 by omega, manyLoop, manyLoop, hp.ext b a y ha hne]
    cases h1 : p b a with
    | none => rfl
    | some x =>
      rw [h1] at hr
      obtain ⟨m, r⟩ := x
      cases m with
      | nil => rfl
      | cons c m =>
        have hs := hp.sound _ _ _ _ h1
        subst hs
        simp only [List.cons_append, List.length_cons, List.length_append] at h
        have := manyLoop_extNe hp n (b ++ c :: m) r y ha.suffix (by omega) hr
        simp only [Option.map_some, add, this]

theorem many_extNe {p : Pat} (hp : ExtNe p) {b a y m r : Str} (ha : NoSlash a) (h : many p b a = some (m, r)) (hr : r ≠ []) :
    many p b (a ++ '\n' :: y) = some (m, r ++ '\n' :: y) := by
  simp only [many, Option.some.injEq] at h
  have := manyLoop_extNe hp a.length b a y ha (Nat.le_refl _) (by rw [h]; exact hr)
  rw [many, show (a ++ '\n' :: y).length = a.length + (y.length + 1) by simp, this, h]
  rfl

theorem lazyThen_ext {q : Pat} (hq : Ext q) : ∀ {a b y m r : Str}, NoSlash a → lazyThen q b a = some (m, r) →
    lazyThen q b (a ++ '\n' :: y) = some (m, r ++ '\n' :: y)
  | [], b, y, m, r, ha, h => by
    rw [lazyThen] at h
    have := hq.some (y := y) ha h
    rw [List.nil_append] at this ⊢
    rw [lazyThen, this]
  | c :: a, b, y, m, r, ha, h => by
    rw [lazyThen] at h
    rw [List.cons_append, lazyThen, ← List.cons_append, hq.ext b (c :: a) y ha]
    cases h1 : q b (c :: a) with
    | some x => rw [h1] at h; cases h; rfl
    | none =>
      rw [h1] at h
      dsimp only at h
      cases h2 : lazyThen q (b ++ [c]) a with
      | none => rw [h2] at h; cases h
      | some z =>
        obtain ⟨m', r'⟩ := z
        rw [h2] at h
        cases h
        have := lazyThen_ext hq (y := y) (NoSlash.suffix (m := [c]) ha) h2
        rw [Option.map_none, this]

theorem ext_escape : Ext Lex.escape := by
  unfold Lex.escape
  refine ext_alt ?_ ⟨sound_seq (sound_chr _) (sound_chr _), fun b a y ha => ?_⟩
  · unfold unicodeEscape
    exact ext_seq (ext_exact (by decide)) (ext_seq (ext_many (ext_chr (by decide))) (ext_exact (by decide)))
  · match a, ha with
    | [], _ => simp [seq, chr]
    | [c], ha =>
      have : c ≠ '\\' := fun e => ha (by simp [e])
      simp [seq, chr, this]
    | c :: d :: a, _ =>
      by_cases h : c = '\\'
      · subst h; simp [seq, chr, add]
      · simp [seq, chr, h]

theorem ext_space : Ext space := by unfold space; exact ext_many1 (ext_chr (by decide))

theorem ext_postSelectorChain : Ext postSelectorChain := by
  unfold postSelectorChain
  exact ext_alt (ext_seq (ext_many (ext_chr (by decide))) (ext_alt (ext_chr (by decide))
    (ext_seq (ext_chr (by decide)) (ext_notPrecedes (ext_chr (by decide)))))) (ext_chr (by decide))

theorem ext_textWord {al : Char → Bool} (hal : al '\n' = false) : Ext (textWord al) :=
  ext_seq (ext_many1 (ext_alt (ext_seq (ext_chr (by decide)) (ext_notPrecedes (ext_chr (by decide)))) (ext_alt (ext_chr hal) ext_escape)))
    (ext_notPrecedes ext_postSelectorChain)

theorem ext_textSegment {al : Char → Bool} (hal : al '\n' = false) : Ext (textSegment al) := by
  unfold textSegment
  exact ext_seq (ext_textWord hal) (ext_many (ext_seq ext_space (ext_textWord hal)))

theorem ext_selectorChain {al : Char → Bool} (hal : al '\n' = false) : Ext (selectorChain al) :=
  ext_seq (ext_many1 (ext_alt (ext_seq (ext_chr (by decide)) (ext_notPrecedes (ext_chr (by decide))))
    (ext_alt (ext_chr (by simp [hal])) ext_escape))) (ext_precedes ext_postSelectorChain)

theorem ext_attributeName : Ext attributeName := ext_many1 (ext_alt (ext_chr (by decide +kernel)) ext_escape)

theorem ext_unquotedValue : Ext unquotedValue := ext_many1 (ext_alt (ext_chr (by decide +kernel)) ext_escape)

/-- A quoted value. -/
theorem quoted_ext {b a y m r : Str} (ha : NoSlash a) (h : quotedString b a = some (m, r)) :
    quotedString b (a ++ '\n' :: y) = some (m, r ++ '\n' :: y) := by
  have key : ∀ (q : Char), q ≠ '\\' → ∀ {b a m r : Str}, NoSlash a →
      seq (chr (· = q)) (seq (many (alt (chr fun c => !(c ∈ ['\\', q])) escape)) (chr (· = q))) b a = some (m, r) →
      seq (chr (· = q)) (seq (many (alt (chr fun c => !(c ∈ ['\\', q])) escape)) (chr (· = q))) b (a ++ '\n' :: y) = some (m, r ++ '\n' :: y) := by
    intro q hq b a m r ha h
    obtain ⟨m1, r1, m2, h1, h2, rfl⟩ := seq_some h
    obtain ⟨m3, r3, m4, h3, h4, rfl⟩ := seq_some h2
    have hne : a ≠ [] := by rintro rfl; simp [chr] at h1
    have e1 := (extNe_chr (· = q)).ext b a y ha hne
    rw [h1] at e1
    have ha1 := (sound_chr _).noSlash h1 ha
    have hr3 : r3 ≠ [] := by rintro rfl; simp [chr] at h4
    have hx : ExtNe (alt (chr fun c => !(c ∈ ['\\', q])) escape) := extNe_alt (extNe_chr _) ext_escape.ne
    have e2 := many_extNe hx (y := y) ha1 h3 hr3
    have e3 := (extNe_chr (· = q)).ext (b ++ m1 ++ m3) r3 y ((sound_many hx.sound).noSlash h3 ha1) hr3
    rw [h4] at e3
    rw [seq, e1]
    simp only [Option.map_some, add]
    rw [seq, e2]
    simp only
    rw [e3]
    rfl
  unfold quotedString at h ⊢
  rcases alt_some h with h | ⟨h1, h2⟩
  · rw [alt, key '"' (by decide) ha h]
  · have hne : a ≠ [] := by rintro rfl; simp [seq, chr] at h2
    have : seq (chr (· = '"')) (seq (many (alt (chr fun c => !(c ∈ ['\\', '"'])) escape)) (chr (· = '"'))) b (a ++ '\n' :: y) = none := by
      cases a with
      | nil => exact absurd rfl hne
      | cons c a =>
        have hc : c ≠ '"' := by
          rintro rfl
          simp [seq, chr] at h2
        simp [seq, chr, hc]
    rw [alt, this]
    exact key '\'' (by decide) ha h2

theorem inlineCode_ext {b a y m r : Str} (ha : NoSlash a) (h : inlineCode b a = some (m, r)) :
    inlineCode b (a ++ '\n' :: y) = some (m, r ++ '\n' :: y) := by
  obtain ⟨m1, r1, m2, h1, h2, rfl⟩ := seq_some h
  have hx : Ext (Pat.exact "<`".toList) := ext_exact (by decide)
  rw [inlineCode, seq, hx.some ha h1]
  simp only
  rw [lazyThen_ext (ext_exact (by decide)) (hx.sound.noSlash h1 ha) h2]

theorem verbatimTail_ext (k : Nat) {b a y m r : Str} (ha : NoSlash a) (h : verbatimTail k b a = some (m, r)) :
    verbatimTail k b (a ++ '\n' :: y) = some (m, r ++ '\n' :: y) := by
  obtain ⟨m1, r1, m2, h1, h2, rfl⟩ := seq_some h
  have hx : Ext (Pat.exact (List.replicate k '#' ++ "[".toList)) := ext_exact (by simp)
  rw [verbatimTail, seq, hx.some ha h1]
  simp only
  rw [lazyThen_ext (ext_exact (by simp)) (hx.sound.noSlash h1 ha) h2]

theorem comment_ext : ∀ (n d : Nat) (a y m r : Str), a.length ≤ n → commentParts d a = (m, r) → r ≠ [] →
    commentParts d (a ++ '\n' :: y) = (m, r ++ '\n' :: y)
  | n, d, [], y, m, r, _, h, hr => by
    rw [commentParts] at h
    cases h
    exact absurd rfl hr
  | 0, _, _ :: _, _, _, _, h, _, _ => by simp at h
  | n + 1, d, [c], y, m, r, hl, h, hr => by
    have : commentParts d [c] = ([c], []) := by
      rw [commentParts.eq_def]
      split
      · rename_i e; simp at e
      · rename_i e; simp at e
      · rename_i e; simp at e
      · rename_i e; simp at e
      · rename_i e
        cases e
        simp [commentParts]
    rw [this] at h
    cases h
    exact absurd rfl hr
  | n + 1, d, c :: e :: a, y, m, r, hl, h, hr => by
    simp only [List.length_cons] at hl
    by_cases h1 : c = '<' ∧ e = '!'
    · obtain ⟨rfl, rfl⟩ := h1
      rw [commentParts] at h
      rcases hc : commentParts (d + 1) a with ⟨m', r'⟩
      rw [hc] at h
      cases h
      rw [List.cons_append, List.cons_append, commentParts, comment_ext n (d + 1) a y m' r (by omega) hc hr]
    · by_cases h2 : c = '!' ∧ e = '>'
      · obtain ⟨rfl, rfl⟩ := h2
        cases d with
        | zero =>
          rw [commentParts] at h
          cases h
          rw [List.cons_append, List.cons_append, commentParts]
        | succ d =>
          rw [commentParts] at h
          rcases hc : commentParts d a with ⟨m', r'⟩
          rw [hc] at h
          cases h
          rw [List.cons_append, List.cons_append, commentParts, comment_ext n d a y m' r (by omega) hc hr]
      · have step : ∀ z : Str, commentParts d (c :: e :: z) = (c :: (commentParts d (e :: z)).1, (commentParts d (e :: z)).2) := by
          intro z
          conv_lhs => rw [commentParts.eq_def]
          split
          · rename_i k; simp at k
          · rename_i k; simp at k; exact absurd ⟨k.1, k.2.1⟩ h1
          · rename_i k; simp at k; exact absurd ⟨k.1, k.2.1⟩ h2
          · rename_i k; simp at k; exact absurd ⟨k.1, k.2.1⟩ h2
          · rename_i k; cases k; rfl
        rw [step] at h
        rcases hc : commentParts d (e :: a) with ⟨m', r'⟩
        rw [hc] at h
        cases h
        have := comment_ext n d (e :: a) y m' r' (by simp only [List.length_cons]; omega) hc hr
        rw [List.cons_append, List.cons_append, step, ← List.cons_append, this]

end Mty.Grammar
