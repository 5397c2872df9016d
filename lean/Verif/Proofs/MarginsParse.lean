import Verif.Proofs.Margins
import Verif.Proofs.PartsRules

/-! # The parser and the margins of lines (for C86 and C87) -/

set_option autoImplicit false

namespace Mty.Grammar
open Pat Lex Spec

/-! ## What the two trees have in common -/

section
variable (Q : Str → Str → Prop) (src src' : Str)

/-- The ranges of the same text. -/
def Sl (r r' : Range) : Prop := ∃ a m b a' m' b', src = a ++ (m ++ b) ∧ src' = a' ++ (m' ++ b') ∧ Margins Q m m' ∧
  r = ⟨byteLen a, byteLen (a ++ m)⟩ ∧ r' = ⟨byteLen a', byteLen (a' ++ m')⟩

/-- The same, without a line feed. -/
def Ss (r r' : Range) : Prop := ∃ a m b a' b', src = a ++ (m ++ b) ∧ src' = a' ++ (m ++ b') ∧
  r = ⟨byteLen a, byteLen (a ++ m)⟩ ∧ r' = ⟨byteLen a', byteLen (a' ++ m)⟩ ∧ '\n' ∉ m

/-- The same block of text, which begins with a line feed. -/
def Sb (r r' : Range) : Prop := ∃ a m b a' u v m' b', src = a ++ ('\n' :: m ++ b) ∧ src' = a' ++ ('\n' :: (v ++ m') ++ b') ∧ Margins Q m m' ∧ Q u v ∧
  r = ⟨byteLen a, byteLen (a ++ '\n' :: m)⟩ ∧ r' = ⟨byteLen a', byteLen (a' ++ '\n' :: (v ++ m'))⟩

inductive RVal : Ast.AttributeValue → Ast.AttributeValue → Prop
  | unquoted {r r'} : Sl Q src src' r r' → RVal (.unquoted r) (.unquoted r')
  | quoted {r r'} : Sl Q src src' r r' → RVal (.quoted r) (.quoted r')

def RAttr (a a' : Ast.Attribute) : Prop := Sl Q src src' a.name a'.name ∧ Option.Rel (RVal Q src src') a.value a'.value

def RAttrs (a a' : Ast.AttributeSelector) : Prop := List.Forall₂ (RAttr Q src src') a.parts a'.parts ∧ a.rBracket.isSome = a'.rBracket.isSome

inductive RClass : Ast.ClassLike → Ast.ClassLike → Prop
  | cls {m m' r r'} : Sl Q src src' r r' → RClass (.cls m r) (.cls m' r')
  | id {m m' r r'} : Sl Q src src' r r' → RClass (.id m r) (.id m' r')
  | invalid {r r'} : RClass (.invalid r) (.invalid r')

inductive RElem : Ast.ElementSelector → Ast.ElementSelector → Prop
  | name {r r'} : Sl Q src src' r r' → RElem (.name r) (.name r')
  | star {r r'} : RElem (.star r) (.star r')

inductive RStart : Ast.SelectorStart → Ast.SelectorStart → Prop
  | attributes {a a'} : RAttrs Q src src' a a' → RStart (.attributes a) (.attributes a')
  | tag {e e' cs cs'} : Option.Rel (RElem Q src src') e e' → List.Forall₂ (RClass Q src src') cs cs' → RStart (.tag e cs) (.tag e' cs')

inductive RSeg : Ast.SelectorSegment → Ast.SelectorSegment → Prop
  | attributes {a a'} : RAttrs Q src src' a a' → RSeg (.attributes a) (.attributes a')
  | classLike {cs cs'} : List.Forall₂ (RClass Q src src') cs cs' → RSeg (.classLike cs) (.classLike cs')

def RSel (a a' : Ast.Selector) : Prop := RStart Q src src' a.first a'.first ∧ List.Forall₂ (RSeg Q src src') a.segments a'.segments

inductive RTail : Ast.VerbatimTail → Ast.VerbatimTail → Prop
  | verbatim0 {r r'} : Sl Q src src' r r' → RTail (.verbatim0 r) (.verbatim0 r')
  | verbatim1 {r r'} : Sl Q src src' r r' → RTail (.verbatim1 r) (.verbatim1 r')
  | verbatim2 {r r'} : Sl Q src src' r r' → RTail (.verbatim2 r) (.verbatim2 r')

inductive RText : Ast.InlineText → Ast.InlineText → Prop
  | segment {r r'} : Sl Q src src' r r' → RText (.segment r) (.segment r')
  | verbatim {o o' k k' t t'} : k.isSome = k'.isSome → RTail Q src src' t t' → RText (.verbatim o k t) (.verbatim o' k' t')
  | comment {c c' : Ast.Comment} : Sl Q src src' c.inner c'.inner → c.close.isSome = c'.close.isSome → RText (.comment c) (.comment c')
  | interpolation {r r'} : Sl Q src src' r r' → RText (.interpolation r) (.interpolation r')

mutual
  inductive RType : Ast.NodeType → Ast.NodeType → Prop
    | multiline {k a b a' b'} : Sb Q src src' ⟨a, b⟩ ⟨a', b'⟩ → RType (.multiline k a b) (.multiline k a' b')
    | text {t t'} : RText Q src src' t t' → RType (.text t) (.text t')
    | selector {s s'} : RSel Q src src' s s' → RType (.selector s) (.selector s')
    | line {r r'} : RType (.line r) (.line r')
    | block {l l' a a' ls ls' b b' r r'} : RLines ls ls' → r.isSome = r'.isSome → RType (.block l (.mk a ls b) r) (.block l' (.mk a' ls' b') r')
    | inline {l l' ns ns' r r'} : RNodes ns ns' → r.isSome = r'.isSome → RType (.inline l ns r) (.inline l' ns' r')
    | special {f l l' a a' ls ls' b b' r r'} : RLines ls ls' → r.isSome = r'.isSome →
        RType (.special f l (.mk a ls b) r) (.special f l' (.mk a' ls' b') r')
    | code {r r'} : Sl Q src src' r r' → RType (.code r) (.code r')
  inductive RNodes : List Ast.Node → List Ast.Node → Prop
    | nil : RNodes [] []
    | cons {sp sp' a a' b b' ty ty' ns ns'} : Option.Rel (Ss src src') sp sp' → RType ty ty' → RNodes ns ns' →
        RNodes (.mk sp a b ty :: ns) (.mk sp' a' b' ty' :: ns')
  inductive RLines : List Ast.Line → List Ast.Line → Prop
    | nil : RLines [] []
    | cons {a a' ns ns' b b' ls ls'} : RNodes ns ns' → RLines ls ls' → RLines (.mk a ns b :: ls) (.mk a' ns' b' :: ls')
end

inductive RContent : Ast.Content → Ast.Content → Prop
  | mk {a a' ls ls' b b'} : RLines Q src src' ls ls' → RContent (.mk a ls b) (.mk a' ls' b')

end

/-! ## Positions -/

/-- Two positions with the same before and after them, up to margins. -/
def At (Q : Str → Str → Prop) (src src' : Str) (s s' : Pos) : Prop := ∃ t t', src = s.before ++ (s.after ++ t) ∧ src' = s'.before ++ (s'.after ++ t') ∧
  Margins Q s.before s'.before ∧ Margins Q s.after s'.after

section
variable {Q : Str → Str → Prop} {src src' : Str}

theorem At.step {s s' : Pos} (h : At Q src src' s s') {m t m' t' : Str} (h1 : s.after = m ++ t) (h2 : s'.after = m' ++ t') (hm : Margins Q m m')
    (ht : Margins Q t t') : At Q src src' ⟨s.before ++ m, t⟩ ⟨s'.before ++ m', t'⟩ := by
  obtain ⟨x, y, e1, e2, h3, h4⟩ := h
  exact ⟨x, y, by rw [e1, h1]; simp, by rw [e2, h2]; simp, h3.append hm, ht⟩

theorem At.ok {s s' : Pos} (hsrc : NoSlashBreak src) (h : At Q src src' s s') : NoSlashBreak s.after := by
  obtain ⟨t, t', rfl, _⟩ := h
  exact NoSlashBreak.prefix (NoSlashBreak.suffix hsrc)

theorem At.nil_iff {s s' : Pos} (h : At Q src src' s s') : s'.after = [] ↔ s.after = [] := by
  obtain ⟨_, _, _, _, _, h⟩ := h
  exact h.nil_iff

/-- The same up to margins, or nothing. -/
def Res {α : Type} (Q : Str → Str → Prop) (src src' : Str) (R : α → α → Prop) (x y : Option (α × Pos)) : Prop :=
  (x = none ∧ y = none) ∨ ∃ a s1 a' s1', x = some (a, s1) ∧ y = some (a', s1') ∧ R a a' ∧ At Q src src' s1 s1'

theorem Res.no {α : Type} {R : α → α → Prop} : Res Q src src' R none none := .inl ⟨rfl, rfl⟩

theorem Res.yes {α : Type} {R : α → α → Prop} {a a' : α} {s1 s1' : Pos} (h : R a a') (hs : At Q src src' s1 s1') :
    Res Q src src' R (some (a, s1)) (some (a', s1')) := .inr ⟨_, _, _, _, rfl, rfl, h, hs⟩

/-- The same for what is always read. -/
def Pair {α : Type} (Q : Str → Str → Prop) (src src' : Str) (R : α → α → Prop) (x y : α × Pos) : Prop := R x.1 y.1 ∧ At Q src src' x.2 y.2

variable (hsrc : NoSlashBreak src)
include hsrc

theorem token_cr {p : Pat} (hp : Eqv p) {s s' : Pos} (hs : At Q src src' s s') : Res Q src src' (Sl Q src src') (token p s) (token p s') := by
  have hs0 := hs
  obtain ⟨x, y, e1, e2, h3, h4⟩ := hs
  rcases hp.eqv _ _ _ _ h3 h4 (hs0.ok hsrc) with ⟨g1, g2⟩ | ⟨m, t, m', t', g1, g2, hm, ht⟩
  · rw [More.token_none.2 g1, More.token_none.2 g2]; exact .no
  · rw [More.token_of g1, More.token_of g2]
    have k1 := hp.sound _ _ _ _ g1
    have k2 := hp.sound _ _ _ _ g2
    exact .yes ⟨s.before, m, t ++ x, s'.before, m', t' ++ y, by rw [e1, k1]; simp, by rw [e2, k2]; simp, hm, rfl, rfl⟩ (hs0.step k1 k2 hm ht)

omit hsrc in
theorem At.skip {s s' : Pos} (h : At Q src src' s s') {q : Char → Bool} (hq : On q) : At Q src src' (skip q s) (skip q s') := by
  obtain ⟨h1, h2⟩ := span_both hq h.choose_spec.choose_spec.2.2.2
  exact h.step (by simp) (by simp) h1 h2

omit hsrc in
theorem At.white {s s' : Pos} (h : At Q src src' s s') : At Q src src' (Grammar.skip isWhitespace s) (Grammar.skip isWhitespace s') := h.skip (by decide)

theorem closing_cr {t : Str} (h1 : Inked t) {s s' : Pos} (hs : At Q src src' s s') :
    Pair Q src src' (fun a b => a.isSome = b.isSome) (closing t s) (closing t s') := by
  rw [closing, closing]
  rcases token_cr hsrc (eqv_exact h1) (hs.white) with ⟨e1, e2⟩ | ⟨r, s1, r', s1', e1, e2, _, h⟩
  · rw [e1, e2]; exact ⟨rfl, hs⟩
  · rw [e1, e2]; exact ⟨rfl, h⟩

theorem attributeValue_cr {s s' : Pos} (hs : At Q src src' s s') : Res Q src src' (RVal Q src src') (attributeValue s) (attributeValue s') := by
  rw [attributeValue, attributeValue]
  rcases token_cr hsrc eqv_unquotedValue hs with ⟨e1, e2⟩ | ⟨r, s1, r', s1', e1, e2, hr, h⟩
  · rw [e1, e2]
    rcases token_cr hsrc eqv_quoted hs with ⟨e1, e2⟩ | ⟨r, s1, r', s1', e1, e2, hr, h⟩
    · rw [e1, e2]; exact .no
    · rw [e1, e2]; exact .yes (.quoted hr) h
  · rw [e1, e2]; exact .yes (.unquoted hr) h

theorem attributeAssignment_cr {s s' : Pos} (hs : At Q src src' s s') : Res Q src src' (RVal Q src src') (attributeAssignment s) (attributeAssignment s') := by
  rw [attributeAssignment, attributeAssignment]
  rcases token_cr hsrc eqv_assignment hs with ⟨e1, e2⟩ | ⟨r, s1, r', s1', e1, e2, hr, h⟩
  · rw [e1, e2]; exact .no
  · rw [e1, e2]; exact attributeValue_cr hsrc h

theorem oneAttribute_cr {s s' : Pos} (hs : At Q src src' s s') : Res Q src src' (RAttr Q src src') (oneAttribute s) (oneAttribute s') := by
  rw [oneAttribute, oneAttribute]
  rcases token_cr hsrc eqv_attributeName (hs.white) with ⟨e1, e2⟩ | ⟨r, s1, r', s1', e1, e2, hr, h⟩
  · rw [e1, e2]; exact .no
  · rw [e1, e2]
    dsimp only
    rcases attributeAssignment_cr hsrc h with ⟨e3, e4⟩ | ⟨v, s2, v', s2', e3, e4, hv, h'⟩
    · rw [e3, e4]; exact .yes ⟨hr, .none⟩ h
    · rw [e3, e4]; exact .yes ⟨hr, .some hv⟩ h'

omit hsrc in
theorem oneAttribute_adv1 {s : Pos} {x} (h : oneAttribute s = some x) : Adv1 s x.2 := by
  rw [oneAttribute] at h
  split at h
  · cases h
  · rename_i h1
    have h1 := (skip_adv _ s).trans1 (token_adv1 sound_attributeName (by unfold attributeName; exact ne_seq1 (ne_alt (ne_chr _) ne_escape)) h1)
    split at h
    · cases h; exact h1
    · rename_i h2; cases h; exact h1.trans (attributeAssignment_adv h2)

theorem attributeList_cr : ∀ (n k : Nat) {s s' : Pos}, At Q src src' s s' → s.after.length ≤ n → s'.after.length ≤ k →
    Pair Q src src' (List.Forall₂ (RAttr Q src src')) (attributeList n s) (attributeList k s')
  | n, k, s, s', hs, hn, hk => by
    rcases oneAttribute_cr hsrc hs with ⟨e1, e2⟩ | ⟨a, s1, a', s1', e1, e2, ha, h⟩
    · have : ∀ n s, oneAttribute s = none → attributeList n s = ([], s) := by
        intro n s h
        cases n with
        | zero => rfl
        | succ n => rw [attributeList, h]
      rw [this n s e1, this k _ e2]
      exact ⟨.nil, hs⟩
    · have l1 := (oneAttribute_adv1 e1).lt
      have l2 := (oneAttribute_adv1 e2).lt
      dsimp only at l1 l2
      match n, k with
      | 0, _ => omega
      | _, 0 => omega
      | n + 1, k + 1 =>
        rw [attributeList, attributeList, e1, e2]
        have ih := attributeList_cr n k h (by omega) (by omega)
        exact ⟨.cons ha ih.1, ih.2⟩

theorem attributeSelector_cr {s s' : Pos} (hs : At Q src src' s s') : Res Q src src' (RAttrs Q src src') (attributeSelector s) (attributeSelector s') := by
  rw [attributeSelector, attributeSelector]
  rcases token_cr hsrc (eqv_exact (t := "[".toList) (by decide)) hs with ⟨e1, e2⟩ | ⟨r, s1, r', s1', e1, e2, hr, h⟩
  · rw [e1, e2]; exact .no
  · rw [e1, e2]
    dsimp only
    obtain ⟨h1, h3⟩ := attributeList_cr hsrc s1.after.length s1'.after.length h (Nat.le_refl _) (Nat.le_refl _)
    obtain ⟨h4, h6⟩ := closing_cr hsrc (t := "]".toList) (by decide) h3
    exact .yes ⟨h1, h4⟩ h6

/-- A mark and a name. -/
theorem marked_cr {t : Str} (h1 : Inked t) {s s' : Pos} (hs : At Q src src' s s') :
    (marked t s = none ∧ marked t s' = none) ∨ ∃ m r s1 m' r' s1', marked t s = some (m, r, s1) ∧ marked t s' = some (m', r', s1') ∧
      Sl Q src src' r r' ∧ At Q src src' s1 s1' := by
  rw [marked, marked]
  rcases token_cr hsrc (eqv_exact h1) hs with ⟨e1, e2⟩ | ⟨r, s1, r', s1', e1, e2, hr, h⟩
  · rw [e1, e2]; exact .inl ⟨rfl, rfl⟩
  · rw [e1, e2]
    dsimp only
    rcases token_cr hsrc eqv_className h with ⟨e3, e4⟩ | ⟨c, s2, c', s2', e3, e4, hc, h'⟩
    · rw [e3, e4]; exact .inl ⟨rfl, rfl⟩
    · rw [e3, e4]; exact .inr ⟨_, _, _, _, _, _, rfl, rfl, hc, h'⟩

theorem classLike_cr {s s' : Pos} (hs : At Q src src' s s') : Res Q src src' (RClass Q src src') (classLike s) (classLike s') := by
  rw [classLike, classLike]
  rcases marked_cr hsrc (t := ".".toList) (by decide) hs with ⟨e1, e2⟩ | ⟨m, r, s1, m', r', s1', e1, e2, hr, h⟩
  · rw [e1, e2]
    dsimp only
    rcases marked_cr hsrc (t := "#".toList) (by decide) hs with ⟨e1, e2⟩ | ⟨m, r, s1, m', r', s1', e1, e2, hr, h⟩
    · rw [e1, e2]
      dsimp only
      rcases token_cr hsrc eqv_anyChars hs with ⟨e1, e2⟩ | ⟨r, s1, r', s1', e1, e2, hr, h⟩
      · rw [e1, e2]; exact .no
      · rw [e1, e2]; exact .yes .invalid h
    · rw [e1, e2]; exact .yes (.id hr) h
  · rw [e1, e2]; exact .yes (.cls hr) h

omit hsrc in
theorem marked_adv1 {t : Str} (ht : t ≠ []) {s : Pos} {x} (h : marked t s = some x) : Adv1 s x.2.2 := by
  rw [marked] at h
  split at h
  · cases h
  · rename_i h1
    have h1 := token_adv1 (sound_exact _) (ne_exact ht) h1
    split at h
    · cases h
    · rename_i h2; cases h; exact h1.trans (token_adv sound_className h2)

omit hsrc in
theorem classLike_adv1 {s : Pos} {x} (h : classLike s = some x) : Adv1 s x.2 := by
  rw [classLike] at h
  split at h
  · rename_i h1; cases h; exact marked_adv1 (by decide) h1
  · split at h
    · rename_i h1; cases h; exact marked_adv1 (by decide) h1
    · split at h
      · rename_i h1; cases h; exact token_adv1 sound_anyChars (by unfold anyChars; exact ne_seq1 (ne_chr _)) h1
      · cases h

theorem classLikes_cr : ∀ (n k : Nat) {s s' : Pos}, At Q src src' s s' → s.after.length ≤ n → s'.after.length ≤ k →
    Pair Q src src' (List.Forall₂ (RClass Q src src')) (classLikes n s) (classLikes k s')
  | n, k, s, s', hs, hn, hk => by
    rcases classLike_cr hsrc hs with ⟨e1, e2⟩ | ⟨a, s1, a', s1', e1, e2, ha, h⟩
    · have : ∀ n s, classLike s = none → classLikes n s = ([], s) := by
        intro n s h
        cases n with
        | zero => rfl
        | succ n => rw [classLikes, h]
      rw [this n s e1, this k _ e2]
      exact ⟨.nil, hs⟩
    · have l1 := (classLike_adv1 e1).lt
      have l2 := (classLike_adv1 e2).lt
      dsimp only at l1 l2
      match n, k with
      | 0, _ => omega
      | _, 0 => omega
      | n + 1, k + 1 =>
        rw [classLikes, classLikes, e1, e2]
        have ih := classLikes_cr n k h (by omega) (by omega)
        exact ⟨.cons ha ih.1, ih.2⟩

theorem elementSelector_cr {s s' : Pos} (hs : At Q src src' s s') : Pair Q src src' (Option.Rel (RElem Q src src')) (elementSelector s) (elementSelector s') := by
  rw [elementSelector, elementSelector]
  rcases token_cr hsrc eqv_elementName hs with ⟨e1, e2⟩ | ⟨r, s1, r', s1', e1, e2, hr, h⟩
  · rw [e1, e2]
    dsimp only
    rcases token_cr hsrc (eqv_exact (t := "*".toList) (by decide)) hs with ⟨e1, e2⟩ | ⟨r, s1, r', s1', e1, e2, hr, h⟩
    · rw [e1, e2]; exact ⟨.none, hs⟩
    · rw [e1, e2]; exact ⟨.some .star, h⟩
  · rw [e1, e2]; exact ⟨.some (.name hr), h⟩

omit hsrc in
theorem elementSelector_adv (s : Pos) : Adv s (elementSelector s).2 := by
  rw [elementSelector]
  split
  · rename_i h; exact token_adv sound_elementName h
  · split
    · rename_i h; exact token_adv (sound_exact _) h
    · exact .rfl

variable {al : Char → Bool} (hn : Off al)
include hn

theorem chain_cr (tag : Bool) {s s' : Pos} (hs : At Q src src' s s') :
    (chain al tag s = none ∧ chain al tag s' = none) ∨ ∃ e cs s1 e' cs' s1', chain al tag s = some (e, cs, s1) ∧
      chain al tag s' = some (e', cs', s1') ∧ Option.Rel (RElem Q src src') e e' ∧ List.Forall₂ (RClass Q src src') cs cs' ∧ At Q src src' s1 s1' := by
  have hs0 := hs
  obtain ⟨x, y, e1, e2, h3, h4⟩ := hs
  have hsound := sound_selectorChain al
  rw [chain, chain]
  rcases (eqv_selectorChain hn).eqv _ _ _ _ h3 h4 (hs0.ok hsrc) with ⟨g1, g2⟩ | ⟨m, t, m', t', g1, g2, hmm, ht⟩
  · rw [g1, g2]; exact .inl ⟨rfl, rfl⟩
  · rw [g1, g2]
    have k1 := hsound _ _ _ _ g1
    have k2 := hsound _ _ _ _ g2
    have hm : At Q src src' ⟨s.before, m⟩ ⟨s'.before, m'⟩ := ⟨t ++ x, t' ++ y, by rw [e1, k1]; simp, by rw [e2, k2]; simp, h3, hmm⟩
    have ha := hs0.step k1 k2 hmm ht
    dsimp only
    have hfirst : Pair Q src src' (Option.Rel (RElem Q src src')) (if tag then elementSelector ⟨s.before, m⟩ else (none, ⟨s.before, m⟩))
        (if tag then elementSelector ⟨s'.before, m'⟩ else (none, ⟨s'.before, m'⟩)) ∧
        Adv ⟨s.before, m⟩ (if tag then elementSelector ⟨s.before, m⟩ else (none, ⟨s.before, m⟩)).2 ∧
        Adv ⟨s'.before, m'⟩ (if tag then elementSelector ⟨s'.before, m'⟩ else (none, ⟨s'.before, m'⟩)).2 := by
      cases tag with
      | false => exact ⟨⟨.none, hm⟩, .rfl, .rfl⟩
      | true => exact ⟨elementSelector_cr hsrc hm, elementSelector_adv _, elementSelector_adv _⟩
    generalize (if tag then elementSelector ⟨s.before, m⟩ else (none, (⟨s.before, m⟩ : Pos))) = x at hfirst ⊢
    generalize (if tag then elementSelector ⟨s'.before, m'⟩ else (none, (⟨s'.before, m'⟩ : Pos))) = y at hfirst ⊢
    obtain ⟨x1, x2⟩ := x
    obtain ⟨y1, y2⟩ := y
    obtain ⟨⟨h1, h3⟩, h4, h4'⟩ := hfirst
    dsimp only at h1 h3 h4 h4' ⊢
    obtain ⟨h5, h7⟩ := classLikes_cr hsrc m.length m'.length h3 h4.le h4'.le
    by_cases he : (classLikes m.length x2).2.after = []
    · right
      rw [he, h7.nil_iff.2 he]
      exact ⟨_, _, _, _, _, _, rfl, rfl, h1, h5, ha⟩
    · have he' : (classLikes m'.length y2).2.after ≠ [] := fun e => he (h7.nil_iff.1 e)
      left
      simp [he, he']

theorem selectorSegment_cr {s s' : Pos} (hs : At Q src src' s s') : Res Q src src' (RSeg Q src src') (selectorSegment al s) (selectorSegment al s') := by
  rw [selectorSegment, selectorSegment]
  rcases attributeSelector_cr hsrc hs with ⟨e1, e2⟩ | ⟨a, s1, a', s1', e1, e2, ha, h⟩
  · rw [e1, e2]
    dsimp only
    rcases chain_cr hsrc hn false hs with ⟨e1, e2⟩ | ⟨e, cs, s1, e', cs', s1', e1, e2, he, hcs, h⟩
    · rw [e1, e2]; exact .no
    · rw [e1, e2]; exact .yes (.classLike hcs) h
  · rw [e1, e2]; exact .yes (.attributes ha) h

theorem selectorSegments_cr : ∀ (n k : Nat) {s s' : Pos}, At Q src src' s s' → s.after.length ≤ n → s'.after.length ≤ k →
    Pair Q src src' (List.Forall₂ (RSeg Q src src')) (selectorSegments al n s) (selectorSegments al k s')
  | n, k, s, s', hs, hl, hk => by
    rcases selectorSegment_cr hsrc hn hs with ⟨e1, e2⟩ | ⟨a, s1, a', s1', e1, e2, ha, h⟩
    · have : ∀ n s, selectorSegment al s = none → selectorSegments al n s = ([], s) := by
        intro n s h
        cases n with
        | zero => rfl
        | succ n => rw [selectorSegments, h]
      rw [this n s e1, this k _ e2]
      exact ⟨.nil, hs⟩
    · have l1 := (selectorSegment_adv al e1).lt
      have l2 := (selectorSegment_adv al e2).lt
      dsimp only at l1 l2
      match n, k with
      | 0, _ => omega
      | _, 0 => omega
      | n + 1, k + 1 =>
        rw [selectorSegments, selectorSegments, e1, e2]
        have ih := selectorSegments_cr n k h (by omega) (by omega)
        exact ⟨.cons ha ih.1, ih.2⟩

theorem selectorStart_cr {s s' : Pos} (hs : At Q src src' s s') : Res Q src src' (RStart Q src src') (selectorStart al s) (selectorStart al s') := by
  rw [selectorStart, selectorStart]
  rcases attributeSelector_cr hsrc hs with ⟨e1, e2⟩ | ⟨a, s1, a', s1', e1, e2, ha, h⟩
  · rw [e1, e2]
    dsimp only
    rcases chain_cr hsrc hn true hs with ⟨e1, e2⟩ | ⟨e, cs, s1, e', cs', s1', e1, e2, he, hcs, h⟩
    · rw [e1, e2]; exact .no
    · rw [e1, e2]; exact .yes (.tag he hcs) h
  · rw [e1, e2]; exact .yes (.attributes ha) h

theorem selector_cr {s s' : Pos} (hs : At Q src src' s s') : Res Q src src' (RType Q src src') (selector al s) (selector al s') := by
  rw [selector, selector]
  rcases selectorStart_cr hsrc hn hs with ⟨e1, e2⟩ | ⟨a, s1, a', s1', e1, e2, ha, h⟩
  · rw [e1, e2]; exact .no
  · rw [e1, e2]
    dsimp only
    obtain ⟨h1, h3⟩ := selectorSegments_cr hsrc hn s1.after.length s1'.after.length h (Nat.le_refl _) (Nat.le_refl _)
    exact .yes (.selector ⟨ha, h1⟩) h3

omit hn

theorem verbatimEnd_cr {s s' : Pos} (hs : At Q src src' s s') : Res Q src src' (RTail Q src src') (verbatimEnd s) (verbatimEnd s') := by
  rw [verbatimEnd, verbatimEnd]
  rcases token_cr hsrc (eqv_verbatimTail 0) hs with ⟨e1, e2⟩ | ⟨r, s1, r', s1', e1, e2, hr, h⟩
  · rw [e1, e2]
    dsimp only
    rcases token_cr hsrc (eqv_verbatimTail 1) hs with ⟨e1, e2⟩ | ⟨r, s1, r', s1', e1, e2, hr, h⟩
    · rw [e1, e2]
      dsimp only
      rcases token_cr hsrc (eqv_verbatimTail 2) hs with ⟨e1, e2⟩ | ⟨r, s1, r', s1', e1, e2, hr, h⟩
      · rw [e1, e2]; exact .no
      · rw [e1, e2]; exact .yes (.verbatim2 hr) h
    · rw [e1, e2]; exact .yes (.verbatim1 hr) h
  · rw [e1, e2]; exact .yes (.verbatim0 hr) h

theorem verbatim_cr {s s' : Pos} (hs : At Q src src' s s') : Res Q src src' (RType Q src src') (verbatim s) (verbatim s') := by
  rw [verbatim, verbatim]
  rcases token_cr hsrc (eqv_exact (t := "<[".toList) (by decide)) hs with ⟨e1, e2⟩ | ⟨r, s1, r', s1', e1, e2, hr, h⟩
  · rw [e1, e2]; exact .no
  · rw [e1, e2]
    dsimp only
    rcases token_cr hsrc (eqv_exact (t := "raw".toList) (by decide)) h with ⟨e1, e2⟩ | ⟨k, s2, k', s2', e1, e2, hk, h'⟩
    · rw [e1, e2]
      dsimp only
      rcases verbatimEnd_cr hsrc h with ⟨e1, e2⟩ | ⟨t, s2, t', s2', e1, e2, ht, h'⟩
      · rw [e1, e2]; exact .no
      · rw [e1, e2]; exact .yes (.text (.verbatim rfl ht)) h'
    · rw [e1, e2]
      dsimp only
      rcases verbatimEnd_cr hsrc h' with ⟨e1, e2⟩ | ⟨t, s2, t', s2', e1, e2, ht, h'⟩
      · rw [e1, e2]; exact .no
      · rw [e1, e2]; exact .yes (.text (.verbatim rfl ht)) h'

theorem comment_cr {s s' : Pos} (hs : At Q src src' s s') : Res Q src src' (RType Q src src') (comment s) (comment s') := by
  rw [comment, comment]
  rcases token_cr hsrc (eqv_exact (t := "<!".toList) (by decide)) hs with ⟨e1, e2⟩ | ⟨r, s1, r', s1', e1, e2, hr, h⟩
  · rw [e1, e2]; exact .no
  · rw [e1, e2]
    dsimp only
    rcases token_cr hsrc eqv_comment h with ⟨e1, e2⟩ | ⟨k, s2, k', s2', e1, e2, hk, h'⟩
    · rw [e1, e2]; exact .no
    · rw [e1, e2]
      dsimp only
      rcases token_cr hsrc (eqv_exact (t := "!>".toList) (by decide)) h' with ⟨e1, e2⟩ | ⟨t, s3, t', s3', e1, e2, ht, h3⟩
      · rw [e1, e2]; exact .yes (.text (.comment hk rfl)) h'
      · rw [e1, e2]; exact .yes (.text (.comment hk rfl)) h3

theorem leaf_cr {p : Pat} (hp : Eqv p) {f : Range → Ast.NodeType} (hf : ∀ r r', Sl Q src src' r r' → RType Q src src' (f r) (f r')) {s s' : Pos} (hs : At Q src src' s s') :
    Res Q src src' (RType Q src src') (leaf p f s) (leaf p f s') := by
  rw [leaf, leaf]
  rcases token_cr hsrc hp hs with ⟨e1, e2⟩ | ⟨r, s1, r', s1', e1, e2, hr, h⟩
  · rw [e1, e2]; exact .no
  · rw [e1, e2]; exact .yes (hf _ _ hr) h

omit hsrc in
theorem fence_ne (k : MultilineKind) : fence k ∉ blanks := by cases k <;> decide

theorem multiline_cr (k : MultilineKind) {s s' : Pos} (hs : At Q src src' s s') : Res Q src src' (RType Q src src') (multiline k s) (multiline k s') := by
  have f := fence_ne k
  rw [multiline, multiline]
  generalize fence k = c at f ⊢
  have hs0 := hs
  obtain ⟨x, y, e1, e2, h3, h4⟩ := hs
  rcases open_margins f h3 h4 (hs0.ok hsrc) with ⟨g1, g2⟩ | ⟨m, m', z, u, v, z', g1, g2, hm, hu, hv, hz⟩ | ⟨m, m', g1, g2⟩
  · rw [More.token_none.2 g1, More.token_none.2 g2]; exact .no
  · rw [More.token_of g1, More.token_of g2]
    dsimp only
    have k1 := sound_multilineOpen _ _ _ _ _ g1
    have k2 := sound_multilineOpen _ _ _ _ _ g2
    have hn1 : Margins Q (m ++ ['\n']) (m' ++ u ++ '\n' :: v) := by simpa using hm.append (margins_nl hu hv)
    have hz1 : At Q src src' ⟨s.before ++ (m ++ ['\n']), z⟩ ⟨s'.before ++ (m' ++ u ++ '\n' :: v), z'⟩ :=
      hs0.step (by rw [k1]; simp) (by rw [k2]; simp) hn1 hz
    have hb : ∀ b z, multilineBody [c, c, c] b ('\n' :: z) =
        (lazyThen (alt srcEnd (seq (precedes (Pat.exact [c, c, c])) followsIndent)) (b ++ ['\n']) z).map fun x => ('\n' :: x.1, x.2) := by
      intro b z
      rw [multilineBody, seq, chr]
      simp only [if_true]
      cases lazyThen (alt srcEnd (seq (precedes (Pat.exact [c, c, c])) followsIndent)) (b ++ ['\n']) z <;> rfl
    have hb1 := hb (s.before ++ m) z
    have hb2 := hb (s'.before ++ (m' ++ u)) (v ++ z')
    rw [lazyThen_blanks (solid_bodyRest f) v _ _ (v_blank hv.1)] at hb2
    rw [show s.before ++ m ++ ['\n'] = s.before ++ (m ++ ['\n']) by simp] at hb1
    rw [show s'.before ++ (m' ++ u) ++ ['\n'] ++ v = s'.before ++ (m' ++ u ++ '\n' :: v) by simp] at hb2
    rcases (eqv_bodyRest f).eqv _ _ z z' (h3.append hn1) hz (hz1.ok hsrc) with ⟨r1, r2⟩ | ⟨w, t, w', t', r1, r2, hw, ht⟩
    · rw [r1] at hb1
      rw [r2] at hb2
      rw [(More.token_none (s := ⟨s.before ++ m, '\n' :: z⟩)).2 hb1, (More.token_none (s := ⟨_, '\n' :: (v ++ z')⟩)).2 hb2]
      exact .no
    · rw [r1] at hb1
      rw [r2] at hb2
      rw [More.token_of (s := ⟨s.before ++ m, '\n' :: z⟩) hb1, More.token_of (s := ⟨_, '\n' :: (v ++ z')⟩) hb2]
      dsimp only
      have q1 := (eqv_bodyRest f).sound _ _ _ _ r1
      have q2 := (eqv_bodyRest f).sound _ _ _ _ r2
      have h1 := hz1.step q1 q2 hw ht
      rw [show s.before ++ (m ++ ['\n']) ++ w = s.before ++ m ++ '\n' :: w by simp,
        show s'.before ++ (m' ++ u ++ '\n' :: v) ++ w' = s'.before ++ (m' ++ u) ++ '\n' :: (v ++ w') by simp] at h1
      have hsb : Sb Q src src' ⟨byteLen (s.before ++ m), byteLen (s.before ++ m ++ '\n' :: w)⟩
          ⟨byteLen (s'.before ++ (m' ++ u)), byteLen (s'.before ++ (m' ++ u) ++ '\n' :: (v ++ w'))⟩ := by
        obtain ⟨t1, t1', k3, k4, -⟩ := h1
        exact ⟨s.before ++ m, w, t ++ t1, s'.before ++ (m' ++ u), u, v, w', t' ++ t1', by rw [k3]; simp, by rw [k4]; simp, hw, hv.2, rfl, rfl⟩
      rcases token_cr hsrc (eqv_multilineClose f) h1 with ⟨e1, e2⟩ | ⟨r, s1, r', s1', e1, e2, hr, h⟩
      · rw [e1, e2]; exact .no
      · rw [e1, e2]; exact .yes (.multiline hsb) h
  · rw [More.token_of g1, More.token_of g2]
    exact .no

omit hsrc in
theorem firstOf_cr {s s' : Pos} : ∀ {fs gs : List (Pos → Option (Ast.NodeType × Pos))},
    List.Forall₂ (fun f g => Res Q src src' (RType Q src src') (f s) (g s')) fs gs → Res Q src src' (RType Q src src') (firstOf fs s) (firstOf gs s')
  | _, _, .nil => .no
  | _, _, .cons (a := f) (b := g) (l₁ := fs) (l₂ := gs) h hs => by
    rw [firstOf, firstOf]
    rcases h with ⟨e1, e2⟩ | ⟨r, s1, r', s1', e1, e2, hr, h⟩
    · rw [e1, e2]; exact firstOf_cr hs
    · rw [e1, e2]; exact .yes hr h

omit hsrc

/-! ## Line ends -/

/-- The rule reads nothing at a line feed. -/
def NotNl (f : Pos → Option (Ast.NodeType × Pos)) : Prop := ∀ b r, f ⟨b, '\n' :: r⟩ = none

theorem token_nl {p : Pat} (hp : Solid p) (b r : Str) : token p ⟨b, '\n' :: r⟩ = none := More.token_none.2 (hp _ (by decide) b r)

theorem firstOf_nl : ∀ {fs : List (Pos → Option (Ast.NodeType × Pos))}, (∀ f ∈ fs, NotNl f) → NotNl (firstOf fs)
  | [], _ => fun _ _ => rfl
  | f :: fs, h => fun b r => by
    rw [firstOf, h f (by simp) b r]
    exact firstOf_nl (fun g hg => h g (by simp [hg])) b r

theorem leaf_nl {p : Pat} (hp : Solid p) (f : Range → Ast.NodeType) : NotNl (leaf p f) := fun b r => by
  rw [leaf, token_nl hp]

theorem multiline_nl (k : MultilineKind) : NotNl (multiline k) := fun b r => by
  rw [multiline, token_nl (p := multilineOpen _) (solid_seq (solid_exact (fence_ne k)))]

theorem verbatim_nl : NotNl verbatim := fun b r => by
  rw [verbatim, token_nl (p := exact "<[".toList) (solid_exact (by decide))]

theorem comment_nl : NotNl comment := fun b r => by
  rw [comment, token_nl (p := exact "<!".toList) (solid_exact (by decide))]

theorem solid_interpolation : Solid interpolation :=
  solid_alt (solid_empty (empty_notFollows _) (solid_seq (solid_exact (by decide))))
    (solid_alt (solid_seq (solid_exact (by decide))) (solid_alt (solid_seq (solid_exact (by decide)))
      (solid_seq (solid_exact (by decide)))))

theorem block_nl (n : Nat) : NotNl (block al n) := fun b r => by
  cases n with
  | zero => simp [block]
  | succ n => rw [block, token_nl (p := exact "{".toList) (solid_exact (by decide))]

theorem inline_nl (n : Nat) : NotNl (inline al n) := fun b r => by
  cases n with
  | zero => simp [inline]
  | succ n => rw [inline, token_nl (p := exact "<(".toList) (solid_exact (by decide))]

theorem special_nl (n : Nat) (f : Ast.SpecialForm) : NotNl (special al n f) := fun b r => by
  cases n with
  | zero => simp [special]
  | succ n =>
    have : Solid (Pat.exact (specialDelims f).1) := by cases f <;> exact solid_exact (by decide)
    rw [special, token_nl this]

include hn

theorem selector_nl : NotNl (selector al) := fun b r => by
  rw [selector, selectorStart, attributeSelector, token_nl (p := exact "[".toList) (solid_exact (by decide))]
  dsimp only
  rw [chain, solid_selectorChain hn _ (by decide)]

theorem nodeType_nl (n : Nat) : NotNl (nodeType al n) := fun b r => by
  cases n with
  | zero => simp [nodeType]
  | succ n =>
    rw [nodeType]
    refine firstOf_nl (fun f hf => ?_) b r
    simp only [List.mem_cons, List.not_mem_nil, or_false] at hf
    rcases hf with rfl | rfl | rfl | rfl | rfl | rfl | rfl | rfl | rfl | rfl | rfl | rfl | rfl | rfl | rfl | rfl | rfl
    · exact multiline_nl _
    · exact multiline_nl _
    · exact multiline_nl _
    · exact leaf_nl (solid_seq (solid_textWord hn)) _
    · exact verbatim_nl
    · exact comment_nl
    · exact leaf_nl solid_interpolation _
    · exact selector_nl hn
    · exact leaf_nl (solid_exact (by decide)) _
    · exact block_nl n
    · exact inline_nl n
    · exact special_nl n _
    · exact special_nl n _
    · exact special_nl n _
    · exact special_nl n _
    · exact special_nl n _
    · exact leaf_nl (solid_seq (solid_exact (by decide))) _

theorem nodes_nl (n : Nat) (b r : Str) : nodes al n ⟨b, '\n' :: r⟩ = ([], ⟨b, '\n' :: r⟩) := by
  cases n with
  | zero => rw [nodes]
  | succ n =>
    rw [nodes, (More.token_none (p := space) (s := ⟨b, '\n' :: r⟩)).2 (space_none (fun c hc => by cases hc; decide))]
    dsimp only
    rw [nodeType_nl hn]

omit hn

/-- The same position, or at a line feed, after the margin of its line. -/
def Near (Q : Str → Str → Prop) (src src' : Str) (s s' : Pos) : Prop := At Q src src' s s' ∨
  ∃ r b' u v r' t t', s.after = '\n' :: r ∧ s' = ⟨b' ++ u, '\n' :: (v ++ r')⟩ ∧ src = s.before ++ ('\n' :: r ++ t) ∧
    src' = b' ++ u ++ ('\n' :: (v ++ r') ++ t') ∧ Margins Q s.before b' ∧ Margins Q r r' ∧ (∀ c ∈ u, c = ' ' ∨ c = '\t' ∨ c = '\r') ∧
    (∀ c ∈ v, c = ' ' ∨ c = '\t') ∧ Q u v

/-- The beginning of the margin of the line. -/
theorem Near.at {s s' : Pos} (h : Near Q src src' s s') : ∃ s0 u, At Q src src' s s0 ∧ s' = ⟨s0.before ++ u, s'.after⟩ ∧ s0.after = u ++ s'.after ∧
    ∀ c ∈ u, c = ' ' ∨ c = '\t' ∨ c = '\r' := by
  rcases h with h | ⟨r, b', u, v, r', t, t', h1, rfl, e1, e2, hb, hr, hu, hv⟩
  · exact ⟨s', [], h, by simp, rfl, by simp⟩
  · refine ⟨⟨b', u ++ '\n' :: (v ++ r')⟩, u, ⟨t, t', by rw [h1]; exact e1, by rw [e2]; simp, hb, ?_⟩, rfl, rfl, hu⟩
    rw [h1]
    exact .line hu hv hr

theorem skip_pad {q : Char → Bool} : ∀ {u : Str} (b x : Str), (∀ c ∈ u, q c = true) → skip q ⟨b, u ++ x⟩ = skip q ⟨b ++ u, x⟩
  | [], b, x, _ => by simp
  | c :: u, b, x, h => by
    have ih := skip_pad (q := q) (u := u) (b ++ [c]) x fun d hd => h d (by simp [hd])
    rw [show b ++ c :: u = b ++ [c] ++ u by simp, ← ih]
    simp [skip, h c (by simp)]

theorem Near.skip {s s' : Pos} (h : Near Q src src' s s') {q : Char → Bool} (hq : ∀ c ∈ [' ', '\t', '\r'], q c = true) :
    ∃ s0, At Q src src' s s0 ∧ Grammar.skip q s' = Grammar.skip q s0 := by
  obtain ⟨s0, u, h1, h2, h3, h4⟩ := h.at
  refine ⟨s0, h1, ?_⟩
  obtain ⟨b, r⟩ := s0
  dsimp only at h3
  subst h3
  rw [skip_pad _ _ fun c hc => hq c (by simpa using h4 c hc), ← h2]

theorem Near.white {s s' : Pos} (h : Near Q src src' s s') : At Q src src' (Grammar.skip isWhitespace s) (Grammar.skip isWhitespace s') := by
  obtain ⟨s0, h1, h2⟩ := h.skip (q := isWhitespace) (by decide)
  rw [h2]
  exact h1.white

/-- After white space: at a line feed, or not. -/
theorem At.space {s s' : Pos} (h : At Q src src' s s') :
    (∃ r b' u v r' t t', (Grammar.skip isSpace s).after = '\n' :: r ∧ Grammar.skip isSpace s' = ⟨b' ++ u, '\n' :: (v ++ r')⟩ ∧
      src = (Grammar.skip isSpace s).before ++ ('\n' :: r ++ t) ∧ src' = b' ++ u ++ ('\n' :: (v ++ r') ++ t') ∧
      Margins Q (Grammar.skip isSpace s).before b' ∧ Margins Q r r' ∧ (∀ c ∈ u, c = ' ' ∨ c = '\t' ∨ c = '\r') ∧ (∀ c ∈ v, c = ' ' ∨ c = '\t') ∧ Q u v) ∨
    (∀ r, (Grammar.skip isSpace s).after ≠ '\n' :: r) ∧ At Q src src' (Grammar.skip isSpace s) (Grammar.skip isSpace s') ∧
      s'.after.takeWhile isSpace = s.after.takeWhile isSpace := by
  have h0 := h
  obtain ⟨x, y, e1, e2, h3, h4⟩ := h
  rcases span_line (q := isSpace) (by decide) (by decide) h4 with ⟨z, u, v, z', g1, g2, g3, hu, hv, hz⟩ | ⟨g1, g2, g3⟩
  · left
    have k1 := List.takeWhile_append_dropWhile (p := isSpace) (l := s.after)
    have k2 := List.takeWhile_append_dropWhile (p := isSpace) (l := s'.after)
    rw [g1] at k1
    rw [g2, g3] at k2
    refine ⟨z, s'.before ++ s.after.takeWhile isSpace, u, v, z', x, y, g1, ?_, ?_, ?_, h3.append (.plain fun hm => absurd (List.all_eq_true.1 List.all_takeWhile _ hm) (show isSpace '\n' ≠ true by decide)), hz, hu, hv⟩
    · simp only [Grammar.skip, g2, g3, List.append_assoc]
    · rw [e1, Grammar.skip, ← k1]; simp; rw [k1]
    · rw [e2, ← k2]; simp
  · refine .inr ⟨g1, h0.step (by simp) (by simp) g2 g3, ?_⟩
    exact g2.self fun hm => absurd (List.all_eq_true.1 List.all_takeWhile _ hm) (show isSpace '\n' ≠ true by decide)

theorem Near.space {s s' : Pos} (h : Near Q src src' s s') : Near Q src src' (Grammar.skip isSpace s) (Grammar.skip isSpace s') := by
  obtain ⟨s0, h1, h2⟩ := h.skip (q := isSpace) (by decide)
  rw [h2]
  rcases h1.space with h | ⟨_, h, _⟩
  · exact .inr h
  · exact .inl h

/-- A line break: white space up to a line feed, the line feed, and more white space. -/
theorem newLine_eq (s : Pos) : (token newLine s).map Prod.snd =
    match (skip isSpace s).after with
    | [] => none
    | c :: r => if c = '\n' then some (skip isSpace ⟨(skip isSpace s).before ++ ['\n'], r⟩) else none := by
  rw [token, newLine, seq, many_blank]
  dsimp only [skip]
  cases h : s.after.dropWhile isSpace with
  | nil => rfl
  | cons c r =>
    dsimp only
    by_cases hc : c = '\n'
    · subst hc
      simp [seq, chr, many_blank]
    · simp [seq, chr, hc]

theorem newLine_not {s : Pos} (h : ∀ r, (skip isSpace s).after ≠ '\n' :: r) : token newLine s = none := by
  have e := newLine_eq s
  revert h e
  generalize (skip isSpace s).after = x
  intro h e
  cases x with
  | nil => exact Option.map_eq_none_iff.1 e
  | cons c r =>
    dsimp only at e
    rw [if_neg fun hc => h r (by rw [hc])] at e
    exact Option.map_eq_none_iff.1 e

theorem newLine_some {s : Pos} {b r : Str} (h : skip isSpace s = ⟨b, '\n' :: r⟩) : ∃ x, token newLine s = some (x, skip isSpace ⟨b ++ ['\n'], r⟩) := by
  have e := newLine_eq s
  rw [h] at e
  dsimp only at e
  rw [if_pos rfl] at e
  cases ht : token newLine s with
  | none => rw [ht] at e; cases e
  | some x =>
    obtain ⟨x, y⟩ := x
    rw [ht] at e
    exact ⟨x, by rw [← Option.some.inj e]⟩

theorem newLine_near {s s' : Pos} (h : Near Q src src' s s') : (token newLine s = none ∧ token newLine s' = none ∧ At Q src src' s s') ∨
    ∃ r s1 r' s1', token newLine s = some (r, s1) ∧ token newLine s' = some (r', s1') ∧ Near Q src src' s1 s1' := by
  obtain ⟨s0, h1, h2⟩ := h.skip (q := isSpace) (by decide)
  rcases h1.space with ⟨r, b', u, v, r', t, t', g1, g2, g3, g4, hb, hr, hu, hv⟩ | ⟨g1, g2, g3⟩
  · right
    obtain ⟨x, k1⟩ := newLine_some (s := s) (b := (skip isSpace s).before) (r := r) (by rw [← g1])
    obtain ⟨x', k2⟩ := newLine_some (h2.trans g2)
    refine ⟨_, _, _, _, k1, k2, ?_⟩
    rw [skip_pad (q := isSpace) _ _ fun c hc => by rcases hv.1 c hc with rfl | rfl <;> decide]
    refine Near.space (.inl ⟨t, t', by rw [g3]; simp, by rw [g4]; simp, ?_, hr⟩)
    simpa using hb.append (margins_nl hu hv)
  · left
    have n1 := newLine_not g1
    refine ⟨n1, newLine_not fun r e => ?_, ?_⟩
    · rw [h2] at e
      obtain ⟨_, _, _, _, _, hm⟩ := g2
      rw [e] at hm
      revert hm g1
      generalize (skip isSpace s).after = y
      generalize e' : '\n' :: r = z
      intro g1 hm
      cases hm with
      | nil => cases e'
      | line hu hv h => exact g1 _ rfl
      | char h => exact h (List.cons.inj e').1.symm
    · rcases h with h | ⟨r, b', u, v, r', t, t', k1, _⟩
      · exact h
      · refine absurd ?_ (g1 r)
        have h2 : isSpace '\n' = false := by decide
        simp [skip, k1, List.dropWhile_cons, h2]

end

end Mty.Grammar
