import Verif.Proofs.SizeBuild

/-! # The size of the output (for C82): the tree of a source -/

set_option autoImplicit false

namespace Mty.Size

open Build Grammar Pat Lex
open Grammar.Order (reads_le reads_lt gap_le close_le)

variable {alnum : Char → Bool} {src : Str}

theorem take_len : ∀ (n : Nat) (s : Str), (takeBytes n s).length ≤ n
  | _, [] => Nat.zero_le _
  | n, c :: s => by
    have := take_len (n - c.utf8Size) s
    have := Char.utf8Size_pos c
    rw [takeBytes]
    split
    · exact Nat.zero_le _
    · simp only [List.length_cons]
      omega

theorem len_le (r : Range) : len src (.fromSource r) ≤ r.stop - r.start := take_len _ _

theorem node_text {r : Range} {u e w m : Bool} : Ret (buildTextNode src r u e w m) fun x => nodeW src x ≤ 9 * (r.stop - r.start) := by
  rw [buildTextNode]
  have h : Ret (escapableSlice src r u) fun x => x = .fromSource r := by
    rw [escapableSlice]
    split
    · exact .then fun _ => .pure rfl
    · exact .pure rfl
  refine h.bind ?_
  rintro _ rfl
  refine .pure ?_
  have := len_le (src := src) r
  simp only [nodeW, textW]
  omega

/-! ## Selectors -/

theorem parts_w : ∀ (as : List Ast.Attribute) (p : Nat), (partsOk src p as).1 = true →
    p ≤ (partsOk src p as).2 ∧ attrsW src (as.map buildAttribute) ≤ 13 * ((partsOk src p as).2 - p)
  | [], p, _ => ⟨Nat.le_refl _, Nat.zero_le _⟩
  | a :: as, p, h => by
    rw [partsOk] at h ⊢
    simp only [Bool.and_eq_true] at h
    have h1 := gap_le h.1.1
    obtain ⟨h2, h2'⟩ := parts_w as a.stop h.2
    have h3 : a.start < a.stop ∧ attrW src (buildAttribute a) ≤ 13 * (a.stop - a.start) := by
      have h3 := h.1.2
      rw [attributeOk] at h3
      simp only [Bool.and_eq_true, beq_iff_eq] at h3
      obtain ⟨⟨h4, h5⟩, h6⟩ := h3
      have h5 := reads_lt (by unfold attributeName many1; exact ne_seq1 (ne_alt (ne_chr _) ne_escape)) h5
      have l1 := len_le (src := src) a.name
      rw [attrW]
      simp only [buildAttribute]
      split at h6
      · rename_i hv
        simp only [beq_iff_eq] at h6
        simp only [hv, Option.map_none, Option.getD_none]
        omega
      · rename_i r hv
        simp only [Bool.and_eq_true, beq_iff_eq] at h6
        have h7 := reads_le h6.1.1; have h8 := reads_le h6.1.2
        have l2 := len_le (src := src) r
        simp only [hv, Option.map_some, Option.getD_some]
        dsimp only at h7
        omega
      · rename_i r hv
        simp only [Bool.and_eq_true, beq_iff_eq] at h6
        have h7 := reads_le h6.1.1; have h8 := reads_le h6.1.2
        have l2 := len_le (src := src) ⟨r.start + 1, r.stop - 1⟩
        simp only [hv, Option.map_some, Option.getD_some]
        dsimp only at h7 l2
        omega
    dsimp only
    rw [List.map_cons, attrsW]
    omega

theorem attributes_w {a : Ast.AttributeSelector} (h : attributesOk src a = true) :
    a.start < a.stop ∧ Ret (buildAttributeList a) fun i => itemW src i ≤ 13 * (a.stop - a.start) := by
  rw [attributesOk] at h
  simp only [Bool.and_eq_true, beq_iff_eq] at h
  obtain ⟨⟨⟨h1, h2⟩, h3⟩, h4⟩ := h
  have h2 := reads_lt (ne_exact (by decide)) h2
  obtain ⟨h3, h3'⟩ := parts_w _ _ h3
  have h5 : (partsOk src a.lBracket.stop a.parts).2 ≤ a.stop := by
    split at h4
    · exact gap_le h4
    · simp only [Bool.and_eq_true, beq_iff_eq] at h4
      have := gap_le h4.1.1; have := reads_le h4.1.2; omega
  refine ⟨by omega, ?_⟩
  rw [buildAttributeList]
  split
  · refine .then fun _ => .pure ?_
    rw [itemW]
    omega
  · refine .pure ?_
    rw [itemW]
    omega

theorem classes_w {s : Str} : ∀ (cs : List Ast.ClassLike) (p q : Nat), classLikesOk s p q cs = true →
    p ≤ q ∧ Ret (extendClassLike cs) fun is => itemsW src is ≤ 13 * (q - p)
  | [], p, q, h => by
    simp only [classLikesOk, beq_iff_eq] at h
    exact ⟨by omega, .pure' (Nat.zero_le _)⟩
  | .cls d i :: cs, p, q, h => by
    simp only [classLikesOk, Bool.and_eq_true, beq_iff_eq] at h
    obtain ⟨⟨⟨⟨h1, h2⟩, h3⟩, h4⟩, h5⟩ := h
    have h2 := reads_lt (ne_exact (by decide)) h2; have h4 := reads_le h4
    obtain ⟨h6, h7⟩ := classes_w cs _ q h5
    refine ⟨by omega, ?_⟩
    rw [extendClassLike, buildClassLike]
    refine Ret.bind (P := fun x => x = some (.cls d (.fromSource i))) (.pure' rfl) ?_
    rintro _ rfl
    refine h7.bind fun is hi => .pure ?_
    have := len_le (src := src) i
    simp only [Option.toList, List.cons_append, List.nil_append, itemsW, itemW]
    omega
  | .id d i :: cs, p, q, h => by
    simp only [classLikesOk, Bool.and_eq_true, beq_iff_eq] at h
    obtain ⟨⟨⟨⟨h1, h2⟩, h3⟩, h4⟩, h5⟩ := h
    have h2 := reads_lt (ne_exact (by decide)) h2; have h4 := reads_le h4
    obtain ⟨h6, h7⟩ := classes_w cs _ q h5
    refine ⟨by omega, ?_⟩
    rw [extendClassLike, buildClassLike]
    refine Ret.bind (P := fun x => x = some (.id d (.fromSource i))) (.pure' rfl) ?_
    rintro _ rfl
    refine h7.bind fun is hi => .pure ?_
    have := len_le (src := src) i
    simp only [Option.toList, List.cons_append, List.nil_append, itemsW, itemW]
    omega
  | .invalid r :: cs, p, q, h => by
    simp only [classLikesOk, Bool.and_eq_true, beq_iff_eq] at h
    obtain ⟨⟨h1, h2⟩, h5⟩ := h
    have h2 := reads_le h2
    obtain ⟨h6, h7⟩ := classes_w cs _ q h5
    refine ⟨by omega, ?_⟩
    rw [extendClassLike, buildClassLike]
    refine Ret.bind (P := fun x => x = none) (.then fun _ => .pure rfl) ?_
    rintro _ rfl
    refine h7.bind fun is hi => .pure ?_
    simp only [Option.toList, List.nil_append]
    omega

theorem chain_w {p q : Nat} {e : Option Ast.ElementSelector} {cs : List Ast.ClassLike} (h : chainOk alnum src p q e cs = true) :
    p < q ∧ Ret (extendClassLike cs) fun is => 2 * tagW src (buildTag e) + itemsW src is ≤ 16 + 13 * (q - p) := by
  unfold chainOk at h
  simp only [Bool.and_eq_true] at h
  obtain ⟨h0, h⟩ := h
  have h0 := reads_lt (ne_selectorChain alnum) h0
  dsimp only at h0
  refine ⟨h0, ?_⟩
  split at h
  · refine (classes_w (src := src) _ _ _ h).2.mono fun is hi => ?_
    simp only [buildTag, tagW]
    omega
  · rename_i r
    simp only [Bool.and_eq_true, beq_iff_eq] at h
    have h1 := reads_le h.1.2
    obtain ⟨h2, h3⟩ := classes_w (src := src) _ _ _ h.2
    refine h3.mono fun is hi => ?_
    have := len_le (src := src) r
    simp only [buildTag, tagW]
    omega
  · rename_i r
    simp only [Bool.and_eq_true, beq_iff_eq] at h
    have h1 := reads_le h.1.2
    obtain ⟨h2, h3⟩ := classes_w (src := src) _ _ _ h.2
    refine h3.mono fun is hi => ?_
    simp only [buildTag, tagW]
    omega

theorem segments_w : ∀ (gs : List Ast.SelectorSegment) (p q : Nat), segmentsOk alnum src p q gs = true →
    p ≤ q ∧ Ret (extendSegments gs) fun is => itemsW src is ≤ 13 * (q - p)
  | [], p, q, h => by
    simp only [segmentsOk, beq_iff_eq] at h
    exact ⟨by omega, .pure' (Nat.zero_le _)⟩
  | .attributes a :: gs, p, q, h => by
    simp only [segmentsOk, Bool.and_eq_true, beq_iff_eq] at h
    obtain ⟨h1, h2⟩ := attributes_w h.1.2
    obtain ⟨h3, h4⟩ := segments_w gs _ q h.2
    refine ⟨by omega, ?_⟩
    rw [extendSegments]
    refine h2.bind fun i hi => h4.bind fun is his => .pure ?_
    rw [itemsW]
    omega
  | .classLike cs :: gs, p, q, h => by
    simp only [segmentsOk, Bool.and_eq_true] at h
    obtain ⟨h1, h2⟩ := chain_w h.1
    obtain ⟨h3, h4⟩ := segments_w gs _ q h.2
    refine ⟨by omega, ?_⟩
    rw [extendSegments]
    refine h2.bind fun i hi => h4.bind fun is his => .pure ?_
    rw [itemsW_append]
    simp only [buildTag, tagW] at hi
    omega

theorem selector_w {s : Ast.Selector} (h : selectorOk alnum src s = true) :
    s.start < s.stop ∧ Ret (buildSelector s) fun x => selW src x ≤ 40 * (s.stop - s.start) := by
  obtain ⟨a, first, segs, b⟩ := s
  rw [selectorOk] at h
  simp only [Bool.and_eq_true] at h
  obtain ⟨h1, h2⟩ := h
  obtain ⟨h2, h3⟩ := segments_w _ _ _ h2
  dsimp only
  cases first with
  | attributes x =>
    simp only [Bool.and_eq_true, beq_iff_eq] at h1
    obtain ⟨h4, h5⟩ := attributes_w h1.2
    simp only [selectorStartEnd] at h2 h3
    refine ⟨by omega, ?_⟩
    rw [buildSelector]
    dsimp only
    refine h5.bind fun i hi => ?_
    refine Ret.bind (P := fun y => y = (Tag.implicit, [i])) (.pure rfl) ?_
    rintro _ rfl
    refine h3.bind fun ms hm => .pure ?_
    simp only [selW, tagW, itemsW_append, itemsW] at hi ⊢
    omega
  | tag e cs =>
    obtain ⟨h4, h5⟩ := chain_w h1
    refine ⟨by omega, ?_⟩
    rw [buildSelector]
    dsimp only
    refine h5.bind fun i hi => ?_
    refine Ret.bind (P := fun y => y = (buildTag e, i)) (.pure rfl) ?_
    rintro _ rfl
    refine h3.bind fun ms hm => .pure ?_
    simp only [selW, itemsW_append] at hi ⊢
    omega

/-! ## Nodes and lines -/

theorem block_w {lb : Range} {s : Nat} {ls : List PLine} {e : Nat} {rb : Option Range} {w : Nat}
    (h : ∀ fp, Ret (buildContent s ls fp) fun x => nodesW src x ≤ w) (r : Range) (p : Bool) :
    Ret (buildBlock lb s ls e rb r p) fun x => x.1.selectors = [] ∧ 24 + nodesW src x.2 ≤ 24 + w := by
  rw [buildBlock]
  split
  · refine .then fun _ => (h p).bind fun ns hn => .pure ⟨rfl, by dsimp only; omega⟩
  · exact (h p).bind fun ns hn => .pure ⟨rfl, by dsimp only; omega⟩

theorem special_w {rg o : Range} {f : Ast.SpecialForm} {s : Nat} {ls : List PLine} {e : Nat} {c : Option Range} {w : Nat}
    (h : ∀ fp, Ret (buildContent s ls fp) fun x => nodesW src x ≤ w) :
    Ret (buildInlineSpecial rg f o s ls e c) fun x => nodesW src x ≤ 24 + w := by
  have e1 : headW src (EHead.new rg (.special (specialKind f))).selectors = 24 := rfl
  rw [buildInlineSpecial]
  split
  · refine .then fun _ => (h _).bind fun ns hn => .pure ?_
    simp only [nodesW, Node.ofElem, nodeW, e1]
    omega
  · refine (h _).bind fun ns hn => .pure ?_
    simp only [nodesW, Node.ofElem, nodeW, e1]
    omega

mutual
  theorem type_w {a b : Nat} {rg : Range} : ∀ {ty : Ast.NodeType}, typeOk alnum src a b ty = true →
      a ≤ b ∧ PW src (prepType src rg ty) (50 * (b - a))
    | .multiline k s e, h => by
      simp only [typeOk, Bool.and_eq_true] at h
      obtain ⟨⟨h1, h2⟩, h3⟩ := h
      have h4 := reads_lt (ne_seq1 (ne_exact (by simp))) h1; have h5 := reads_le h2; have h6 := reads_le h3
      dsimp only at h4 h5 h6
      refine ⟨by omega, ?_⟩
      rw [prepType]
      change Ret _ _
      unfold buildMultiline
      refine node_text.bind fun n hn => .pure ?_
      have e1 : headW src (EHead.new rg (.multiline k)).selectors = 24 := rfl
      simp only [nodesW, Node.ofElem, nodeW, e1] at hn ⊢
      omega
    | .text (.segment r), h => by
      simp only [typeOk, inlineTextOk, Bool.and_eq_true, beq_iff_eq] at h
      obtain ⟨rfl, h⟩ := h
      have := reads_le h
      refine ⟨this, ?_⟩
      rw [prepType]
      · change Ret _ _
        rw [buildInlineText]
        exact node_text.mono fun n hn => by dsimp only at hn; omega
      · simp
    | .text (.verbatim o raw tail), h => by
      simp only [typeOk, inlineTextOk, Bool.and_eq_true, beq_iff_eq] at h
      obtain ⟨⟨⟨⟨h1, h2⟩, h3⟩, h4⟩, h5⟩ := h
      have h2 := reads_le h2; have h3 := reads_le h3
      have h6 : a ≤ (tailOk tail).2.start := by
        cases raw with
        | none => simp only [beq_iff_eq] at h5; omega
        | some k =>
          simp only [Bool.and_eq_true, beq_iff_eq] at h5
          have := reads_le h5.1.2
          omega
      refine ⟨by omega, ?_⟩
      rw [prepType]
      · change Ret _ _
        rw [buildInlineText]
        refine .pure' ?_
        cases tail with
        | verbatim0 r =>
          have := len_le (src := src) ⟨r.start + (0 + 1), r.stop - (0 + 3)⟩
          simp only [tailOk] at h3 h4 h6
          simp only [buildVerbatimNode, nodeW, textW] at this ⊢
          omega
        | verbatim1 r =>
          have := len_le (src := src) ⟨r.start + (1 + 1), r.stop - (1 + 3)⟩
          simp only [tailOk] at h3 h4 h6
          simp only [buildVerbatimNode, nodeW, textW] at this ⊢
          omega
        | verbatim2 r =>
          have := len_le (src := src) ⟨r.start + (2 + 1), r.stop - (2 + 3)⟩
          simp only [tailOk] at h3 h4 h6
          simp only [buildVerbatimNode, nodeW, textW] at this ⊢
          omega
      · simp
    | .text (.comment c), h => by
      simp only [typeOk, inlineTextOk, Bool.and_eq_true, beq_iff_eq] at h
      obtain ⟨⟨⟨⟨⟨⟨h1, h2⟩, h3⟩, h4⟩, h5⟩, h6⟩, h7⟩ := h
      have h4 := reads_lt (ne_exact (by decide)) h4; have h6 := reads_le h6
      have h8 : c.inner.stop ≤ b := by
        cases hc : c.close with
        | none => rw [hc] at h7; simp only [beq_iff_eq] at h7; omega
        | some r =>
          rw [hc] at h7
          simp only [Bool.and_eq_true, beq_iff_eq] at h7
          have := reads_le h7.1.2
          omega
      have l := len_le (src := src) c.inner
      refine ⟨by omega, ?_⟩
      rw [prepType]
      change Ret _ _
      rw [buildCommentNode]
      split
      · refine .then fun _ => .pure ?_
        simp only [nodeW, textW]
        omega
      · refine .pure ?_
        simp only [nodeW, textW]
        omega
    | .text (.interpolation r), h => by
      simp only [typeOk, inlineTextOk, Bool.and_eq_true, beq_iff_eq] at h
      obtain ⟨rfl, h⟩ := h
      have := reads_le h
      refine ⟨this, ?_⟩
      rw [prepType]
      · change Ret _ _
        rw [buildInlineText]
        exact node_text.mono fun n hn => by dsimp only at hn; omega
      · simp
    | .selector s, h => by
      simp only [typeOk, Bool.and_eq_true, beq_iff_eq] at h
      obtain ⟨⟨h1, h2⟩, h3⟩ := h
      obtain ⟨h3, h4⟩ := selector_w h3
      refine ⟨by omega, ?_⟩
      rw [prepType]
      exact Ret.mono h4 fun x hx => by omega
    | .line c, h => by
      simp only [typeOk, Bool.and_eq_true, beq_iff_eq] at h
      obtain ⟨rfl, h⟩ := h
      have := reads_lt (ne_exact (by decide)) h
      dsimp only at this
      refine ⟨by omega, ?_⟩
      rw [prepType]
      change 24 ≤ _
      omega
    | .block l (.mk s lines e) r, h => by
      simp only [typeOk, Bool.and_eq_true, beq_iff_eq] at h
      obtain ⟨⟨⟨⟨h1, h2⟩, h3⟩, h4⟩, h5⟩ := h
      have h2 := reads_lt (ne_exact (by decide)) h2; have h3 := gap_le h3
      have h5 := close_le h5
      obtain ⟨h6, h7⟩ := lines_w h4
      simp only [if_true] at h7
      refine ⟨by omega, ?_⟩
      rw [prepType]
      intro rg p
      refine (block_w (src := src) (w := 50 * (e - s) + 26) (fun fp => ?_) rg p).mono fun x hx => ⟨hx.1, by omega⟩
      refine (h7 fp [] s).mono fun x hx => ?_
      simp only [nodesW] at hx
      omega
    | .inline o inner c, h => by
      simp only [typeOk, Bool.and_eq_true, beq_iff_eq] at h
      obtain ⟨⟨⟨⟨h1, h2⟩, h3⟩, h4⟩, h5⟩ := h
      have h2 := reads_lt (ne_exact (by decide)) h2; have h3 := gap_le h3
      have h5 := close_le h5
      obtain ⟨h6, h7⟩ := nodes_w h4
      refine ⟨by omega, ?_⟩
      rw [prepType]
      exact Ret.mono (inline_le h7) fun x hx => by omega
    | .special f o (.mk s lines e) c, h => by
      simp only [typeOk, Bool.and_eq_true, beq_iff_eq] at h
      obtain ⟨⟨⟨⟨h1, h2⟩, h3⟩, h4⟩, h5⟩ := h
      have h2 := reads_lt (ne_exact (by cases f <;> decide)) h2; have h3 := gap_le h3
      have h5 := close_le h5
      obtain ⟨h6, h7⟩ := lines_w h4
      simp only [if_true] at h7
      refine ⟨by omega, ?_⟩
      rw [prepType]
      refine Ret.mono (special_w (src := src) (w := 50 * (e - s) + 26) (fun fp => ?_)) fun x hx => by omega
      refine (h7 fp [] s).mono fun x hx => ?_
      simp only [nodesW] at hx
      omega
    | .code r, h => by
      simp only [typeOk, Bool.and_eq_true, beq_iff_eq] at h
      obtain ⟨rfl, h⟩ := h
      have := reads_lt (ne_seq1 (ne_exact (by decide))) h
      dsimp only at this
      refine ⟨by omega, ?_⟩
      rw [prepType]
      change Ret _ _
      rw [buildInlineCode]
      refine node_text.bind fun n hn => .pure ?_
      have e1 : headW src (EHead.new rg (.special .code)).selectors = 24 := rfl
      simp only [nodesW, Node.ofElem, nodeW, e1] at hn ⊢
      omega
  theorem nodes_w {p q : Nat} : ∀ {ns : List Ast.Node}, nodesOk alnum src p q ns = true → p ≤ q ∧ PsW src (prepNodes src ns) (50 * (q - p))
    | [], h => by
      simp only [nodesOk, beq_iff_eq] at h
      exact ⟨by omega, trivial⟩
    | .mk sp a b ty :: ns, h => by
      simp only [nodesOk, Bool.and_eq_true] at h
      obtain ⟨⟨h1, h2⟩, h3⟩ := h
      have h4 : p ≤ a ∧ spW src sp ≤ 50 * (a - p) := by
        cases sp with
        | none => simp only [spaceOk, beq_iff_eq] at h1; exact ⟨by omega, Nat.zero_le _⟩
        | some r =>
          simp only [spaceOk, Bool.and_eq_true, beq_iff_eq] at h1
          have := reads_lt (by unfold Lex.space many1; exact ne_seq1 (ne_chr _)) h1.1.2
          have := len_le (src := src) r
          simp only [spW, Option.map_some, Option.getD_some]
          omega
      obtain ⟨h5, h6⟩ := type_w (rg := ⟨a, b⟩) h2
      obtain ⟨h7, h8⟩ := nodes_w h3
      refine ⟨by omega, ?_⟩
      rw [prepNodes, prepNode]
      refine ⟨_, _, h6, h8, ?_⟩
      dsimp only
      omega
  theorem lines_w {first : Bool} {p q : Nat} : ∀ {ls : List Ast.Line}, linesOk alnum src first p q ls = true →
      p ≤ q ∧ ∀ fp out l, Ret (contentLoop fp out l (prepLines src ls)) fun x => nodesW src x ≤ nodesW src out + 50 * (q - p) + (if first then 26 else 0)
    | [], h => by
      refine ⟨?_, fun fp out l => ?_⟩
      · cases first with
        | true => exact gap_le h
        | false => simp only [linesOk, Bool.false_eq_true, if_false, beq_iff_eq] at h; omega
      · rw [prepLines, contentLoop]
        exact .pure' (by omega)
    | .mk s ns e :: ls, h => by
      simp only [linesOk, Bool.and_eq_true] at h
      obtain ⟨⟨⟨⟨h1, h2⟩, h3⟩, h4⟩, h5⟩ := h
      have h6 : p ≤ s ∧ 26 ≤ 50 * (s - p) + (if first then 26 else 0) := by
        cases first with
        | true => exact ⟨gap_le h1, by simp⟩
        | false =>
          have := reads_lt ne_newLine h1
          dsimp only at this
          exact ⟨by omega, by simp only [Bool.false_eq_true, if_false]; omega⟩
      have h2 := gap_le h2; have h4 := gap_le h4
      obtain ⟨h7, h8⟩ := nodes_w h3
      obtain ⟨h9, h10⟩ := lines_w h5
      simp only [Bool.false_eq_true, if_false] at h10
      generalize (if first then 26 else 0) = c at h6 ⊢
      refine ⟨by omega, fun fp out l => ?_⟩
      rw [prepLines, prepLine, contentLoop]
      split
      · refine (h10 fp _ _).mono fun x hx => ?_
        simp only [nodesW_append, nodesW, nodeW, paragraphEnd, textW] at hx
        omega
      · refine (built_le h8).bind fun y hy => ?_
        refine (h10 fp _ _).mono fun x hx => ?_
        have := add_le (src := src) out y.1 ⟨s, e⟩ l fp
        omega
end

/-- The document that is built. -/
theorem built_doc {d : Ast.Document} (h : Conforms alnum src d = true) :
    Ret (fromAst src d) fun x => nodesW src x.nodes ≤ 50 * byteLen src + 26 := by
  obtain ⟨⟨s, lines, e⟩⟩ := d
  simp only [Conforms, Bool.and_eq_true] at h
  have h0 := gap_le h.1.1
  have h1 := gap_le h.2
  obtain ⟨h2, h3⟩ := lines_w h.1.2
  simp only [if_true] at h3
  rw [fromAst]
  dsimp only
  refine (h3 true [] s).bind fun ns hn => .pure ?_
  simp only [nodesW] at hn
  dsimp only
  omega

end Mty.Size
