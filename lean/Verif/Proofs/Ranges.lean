import Verif.Model.Build
import Verif.Spec.Ranges
import Verif.Spec.Message
import Verif.Proofs.BuildOk
import Verif.Proofs.EscapeRanges

/-! # Ranges of the built document and of the errors (C12) -/

set_option autoImplicit false

namespace Mty

open Build Spec

section

variable (src : Str)

/-! ## Positions -/

theorem isBoundary_zero : isBoundary src 0 := ⟨[], src, rfl, rfl⟩
theorem isBoundary_len : isBoundary src (byteLen src) := ⟨src, [], by simp, rfl⟩

variable {src}

theorem ValidRange.mk' {a b : Nat} (ha : isBoundary src a) (hb : isBoundary src b) (h : a ≤ b) :
    ValidRange src ⟨a, b⟩ := ⟨h, ha, hb⟩

theorem Delimited.inner {o c : Str} {r : Range} (h : Delimited src o c r) :
    ValidRange src ⟨r.start + byteLen o, r.stop - byteLen c⟩ := by
  obtain ⟨pre, body, post, rfl, rfl⟩ := h
  refine ⟨?_, ⟨pre ++ o, body ++ (c ++ post), by simp, by simp [byteLen_append]⟩,
    ⟨pre ++ o ++ body, c ++ post, by simp, ?_⟩⟩
  · simp only [byteLen_append]; omega
  · simp only [byteLen_append]; omega

theorem dropBytes_append (a b : Str) : dropBytes (byteLen a) (a ++ b) = b := by
  induction a with
  | nil => cases b <;> simp [byteLen, dropBytes]
  | cons c a ih =>
    have := Char.utf8Size_pos c
    simp only [byteLen, List.cons_append, dropBytes]
    rw [if_neg (by omega), Nat.add_sub_cancel_left, ih]

theorem takeBytes_append (a b : Str) : takeBytes (byteLen a) (a ++ b) = a := by
  induction a with
  | nil => cases b <;> simp [byteLen, takeBytes]
  | cons c a ih =>
    have := Char.utf8Size_pos c
    simp only [byteLen, List.cons_append, takeBytes]
    rw [if_neg (by omega), Nat.add_sub_cancel_left, ih]

theorem append_split {a b c d : Str} (h : a ++ b = c ++ d) (hl : byteLen a ≤ byteLen c) :
    ∃ m, c = a ++ m ∧ b = m ++ d := by
  rcases List.append_eq_append_iff.1 h with ⟨m, h1, h2⟩ | ⟨m, h1, h2⟩
  · exact ⟨m, h1, h2⟩
  · subst h1
    cases m with
    | nil => exact ⟨[], by simp, by simpa using h2.symm⟩
    | cons x m =>
      have := Char.utf8Size_pos x
      simp [byteLen_append, byteLen] at hl
      omega

/-- A valid range cuts the source in three. -/
theorem ValidRange.split {r : Range} (h : ValidRange src r) :
    ∃ a m b, src = a ++ (m ++ b) ∧ r = ⟨byteLen a, byteLen (a ++ m)⟩ ∧ r.slice src = m := by
  obtain ⟨hle, ⟨a, b, h1, h2⟩, ⟨c, d, h3, h4⟩⟩ := h
  obtain ⟨m, rfl, rfl⟩ := append_split (h1.symm.trans h3) (by omega)
  refine ⟨a, m, d, h1, ?_, ?_⟩
  · cases r; simp_all
  · cases r
    simp only at h2 h4
    subst h2 h4
    simp [Range.slice, h1, dropBytes_append, byteLen_append, takeBytes_append]

/-! ## Good nodes -/

def GR (src : Str) (rs : List Range) : Prop := ∀ r ∈ rs, ValidRange src r

/-- What is known of an error: which complaint it is, and that the delimiter it points at is there. -/
structure Kind (src : Str) (e : SyntaxError) : Prop where
  complains : ∃ c, Complains e.kind c
  opens : ∀ d, e.kind = .unclosed d → ∃ t, Opens d t ∧ TokenAt src t e.range
  escapes : e.kind = .invalidEscape → ∃ f, TokenAt src ('\\' :: f) e.range ∧ ∀ e₁ e₂ c, f = e₁ ++ e₂ → ¬Accepted e₁ c

@[simp] theorem kind_unclosed {r : Range} {d : UnclosedKind} : Kind src ⟨r, .unclosed d⟩ ↔ ∃ t, Opens d t ∧ TokenAt src t r :=
  ⟨fun h => h.opens d rfl, fun h => ⟨⟨_, .unclosed d⟩, by rintro _ ⟨⟩; exact h, by simp⟩⟩
@[simp] theorem kind_invalid {r : Range} {i : ItemType} : Kind src ⟨r, .invalidItem i⟩ := ⟨⟨_, .invalid i⟩, by simp, by simp⟩
@[simp] theorem kind_precede {r : Range} {i o : ItemType} : Kind src ⟨r, .misplacedItem (.mustPrecede i [o])⟩ :=
  ⟨⟨_, .mustBeFollowed i o⟩, by simp, by simp⟩
@[simp] theorem kind_notPrecede {r : Range} {i o : ItemType} : Kind src ⟨r, .misplacedItem (.mustNotPrecede i [o])⟩ :=
  ⟨⟨_, .mustNotBeFollowed i o⟩, by simp, by simp⟩
@[simp] theorem kind_notFollow {r : Range} {i o : ItemType} : Kind src ⟨r, .misplacedItem (.mustNotFollow [o] i)⟩ :=
  ⟨⟨_, .mustNotFollow i o⟩, by simp, by simp⟩
@[simp] theorem kind_notPrecede' {r : Range} {i o : ItemType} : Kind src ⟨r, .misplacedItem (.mustNotPrecede i o.asSlice)⟩ :=
  kind_notPrecede
@[simp] theorem kind_notFollow' {r : Range} {i o : ItemType} : Kind src ⟨r, .misplacedItem (.mustNotFollow o.asSlice i)⟩ :=
  kind_notFollow

def GE (src : Str) (es : List SyntaxError) : Prop := ∀ e ∈ es, ValidRange src e.range ∧ Kind src e

@[simp] theorem GR.nil : GR src [] := fun _ h => absurd h (by simp)
@[simp] theorem GE.nil : GE src [] := fun _ h => absurd h (by simp)
@[simp] theorem GR_cons {r : Range} {rs : List Range} :
    GR src (r :: rs) ↔ ValidRange src r ∧ GR src rs := by simp [GR]
@[simp] theorem GR_append {a b : List Range} : GR src (a ++ b) ↔ GR src a ∧ GR src b := by
  simp only [GR, List.mem_append]
  exact ⟨fun h => ⟨fun r hr => h r (.inl hr), fun r hr => h r (.inr hr)⟩,
    fun h r hr => hr.elim (h.1 r) (h.2 r)⟩
@[simp] theorem GE_cons {r : SyntaxError} {rs : List SyntaxError} :
    GE src (r :: rs) ↔ ValidRange src r.range ∧ Kind src r ∧ GE src rs := by simp [GE, and_assoc]
@[simp] theorem GE_append {a b : List SyntaxError} : GE src (a ++ b) ↔ GE src a ∧ GE src b := by
  simp only [GE, List.mem_append]
  exact ⟨fun h => ⟨fun r hr => h r (.inl hr), fun r hr => h r (.inr hr)⟩,
    fun h r hr => hr.elim (h.1 r) (h.2 r)⟩

theorem GR_flatMap {α : Type} {f : α → List Range} {l : List α} :
    GR src (l.flatMap f) ↔ ∀ x ∈ l, GR src (f x) := by
  simp only [GR, List.mem_flatMap]
  exact ⟨fun h x hx r hr => h r ⟨x, hx, hr⟩, fun h r ⟨x, hx, hr⟩ => h x hx r hr⟩

theorem nodesRanges_eq (ns : List Node) : nodesRanges ns = ns.flatMap nodeRanges := by
  induction ns with
  | nil => simp [nodesRanges]
  | cons n ns ih => simp [nodesRanges, ih]

theorem nodeRanges_range {n : Node} (h : GR src (nodeRanges n)) : ValidRange src n.range := by
  cases n <;> simp [nodeRanges] at h <;> exact h.1

structure GN (src : Str) (lo hi : Nat) (n : Node) : Prop where
  ranges : GR src (nodeRanges n)
  lo : lo ≤ n.range.start
  hi : n.range.stop ≤ hi
  head : ∀ h, n.asElement = some h → h.range = n.range := by intro h hh; cases hh <;> rfl

def GL (src : Str) (lo hi : Nat) (ns : List Node) : Prop := ∀ n ∈ ns, GN src lo hi n

@[simp] theorem GL.nil {lo hi : Nat} : GL src lo hi [] := fun _ h => absurd h (by simp)
@[simp] theorem GL_cons {lo hi : Nat} {n : Node} {ns : List Node} :
    GL src lo hi (n :: ns) ↔ GN src lo hi n ∧ GL src lo hi ns := by simp [GL]
@[simp] theorem GL_append {lo hi : Nat} {a b : List Node} :
    GL src lo hi (a ++ b) ↔ GL src lo hi a ∧ GL src lo hi b := by
  simp only [GL, List.mem_append]
  exact ⟨fun h => ⟨fun r hr => h r (.inl hr), fun r hr => h r (.inr hr)⟩,
    fun h r hr => hr.elim (h.1 r) (h.2 r)⟩

theorem GN.mono {lo hi lo' hi' : Nat} {n : Node} (h : GN src lo hi n) (hl : lo' ≤ lo) (hh : hi ≤ hi') :
    GN src lo' hi' n :=
  ⟨h.ranges, by have := h.lo; omega, by have := h.hi; omega, h.head⟩

theorem GL.mono {lo hi lo' hi' : Nat} {ns : List Node} (h : GL src lo hi ns) (hl : lo' ≤ lo)
    (hh : hi ≤ hi') : GL src lo' hi' ns := fun n hn => (h n hn).mono hl hh

theorem GL.ranges {lo hi : Nat} {ns : List Node} (h : GL src lo hi ns) : GR src (nodesRanges ns) := by
  rw [nodesRanges_eq, GR_flatMap]
  exact fun n hn => (h n hn).ranges

/-! ## Lines -/

def PK (src : Str) (a b : Nat) : PKind → Prop
  | .text m | .comment m => Run m fun n es => GN src a b n ∧ GE src es
  | .selector r m => ValidRange src r ∧ Run m fun s es => GR src (selectorRanges s) ∧ GE src es
  | .line c => ValidRange src c
  | .block m => ∀ r q, ValidRange src r → Run (m r q) fun x es =>
      x.1.range = r ∧ GR src (headRanges x.1) ∧ GR src (nodesRanges x.2) ∧ GE src es
  | .other m => Run m fun ns es => GL src a b ns ∧ GE src es

def PN (src : Str) (lo hi : Nat) (p : PNode) : Prop :=
  (∀ s, p.space = some s → Within src lo p.start s) ∧ Within src lo hi ⟨p.start, p.stop⟩ ∧
    PK src p.start p.stop p.kind

def PS (src : Str) (hi : Nat) : Nat → List PNode → Prop
  | lo, [] => lo ≤ hi
  | lo, p :: ps => PN src lo hi p ∧ PS src hi p.stop ps

theorem PN.mono {lo lo' hi : Nat} {p : PNode} (h : PN src lo hi p) (hl : lo' ≤ lo) : PN src lo' hi p := by
  obtain ⟨h1, ⟨h2, h3, h4⟩, h5⟩ := h
  exact ⟨fun s hs => ⟨(h1 s hs).1, by have := (h1 s hs).2.1; omega, (h1 s hs).2.2⟩,
    ⟨h2, by omega, h4⟩, h5⟩

theorem PS.mono {lo lo' hi : Nat} : ∀ {ps : List PNode}, PS src hi lo ps → lo' ≤ lo → PS src hi lo' ps
  | [], h, hl => by simp only [PS] at *; omega
  | _ :: _, h, hl => ⟨h.1.mono hl, h.2⟩

theorem PS.le {hi : Nat} : ∀ {ps : List PNode} {lo : Nat}, PS src hi lo ps → lo ≤ hi
  | [], _, h => h
  | _ :: _, _, h => by
    have h1 := h.1.2.1.2.1
    have h2 := h.1.2.1.1.1
    have h3 := h.1.2.1.2.2
    simp only at h1 h2 h3; omega

def LineGood (src : Str) (lo hi lo' : Nat) (x : LineRes) (es : List SyntaxError) : Prop :=
  GL src lo hi x.1 ∧ GE src es ∧ PS src hi lo' x.2

theorem validateLoop_good (ns : List Node) (lo hi : Nat) (h : GL src lo hi ns) :
    ∀ last : Option (ItemType × Range), (∀ x, last = some x → ValidRange src x.2) →
      Run (validateLoop last ns) fun _ es => GE src es := by
  induction ns with
  | nil => exact fun last _ => Run.pure GE.nil
  | cons n ns ih =>
    intro last hl
    rw [GL_cons] at h
    have hv := nodeRanges_range h.1.ranges
    have hrec := ih h.2 (some (n.itemType, n.range)) (by rintro x ⟨⟩; exact hv)
    rw [validateLoop]
    dsimp only
    split
    · exact ih h.2 last hl
    · split
      · rename_i l lr
        have hlr : ValidRange src lr := hl _ rfl
        split
        · exact Run.bind' (Run.syntaxErr (hrec.mono fun _ es he => by simp [hlr, he]))
        · split
          · exact Run.bind' (Run.syntaxErr (hrec.mono fun _ es he => by simp [hv, he]))
          · exact Run.bind' (Run.pure' (hrec.mono fun _ es he => by simpa using he))
      · exact Run.bind' (Run.pure' (hrec.mono fun _ es he => by simpa using he))

theorem sp_good {lo hi a : Nat} {sp : Option Range} (h : ∀ s, sp = some s → Within src lo a s)
    (ha : a ≤ hi) : GL src lo hi (sp.map exactSpace).toList := by
  cases sp with
  | none => simp
  | some s =>
    obtain ⟨h1, h2, h3⟩ := h s rfl
    simp only [Option.map_some, Option.toList_some, GL_cons, GL.nil, and_true]
    exact { ranges := by simp [exactSpace, nodeRanges, textLikeRanges, sliceRanges, h1], lo := h2
            hi := by simp only [exactSpace, Node.range]; omega }

theorem selectors_empty {a : Nat} (h : isBoundary src a) : GR src (selectorRanges (Selector.empty a)) := by
  simp [Selector.empty, selectorRanges, tagRanges, ValidRange.mk' h h (Nat.le_refl _)]

theorem line_good (hi : Nat) (fuel : Nat) :
    (∀ ps lo, PS src hi lo ps → Run (extendLine fuel ps) (LineGood src lo hi lo)) ∧
    (∀ ps lo, PS src hi lo ps → Run (buildLine fuel ps) (LineGood src lo hi lo)) ∧
    (∀ ps lo pr sels lr, PS src hi lo ps → ValidRange src pr → pr.stop ≤ lo →
      (∀ s ∈ sels, GR src (selectorRanges s)) → ValidRange src lr →
      Run (postChildCombinator fuel pr ps sels lr) (LineGood src pr.start hi lo)) ∧
    (∀ ps lo pr sels lr, PS src hi lo ps → ValidRange src pr → pr.stop ≤ lo →
      (∀ s ∈ sels, GR src (selectorRanges s)) → ValidRange src lr →
      Run (postSelector fuel pr ps sels lr) (LineGood src pr.start hi lo)) := by
  induction fuel with
  | zero =>
    refine ⟨fun ps lo h => ?_, fun ps lo h => ?_, fun ps lo pr sels lr h _ _ _ _ => ?_,
      fun ps lo pr sels lr h _ _ _ _ => ?_⟩
    · rw [extendLine.eq_def]; exact Run.pure ⟨GL.nil, GE.nil, h⟩
    · rw [buildLine]; exact Run.pure ⟨GL.nil, GE.nil, h⟩
    · rw [postChildCombinator.eq_def]; exact Run.pure ⟨GL.nil, GE.nil, h⟩
    · rw [postSelector.eq_def]; exact Run.pure ⟨GL.nil, GE.nil, h⟩
  | succ fuel ih =>
    obtain ⟨ihE, ihB, ihC, ihS⟩ := ih
    refine ⟨?_, ?_, ?_, ?_⟩
    · intro ps lo h
      cases ps with
      | nil => rw [extendLine.eq_def]; exact Run.pure ⟨GL.nil, GE.nil, h⟩
      | cons p ps =>
        obtain ⟨sp, a, b, kind⟩ := p
        obtain ⟨⟨hs, ⟨hv, hlo, hhi⟩, hk⟩, hps⟩ := h
        simp only at hs hv hlo hhi hk hps
        have hab : a ≤ b := hv.1
        have hsp := sp_good (hi := hi) hs (by omega)
        have hps' := hps.mono (lo' := lo) (by omega)
        rw [extendLine.eq_def]; dsimp only
        cases kind with
        | text m =>
          refine Run.bind' (Run.mono hk fun n es ⟨hn, he⟩ => ?_)
          refine Run.bind' ((ihE ps b hps).mono fun x es' ⟨h1, h2, h3⟩ => ?_)
          refine Run.pure' ⟨?_, by simp [he, h2], h3.mono (by omega)⟩
          simp [hsp, hn.mono hlo hhi, h1.mono (show lo ≤ b by omega) (Nat.le_refl hi)]
        | comment m =>
          refine Run.bind' (Run.mono hk fun n es ⟨hn, he⟩ => ?_)
          refine Run.bind' ((ihE ps b hps).mono fun x es' ⟨h1, h2, h3⟩ => ?_)
          refine Run.pure' ⟨?_, by simp [he, h2], h3.mono (by omega)⟩
          simp [hsp, hn.mono hlo hhi, h1.mono (show lo ≤ b by omega) (Nat.le_refl hi)]
        | other m =>
          refine Run.bind' (Run.mono hk fun n es ⟨hn, he⟩ => ?_)
          refine Run.bind' ((ihE ps b hps).mono fun x es' ⟨h1, h2, h3⟩ => ?_)
          refine Run.pure' ⟨?_, by simp [he, h2], h3.mono (by omega)⟩
          simp [hsp, hn.mono hlo hhi, h1.mono (show lo ≤ b by omega) (Nat.le_refl hi)]
        | block m =>
          refine Run.bind' (Run.mono (hk _ _ hv) fun n es ⟨hr, hn, hc, he⟩ => ?_)
          refine Run.bind' ((ihE ps b hps).mono fun x es' ⟨h1, h2, h3⟩ => ?_)
          refine Run.pure' ⟨?_, by simp [he, h2], h3.mono (by omega)⟩
          simp only [GL_append, GL_cons, hsp, true_and]
          refine ⟨{ ranges := ?_, lo := ?_, hi := ?_ }, h1.mono (by omega) (Nat.le_refl hi)⟩
          · simp [Node.ofElem, nodeRanges, hn, hc, hr, hv]
          · simpa [Node.ofElem, Node.range, hr] using hlo
          · simpa [Node.ofElem, Node.range, hr] using hhi
        | line c =>
          refine Run.bind' ((ihC ps b ⟨a, b⟩ [Selector.empty a] ⟨a, b⟩ hps hv (Nat.le_refl b) ?_ hv).mono
            fun x es' ⟨h1, h2, h3⟩ => ?_)
          · simp [selectors_empty hv.2.1]
          refine Run.pure' ⟨?_, by simp [h2], h3.mono (by omega)⟩
          simp [hsp, h1.mono (show lo ≤ a by omega) (Nat.le_refl hi)]
        | selector r m =>
          refine Run.bind' (Run.mono hk.2 fun s es ⟨hn, he⟩ => ?_)
          refine Run.bind' ((ihS ps b ⟨a, b⟩ [s] ⟨a, b⟩ hps hv (Nat.le_refl b) ?_ hv).mono
            fun x es' ⟨h1, h2, h3⟩ => ?_)
          · simp [hn]
          refine Run.bind' ((ihE x.2 b h3).mono fun x' es2 ⟨k1, k2, k3⟩ => ?_)
          refine Run.pure' ⟨?_, by simp [he, h2, k2], k3.mono (by omega)⟩
          simp [hsp, h1.mono (show lo ≤ a by omega) (Nat.le_refl hi),
            k1.mono (show lo ≤ b by omega) (Nat.le_refl hi)]
    · intro ps lo h
      rw [buildLine]
      refine Run.bind' ((ihE ps lo h).mono fun x es ⟨h1, h2, h3⟩ => ?_)
      refine Run.bind' ((validateLoop_good x.1 lo hi h1 none (by simp)).mono fun _ es' hv => ?_)
      exact Run.pure' ⟨h1, by simp [h2, hv], h3⟩
    · intro ps lo pr sels lr h hpr hst hsels hlr
      have hprle := hpr.1
      have hlohi := h.le
      have hother : Run (do
          let (children, rest) ← buildLine fuel ps
          let range := match children.getLast? with
            | some n => pr.combine n.range
            | none => pr
          let contentRange : Range := ⟨pr.stop, range.stop⟩
          let h : EHead := { EHead.new range (.standard (.line lr)) with
            selectors := sels, contentRange }
          return ([Node.ofElem h children], rest) : BM LineRes) (LineGood src pr.start hi lo) := by
        refine Run.bind' ((ihB ps lo h).mono fun x es ⟨h1, h2, h3⟩ => ?_)
        refine Run.pure' ⟨?_, by simp [h2], h3⟩
        have hr : ∀ rg : Range, rg = (match x.1.getLast? with
            | some n => pr.combine n.range
            | none => pr) → ValidRange src rg ∧ rg.start = pr.start ∧ pr.stop ≤ rg.stop ∧ rg.stop ≤ hi := by
          rintro rg rfl
          split
          · rename_i n hn
            have hn := h1 n (List.mem_of_getLast? hn)
            have hv := nodeRanges_range hn.ranges
            have hl := hn.lo
            have hh := hn.hi
            have hvl := hv.1
            have e1 : min pr.start n.range.start = pr.start := by omega
            refine ⟨⟨?_, ?_, ?_⟩, e1, ?_, ?_⟩
            · simp only [Range.combine]; omega
            · simp only [Range.combine, e1]; exact hpr.2.1
            · simp only [Range.combine]
              rcases Nat.le_total pr.stop n.range.stop with hle | hle
              · rw [Nat.max_eq_right hle]; exact hv.2.2
              · rw [Nat.max_eq_left hle]; exact hpr.2.2
            · simp only [Range.combine]; omega
            · simp only [Range.combine]; omega
          · exact ⟨hpr, rfl, Nat.le_refl _, by omega⟩
        generalize hg : (match x.1.getLast? with
            | some n => pr.combine n.range
            | none => pr) = rg
        obtain ⟨r1, r2, r3, r4⟩ := hr rg hg.symm
        simp only [GL_cons, GL.nil, and_true]
        refine { ranges := ?_, lo := ?_, hi := ?_ }
        · simp only [Node.ofElem, nodeRanges, headRanges, EHead.new, elementTypeRanges, delimRanges,
            GR_cons, GR_append, GR_flatMap, GR.nil, true_and, List.cons_append]
          exact ⟨r1, r1, ⟨r3, hpr.2.2, r1.2.2⟩, hlr, hsels, h1.ranges⟩
        · simp [Node.ofElem, Node.range, EHead.new, r2]
        · simpa [Node.ofElem, Node.range, EHead.new] using r4
      cases ps with
      | nil => rw [postChildCombinator.eq_def]; dsimp only; exact hother
      | cons p ps =>
        obtain ⟨sp, a, b, kind⟩ := p
        obtain ⟨⟨hs, ⟨hv, hlo, hhi⟩, hk⟩, hps⟩ := h
        simp only at hs hv hlo hhi hk hps
        have hab : a ≤ b := hv.1
        have hpr' : ValidRange src ⟨pr.start, b⟩ := ⟨by simp only; omega, hpr.2.1, hv.2.2⟩
        rw [postChildCombinator.eq_def]; dsimp only
        cases kind with
        | text m => exact hother
        | comment m => exact hother
        | other m => exact hother
        | line c =>
          refine (ihC ps b ⟨pr.start, b⟩ _ _ hps hpr' (Nat.le_refl b) ?_ hk).mono
            fun x es' ⟨h1, h2, h3⟩ => ⟨h1, h2, h3.mono (by omega)⟩
          intro s hs
          rcases List.mem_append.1 hs with hs | hs
          · exact hsels s hs
          · simp at hs; subst hs; exact selectors_empty hv.2.1
        | selector r m =>
          refine Run.bind' (Run.mono hk.2 fun s es ⟨hn, he⟩ => ?_)
          refine (ihS ps b ⟨pr.start, b⟩ _ _ hps hpr' (Nat.le_refl b) ?_ hv).mono
            fun x es' ⟨h1, h2, h3⟩ => ⟨h1, by simp [he, h2], h3.mono (by omega)⟩
          intro s' hs
          rcases List.mem_append.1 hs with hs | hs
          · exact hsels s' hs
          · simp at hs; subst hs; exact hn
        | block m =>
          refine Run.bind' (Run.mono (hk _ _ hv) fun n es ⟨hr, hn, hc, he⟩ => ?_)
          refine Run.pure' ⟨?_, by simp [he], hps.mono (by omega)⟩
          simp only [GL_cons, GL.nil, and_true]
          simp only [headRanges, GR_append, GR_cons, List.cons_append] at hn
          refine { ranges := ?_, lo := ?_, hi := ?_ }
          · simp only [Node.ofElem, nodeRanges, headRanges, elementTypeRanges, delimRanges,
              GR_cons, GR_append, GR_flatMap, GR.nil, true_and, List.cons_append]
            exact ⟨hn.1, hn.1, hn.2.1, hlr, hv, hsels, hc⟩
          · simp only [Node.ofElem, Node.range, hr]; omega
          · simpa [Node.ofElem, Node.range, hr] using hhi
    · intro ps lo pr sels lr h hpr hst hsels hlr
      have hprle := hpr.1
      cases ps with
      | nil => rw [postSelector.eq_def]; exact Run.pure ⟨GL.nil, GE.nil, h⟩
      | cons p ps =>
        have hall := h
        obtain ⟨sp, a, b, kind⟩ := p
        obtain ⟨⟨hs, ⟨hv, hlo, hhi⟩, hk⟩, hps⟩ := h
        simp only at hs hv hlo hhi hk hps
        have hab : a ≤ b := hv.1
        have hpr' : ValidRange src ⟨pr.start, b⟩ := ⟨by simp only; omega, hpr.2.1, hv.2.2⟩
        rw [postSelector.eq_def]; dsimp only
        cases kind with
        | text m => exact Run.bind' (Run.syntaxErr (Run.pure' ⟨GL.nil, by simp [hv], hall⟩))
        | other m => exact Run.bind' (Run.syntaxErr (Run.pure' ⟨GL.nil, by simp [hv], hall⟩))
        | selector r m => exact Run.bind' (Run.syntaxErr (Run.pure' ⟨GL.nil, by simp [hk.1], hall⟩))
        | comment m =>
          refine Run.bind' (Run.mono hk fun n es ⟨hn, he⟩ => ?_)
          refine Run.bind' ((ihS ps b ⟨pr.start, b⟩ _ _ hps hpr' (Nat.le_refl b) hsels hlr).mono
            fun x es' ⟨h1, h2, h3⟩ => ?_)
          refine Run.pure' ⟨?_, by simp [he, h2], h3.mono (by omega)⟩
          simp [hn.mono (show pr.start ≤ a by omega) hhi, show GL src pr.start hi x.1 from h1]
        | line c =>
          exact (ihC ps b ⟨pr.start, b⟩ _ _ hps hpr' (Nat.le_refl b) hsels hk).mono
            fun x es' ⟨h1, h2, h3⟩ => ⟨h1, h2, h3.mono (by omega)⟩
        | block m =>
          refine Run.bind' (Run.mono (hk _ _ hpr') fun n es ⟨hr, hn, hc, he⟩ => ?_)
          refine Run.pure' ⟨?_, by simp [he], hps.mono (by omega)⟩
          simp only [GL_cons, GL.nil, and_true]
          simp only [headRanges, GR_append, GR_cons, List.cons_append] at hn
          refine { ranges := ?_, lo := ?_, hi := ?_ }
          · simp only [Node.ofElem, nodeRanges, headRanges,
              GR_cons, GR_append, GR_flatMap, List.cons_append]
            exact ⟨hn.1, hn.1, hn.2.1, ⟨hn.2.2.1, hsels⟩, hc⟩
          · simp [Node.ofElem, Node.range, hr]
          · simpa [Node.ofElem, Node.range, hr] using hhi

/-! ## Content -/

theorem appendToPrevious_good {lo hi e : Nat} {out line : List Node} {r : Range}
    (ho : GL src lo e out) (hl : GL src r.start r.stop line) (hr : ValidRange src r)
    (he : e ≤ r.start) (hb : isBoundary src e) (hlo : lo ≤ e) (hh : r.stop ≤ hi) :
    GL src lo hi (appendToPrevious out line r e).1 ∧ GL src lo hi (appendToPrevious out line r e).2 := by
  have hle := hr.1
  have hline : GL src lo hi line := hl.mono (by omega) hh
  have hout : GL src lo hi out := ho.mono (Nat.le_refl _) (by omega)
  unfold appendToPrevious
  split
  · rename_i rg h ch heq
    have hm : Node.elem rg h ch ∈ out := List.mem_of_getLast? heq
    have hn := ho _ hm
    have hnr := hn.ranges
    simp only [nodeRanges, headRanges, GR_append, GR_cons, List.cons_append] at hnr
    obtain ⟨n1, n2, n3, ⟨n4, n5⟩, n6⟩ := hnr
    have hlo' := hn.lo
    have hhi' := hn.hi
    simp only [Node.range] at hlo' hhi'
    have n1le := n1.1
    have hhead : h.range = rg := hn.head h rfl
    have n2le := n2.1
    have hdrop : GL src lo hi out.dropLast := fun n hn => hout n (List.dropLast_subset _ hn)
    have hnew : (h.range.start ≤ r.stop) → GL src lo hi (out.dropLast ++ [Node.elem { rg with stop := r.stop }
        { h with range := { h.range with stop := r.stop } } (ch ++ lineEnd e r.start :: line)]) := by
      intro hst
      simp only [GL_append, hdrop, true_and, GL_cons, GL.nil, and_true]
      refine { ranges := ?_, lo := hlo', hi := hh, head := ?_ }
      rotate_left
      · rintro _ ⟨⟩; simp only [Node.range]; rw [hhead]
      simp only [nodeRanges, headRanges, GR_append, GR_cons, List.cons_append, nodesRanges_eq,
        List.flatMap_append, List.flatMap_cons] at n6 ⊢
      refine ⟨⟨by simp only; omega, n1.2.1, hr.2.2⟩, ⟨hst, n2.2.1, hr.2.2⟩, n3, ⟨n4, n5⟩, n6, ?_, ?_⟩
      · simp [lineEnd, nodeRanges, textLikeRanges, ValidRange.mk' hb hr.2.1 he]
      · rw [← nodesRanges_eq]; exact hline.ranges
    have hst : h.range.start ≤ r.stop := by rw [hhead]; omega
    split
    · exact ⟨hnew hst, GL.nil⟩
    · exact ⟨hnew hst, GL.nil⟩
    · exact ⟨hout, hline⟩
  · exact ⟨hout, hline⟩

theorem addLine_good {lo e : Nat} {out line : List Node} {r : Range} {fp : Bool}
    (ho : GL src lo e out) (hl : GL src r.start r.stop line) (hr : ValidRange src r)
    (he : e ≤ r.start) (hb : isBoundary src e) (hlo : lo ≤ e) :
    GL src lo r.stop (addLine out line r e fp) := by
  have hle := hr.1
  have key : ∀ o l : List Node, GL src lo r.stop o → GL src lo r.stop l → GL src lo r.stop
      (if !l.isEmpty then
        let o' := if o.any Node.isVisible then o ++ [paragraphEnd e r.start] else o
        if fp && !startsWithElement line && (line.find? Node.isVisible).isSome then
          o' ++ [Node.ofElem (EHead.new r .paragraph) l]
        else o' ++ l
       else o) := by
    intro o l ho hl
    have hpe : GN src lo r.stop (paragraphEnd e r.start) :=
      { ranges := by simp [paragraphEnd, nodeRanges, textLikeRanges, ValidRange.mk' hb hr.2.1 he]
        lo := hlo, hi := hle }
    have hel : GN src lo r.stop (Node.ofElem (EHead.new r .paragraph) l) :=
      { ranges := by
          simp [Node.ofElem, EHead.new, nodeRanges, headRanges, elementTypeRanges, hr, hl.ranges]
        lo := by simp only [Node.ofElem, EHead.new, Node.range]; omega
        hi := by simp [Node.ofElem, EHead.new, Node.range] }
    dsimp only
    split
    · split <;> split <;> simp [ho, hl, hpe, hel]
    · exact ho
  have h := appendToPrevious_good (hi := r.stop) ho hl hr he hb hlo (Nat.le_refl _)
  have hout : GL src lo r.stop out := ho.mono (Nat.le_refl _) (by omega)
  have hline : GL src lo r.stop line := hl.mono (by omega) (Nat.le_refl _)
  unfold addLine
  by_cases hs : startsWithElement line = true
  · rw [hs]
    have := key out line hout hline
    rw [hs] at this
    exact this
  · simp only [Bool.not_eq_true] at hs
    have := key _ _ h.1 h.2
    rw [hs] at this
    rw [hs]
    exact this

def PLs (src : Str) (hi : Nat) : Nat → List PLine → Prop
  | lo, [] => lo ≤ hi
  | lo, l :: ls => Within src lo hi ⟨l.start, l.stop⟩ ∧ PS src l.stop l.start l.nodes ∧
      PLs src hi l.stop ls

theorem contentLoop_good (fp : Bool) (hi lo : Nat) : ∀ (ls : List PLine) (e : Nat) (out : List Node),
    PLs src hi e ls → GL src lo e out → isBoundary src e → lo ≤ e →
    Run (contentLoop fp out e ls) fun ns es => GL src lo hi ns ∧ GE src es
  | [], e, out, h, ho, hb, hlo => by
    rw [contentLoop]
    exact Run.pure ⟨ho.mono (Nat.le_refl _) h, GE.nil⟩
  | ⟨a, ns, b⟩ :: ls, e, out, ⟨⟨hv, h1, h2⟩, hns, hls⟩, ho, hb, hlo => by
    simp only at hv h1 h2 hns hls
    have hab := hv.1
    simp only at hab
    rw [contentLoop]
    split
    · refine contentLoop_good fp hi lo ls b _ hls ?_ hv.2.2 (by omega)
      simp only [GL_append, ho.mono (Nat.le_refl _) (show e ≤ b by omega), GL_cons, GL.nil, true_and,
        and_true]
      exact { ranges := by
                simp [paragraphEnd, nodeRanges, textLikeRanges,
                  ValidRange.mk' hb hv.2.2 (show e ≤ b by omega)]
              lo := hlo, hi := Nat.le_refl b }
    · refine Run.bind' (((line_good b _).2.1 ns a hns).mono fun x es ⟨k1, k2, _⟩ => ?_)
      refine (contentLoop_good fp hi lo ls b _ hls ?_ hv.2.2 (by omega)).mono
        fun y es' ⟨j1, j2⟩ => ⟨j1, by simp [k2, j2]⟩
      exact addLine_good (r := ⟨a, b⟩) ho k1 hv h1 hb hlo

theorem buildContent_good {fp : Bool} {a b : Nat} {ls : List PLine} (h : PLs src b a ls)
    (hv : ValidRange src ⟨a, b⟩) :
    Run (buildContent a ls fp) fun ns es => GL src a b ns ∧ GE src es :=
  contentLoop_good fp b a ls a [] h GL.nil hv.2.1 (Nat.le_refl _)

/-! ## Text, selectors, elements -/

theorem slice_errors {r : Range} (h : ValidRange src r) :
    GE src ((escapeErrors (r.slice src) r.start).map fun r => ⟨r, .invalidEscape⟩) := by
  obtain ⟨a, m, b, h1, rfl, h3⟩ := h.split
  rw [h3]
  intro e he
  obtain ⟨x, hx, rfl⟩ := List.mem_map.1 he
  obtain ⟨pre, f, post, k1, rfl, -, k3⟩ := Scan.mem (escapeErrors_scan (byteLen a) m) x hx
  subst k1 h1
  have hlen : byteLen (a ++ pre ++ '\\' :: f) = byteLen a + byteLen pre + 1 + byteLen f := by
    simp [byteLen_append, byteLen, show ('\\' : Char).utf8Size = 1 from rfl]
    omega
  refine ⟨⟨by simp only; omega, ⟨a ++ pre, '\\' :: f ++ post ++ b, by simp, by simp [byteLen_append]⟩,
    ⟨a ++ pre ++ '\\' :: f, post ++ b, by simp, hlen⟩⟩, ⟨_, .escape⟩, by simp, fun _ => ⟨f, ⟨a ++ pre, post ++ b, by simp, ?_⟩, ?_⟩⟩
  · rw [hlen, byteLen_append]
  · rintro e₁ e₂ c rfl
    exact k3 e₁ (e₂ ++ post) c (by simp)

theorem buildTextNode_good {lo hi : Nat} {r : Range} {u e raw ml : Bool} (h : Within src lo hi r) :
    Run (buildTextNode src r u e raw ml) fun n es => GN src lo hi n ∧ n.range = r ∧ GE src es := by
  unfold buildTextNode escapableSlice
  have hn : ∀ t : Text, t.slice = .fromSource r → GN src lo hi (.text r (.text t)) := fun t ht =>
    { ranges := by simp [nodeRanges, textLikeRanges, ht, sliceRanges, h.1], lo := h.2.1, hi := h.2.2 }
  cases u
  · exact Run.bind' (Run.pure' (Run.pure' ⟨hn _ rfl, rfl, by simp⟩))
  · refine Run.bind' (Run.bind' (Run.syntaxErr (Run.pure' (Run.pure' ⟨hn _ rfl, rfl, ?_⟩))))
    simpa using slice_errors h.1

theorem unclosedIf_good {α : Type} {c : Option Range} (o : Range) (k : UnclosedKind) {m : Unit → BM α}
    {R : α → List SyntaxError → Prop} (ho : ValidRange src o) (hk : ∃ t, Opens k t ∧ TokenAt src t o)
    (h : ∀ es, GE src es → Run (m ()) fun a es' => R a (es ++ es')) :
    Run (do
      if c.isNone then unclosed o k
      m ()) R := by
  cases c
  · exact Run.bind' (Run.syntaxErr (h _ (by rw [GE_cons, kind_unclosed]; exact ⟨ho, hk, GE.nil⟩)))
  · exact Run.bind' (Run.pure' (h _ (by simp)))

theorem buildVerbatimNode_good {lo hi : Nat} {o : Range} {raw : Option Range} {t : Ast.VerbatimTail}
    (ho : Within src lo hi o) (ht : Within src lo hi (verbatimTailRange t)) (hd : verbatimTailOk src t) :
    GN src lo hi (buildVerbatimNode o raw t) := by
  have hcomb : ∀ r, Within src lo hi r → Within src lo hi (o.combine r) := by
    rintro r ⟨h1, h2, h3⟩
    obtain ⟨k1, k2, k3⟩ := ho
    have := h1.1
    have := k1.1
    refine ⟨⟨?_, ?_, ?_⟩, ?_, ?_⟩
    · simp only [Range.combine]; omega
    · simp only [Range.combine]
      rcases Nat.le_total o.start r.start with hle | hle
      · rw [Nat.min_eq_left hle]; exact k1.2.1
      · rw [Nat.min_eq_right hle]; exact h1.2.1
    · simp only [Range.combine]
      rcases Nat.le_total o.stop r.stop with hle | hle
      · rw [Nat.max_eq_right hle]; exact h1.2.2
      · rw [Nat.max_eq_left hle]; exact k1.2.2
    · simp only [Range.combine]; omega
    · simp only [Range.combine]; omega
  cases t <;>
  · obtain ⟨c1, c2, c3⟩ := hcomb _ ht
    have hi' := Delimited.inner hd
    simp only [verbatimTailRange] at c1 c2 c3
    refine { ranges := ?_, lo := c2, hi := c3 }
    simp only [buildVerbatimNode, nodeRanges, textLikeRanges, sliceRanges, GR_cons, GR.nil, and_true]
    exact ⟨c1, hi'⟩

theorem buildInlineText_good {lo hi : Nat} {t : Ast.InlineText} (h : inlineTextIn src lo hi t) :
    Run (buildInlineText src t) fun n es => GN src lo hi n ∧ GE src es := by
  cases t with
  | segment r => exact (buildTextNode_good h).mono fun n es hn => ⟨hn.1, hn.2.2⟩
  | interpolation r => exact (buildTextNode_good h).mono fun n es hn => ⟨hn.1, hn.2.2⟩
  | verbatim o raw t => exact Run.pure ⟨buildVerbatimNode_good h.1 h.2.1 h.2.2, GE.nil⟩
  | comment c =>
    obtain ⟨h1, h2, h3, h4⟩ := h
    refine unclosedIf_good (c := c.close) c.open_ .comment (m := fun _ => Pure.pure (Node.text ⟨c.start, c.stop⟩ (.comment (.fromSource c.inner))))
      h2.1 ⟨_, .comment, h4⟩ fun es he => Run.pure' ⟨?_, by simpa using he⟩
    exact { ranges := by simp [nodeRanges, textLikeRanges, sliceRanges, h1.1, h3.1]
            lo := h1.2.1, hi := h1.2.2 }

theorem attribute_good {a : Ast.Attribute} (h : attributeIn src a) :
    GR src ((buildAttribute a).range :: sliceRanges (buildAttribute a).name ++
      (buildAttribute a).value.toList.flatMap sliceRanges) := by
  obtain ⟨start, name, value, stop⟩ := a
  obtain ⟨h1, h2, h3⟩ := h
  simp only at h1 h2 h3
  cases value with
  | none => simp [buildAttribute, sliceRanges, h1, h2]
  | some v =>
    cases v with
    | unquoted r => simp at h3; simp [buildAttribute, sliceRanges, h1, h2, h3]
    | quoted r =>
      simp only at h3
      obtain ⟨q, hq, h3⟩ := h3
      have := Delimited.inner h3
      have hq1 : q.utf8Size = 1 := by
        simp at hq; rcases hq with rfl | rfl <;> rfl
      simp [byteLen, hq1] at this
      simp [buildAttribute, sliceRanges, h1, h2, this]

theorem attributes_good {a : Ast.AttributeSelector} (h : attributesIn src a) :
    Run (buildAttributeList a) fun i es => GR src (itemRanges i) ∧ GE src es := by
  obtain ⟨h1, h2, h3, h4⟩ := h
  refine unclosedIf_good (c := a.rBracket) a.lBracket .attributeList (m := fun _ => Pure.pure (SelectorItem.attributes ⟨a.start, a.stop⟩ (a.parts.map buildAttribute)))
    h2 ⟨_, .attributes, h4⟩ fun es he => Run.pure' ⟨?_, by simpa using he⟩
  rw [itemRanges, GR_cons, GR_flatMap]
  refine ⟨h1, fun x hx => ?_⟩
  obtain ⟨p, hp, rfl⟩ := List.mem_map.1 hx
  exact attribute_good (h3 p hp)

theorem extendClassLike_good (l : List Ast.ClassLike) (h : ∀ c ∈ l, classLikeIn src c) :
    Run (extendClassLike l) fun is es => (∀ i ∈ is, GR src (itemRanges i)) ∧ GE src es := by
  induction l with
  | nil => exact Run.pure (by simp)
  | cons c l ih =>
    have ih := ih fun x hx => h x (List.mem_cons_of_mem _ hx)
    have hc := h c (by simp)
    rw [extendClassLike]
    cases c with
    | cls d i =>
      refine Run.bind' (Run.pure ?_)
      refine Run.bind' (ih.mono fun a es ⟨ha, h⟩ => Run.pure' ?_)
      simp only [classLikeIn] at hc
      simp only [Option.toList, List.cons_append, List.nil_append, List.mem_cons, forall_eq_or_imp]
      exact ⟨⟨by simp [itemRanges, sliceRanges, hc], ha⟩, by simpa using h⟩
    | id d i =>
      refine Run.bind' (Run.pure ?_)
      refine Run.bind' (ih.mono fun a es ⟨ha, h⟩ => Run.pure' ?_)
      simp only [classLikeIn] at hc
      simp only [Option.toList, List.cons_append, List.nil_append, List.mem_cons, forall_eq_or_imp]
      exact ⟨⟨by simp [itemRanges, sliceRanges, hc], ha⟩, by simpa using h⟩
    | invalid r =>
      refine Run.bind' (Run.bind' (Run.syntaxErr (Run.pure' ?_)))
      refine Run.bind' (ih.mono fun a es ⟨ha, h⟩ => Run.pure' ?_)
      simp only [classLikeIn] at hc
      exact ⟨by simpa using ha, by simp [hc, h]⟩

theorem extendSegments_good (l : List Ast.SelectorSegment) (h : ∀ g ∈ l, match g with
    | .attributes a => attributesIn src a
    | .classLike cs => ∀ c ∈ cs, classLikeIn src c) :
    Run (extendSegments l) fun is es => (∀ i ∈ is, GR src (itemRanges i)) ∧ GE src es := by
  induction l with
  | nil => exact Run.pure (by simp)
  | cons c l ih =>
    have ih := ih fun x hx => h x (List.mem_cons_of_mem _ hx)
    have hc := h c (by simp)
    cases c with
    | attributes a =>
      rw [extendSegments]
      refine Run.bind' ((attributes_good hc).mono fun a es ⟨ha, h⟩ => ?_)
      refine Run.bind' (ih.mono fun b es' ⟨hb, h'⟩ => Run.pure' ⟨?_, by simp [h, h']⟩)
      simp only [List.mem_cons, forall_eq_or_imp]
      exact ⟨ha, hb⟩
    | classLike a =>
      rw [extendSegments]
      refine Run.bind' ((extendClassLike_good a hc).mono fun a es ⟨ha, h⟩ => ?_)
      refine Run.bind' (ih.mono fun b es' ⟨hb, h'⟩ => Run.pure' ⟨?_, by simp [h, h']⟩)
      intro i hi
      exact (List.mem_append.1 hi).elim (ha i) (hb i)

theorem buildSelector_good {s : Ast.Selector} (hr : ValidRange src ⟨s.start, s.stop⟩)
    (h : selectorIn src s) :
    Run (buildSelector s) fun a es => GR src (selectorRanges a) ∧ GE src es := by
  obtain ⟨start, first, segments, stop⟩ := s
  obtain ⟨h1, h2⟩ := h
  cases first with
  | tag el cl =>
    simp only at h1
    refine Run.bind' ((extendClassLike_good cl h1.1).mono fun a es ⟨ha, h⟩ => Run.bind' (Run.pure' ?_))
    refine Run.bind' ((extendSegments_good segments h2).mono fun b es' ⟨hb, h'⟩ => Run.pure' ⟨?_, by simp [h, h']⟩)
    simp only [selectorRanges, GR_append, GR_cons, GR_flatMap, List.cons_append]
    refine ⟨hr, ?_, fun i hi => (List.mem_append.1 hi).elim (ha i) (hb i)⟩
    cases el with
    | none => simp [buildTag, tagRanges]
    | some e => cases e <;> simpa [buildTag, tagRanges, sliceRanges] using h1.2
  | attributes l =>
    simp only at h1
    refine Run.bind' ((attributes_good h1).mono fun a es ⟨ha, h⟩ => Run.bind' (Run.pure' ?_))
    refine Run.bind' ((extendSegments_good segments h2).mono fun b es' ⟨hb, h'⟩ => Run.pure' ⟨?_, by simp [h, h']⟩)
    simp only [selectorRanges, GR_append, GR_cons, GR_flatMap, List.cons_append, tagRanges]
    exact ⟨hr, GR.nil, fun i hi => by
      rcases List.mem_cons.1 hi with rfl | hi
      · exact ha
      · exact hb i hi⟩

theorem inlineFirst_good {lo hi : Nat} {r : Range} (hr : Within src lo hi r) :
    ∀ {ns ns' : List Node}, inlineFirst r ns = some ns' → GL src lo hi ns → GL src lo hi ns'
  | [], _, h, _ => by simp [inlineFirst] at h
  | n :: ns, ns', h, hg => by
    rw [GL_cons] at hg
    rw [inlineFirst.eq_def] at h
    dsimp only at h
    split at h
    · split at h
      · rename_i rg hd ch
        split at h
        · rename_i d hty
          cases h
          rw [GL_cons]
          refine ⟨{ ranges := ?_, lo := hr.2.1, hi := hr.2.2 }, hg.2⟩
          have h1 := hg.1.ranges
          simp only [nodeRanges, headRanges, GR_append, GR_cons, List.cons_append, hty,
            elementTypeRanges] at h1 ⊢
          exact ⟨hr.1, hr.1, h1.2.2⟩
        · cases h
      · cases h
    · cases hrec : inlineFirst r ns with
      | none => simp [hrec] at h
      | some ns2 =>
        simp [hrec] at h
        subst h
        rw [GL_cons]
        exact ⟨hg.1, inlineFirst_good hr hrec hg.2⟩

mutual
  theorem goodNode : ∀ (n : Ast.Node) (lo hi : Nat), nodeIn src lo hi n → PN src lo hi (prepNode src n)
    | .mk sp a b ty, lo, hi, h => by
      simp only [nodeIn] at h
      refine ⟨fun s hs => ?_, h.2.1, goodType ty a b h.2.1.1 h.2.2⟩
      simp only [prepNode] at hs
      subst hs
      exact h.1
  theorem goodType : ∀ (ty : Ast.NodeType) (a b : Nat), ValidRange src ⟨a, b⟩ → typeIn src a b ty →
      PK src a b (prepType src ⟨a, b⟩ ty)
    | .multiline k s e, a, b, hab, h => by
      simp only [typeIn] at h
      simp only [prepType, PK, buildMultiline]
      refine Run.bind' ((buildTextNode_good h).mono fun n es ⟨hn, hr, he⟩ => Run.pure' ⟨?_, by simpa using he⟩)
      simp only [GL_cons, GL.nil, and_true]
      refine { ranges := ?_, lo := Nat.le_refl _, hi := Nat.le_refl _ }
      simp [Node.ofElem, EHead.new, nodeRanges, headRanges, elementTypeRanges, hab, nodesRanges, hn.ranges,
        h.1]
    | .text (.comment c), a, b, hab, h => by
      simp only [typeIn] at h
      exact buildInlineText_good h
    | .text (.segment c), a, b, hab, h => by
      simp only [typeIn] at h
      exact buildInlineText_good h
    | .text (.verbatim o r t), a, b, hab, h => by
      simp only [typeIn] at h
      exact buildInlineText_good h
    | .text (.interpolation c), a, b, hab, h => by
      simp only [typeIn] at h
      exact buildInlineText_good h
    | .selector s, a, b, hab, h => by
      simp only [typeIn] at h
      exact ⟨h.1.1, buildSelector_good h.1.1 h.2⟩
    | .line c, a, b, hab, h => by
      simp only [typeIn] at h
      exact h.1
    | .block l (.mk s lines e) r, a, b, hab, h => by
      simp only [typeIn] at h
      simp only [prepType, PK]
      intro rg q hrg
      refine unclosedIf_good (c := r) l .block (m := fun _ => do
        let nodes ← buildContent s (prepLines src lines) q
        let h : EHead := { EHead.new rg (.standard (.block rg)) with contentRange := ⟨s, e⟩ }
        return (h, nodes)) h.1.1 ⟨_, .block, h.2.2.2⟩ fun es hes => ?_
      refine Run.bind' ((buildContent_good (goodLines lines s e h.2.2.1) h.2.1.1).mono
        fun ns es' ⟨hn, he⟩ => Run.pure' ⟨rfl, ?_, hn.ranges, by simp [hes, he]⟩)
      simp [EHead.new, headRanges, elementTypeRanges, delimRanges, hrg, h.2.1.1]
    | .special f o (.mk s lines e) r, a, b, hab, h => by
      simp only [typeIn] at h
      simp only [prepType, PK]
      refine unclosedIf_good (c := r) o (.specialInline (specialKind f)) (m := fun _ => do
        let nodes ← buildContent s (prepLines src lines) false
        let h : EHead := { EHead.new ⟨a, b⟩ (.special (specialKind f)) with
          contentRange := ⟨s, e⟩ }
        return [Node.ofElem h nodes]) h.1.1 ⟨_, by cases f <;> constructor, h.2.2.2⟩ fun es hes => ?_
      refine Run.bind' ((buildContent_good (goodLines lines s e h.2.2.1) h.2.1.1).mono
        fun ns es' ⟨hn, he⟩ => Run.pure' ⟨?_, by simp [hes, he]⟩)
      simp only [GL_cons, GL.nil, and_true]
      refine { ranges := ?_, lo := Nat.le_refl _, hi := Nat.le_refl _ }
      simp [Node.ofElem, EHead.new, nodeRanges, headRanges, elementTypeRanges, hab, hn.ranges, h.2.1.1]
    | .code r, a, b, hab, h => by
      simp only [typeIn] at h
      simp only [prepType, PK, buildInlineCode]
      have hin := Delimited.inner h.2
      have hw : Within src a b ⟨r.start + 2, r.stop - 2⟩ :=
        ⟨hin, by have := h.1.2.1; simp only; omega, by have := h.1.2.2; simp only; omega⟩
      refine Run.bind' ((buildTextNode_good hw).mono fun n es ⟨hn, hr, he⟩ => Run.pure' ⟨?_, by simpa using he⟩)
      simp only [GL_cons, GL.nil, and_true]
      refine { ranges := ?_, lo := Nat.le_refl _, hi := Nat.le_refl _ }
      simp [Node.ofElem, EHead.new, nodeRanges, headRanges, elementTypeRanges, hab, nodesRanges, hn.ranges,
        nodeRanges_range hn.ranges]
    | .inline o inner c, a, b, hab, h => by
      simp only [typeIn] at h
      obtain ⟨ho, hc, hin, hop⟩ := h
      simp only [prepType, PK]
      have hps := goodNodes inner _ _ hin
      have hob := ho.1.1
      have hoa := ho.2.1
      have hend : isBoundary src ((c.map Range.start).getD b) ∧ (c.map Range.start).getD b ≤ b := by
        cases c with
        | none => exact ⟨hab.2.2, Nat.le_refl _⟩
        | some c =>
          simp only at hc
          exact ⟨hc.1.2.1, Nat.le_trans hc.1.1 hc.2.2⟩
      have hinner : ValidRange src ⟨o.stop, (c.map Range.start).getD b⟩ :=
        ⟨hps.le, ho.1.2.2, hend.1⟩
      refine unclosedIf_good (c := c) o .inline (m := fun _ => do
        let (line, _) ← buildLine (lineFuel (prepNodes src inner)) (prepNodes src inner)
        validateLine line
        match inlineFirst ⟨a, b⟩ line with
        | some line => return line
        | none =>
          let h : EHead := { EHead.new ⟨a, b⟩ (.inline none) with
            contentRange := ⟨o.stop, (c.map Range.start).getD b⟩ }
          return [Node.ofElem h line]) ho.1 ⟨_, .inline, hop⟩ fun es hes => ?_
      refine Run.bind' (((line_good _ _).2.1 _ _ hps).mono fun x es1 ⟨h1, h2, _⟩ => ?_)
      refine Run.bind' ((validateLoop_good x.1 _ _ h1 none (by simp)).mono fun _ es2 h3 => ?_)
      have hline : GL src a b x.1 := h1.mono (by omega) hend.2
      have hall : GE src (es ++ (es1 ++ es2)) := by simp [hes, h2, h3]
      cases hf : inlineFirst ⟨a, b⟩ x.1 with
      | some l =>
        exact Run.pure' ⟨inlineFirst_good ⟨hab, Nat.le_refl _, Nat.le_refl _⟩ hf hline,
          by simpa using hall⟩
      | none =>
        refine Run.pure' ⟨?_, by simpa using hall⟩
        simp only [GL_cons, GL.nil, and_true]
        refine { ranges := ?_, lo := Nat.le_refl _, hi := Nat.le_refl _ }
        simp [Node.ofElem, EHead.new, nodeRanges, headRanges, elementTypeRanges, hab, hline.ranges, hinner]
  theorem goodNodes : ∀ (ns : List Ast.Node) (lo hi : Nat), nodesIn src lo hi ns →
      PS src hi lo (prepNodes src ns)
    | [], lo, hi, h => by simpa [nodesIn, prepNodes, PS] using h
    | .mk sp a b ty :: ns, lo, hi, h => by
      simp only [nodesIn] at h
      exact ⟨goodNode _ lo hi h.1, goodNodes ns b hi h.2⟩
  theorem goodLines : ∀ (ls : List Ast.Line) (lo hi : Nat), linesIn src lo hi ls →
      PLs src hi lo (prepLines src ls)
    | [], lo, hi, h => by simpa [linesIn, prepLines, PLs] using h
    | .mk s ns e :: ls, lo, hi, h => by
      simp only [linesIn] at h
      exact ⟨h.1, goodNodes ns s e h.2.1, goodLines ls e hi h.2.2⟩
end

theorem fromAst_good {d : Ast.Document} (h : PositionsOk src d) :
    Run (fromAst src d) fun doc es => GR src (docRanges doc) ∧ GE src es := by
  obtain ⟨⟨s, lines, e⟩⟩ := d
  obtain ⟨h1, h2⟩ := h
  unfold fromAst
  refine Run.bind' ((buildContent_good (goodLines lines s e h2) h1).mono
    fun ns es ⟨hn, he⟩ => Run.pure' ⟨?_, by simpa using he⟩)
  simp [docRanges, ValidRange.mk' (isBoundary_zero src) (isBoundary_len src) (Nat.zero_le _), h1, hn.ranges]

end

end Mty
