import Verif.Proofs.PlainAst
import Verif.Proofs.Paragraphs
import Verif.Proofs.Markup
import Verif.Proofs.InferTree
import Verif.Proofs.Transform

/-!
# Plain text: the document that is built, inference, output
-/

set_option autoImplicit false

namespace Mty.Grammar
open Spec Build

/-! ## The lines of plain text -/

/-- Paragraphs from lines: closed ones, the open one, and the lines that follow. -/
def group : List Str → Option Str → List (Option Str) → List Str
  | cl, op, [] => cl ++ op.toList
  | cl, op, none :: L => group (cl ++ op.toList) none L
  | cl, none, some t :: L => group cl (some t) L
  | cl, some u, some t :: L => group cl (some (u ++ ' ' :: t)) L

theorem group_blank (cl : List Str) : ∀ (k : Nat) (L : List (Option Str)), group cl none (List.replicate k none ++ L) = group cl none L
  | 0, L => by simp
  | k + 1, L => by
    rw [List.replicate_succ, List.cons_append, group]
    simpa using group_blank cl k L

theorem group_close (cl : List Str) (t : Str) (k : Nat) (L : List (Option Str)) :
    group cl (some t) (List.replicate (k + 1) none ++ L) = group (cl ++ [t]) none L := by
  rw [List.replicate_succ, List.cons_append, group]
  simpa using group_blank _ k L

theorem group_end (cl : List Str) (t : Str) (k : Nat) : group cl (some t) (List.replicate k none) = cl ++ [t] := by
  cases k with
  | zero => simp [group]
  | succ k =>
    have := group_close cl t k []
    rw [List.append_nil] at this
    rw [this]
    simp [group]

/-- The line `s` of the source stands for `t`. -/
def Reads (a b : Option Str) : Prop :=
  match a, b with
  | none, none => True
  | some s, some t => LineText s t
  | _, _ => False

theorem reads_blank (k : Nat) : List.Forall₂ Reads (List.replicate k none) (List.replicate k none) := by
  induction k with
  | zero => exact .nil
  | succ k ih => exact .cons trivial ih

theorem paragraph_lines {s t : Str} (h : ParagraphText s t) : ∀ (r : Str) (L T : List (Option Str)), Tail r L → List.Forall₂ Reads L T →
    ∃ s0 t0 r' L' T', LineText s0 t0 ∧ ¬ BeginsWithFence s0 ∧ s ++ r = s0 ++ r' ∧ Tail r' L' ∧ List.Forall₂ Reads L' T' ∧
      (∀ cl X, group cl none (some t0 :: (T' ++ X)) = group cl (some t) (T ++ X)) ∧
      (∀ cl u X, group cl (some u) (some t0 :: (T' ++ X)) = group cl (some (u ++ ' ' :: t)) (T ++ X)) := by
  induction h with
  | @line s t h hf =>
    intro r L T hr hT
    exact ⟨s, t, r, L, T, h, hf, rfl, hr, hT, fun _ _ => rfl, fun _ _ _ => rfl⟩
  | @more s t a b s' t' h hf ha hb _ ih =>
    intro r L T hr hT
    obtain ⟨s0, t0, r', L', T', h1, h2, h3, h4, h5, h6, h7⟩ := ih r L T hr hT
    have hc : ∀ {x : Str}, Blanks x → x.count '\n' = 0 := fun hx => List.count_eq_zero.2 fun hm => (hx _ hm).2 rfl
    refine ⟨s, t, (a ++ '\n' :: b) ++ (s0 ++ r'), some s0 :: L', some t0 :: T', h, hf, ?_, ?_, .cons h1 h5, ?_, ?_⟩
    · rw [← h3]; simp
    · have := Tail.line (sep := a ++ '\n' :: b) 0 (fun c hc => by
        rcases List.mem_append.1 hc with h | h
        · exact (ha c h).1
        · rcases List.mem_cons.1 h with rfl | h
          · unfold White; decide
          · exact (hb c h).1) (by simp [List.count_append, List.count_cons, hc ha, hc hb]) (lexesLine h1) h2 h4
      simpa using this
    · intro cl X
      rw [group, List.cons_append, h7]
    · intro cl u X
      rw [group, List.cons_append, h7]
      simp

theorem paragraphs_lines {s : Str} {ts : List Str} (h : ParagraphsText s ts) (b : Str) (hb : ∀ c ∈ b, White c) :
    ∃ s0 t0 r' L' T', LineText s0 t0 ∧ ¬ BeginsWithFence s0 ∧ s ++ b = s0 ++ r' ∧ Tail r' L' ∧ List.Forall₂ Reads L' T' ∧
      (∀ cl j, group cl none (some t0 :: (T' ++ List.replicate j none)) = cl ++ ts) := by
  induction h with
  | @one s t h =>
    obtain ⟨s0, t0, r', L', T', h1, h2, h3, h4, h5, h6, -⟩ := paragraph_lines h b [] [] (.done hb) .nil
    refine ⟨s0, t0, r', L', T', h1, h2, h3, h4, h5, fun cl j => ?_⟩
    rw [h6, List.nil_append, group_end]
  | @more s t sep s' ts h hsep hk _ ih =>
    obtain ⟨s0, t0, r', L', T', h1, h2, h3, h4, h5, h6⟩ := ih
    obtain ⟨s1, t1, r1, L1, T1, g1, g2, g3, g4, g5, g6, -⟩ := paragraph_lines h (sep ++ (s0 ++ r'))
      (List.replicate (sep.count '\n' - 1) none ++ some s0 :: L') (List.replicate (sep.count '\n' - 1) none ++ some t0 :: T')
      (.line _ hsep (by omega) (lexesLine h1) h2 h4) (List.rel_append (reads_blank _) (.cons h1 h5))
    refine ⟨s1, t1, r1, L1, T1, g1, g2, ?_, g4, g5, fun cl j => ?_⟩
    · rw [← g3, ← h3]; simp
    · rw [g6]
      obtain ⟨k, hk'⟩ : ∃ k, sep.count '\n' - 1 = k + 1 := ⟨sep.count '\n' - 2, by omega⟩
      rw [hk', List.append_assoc, group_close, List.cons_append, h6]
      simp

variable {al : Char → Bool}

/-- The syntax tree of plain text: lines that are blank or one text, and that make up the paragraphs. -/
theorem plain_lines (hal : LettersAndDigits al) {src : Str} {ts : List Str} (h : PlainText src ts) {ast : Ast.Document} (hc : Conforms al src ast = true) :
    ∃ a ls e L T, ast.content = .mk a ls e ∧ List.Forall₂ (LineIs src) ls L ∧ List.Forall₂ Reads L T ∧ group [] none T = ts := by
  cases h with
  | @mk w s b ts hw h hb =>
    obtain ⟨s0, t0, r', L', T', h1, h2, h3, h4, h5, h6⟩ := paragraphs_lines h b hb
    obtain ⟨a, ls, e, i, j, g1, g2⟩ := lines_document hal (src := w ++ s ++ b) (w := w) (s := s0) (r := r') (by rw [← h3]; simp) hw (lexesLine h1) h2 h4 hc
    refine ⟨a, ls, e, _, List.replicate i none ++ some t0 :: (T' ++ List.replicate j none), g1, g2, ?_, ?_⟩
    · exact List.rel_append (reads_blank i) (.cons h1 (List.rel_append h5 (reads_blank j)))
    · rw [group_blank, h6]; simp

/-! ## Texts -/

theorem word_unescapes {s t : Str} (h : WordText s t) : Unescapes Accepted s t := by
  induction h with
  | nil => exact .nil
  | plain _ hc _ ih => exact .plain (fun h => hc (by simp [h])) ih
  | esc he _ ih => exact .esc (.inl he) ih

theorem blanks_unescapes {s : Str} (h : Blanks s) : Unescapes Accepted s s := by
  induction s with
  | nil => exact .nil
  | cons c s ih =>
    refine .plain ?_ (ih fun d hd => h d (by simp [hd]))
    rintro rfl
    have := (h '\\' (by simp)).1
    unfold White at this
    revert this; decide

theorem line_unescapes {s t : Str} (h : LineText s t) : Unescapes Accepted s t := by
  induction h with
  | word h _ => exact word_unescapes h
  | more h _ hb _ _ ih => exact unescapes_append (unescapes_append (word_unescapes h) (blanks_unescapes hb)) ih

theorem word_last {s t : Str} (h : WordText s t) : ∀ c, s.getLast? = some c → c ≠ ' ' ∧ c ≠ '\t' := by
  induction h with
  | nil => simp
  | @plain c s t hw hc _ ih =>
    intro d hd
    cases s with
    | nil =>
      simp at hd; subst hd
      constructor <;> rintro rfl <;> (unfold White at hw; revert hw; decide)
    | cons x s => exact ih d (by simpa using hd)
  | @esc e c s t he _ ih =>
    intro d hd
    cases s with
    | nil =>
      obtain ⟨x, h1, h2⟩ := accepted_last (e := e) (.inl he)
      rw [List.append_nil] at hd
      cases e with
      | nil => simp at h1
      | cons y e =>
        rw [List.getLast?_cons_cons, h1] at hd
        cases hd; exact h2
    | cons x s =>
      refine ih d ?_
      rw [show '\\' :: e ++ x :: s = ('\\' :: e) ++ (x :: s) from rfl, List.getLast?_append] at hd
      cases hl : (x :: s).getLast? with
      | none => simp at hl
      | some y => rw [hl] at hd; simpa using hd

theorem line_last {s t : Str} (h : LineText s t) : endsWithBlank s = false ∧ s ≠ [] := by
  have : s ≠ [] ∧ ∀ c, s.getLast? = some c → c ≠ ' ' ∧ c ≠ '\t' := by
    induction h with
    | word h hs => exact ⟨hs, word_last h⟩
    | @more s t sp s' t' h hs hb hsp _ ih =>
      refine ⟨by simp [hs], fun c hc => ih.2 c ?_⟩
      rw [List.getLast?_append] at hc
      cases hl : s'.getLast? with
      | none => exact absurd (List.getLast?_eq_none_iff.1 hl) ih.1
      | some x => rw [hl] at hc; simpa using hc
  refine ⟨?_, this.1⟩
  rw [Bool.eq_false_iff]
  intro hb
  obtain ⟨c, h1, h2⟩ := endsWithBlank_iff.1 hb
  have := this.2 c h2
  tauto

/-! ## Building -/

/-- The text of a line. -/
def segText (r : Range) : TextLike := .text ⟨.fromSource r, false, true, true, false⟩

/-- What a line of text is built to. -/
def TextLine (src : Str) (ns : List Node) (t : Str) : Prop :=
  ∃ sp r, ns = (Option.map exactSpace sp).toList ++ [.text r (segText r)] ∧ LineText (r.slice src) t

/-- The content of a paragraph and its text. -/
inductive Kids (src : Str) : List Node → Str → Prop
  | one {xs t} : TextLine src xs t → Kids src xs t
  | more {xs t ys u} (a b : Nat) : Kids src xs t → TextLine src ys u → Kids src (xs ++ lineEnd a b :: ys) (t ++ ' ' :: u)

/-- A paragraph. -/
def IsPara (src : Str) (n : Node) (t : Str) : Prop :=
  ∃ r h ch, n = .elem r h ch ∧ h.ty = .paragraph ∧ h.selectors = [] ∧ h.isRaw = false ∧ Kids src ch t

/-- The nodes built from the paragraphs `cl` and the open paragraph `op`. -/
inductive BuiltAs (src : Str) : List Node → List Str → Option Str → Prop
  | nil : BuiltAs src [] [] none
  | gap {ns cl op} (a b : Nat) : BuiltAs src ns cl op → BuiltAs src (ns ++ [paragraphEnd a b]) (cl ++ op.toList) none
  | para {ns cl n t} : BuiltAs src ns cl none → IsPara src n t → BuiltAs src (ns ++ [n]) cl (some t)

theorem buildLine_segment (src : Str) (sp : Option Range) (a b : Nat) (h : EscapesOk ((Range.mk a b).slice src)) :
    Logs (buildLine (lineFuel (prepNodes src [.mk sp a b (.text (.segment ⟨a, b⟩))])) (prepNodes src [.mk sp a b (.text (.segment ⟨a, b⟩))]))
      ((sp.map exactSpace).toList ++ [.text ⟨a, b⟩ (segText ⟨a, b⟩)], []) [] := by
  have h1 : Logs (buildTextNode src ⟨a, b⟩ true true false false) (.text ⟨a, b⟩ (segText ⟨a, b⟩)) [] := by
    obtain ⟨n, es, hl, rfl, he⟩ := buildTextNode_run src ⟨a, b⟩ true true false false
    rw [he.2 fun _ => h] at hl
    exact hl
  have h2 : Logs (validateLine ((sp.map exactSpace).toList ++ [.text ⟨a, b⟩ (segText ⟨a, b⟩)])) () [] := by
    cases sp <;> exact Logs.pure ()
  simp only [prepNodes, prepNode, prepType, lineFuel, List.length_singleton, buildLine, buildInlineText]
  refine Logs.bind (es := []) (a := ((sp.map exactSpace).toList ++ [.text ⟨a, b⟩ (segText ⟨a, b⟩)], [])) ?_ ?_
  · rw [extendLine]
    refine Logs.bind (es := []) h1 ?_
    exact Logs.pure _
  · exact Logs.bind (es := []) h2 (Logs.pure _)

theorem textLine_facts {src : Str} {ns : List Node} {t : Str} (h : TextLine src ns t) :
    (ns.find? Node.isVisible).isSome = true ∧ startsWithElement ns = false ∧ ns.isEmpty = false := by
  obtain ⟨sp, r, rfl, -⟩ := h
  cases sp <;> exact ⟨rfl, rfl, rfl⟩

theorem addLine_text {src : Str} {out line : List Node} {cl : List Str} {op : Option Str} {t : Str} (h : BuiltAs src out cl op)
    (hl : TextLine src line t) (r : Range) (e : Nat) :
    BuiltAs src (addLine out line r e true) cl (some (match op with | none => t | some u => u ++ ' ' :: t)) := by
  obtain ⟨h1, h2, h3⟩ := textLine_facts hl
  have hp : ∀ rg, IsPara src (Node.ofElem (EHead.new rg .paragraph) line) t := fun rg =>
    ⟨_, _, _, rfl, rfl, rfl, rfl, .one hl⟩
  have hnone : (∀ rg hd ch, out.getLast? ≠ some (.elem rg hd ch)) → addLine out line r e true =
      (if out.any Node.isVisible then out ++ [paragraphEnd e r.start] else out) ++ [Node.ofElem (EHead.new r .paragraph) line] := by
    intro hn
    have : appendToPrevious out line r e = (out, line) := by
      unfold appendToPrevious
      split
      · rename_i a b c hh; exact absurd hh (hn _ _ _)
      · rfl
    simp [addLine, h1, h2, h3, this]
  cases h with
  | nil =>
    rw [hnone (by simp)]
    exact .para (ns := []) .nil (hp r)
  | @gap ns cl op a b h =>
    rw [hnone (by simp [paragraphEnd])]
    split
    · have := BuiltAs.para (.gap e r.start (.gap a b h)) (hp r)
      simpa using this
    · exact .para (.gap a b h) (hp r)
  | @para ns cl n u h hn =>
    obtain ⟨rg, hd, ch, rfl, g1, g2, g3, g4⟩ := hn
    have : addLine (ns ++ [.elem rg hd ch]) line r e true = ns ++ [.elem { rg with stop := r.stop }
        { hd with range := { hd.range with stop := r.stop } } (ch ++ lineEnd e r.start :: line)] := by
      simp [addLine, h2, appendToPrevious, g1]
    rw [this]
    exact .para h ⟨_, _, _, rfl, g1, g2, g3, .more e r.start g4 hl⟩

/-- The state of `group` after the lines. -/
def groupState : List Str → Option Str → List (Option Str) → List Str × Option Str
  | cl, op, [] => (cl, op)
  | cl, op, none :: L => groupState (cl ++ op.toList) none L
  | cl, none, some t :: L => groupState cl (some t) L
  | cl, some u, some t :: L => groupState cl (some (u ++ ' ' :: t)) L

theorem group_state : ∀ (L : List (Option Str)) (cl : List Str) (op : Option Str),
    group cl op L = (groupState cl op L).1 ++ (groupState cl op L).2.toList
  | [], cl, op => by rw [group, groupState]
  | none :: L, cl, op => by rw [group, groupState, group_state L]
  | some t :: L, cl, none => by rw [group, groupState, group_state L]
  | some t :: L, cl, some u => by rw [group, groupState, group_state L]

theorem contentLoop_plain {src : Str} : ∀ {ls : List Ast.Line} {L T : List (Option Str)} (_ : List.Forall₂ (LineIs src) ls L)
    (_ : List.Forall₂ Reads L T) (out : List Node) (cl : List Str) (op : Option Str) (e : Nat) (_ : BuiltAs src out cl op),
    ∃ out', Logs (contentLoop true out e (prepLines src ls)) out' [] ∧ BuiltAs src out' (groupState cl op T).1 (groupState cl op T).2
  | _, _, _, .nil, .nil, out, cl, op, e, h => ⟨out, Logs.pure _, h⟩
  | .mk a ns b :: ls, o :: L, _, .cons h1 h2, .cons (b := o') (l₂ := T) h3 h4, out, cl, op, e, h => by
    cases o with
    | none =>
      cases o' with
      | some _ => exact h3.elim
      | none =>
        have h1 : ns = [] := h1
        subst h1
        obtain ⟨out', g1, g2⟩ := contentLoop_plain h2 h4 _ _ none b (BuiltAs.gap e b h)
        refine ⟨out', ?_, ?_⟩
        · simp only [prepLines, prepLine, prepNodes, contentLoop, List.isEmpty_nil, if_true]
          exact g1
        · cases op <;> exact g2
    | some s =>
      cases o' with
      | none => exact h3.elim
      | some t =>
        obtain ⟨sp, x, y, rfl, hs, -⟩ := h1
        have h3 : LineText s t := h3
        have hl : TextLine src ((sp.map exactSpace).toList ++ [.text ⟨x, y⟩ (segText ⟨x, y⟩)]) t := ⟨sp, ⟨x, y⟩, rfl, by rw [hs]; exact h3⟩
        obtain ⟨out', g1, g2⟩ := contentLoop_plain h2 h4 _ _ _ b (addLine_text h hl ⟨a, b⟩ e)
        refine ⟨out', ?_, ?_⟩
        · simp only [prepLines, prepLine, contentLoop]
          rw [if_neg (by simp [prepNodes])]
          exact Logs.bind (es := []) (buildLine_segment src sp x y ⟨t, by rw [hs]; exact line_unescapes h3⟩) g1
        · cases op <;> exact g2

/-- Plain text is built without errors to its paragraphs. -/
theorem plain_built (hal : LettersAndDigits al) {src : Str} {ts : List Str} (h : PlainText src ts) {ast : Ast.Document} (hc : Conforms al src ast = true) :
    ∃ doc cl op, Logs (fromAst src ast) doc [] ∧ BuiltAs src doc.nodes cl op ∧ cl ++ op.toList = ts := by
  obtain ⟨a, ls, e, L, T, h1, h2, h3, h4⟩ := plain_lines hal h hc
  obtain ⟨out, g1, g2⟩ := contentLoop_plain h2 h3 [] [] none a .nil
  refine ⟨⟨⟨0, byteLen src⟩, ⟨a, e⟩, out⟩, _, _, ?_, g2, by rw [← group_state]; exact h4⟩
  unfold fromAst
  rw [h1]
  exact Logs.bind (es := []) g1 (Logs.pure _)

/-! ## Trees -/

/-- The content of a paragraph as leaves. -/
inductive ParaLeaves (src : Str) : List TextLike → Str → Prop
  | one {sp r t} : (∀ x ∈ sp, ∃ s, x = .space s) → LineText (r.slice src) t → ParaLeaves src (sp ++ [segText r]) t
  | more {xs t sp r u} : ParaLeaves src xs t → (∀ x ∈ sp, ∃ s, x = .space s) → LineText (r.slice src) u →
      ParaLeaves src (xs ++ (.space .lineEnd :: sp ++ [segText r])) (t ++ ' ' :: u)

/-- The trees of the paragraphs, with the selector `p`. -/
inductive Trees (p : Option (Option Str × List SelectorItem)) (src : Str) : List Tree → List Str → Option Str → Prop
  | nil : Trees p src [] [] none
  | gap {ts cl op} : Trees p src ts cl op → Trees p src (ts ++ [.leaf (.space .paragraphEnd)]) (cl ++ op.toList) none
  | para {ts cl xs t} : Trees p src ts cl none → ParaLeaves src xs t →
      Trees p src (ts ++ [.elem (some .paragraph) false true p (xs.map .leaf)]) cl (some t)

theorem forestOf_append (src : Str) (a b : List Node) : forestOf src (a ++ b) = forestOf src a ++ forestOf src b := by
  simp [forestOf_eq]

theorem kids_leaves {src : Str} {ch : List Node} {t : Str} (h : Kids src ch t) :
    ∃ xs : List TextLike, forestOf src ch = xs.map .leaf ∧ ParaLeaves src xs t := by
  have sp_leaves : ∀ sp : Option Range, ∃ ys : List TextLike, forestOf src (sp.map exactSpace).toList = ys.map .leaf ∧
      ∀ x ∈ ys, ∃ s, x = .space s := by
    intro sp
    cases sp with
    | none => exact ⟨[], rfl, by simp⟩
    | some r => exact ⟨[.space (.inline (some (.fromSource r)))], rfl, by simp⟩
  induction h with
  | one h =>
    obtain ⟨sp, r, rfl, hl⟩ := h
    obtain ⟨ys, h1, h2⟩ := sp_leaves sp
    exact ⟨ys ++ [segText r], by rw [forestOf_append, h1]; simp [forestOf, treeOf], .one h2 hl⟩
  | more a b _ h ih =>
    obtain ⟨sp, r, rfl, hl⟩ := h
    obtain ⟨ys, h1, h2⟩ := sp_leaves sp
    obtain ⟨xs, h3, h4⟩ := ih
    refine ⟨xs ++ (.space .lineEnd :: ys ++ [segText r]), ?_, .more h4 h2 hl⟩
    rw [forestOf_append, h3, forestOf, forestOf_append, h1]
    simp [forestOf, treeOf, lineEnd]

theorem built_trees {src : Str} {ns : List Node} {cl : List Str} {op : Option Str} (h : BuiltAs src ns cl op) :
    Trees none src (forestOf src ns) cl op := by
  induction h with
  | nil => exact .nil
  | gap a b _ ih => rw [forestOf_append]; exact .gap ih
  | para _ hn ih =>
    obtain ⟨r, h, ch, rfl, h1, h2, h3, h4⟩ := hn
    obtain ⟨xs, h5, h6⟩ := kids_leaves h4
    rw [forestOf_append]
    have : forestOf src [.elem r h ch] = [.elem (some .paragraph) false true none (xs.map .leaf)] := by
      simp [forestOf, treeOf, h2, chainTree, h1, h3, h5, formOf, onOneLine]
    rw [this]
    exact .para ih h6

theorem specialNodes_eq (c : SpecialTagConfig) (ns : List Node) : specialNodes c ns = ns.map (specialNode c) := by
  induction ns with
  | nil => rfl
  | cons n ns ih => simp [specialNodes, ih]

theorem specialNodes_built {src : Str} (c : SpecialTagConfig) {ns : List Node} {cl : List Str} {op : Option Str} (h : BuiltAs src ns cl op) :
    specialNodes c ns = ns := by
  have hk : ∀ {ch : List Node} {t : Str}, Kids src ch t → specialNodes c ch = ch := by
    intro ch t h
    have hl : ∀ {ns : List Node} {t : Str}, TextLine src ns t → specialNodes c ns = ns := by
      rintro ns t ⟨sp, r, rfl, -⟩
      cases sp <;> rfl
    induction h with
    | one h => exact hl h
    | more a b _ h ih =>
      rw [specialNodes_eq, List.map_append, ← specialNodes_eq, ih, List.map_cons, ← specialNodes_eq, hl h]
      rfl
  induction h with
  | nil => rfl
  | gap a b _ ih =>
    rw [specialNodes_eq] at ih ⊢
    rw [List.map_append, ih]; rfl
  | para _ hn ih =>
    obtain ⟨r, h, ch, rfl, h1, h2, h3, h4⟩ := hn
    rw [specialNodes_eq] at ih ⊢
    rw [List.map_append, ih]
    simp [specialNode, hk h4, specialHead, h1]

/-- A paragraph with its name. -/
def asP : Tree → Tree
  | .leaf t => .leaf t
  | .elem f raw fmt _ ch => .elem f raw fmt (some (some "p".toList, [])) ch

theorem inferForest_leaves (c : Context) (p g : Option Str) : ∀ (fi : Bool) (xs : List TextLike),
    inferForest c p g fi (xs.map .leaf) = xs.map .leaf
  | _, [] => rfl
  | fi, x :: xs => by
    rw [List.map_cons, inferForest, inferTree, inferForest_leaves c p g false xs]

theorem trees_infer {src : Str} {ts : List Tree} {cl : List Str} {op : Option Str} (h : Trees none src ts cl op) :
    (∀ t ∈ ts, ∀ fi la, inferTree .section none none fi la t = asP t) ∧ Trees (some (some "p".toList, [])) src (ts.map asP) cl op := by
  induction h with
  | nil => exact ⟨by simp, .nil⟩
  | gap _ ih =>
    refine ⟨fun t ht fi la => ?_, ?_⟩
    · rcases List.mem_append.1 ht with h | h
      · exact ih.1 t h fi la
      · simp at h; subst h; rfl
    · rw [List.map_append]; exact .gap ih.2
  | para _ hx ih =>
    refine ⟨fun t ht fi la => ?_, ?_⟩
    · rcases List.mem_append.1 ht with h | h
      · exact ih.1 t h fi la
      · simp only [List.mem_singleton] at h
        subst h
        rw [inferTree, asP, inferForest_leaves]
        rfl
    · rw [List.map_append]; exact .para ih.2 hx

theorem inferForest_map (f : Tree → Tree) (c : Context) (p g : Option Str) : ∀ (ts : List Tree) (fi : Bool),
    (∀ t ∈ ts, ∀ fi la, inferTree c p g fi la t = f t) → inferForest c p g fi ts = ts.map f
  | [], _, _ => rfl
  | t :: ts, fi, h => by
    rw [inferForest, h t (by simp), inferForest_map f c p g ts false fun t ht => h t (by simp [ht])]
    rfl

/-! ## Output -/

/-- The effect of an action that succeeds. -/
def Emits (a : Act) (fs : Bool) (out : Str) (fs' : Bool) : Prop := a fs = ⟨out, fs', true⟩

theorem Emits.seq {a b : Act} {fs fs1 fs2 : Bool} {o1 o2 : Str} (h1 : Emits a fs o1 fs1) (h2 : Emits b fs1 o2 fs2) :
    Emits (Act.seq a b) fs (o1 ++ o2) fs2 := by
  unfold Emits at *
  simp [Act.seq, h1, h2]

theorem Emits.all {as bs : List Act} {fs fs1 fs2 : Bool} {o1 o2 : Str} (h1 : Emits (Act.all as) fs o1 fs1) (h2 : Emits (Act.all bs) fs1 o2 fs2) :
    Emits (Act.all (as ++ bs)) fs (o1 ++ o2) fs2 := by
  induction as generalizing fs o1 with
  | nil =>
    unfold Emits at h1
    simp [Act.all, Act.skip] at h1
    obtain ⟨rfl, rfl⟩ := h1
    exact h2
  | cons a as ih =>
    unfold Emits at h1 ih ⊢
    rw [Act.all] at h1
    rw [List.cons_append, Act.all]
    have ho : (Act.seq a (Act.all as) fs).ok = true := by rw [h1]
    rw [seq_ok] at ho
    rw [seq_out ho.1] at h1
    simp only [Emit.mk.injEq] at h1
    obtain ⟨h3, h4, h5⟩ := h1
    have := ih (fs := (a fs).fs) (o1 := (Act.all as (a fs).fs).out) (by rw [← h4, ← h5])
    have hs := seq_out (a := a) (b := Act.all (as ++ bs)) ho.1
    rw [hs, this, ← h3]
    simp

/-- Contexts in which paragraphs of plain text are written. -/
def PlainCx (cx : OutCx) (src : Str) : Prop := cx.src = src ∧ cx.isRaw = false ∧ cx.cfg.indent = none

theorem emits_text {src : Str} {cx : OutCx} (hc : PlainCx cx src) {r : Range} {t : Str} (h : LineText (r.slice src) t) (fs : Bool) :
    Emits (writeTextLike cx (segText r)) fs (escWriteStr cx.cfg.isXml false t) false := by
  obtain ⟨h1, h2⟩ := line_last h
  have hne : TextSlice.isEmpty (.fromSource r) = false := by
    rw [Bool.eq_false_iff]
    intro he
    exact h2 (slice_empty (src := src) he)
  have hu := line_unescapes h
  rw [← hc.1] at hu h1
  unfold Emits
  simp only [writeTextLike, segText, writeText, hne, Bool.false_eq_true, if_false]
  simp [textWriter, hc.2.1, TextSlice.asStr, Act.seq, Act.writeR, writeEscapeUnescape_ok hu, Act.setFs, h1]

theorem emits_spaces {cx : OutCx} : ∀ {sp : List TextLike}, (∀ x ∈ sp, ∃ s, x = .space s) →
    Emits (Act.all (sp.map (writeTextLike cx))) true [] true
  | [], _ => rfl
  | x :: sp, h => by
    obtain ⟨s, rfl⟩ := h x (by simp)
    exact Emits.seq (o1 := []) (o2 := []) rfl (emits_spaces fun y hy => h y (by simp [hy]))

/-- `is_space` of a leaf. -/
def leafSpace : TextLike → Bool
  | .space _ => true
  | _ => false

theorem leaves_drop (f : TextLike → Act) {a b : List TextLike} {x y : TextLike} {c : List TextLike} (ha : ∀ z ∈ a, leafSpace z = true)
    (hx : leafSpace x = false) (hy : leafSpace y = false) (h : b = x :: c) (hl : b.getLast? = some y) :
    contentActs ((a ++ b).map fun z => (leafSpace z, f z)) = Act.all (b.map f) := by
  have hd : ((a ++ b).map fun z => (leafSpace z, f z)).dropWhile (·.1) = b.map fun z => (leafSpace z, f z) := by
    rw [List.map_append, List.dropWhile_append_of_pos (by simpa using ha), h]
    simp [hx]
  obtain ⟨d, hd'⟩ := List.getLast?_eq_some_iff.1 hl
  rw [contentActs, hd]
  congr 1
  rw [hd', List.map_append, List.reverse_append]
  simp [hy]

theorem para_content {src : Str} {cx : OutCx} (hc : PlainCx cx src) (hf : cx.fmtInline = true) {xs : List TextLike} {t : Str} (h : ParaLeaves src xs t) :
    ∃ a b y r, xs = a ++ b ∧ (∀ z ∈ a, leafSpace z = true) ∧ (∃ c, b = segText r :: c) ∧ b.getLast? = some y ∧ leafSpace y = false ∧
      Emits (Act.all (b.map (writeTextLike cx))) false (escWriteStr cx.cfg.isXml false t) false := by
  induction h with
  | @one sp r t hsp hl =>
    refine ⟨sp, [segText r], segText r, r, rfl, ?_, ⟨[], rfl⟩, rfl, rfl, ?_⟩
    · intro z hz; obtain ⟨s, rfl⟩ := hsp z hz; rfl
    · have := Emits.seq (emits_text hc hl false) (b := Act.skip) (o2 := []) (fs2 := false) rfl
      rw [List.append_nil] at this
      exact this
  | @more xs t sp r u _ hsp hl ih =>
    obtain ⟨a, b, y, r', rfl, h1, ⟨c, rfl⟩, h3, h4, h5⟩ := ih
    refine ⟨a, segText r' :: c ++ (.space .lineEnd :: sp ++ [segText r]), segText r, r', by simp, h1, ⟨_, rfl⟩,
      List.getLast?_eq_some_iff.2 ⟨segText r' :: c ++ .space .lineEnd :: sp, by simp⟩, rfl, ?_⟩
    rw [List.map_append, show t ++ ' ' :: u = t ++ ([' '] ++ u) by simp, escWriteStr_append]
    refine h5.all ?_
    rw [escWriteStr_append, List.map_append, List.map_cons]
    have hsp' : escWriteStr cx.cfg.isXml false [' '] = [' '] := by cases cx.cfg.isXml <;> decide
    rw [hsp']
    have e1 : Emits (writeTextLike cx (.space .lineEnd)) false [' '] true := by
      unfold Emits
      simp [writeTextLike, space, hf, Act.seq, Act.write, Act.setFs]
    have e2 : Emits (Act.all [writeTextLike cx (segText r)]) true (escWriteStr cx.cfg.isXml false u) false := by
      have := Emits.seq (emits_text hc hl true) (b := Act.skip) (o2 := []) (fs2 := false) rfl
      rw [List.append_nil] at this
      exact this
    have e3 := Emits.all (as := writeTextLike cx (.space .lineEnd) :: sp.map (writeTextLike cx)) (Emits.seq e1 (emits_spaces (cx := cx) hsp)) e2
    rw [List.append_nil] at e3
    exact e3

theorem leaf_nodes {src : Str} : ∀ {ch : List Node} {xs : List TextLike}, forestOf src ch = xs.map .leaf → ∀ cx,
    nodeActs ch cx = xs.map fun z => (leafSpace z, writeTextLike cx z)
  | [], [], _, cx => rfl
  | [], x :: xs, h, cx => by simp [forestOf] at h
  | n :: ch, [], h, cx => by simp [forestOf] at h
  | n :: ch, x :: xs, h, cx => by
    rw [forestOf, List.map_cons, List.cons.injEq] at h
    obtain ⟨h1, h2⟩ := h
    cases n with
    | text r t =>
      rw [treeOf] at h1
      cases h1
      rw [nodeActs]; dsimp only; rw [leaf_nodes h2]
      cases x <;> rfl
    | elem r hd ch' =>
      rw [treeOf] at h1
      generalize hd.selectors = sel at h1
      rcases sel with _ | ⟨s, _ | ⟨s2, ss⟩⟩ <;> simp [chainTree] at h1

theorem para_node {src : Str} {n : Node} (hs : SingleSelectors n) {xs : List TextLike} {t : Str}
    (hn : treeOf src n = .elem (some .paragraph) false true (some (some "p".toList, [])) (xs.map .leaf)) (h : ParaLeaves src xs t)
    {cx : OutCx} (hc : PlainCx cx src) (fs : Bool) :
    Emits (processNode n cx) fs ("<p>".toList ++ escWriteStr cx.cfg.isXml false t ++ "</p>".toList) false := by
  cases hs with
  | text => rw [treeOf] at hn; cases hn
  | @elem r hd ch hlen _ =>
    rw [treeOf] at hn
    rcases hsel : hd.selectors with _ | ⟨s, _ | ⟨s2, ss⟩⟩
    · rw [hsel, chainTree] at hn; simp at hn
    · rw [hsel, chainTree] at hn
      simp only [Tree.elem.injEq, Option.some.injEq, selOf, Prod.mk.injEq, Option.map_eq_some_iff] at hn
      obtain ⟨h1, h2, h3, ⟨⟨nm, h4, h5⟩, h6⟩, h7⟩ := hn
      have hvt : validTags hd = [(nm, s)] := by simp [validTags, hsel, h4]
      have hne : ch.isEmpty = false := by
        cases ch with
        | cons => rfl
        | nil =>
          exfalso
          cases xs with
          | nil => generalize hx : ([] : List TextLike) = xs at h; cases h <;> simp at hx
          | cons => simp [forestOf] at h7
      have h5' : nm.asStr cx.src = "p".toList := by rw [hc.1]; exact h5
      have hinfo : getInfo cx.cfg "p".toList = ⟨false, false⟩ := by
        unfold getInfo
        cases cx.cfg.isXml <;> decide
      simp only [processNode]
      generalize hcx : (cx.inContent hd) = icx
      have hicx : PlainCx icx src ∧ icx.fmtInline = true ∧ icx.cfg = cx.cfg ∧ icx.src = cx.src := by
        subst hcx
        exact ⟨⟨hc.1, by simp [OutCx.inContent, hc.2.1, h2], hc.2.2⟩, h3, rfl, rfl⟩
      have hind : ∀ k, icx.indent k = icx := by intro k; simp [OutCx.indent, hicx.2.1]
      obtain ⟨a, b, y, r', rfl, g1, ⟨c, rfl⟩, g3, g4, g5⟩ := para_content hicx.1 hicx.2.1 h
      have hcont : contentActs (nodeActs ch icx) = Act.all ((segText r' :: c).map (writeTextLike icx)) := by
        rw [leaf_nodes h7]
        exact leaves_drop (writeTextLike icx) g1 rfl g4 rfl g3
      have hline : ∀ fs, Emits (line icx) fs [] fs := by
        intro fs; simp [Emits, line, hicx.2.1, Act.skip]
      have hopen : ∀ fs, Emits (writeOpenTag cx "p".toList s false) fs "<p>".toList false := by
        intro fs
        have e1 : s.id = none := by simp [Selector.id, h6]
        have e2 : s.classNames = [] := by simp [Selector.classNames, h6]
        have e3 : s.attributes = [] := by simp [Selector.attributes, h6]
        simp [Emits, writeOpenTag, e1, e2, e3, writeAttributes, Act.seq, Act.write, Act.skip, Act.setFs]
      have hclose : Emits (writeCloseTag "p".toList) false "</p>".toList false := rfl
      have e : elementAct cx hd ch.isEmpty (fun cx' => contentActs (nodeActs ch cx')) =
          Act.seq (Act.seq (writeOpenTag cx "p".toList s false) Act.skip)
            (Act.seq (Act.seq (Act.seq (line icx) (Act.all ((segText r' :: c).map (writeTextLike icx)))) (line icx))
              (Act.seq (writeCloseTag "p".toList) Act.skip)) := by
        simp only [elementAct, hvt, hne]
        rw [hcx]
        simp only [List.isEmpty_cons, Bool.false_eq_true, if_false, Bool.false_and, hind, hcont, Bool.not_false, if_true,
          writeOpenTags, List.isEmpty_nil, Bool.and_false, h5', List.reverse_singleton, List.drop_zero, writeCloseTags, hicx.2.2.1, hicx.2.2.2, hinfo]
        rfl
      rw [e]
      have hskip : ∀ fs, Emits Act.skip fs [] fs := fun _ => rfl
      have := ((hopen fs).seq (hskip _)).seq ((((hline _).seq g5).seq (hline _)).seq (hclose.seq (hskip _)))
      rw [hicx.2.2.1] at this
      simpa using this
    · rw [hsel] at hlen; simp at hlen

/-- The markup of paragraphs. -/
def paragraphsOut (xml : Bool) : List Str → Str
  | [] => []
  | [t] => "<p>".toList ++ escWriteStr xml false t ++ "</p>".toList
  | t :: ts => "<p>".toList ++ escWriteStr xml false t ++ "</p>".toList ++ ' ' :: paragraphsOut xml ts

theorem paragraphsOut_snoc (xml : Bool) (l : List Str) (t : Str) (h : l ≠ []) :
    paragraphsOut xml (l ++ [t]) = paragraphsOut xml l ++ ([' '] ++ ("<p>".toList ++ escWriteStr xml false t ++ "</p>".toList)) := by
  induction l with
  | nil => exact absurd rfl h
  | cons x l ih =>
    cases l with
    | nil => simp [paragraphsOut]
    | cons y l =>
      have := ih (by simp)
      simp only [List.cons_append, paragraphsOut] at this ⊢
      rw [this]
      simp

/-- A space between paragraphs. -/
def GapAct (x : Bool × Act) : Prop := x.1 = true ∧ ∀ fs, Emits x.2 fs (if fs then [] else [' ']) true

theorem emits_gaps : ∀ {l : List (Bool × Act)}, (∀ x ∈ l, GapAct x) → l ≠ [] → Emits (Act.all (l.map (·.2))) false [' '] true := by
  have hrest : ∀ {l : List (Bool × Act)}, (∀ x ∈ l, GapAct x) → Emits (Act.all (l.map (·.2))) true [] true := by
    intro l
    induction l with
    | nil => exact fun _ => rfl
    | cons x l ih =>
      intro h
      exact Emits.seq (o1 := []) (o2 := []) ((h x (by simp)).2 true) (ih fun y hy => h y (by simp [hy]))
  intro l h hl
  cases l with
  | nil => exact absurd rfl hl
  | cons x l =>
    exact Emits.seq (o1 := [' ']) (o2 := []) ((h x (by simp)).2 false) (hrest fun y hy => h y (by simp [hy]))

theorem trees_acts {src : Str} {cx : OutCx} (hc : PlainCx cx src) {ts : List Tree} {cl : List Str} {op : Option Str}
    (h : Trees (some (some "p".toList, [])) src ts cl op) : ∀ ns : List Node, (∀ n ∈ ns, SingleSelectors n) → ns.map (treeOf src) = ts →
    ∃ lead core trail, (nodeActs ns cx) = lead ++ core ++ trail ∧ (∀ x ∈ lead, GapAct x) ∧ (∀ x ∈ trail, GapAct x) ∧
      ((core = [] ∧ trail = [] ∧ cl = [] ∧ op = none) ∨
        ((∃ x c, core = x :: c ∧ x.1 = false) ∧ (∃ x c, core = c ++ [x] ∧ x.1 = false) ∧ (op = none → trail ≠ []) ∧ (op ≠ none → trail = []) ∧
          cl ++ op.toList ≠ [] ∧ Emits (Act.all (core.map (·.2))) true (paragraphsOut cx.cfg.isXml (cl ++ op.toList)) false)) := by
  have hgap : GapAct (true, writeTextLike cx (.space .paragraphEnd)) := by
    refine ⟨rfl, fun fs => ?_⟩
    cases fs
    · simp [Emits, writeTextLike, space, hc.2.2, Act.seq, Act.write, Act.setFs]
    · rfl
  induction h with
  | nil =>
    intro ns _ h
    simp at h; subst h
    exact ⟨[], [], [], rfl, by simp, by simp, .inl ⟨rfl, rfl, rfl, rfl⟩⟩
  | @gap ts cl op _ ih =>
    intro ns hs h
    obtain ⟨ns, l2, rfl, h1, h2⟩ := List.map_eq_append_iff.1 h
    obtain ⟨n, l3, rfl, h3, h4⟩ := List.map_eq_cons_iff.1 h2
    simp at h4; subst h4
    obtain ⟨lead, core, trail, g1, g2, g3, g4⟩ := ih ns (fun n hn => hs n (by simp [hn])) h1
    have hn : nodeActs [n] cx = [(true, writeTextLike cx (.space .paragraphEnd))] := by
      have := leaf_nodes (src := src) (ch := [n]) (xs := [.space .paragraphEnd]) (by simp [forestOf, h3]) cx
      exact this
    have happ : nodeActs (ns ++ [n]) cx = nodeActs ns cx ++ nodeActs [n] cx := by
      rw [nodeActs_eq, nodeActs_eq, nodeActs_eq, List.map_append]
    rw [happ, g1, hn]
    rcases g4 with ⟨rfl, rfl, rfl, rfl⟩ | ⟨k1, k2, k3, k4, k5, k6⟩
    · refine ⟨lead ++ [_], [], [], by simp; rfl, ?_, by simp, .inl ⟨rfl, rfl, rfl, rfl⟩⟩
      intro x hx
      rcases List.mem_append.1 hx with h | h
      · exact g2 x h
      · simp at h; subst h; exact hgap
    · refine ⟨lead, core, trail ++ [_], by simp; rfl, g2, ?_, .inr ⟨k1, k2, by simp, by simp, by simpa using k5, by simpa using k6⟩⟩
      intro x hx
      rcases List.mem_append.1 hx with h | h
      · exact g3 x h
      · simp at h; subst h; exact hgap
  | @para ts cl xs t _ hx ih =>
    intro ns hs h
    obtain ⟨ns, l2, rfl, h1, h2⟩ := List.map_eq_append_iff.1 h
    obtain ⟨n, l3, rfl, h3, h4⟩ := List.map_eq_cons_iff.1 h2
    simp at h4; subst h4
    obtain ⟨lead, core, trail, g1, g2, g3, g4⟩ := ih ns (fun n hn => hs n (by simp [hn])) h1
    have hp := fun fs => para_node (hs n (by simp)) h3 hx hc fs
    have hsp : n.isSpace = false := by
      cases n with
      | elem => rfl
      | text r t => rw [treeOf] at h3; cases h3
    have hn : nodeActs [n] cx = [(false, processNode n cx)] := by
      rw [nodeActs_eq]; simp [hsp]
    have happ : nodeActs (ns ++ [n]) cx = nodeActs ns cx ++ nodeActs [n] cx := by
      rw [nodeActs_eq, nodeActs_eq, nodeActs_eq, List.map_append]
    have h1 : ∀ fs, Emits (Act.all [processNode n cx]) fs ("<p>".toList ++ escWriteStr cx.cfg.isXml false t ++ "</p>".toList) false := by
      intro fs
      have := (hp fs).seq (b := Act.skip) (o2 := []) (fs2 := false) rfl
      rw [List.append_nil] at this
      exact this
    rw [happ, g1, hn]
    rcases g4 with ⟨rfl, rfl, rfl, -⟩ | ⟨⟨x, c, rfl, k1⟩, k2, k3, -, k5, k6⟩
    · exact ⟨lead, [(false, processNode n cx)], [], by simp, g2, by simp, .inr ⟨⟨_, [], rfl, rfl⟩, ⟨_, [], rfl, rfl⟩, by simp, by simp, by simp, h1 true⟩⟩
    · refine ⟨lead, x :: c ++ trail ++ [(false, processNode n cx)], [], by simp, g2, by simp,
        .inr ⟨⟨x, _, rfl, k1⟩, ⟨_, _, rfl, rfl⟩, by simp, by simp, by simp, ?_⟩⟩
      simp only [Option.toList_none, List.append_nil] at k5 k6
      rw [Option.toList_some, paragraphsOut_snoc _ _ _ k5, List.map_append, List.map_append, List.append_assoc]
      exact k6.all ((emits_gaps g3 (k3 rfl)).all (h1 true))

theorem drop_gaps {lead core trail : List (Bool × Act)} (h1 : ∀ x ∈ lead, GapAct x) (h2 : ∀ x ∈ trail, GapAct x)
    (h3 : ∃ x c, core = x :: c ∧ x.1 = false) (h4 : ∃ x c, core = c ++ [x] ∧ x.1 = false) :
    contentActs (lead ++ core ++ trail) = Act.all (core.map (·.2)) := by
  obtain ⟨x, c, rfl, hx⟩ := h3
  obtain ⟨y, d, hd, hy⟩ := h4
  rw [contentActs, List.append_assoc, List.dropWhile_append_of_pos (fun z hz => (h1 z hz).1), List.cons_append, List.dropWhile_cons]
  simp only [hx, Bool.false_eq_true, if_false]
  rw [← List.cons_append, List.reverse_append, List.dropWhile_append_of_pos (fun z hz => (h2 z (List.mem_reverse.1 hz)).1), hd]
  simp [hy]

/-- The output for paragraphs. -/
theorem plain_output {src : Str} {cfg : OutputConfig} (hi : cfg.indent = none) (hp : cfg.completePage.getD false = false) {doc : Document}
    {ts : List Tree} {cl : List Str} {op : Option Str} (h : Trees (some (some "p".toList, [])) src ts cl op)
    (hs : ∀ n ∈ doc.nodes, SingleSelectors n) (hf : forestOf src doc.nodes = ts) :
    outputHtmlTo src doc cfg = (paragraphsOut cfg.isXml (cl ++ op.toList), true) := by
  rw [forestOf_eq] at hf
  unfold outputHtmlTo
  simp only [hp, Bool.false_eq_true, if_false]
  generalize hcx : (OutCx.mk cfg src 0 false false) = cx
  have hc : PlainCx cx src := by subst hcx; exact ⟨rfl, rfl, hi⟩
  have hcfg : cx.cfg = cfg := by subst hcx; rfl
  have hline : ∀ fs, Emits (line cx) fs [] fs := by
    intro fs
    cases fs <;> simp [Emits, line, lineRaw, hc.2.2, Act.skip]
  have hskip : ∀ fs, Emits Act.skip fs [] fs := fun _ => rfl
  obtain ⟨lead, core, trail, g1, g2, g3, g4⟩ := trees_acts hc h doc.nodes hs hf
  have : ∃ fs, Emits (processContent doc.nodes cx) true (paragraphsOut cfg.isXml (cl ++ op.toList)) fs := by
    rw [processContent, g1]
    rcases g4 with ⟨rfl, rfl, rfl, rfl⟩ | ⟨k1, k2, k3, k4, k5, k6⟩
    · refine ⟨true, ?_⟩
      have : lead.dropWhile (·.1) = [] := by
        have := List.dropWhile_append_of_pos (p := (·.1)) (l₂ := []) fun (x : Bool × Act) hx => (g2 x hx).1
        simpa using this
      simp [contentActs, this, Emits, Act.all, Act.skip, paragraphsOut]
    · rw [drop_gaps g2 g3 k1 k2]
      rw [hcfg] at k6
      exact ⟨_, k6⟩
  obtain ⟨fs, h1⟩ := this
  have := (hskip true).seq (h1.seq (hline fs))
  unfold Emits at this
  rw [this]
  simp

end Mty.Grammar
