import Verif.Spec.Paragraphs
import Verif.Proofs.BuildOk
import Verif.Proofs.LineAll

/-! # Layout of lines (C13) -/

set_option autoImplicit false

namespace Mty
open Build Spec

/-- `contentLoop` on lines that have been built. -/
def foldLines (fp : Bool) : List Node → Nat → List SrcLine → List Node
  | out, _, [] => out
  | out, e, .blank stop :: ls => foldLines fp (out ++ [paragraphEnd e stop]) stop ls
  | out, e, .line a b l :: ls => foldLines fp (addLine out l ⟨a, b⟩ e fp) b ls

theorem find_visible {l : List Node} {n : Node} (h : l.find? Node.isVisible = some n) :
    ∃ pre post, l = pre ++ n :: post ∧ (∀ x ∈ pre, x.isVisible = false) ∧ n.isVisible = true := by
  obtain ⟨h1, as, bs, rfl, h2⟩ := List.find?_eq_some_iff_append.1 h
  exact ⟨as, bs, rfl, fun x hx => by simpa using h2 x hx, h1⟩

theorem startsWithElement_iff (l : List Node) :
    startsWithElement l = true ↔ StartsWithElement l := by
  constructor
  · intro h
    unfold startsWithElement at h
    split at h
    · rename_i n hn
      obtain ⟨pre, post, rfl, h2, h3⟩ := find_visible hn
      refine ⟨pre, n, post, rfl, h2, h3, ?_⟩
      cases n with
      | text r t => simp [Node.asElement] at h
      | elem r hd ch =>
        simp only [Node.asElement] at h
        simp only [isBlockLevel]
        split at h <;> simp_all
    · cases h
  · rintro ⟨pre, n, post, rfl, h2, h3, h4⟩
    have : (pre ++ n :: post).find? Node.isVisible = some n := by
      rw [List.find?_append, List.find?_eq_none.2 (fun x hx => by simp [h2 x hx])]
      simp [h3]
    unfold startsWithElement
    rw [this]
    cases n with
    | text r t => exact h4.elim
    | elem r hd ch =>
      simp only [isBlockLevel] at h4
      simp only [Node.asElement]
      split at h4 <;> simp_all

theorem appendToPrevious_not {out line : List Node} {r : Range} {e : Nat}
    (h : ∀ n, out.getLast? = some n → ¬ Continues n) :
    appendToPrevious out line r e = (out, line) := by
  unfold appendToPrevious
  split
  · rename_i rg hd ch heq
    have := h _ heq
    simp only [Continues] at this
    split <;> simp_all
  · rfl

theorem appendToPrevious_yes {o line : List Node} {rg r : Range} {hd : EHead} {ch : List Node} {e : Nat}
    (h : Continues (.elem rg hd ch)) :
    appendToPrevious (o ++ [.elem rg hd ch]) line r e =
      (o ++ [.elem { rg with stop := r.stop } { hd with range := { hd.range with stop := r.stop } }
        (ch ++ lineSep e r.start :: line)], []) := by
  unfold appendToPrevious
  simp only [Continues] at h
  simp only [List.getLast?_append, List.getLast?_singleton, Option.some_or, List.dropLast_concat]
  split <;> simp_all [lineEnd, lineSep]

theorem continues_visible {n : Node} (h : Continues n) : n.isVisible = true := by
  cases n with
  | text r t => exact h.elim
  | elem r hd ch => rfl

theorem continues_elem {n : Node} (h : Continues n) : ∃ r hd ch, n = .elem r hd ch := by
  cases n with
  | text r t => exact h.elim
  | elem r hd ch => exact ⟨_, _, _, rfl⟩

theorem any_false_iff (l : List Node) : l.find? Node.isVisible = none ↔ ∀ n ∈ l, n.isVisible = false := by
  simp [List.find?_eq_none]

theorem foldLines_layout (fp : Bool) : ∀ ls : List SrcLine,
    (∀ out e, (∀ n, out.getLast? = some n → ¬ Continues n) →
      ∃ x, foldLines fp out e ls = out ++ x ∧ Layout fp (out.any Node.isVisible) e ls x) ∧
    (∀ o n e, Continues n → ∃ run rest e' p x, ls = run ++ rest ∧ (∀ l ∈ run, l.isText) ∧
      EndsRun rest ∧ Joined e n run e' p ∧ Layout fp true e' rest x ∧
      foldLines fp (o ++ [n]) e ls = o ++ p :: x) := by
  intro ls
  induction ls with
  | nil =>
    refine ⟨fun out e h => ⟨[], by simp [foldLines], .nil⟩, fun o n e h => ?_⟩
    exact ⟨[], [], e, n, [], rfl, by simp, trivial, .nil, .nil, by simp [foldLines]⟩
  | cons l ls ih =>
    obtain ⟨ih1, ih2⟩ := ih
    have hblank : ∀ (out : List Node) (e stop : Nat), ∃ x, foldLines fp out e (.blank stop :: ls) = out ++ x ∧
        Layout fp (out.any Node.isVisible) e (.blank stop :: ls) x := by
      intro out e stop
      obtain ⟨x, h1, h2⟩ := ih1 (out ++ [paragraphEnd e stop]) stop (by
        intro n hn
        simp only [List.getLast?_append, List.getLast?_singleton, Option.some_or, Option.some.injEq] at hn
        subst hn
        simp [paragraphEnd, Continues])
      have hv : (out ++ [paragraphEnd e stop]).any Node.isVisible = out.any Node.isVisible := by
        simp [paragraphEnd, Node.isVisible]
      rw [hv] at h2
      exact ⟨paragraphSep e stop :: x, by rw [foldLines, h1]; simp [paragraphEnd, paragraphSep], .blank h2⟩
    -- a non-empty line that is not added to a previous node
    have hline : ∀ (out nodes : List Node) (e a b : Nat),
        (startsWithElement nodes = true ∨ ∀ n, out.getLast? = some n → ¬ Continues n) →
        ∃ x, foldLines fp out e (.line a b nodes :: ls) = out ++ x ∧
          Layout fp (out.any Node.isVisible) e (.line a b nodes :: ls) x := by
      intro out nodes e a b hor
      have hadd : addLine out nodes ⟨a, b⟩ e fp =
          if !nodes.isEmpty then
            if fp && !startsWithElement nodes && (nodes.find? Node.isVisible).isSome then
              out ++ (if out.any Node.isVisible then [paragraphSep e a] else []) ++
                [Node.ofElem (EHead.new ⟨a, b⟩ .paragraph) nodes]
            else out ++ (if out.any Node.isVisible then [paragraphSep e a] else []) ++ nodes
          else out := by
        have : (if !startsWithElement nodes then appendToPrevious out nodes ⟨a, b⟩ e else (out, nodes))
            = (out, nodes) := by
          rcases hor with h | h
          · simp [h]
          · rw [appendToPrevious_not h]; simp
        unfold addLine
        simp only [this]
        have hs : paragraphEnd e a = paragraphSep e a := rfl
        simp only [hs]
        split
        · split <;> split <;> simp
        · rfl
      cases hne : nodes.getLast? with
      | none =>
        have : nodes = [] := List.getLast?_eq_none_iff.1 hne
        subst this
        have hc : ∀ n, out.getLast? = some n → ¬ Continues n := by
          rcases hor with h | h
          · simp [startsWithElement] at h
          · exact h
        obtain ⟨x, h1, h2⟩ := ih1 out b hc
        exact ⟨x, by simp only [foldLines]; rw [hadd]; exact h1, .empty h2⟩
      | some last =>
        obtain ⟨init, rfl⟩ := List.getLast?_eq_some_iff.1 hne
        have hemp : (init ++ [last]).isEmpty = false := by simp
        rw [hemp] at hadd
        simp only [Bool.not_false, if_true] at hadd
        by_cases hp : (fp && !startsWithElement (init ++ [last]) &&
            ((init ++ [last]).find? Node.isVisible).isSome) = true
        · rw [if_pos hp] at hadd
          simp only [Bool.and_eq_true, Bool.not_eq_true'] at hp
          obtain ⟨⟨hfp, hst⟩, hvis⟩ := hp
          obtain ⟨run, rest, e', p, x, h1, h2, h3, h4, h5, h6⟩ :=
            ih2 (out ++ (if out.any Node.isVisible then [paragraphSep e a] else []))
              (Node.ofElem (EHead.new ⟨a, b⟩ .paragraph) (init ++ [last])) b (by simp [Node.ofElem, Continues, EHead.new])
          refine ⟨(if out.any Node.isVisible then [paragraphSep e a] else []) ++ p :: x, ?_, ?_⟩
          · simp only [foldLines]; rw [hadd, h6]; simp
          · subst h1
            refine Layout.paragraph hfp ?_ ?_ h2 h3 h4 h5
            · rw [← startsWithElement_iff]; simp [hst]
            · obtain ⟨n, hn⟩ := Option.isSome_iff_exists.1 hvis
              exact ⟨n, List.mem_of_find?_eq_some hn, List.find?_some hn⟩
        · rw [if_neg hp] at hadd
          have hcond : fp = true → StartsWithElement (init ++ [last]) ∨
              ∀ n ∈ init ++ [last], n.isVisible = false := by
            intro hfp
            simp only [hfp, Bool.true_and, Bool.and_eq_true, Bool.not_eq_true', not_and,
              Bool.not_eq_true, Option.isSome_eq_false_iff, Option.isNone_iff_eq_none] at hp
            by_cases hs : startsWithElement (init ++ [last]) = true
            · exact .inl ((startsWithElement_iff _).1 hs)
            · exact .inr ((any_false_iff _).1 (hp (by simpa using hs)))
          by_cases hc : Continues last
          · obtain ⟨run, rest, e', p, x, h1, h2, h3, h4, h5, h6⟩ :=
              ih2 (out ++ (if out.any Node.isVisible then [paragraphSep e a] else []) ++ init) last b hc
            refine ⟨(if out.any Node.isVisible then [paragraphSep e a] else []) ++ init ++ p :: x, ?_, ?_⟩
            · simp only [foldLines]; rw [hadd, ← List.append_assoc, h6]; simp
            · subst h1
              exact Layout.continued hcond hc h2 h3 h4 h5
          · obtain ⟨x, h1, h2⟩ := ih1 (out ++ (if out.any Node.isVisible then [paragraphSep e a] else []) ++
                (init ++ [last])) b (by
              intro n hn
              simp only [List.getLast?_append, List.getLast?_singleton, Option.some_or,
                Option.some.injEq] at hn
              subst hn
              exact hc)
            refine ⟨(if out.any Node.isVisible then [paragraphSep e a] else []) ++ init ++ last :: x, ?_, ?_⟩
            · simp only [foldLines]; rw [hadd, h1]; simp
            · refine Layout.other hcond hc ?_
              have : (out ++ (if out.any Node.isVisible then [paragraphSep e a] else []) ++
                (init ++ [last])).any Node.isVisible =
                  (out.any Node.isVisible || (init ++ [last]).any Node.isVisible) := by
                split <;> simp_all [List.any_append, paragraphSep, Node.isVisible]
              rw [this] at h2
              exact h2
    refine ⟨fun out e hc => ?_, fun o n e hc => ?_⟩
    · cases l with
      | blank stop => exact hblank out e stop
      | line a b nodes => exact hline out nodes e a b (.inr hc)
    · have hvis : (o ++ [n]).any Node.isVisible = true := by simp [continues_visible hc]
      have hstop : ∀ l : SrcLine, ¬ l.isText → (∃ x, foldLines fp (o ++ [n]) e (l :: ls) = (o ++ [n]) ++ x ∧
          Layout fp ((o ++ [n]).any Node.isVisible) e (l :: ls) x) →
          ∃ run rest e' p x, l :: ls = run ++ rest ∧ (∀ l ∈ run, l.isText) ∧
            EndsRun rest ∧ Joined e n run e' p ∧ Layout fp true e' rest x ∧
            foldLines fp (o ++ [n]) e (l :: ls) = o ++ p :: x := by
        rintro l hl ⟨x, h1, h2⟩
        rw [hvis] at h2
        exact ⟨[], l :: ls, e, n, x, rfl, by simp, hl, .nil, h2, by simpa using h1⟩
      cases l with
      | blank stop => exact hstop _ (by simp [SrcLine.isText]) (hblank _ e stop)
      | line a b nodes =>
        by_cases hs : startsWithElement nodes = true
        · exact hstop _ (by simp [SrcLine.isText, (startsWithElement_iff _).1 hs]) (hline _ nodes e a b (.inl hs))
        · obtain ⟨r, hd, ch, rfl⟩ := continues_elem hc
          have hadd : addLine (o ++ [.elem r hd ch]) nodes ⟨a, b⟩ e fp =
              o ++ [.elem { r with stop := b } { hd with range := { hd.range with stop := b } }
                (ch ++ lineSep e a :: nodes)] := by
            unfold addLine
            simp only [Bool.not_eq_true] at hs
            simp only [hs, Bool.not_false, if_true, appendToPrevious_yes hc]
            simp
          obtain ⟨run, rest, e', p, x, h1, h2, h3, h4, h5, h6⟩ :=
            ih2 o (.elem { r with stop := b } { hd with range := { hd.range with stop := b } }
                (ch ++ lineSep e a :: nodes)) b hc
          refine ⟨.line a b nodes :: run, rest, e', p, x, by simp [h1], ?_, h3, .cons h4, h5, ?_⟩
          · intro l hl
            rcases List.mem_cons.1 hl with rfl | hl
            · simp only [SrcLine.isText, ← startsWithElement_iff, hs]; simp
            · exact h2 l hl
          · simp only [foldLines]; rw [hadd, h6]

/-- The nodes that a line of syntax nodes is built to (`build_line`,
`/repo/mintyml/src/document/line.rs:348-357`). -/
def lineNodes (src : Str) (ns : List Ast.Node) : List Node :=
  match buildLine (lineFuel (prepNodes src ns)) (prepNodes src ns) { failFast := false } with
  | (some (nodes, _), _) => nodes
  | (none, _) => []

/-- A line of the source with its nodes. -/
def srcLine (src : Str) : Ast.Line → SrcLine
  | .mk _ [] b => .blank b
  | .mk a (n :: ns) b => .line a b (lineNodes src (n :: ns))

theorem contentLoop_fold (src : Str) (fp : Bool) : ∀ (ls : List Ast.Line) (out : List Node) (e : Nat),
    Run (contentLoop fp out e (prepLines src ls)) fun ns _ => ns = foldLines fp out e (ls.map (srcLine src))
  | [], out, e => by
    simp only [prepLines, contentLoop]
    exact Run.pure rfl
  | .mk a [] b :: ls, out, e => by
    simp only [prepLines, prepLine, prepNodes, contentLoop, List.isEmpty_nil, if_true]
    exact contentLoop_fold src fp ls _ _
  | .mk a (n :: ns) b :: ls, out, e => by
    simp only [prepLines, prepLine, contentLoop]
    rw [if_neg (by simp [prepNodes])]
    obtain ⟨x, es, hl, _⟩ := buildLine_run (fitNodes src (n :: ns))
    refine Run.bind' ⟨x, es, hl, ?_⟩
    have hx : lineNodes src (n :: ns) = x.1 := by
      unfold lineNodes; rw [hl.slow _ rfl]
    refine (contentLoop_fold src fp ls _ _).mono fun ns' es' h => ?_
    rw [h, List.map_cons, srcLine, foldLines, hx]

theorem buildContent_layout (src : Str) (fp : Bool) (a : Nat) (ls : List Ast.Line) :
    Run (buildContent a (prepLines src ls) fp) fun ns _ =>
      Layout fp false a (ls.map (srcLine src)) ns :=
  (contentLoop_fold src fp ls [] a).mono fun ns _ h => by
    obtain ⟨x, h3, h4⟩ := (foldLines_layout fp (ls.map (srcLine src))).1 [] a (by simp)
    rw [h, h3]; simpa using h4

theorem fromAst_layout (src : Str) (s e : Nat) (lines : List Ast.Line) :
    Run (fromAst src ⟨.mk s lines e⟩) fun doc _ => Layout true false s (lines.map (srcLine src)) doc.nodes := by
  unfold fromAst
  exact Run.bind' ((buildContent_layout src true s lines).mono fun ns es h => Run.pure' h)

/-! ## Where paragraphs occur -/

/-- What `addLine` does. -/
theorem addLine_cases (fp : Bool) (out line : List Node) (r : Range) (e : Nat) :
    (∃ o rg hd ch, out = o ++ [.elem rg hd ch] ∧ Continues (.elem rg hd ch) ∧
      addLine out line r e fp = o ++ [.elem { rg with stop := r.stop }
        { hd with range := { hd.range with stop := r.stop } } (ch ++ lineSep e r.start :: line)]) ∨
    addLine out line r e fp = out ∨
    (fp = true ∧ ∃ sep, (∀ n ∈ sep, n = paragraphSep e r.start) ∧
      addLine out line r e fp = out ++ sep ++ [Node.ofElem (EHead.new r .paragraph) line]) ∨
    ((fp = true → StartsWithElement line ∨ ∀ n ∈ line, n.isVisible = false) ∧
      ∃ sep, (∀ n ∈ sep, n = paragraphSep e r.start) ∧ addLine out line r e fp = out ++ sep ++ line) := by
  by_cases hcase : startsWithElement line = false ∧ ∃ n, out.getLast? = some n ∧ Continues n
  · obtain ⟨hs, n, hn, hc⟩ := hcase
    obtain ⟨o, rfl⟩ := List.getLast?_eq_some_iff.1 hn
    obtain ⟨rg, hd, ch, rfl⟩ := continues_elem hc
    refine .inl ⟨o, rg, hd, ch, rfl, hc, ?_⟩
    unfold addLine
    simp only [hs, Bool.not_false, if_true, appendToPrevious_yes hc]
    simp
  · have this : (if !startsWithElement line then appendToPrevious out line r e else (out, line))
        = (out, line) := by
      cases hs : startsWithElement line with
      | true => simp
      | false =>
        rw [appendToPrevious_not fun n hn hc => hcase ⟨hs, n, hn, hc⟩]; simp
    have hsep : ∀ b : Bool, ∀ n ∈ (if b then [paragraphSep e r.start] else []), n = paragraphSep e r.start := by
      intro b n hn
      cases b <;> simp at hn; exact hn
    unfold addLine
    simp only [this]
    have hs : paragraphEnd e r.start = paragraphSep e r.start := rfl
    simp only [hs]
    split
    · by_cases hp : (fp && !startsWithElement line && (line.find? Node.isVisible).isSome) = true
      · rw [if_pos hp]
        simp only [Bool.and_eq_true] at hp
        refine .inr (.inr (.inl ⟨hp.1.1, _, hsep (out.any Node.isVisible), ?_⟩))
        split <;> simp_all
      · rw [if_neg hp]
        refine .inr (.inr (.inr ⟨fun hfp => ?_, _, hsep (out.any Node.isVisible), ?_⟩))
        · simp only [hfp, Bool.true_and, Bool.and_eq_true, Bool.not_eq_true', not_and,
            Bool.not_eq_true, Option.isSome_eq_false_iff, Option.isNone_iff_eq_none] at hp
          by_cases hs : startsWithElement line = true
          · exact .inl ((startsWithElement_iff _).1 hs)
          · exact .inr ((any_false_iff _).1 (hp (by simpa using hs)))
        · split <;> simp_all
    · exact .inr (.inl rfl)

theorem divided_of_starts {line : List Node} (h : StartsWithElement line)
    (hv : OneOrInline (visKinds line)) : Divided line := by
  obtain ⟨pre, n, post, rfl, h2, h3, h4⟩ := h
  have hpre : pre.filter Node.isVisible = [] := by simpa [List.filter_eq_nil_iff] using h2
  have hel : Build.Node.isEl n = true := by
    cases n with
    | text r t => exact h4.elim
    | elem r hd ch =>
      simp only [isBlockLevel] at h4
      simp only [Build.Node.isEl, Node.itemType]
      split at h4 <;> simp_all
  have hk : visKinds (pre ++ n :: post) = true :: visKinds post := by
    simp [visKinds, hpre, h3, hel]
  rw [hk] at hv
  have hpost : visKinds post = [] := by
    rcases hv with hv | hv
    · have := hv true (by simp); cases this
    · simpa using hv
  have hpost' : ∀ c ∈ post, c.isVisible = false := by
    simpa [visKinds, List.filter_eq_nil_iff] using hpost
  intro c hc hvis
  rcases List.mem_append.1 hc with hc | hc
  · rw [h2 c hc] at hvis; cases hvis
  · rcases List.mem_cons.1 hc with rfl | hc
    · exact .inr h4
    · rw [hpost' c hc] at hvis; cases hvis

def paragraphInv (src : Str) (strict : Prop) : DocInv src where
  Q n := ParagraphsOk strict n ∧ ¬ isParagraph n
  QC fp ns := (∀ n ∈ ns, ParagraphsOk strict n) ∧ (fp = false → ∀ n ∈ ns, ¬ isParagraph n) ∧
    (strict → fp = true → Divided ns)
  G es := strict → es = []
  split h := ⟨fun s => (List.append_eq_nil_iff.1 (h s)).1, fun s => (List.append_eq_nil_iff.1 (h s)).2⟩
  line h ch c hty _ hch :=
    ⟨.elem (fun _ x hx => (hch x hx).2) (fun _ hh => by simp [HoldsParagraphs, hty] at hh)
      fun x hx => (hch x hx).1, by simp [Node.ofElem, isParagraph, hty]⟩
  lineBlock h ch c b hty _ hch :=
    ⟨.elem (fun _ => hch.2.1 rfl) (fun _ hh => by simp [HoldsParagraphs, hty] at hh) hch.1,
      by simp [Node.ofElem, isParagraph, hty]⟩
  block h ch b hty _ hch :=
    ⟨.elem (fun hn => by simp [HoldsParagraphs, hty] at hn) (fun s _ => hch.2.2 s rfl) hch.1,
      by simp [Node.ofElem, isParagraph, hty]⟩
  space r := ⟨.text, by simp [exactSpace, isParagraph]⟩
  nil fp := ⟨by simp, by simp, fun _ _ x hx => by simp at hx⟩
  blank fp out a b h := by
    refine ⟨fun n hn => ?_, fun hf n hn => ?_, fun s hf n hn hv => ?_⟩
    all_goals
      rcases List.mem_append.1 hn with hn | hn
      · first | exact h.1 n hn | exact h.2.1 hf n hn | exact h.2.2 s hf n hn hv
      · simp only [List.mem_singleton] at hn
        subst hn
        first | exact .text | (simp [paragraphEnd, Node.isVisible] at hv; done) | simp [paragraphEnd, isParagraph]
  addLine fp out line r e es hg hv ho hl := by
    have hsp : ∀ n, n = paragraphSep e r.start → ParagraphsOk strict n ∧ ¬ isParagraph n ∧ n.isVisible = false := by
      rintro n rfl; exact ⟨.text, by simp [paragraphSep, isParagraph], rfl⟩
    rcases addLine_cases fp out line r e with ⟨o, rg, hd, ch, rfl, hc, h⟩ | h | ⟨hfp, sep, hsep, h⟩ | ⟨hs, sep, hsep, h⟩
    · rw [h]
      have hlast := ho.1 _ (List.mem_append_right _ (List.mem_singleton.2 rfl))
      have hnot : ¬ HoldsParagraphs hd.ty := by
        simp only [Continues] at hc
        simp only [HoldsParagraphs]
        split at hc <;> simp_all
      refine ⟨fun n hn => ?_, fun hf n hn => ?_, fun s hf n hn hvis => ?_⟩
      · rcases List.mem_append.1 hn with hn | hn
        · exact ho.1 n (List.mem_append_left _ hn)
        · simp only [List.mem_singleton] at hn
          subst hn
          cases hlast with
          | elem k1 k2 k3 =>
            refine .elem (fun _ x hx => ?_) (fun _ hh => absurd hh hnot) fun x hx => ?_
            · rcases List.mem_append.1 hx with hx | hx
              · exact k1 hnot x hx
              · rcases List.mem_cons.1 hx with rfl | hx
                · simp [lineSep, isParagraph]
                · exact (hl x hx).2
            · rcases List.mem_append.1 hx with hx | hx
              · exact k3 x hx
              · rcases List.mem_cons.1 hx with rfl | hx
                · exact .text
                · exact (hl x hx).1
      · rcases List.mem_append.1 hn with hn | hn
        · exact ho.2.1 hf n (List.mem_append_left _ hn)
        · simp only [List.mem_singleton] at hn
          subst hn
          exact ho.2.1 hf (.elem rg hd ch) (List.mem_append_right _ (List.mem_singleton.2 rfl))
      · rcases List.mem_append.1 hn with hn | hn
        · exact ho.2.2 s hf n (List.mem_append_left _ hn) hvis
        · simp only [List.mem_singleton] at hn
          subst hn
          exact ho.2.2 s hf (.elem rg hd ch) (List.mem_append_right _ (List.mem_singleton.2 rfl)) rfl
    · rw [h]; exact ho
    · rw [h]
      subst hfp
      refine ⟨fun n hn => ?_, by simp, fun s hf n hn hvis => ?_⟩
      · simp only [List.mem_append, List.mem_singleton] at hn
        rcases hn with (hn | hn) | rfl
        · exact ho.1 n hn
        · exact (hsp n (hsep n hn)).1
        · exact .elem (fun _ x hx => (hl x hx).2) (fun _ hh => by simp [HoldsParagraphs, EHead.new] at hh)
            fun x hx => (hl x hx).1
      · simp only [List.mem_append, List.mem_singleton] at hn
        rcases hn with (hn | hn) | rfl
        · exact ho.2.2 s hf n hn hvis
        · rw [(hsp n (hsep n hn)).2.2] at hvis; cases hvis
        · exact .inl rfl
    · rw [h]
      refine ⟨fun n hn => ?_, fun hf n hn => ?_, fun s hf n hn hvis => ?_⟩
      · simp only [List.mem_append] at hn
        rcases hn with (hn | hn) | hn
        · exact ho.1 n hn
        · exact (hsp n (hsep n hn)).1
        · exact (hl n hn).1
      · simp only [List.mem_append] at hn
        rcases hn with (hn | hn) | hn
        · exact ho.2.1 hf n hn
        · exact (hsp n (hsep n hn)).2.1
        · exact (hl n hn).2
      · simp only [List.mem_append] at hn
        rcases hn with (hn | hn) | hn
        · exact ho.2.2 s hf n hn hvis
        · rw [(hsp n (hsep n hn)).2.2] at hvis; cases hvis
        · rcases hs hf with hs | hs
          · exact divided_of_starts hs (hv (hg s)) n hn hvis
          · rw [hs n hn] at hvis; cases hvis
  text r t _ _ _ := ⟨.text, by simp [isParagraph]⟩
  comment r t := ⟨.text, by simp [isParagraph]⟩
  multiline h r t k _ _ _ hty _ _ :=
    ⟨.elem (by simp [isParagraph]) (fun _ hh => by simp [HoldsParagraphs, hty] at hh)
      (by simp only [List.mem_singleton, forall_eq]; exact .text), by simp [Node.ofElem, isParagraph, hty]⟩
  code h r t _ _ _ hty _ _ :=
    ⟨.elem (by simp [isParagraph]) (fun _ hh => by simp [HoldsParagraphs, hty] at hh)
      (by simp only [List.mem_singleton, forall_eq]; exact .text), by simp [Node.ofElem, isParagraph, hty]⟩
  special h ch k hty _ _ hch :=
    ⟨.elem (fun _ => hch.2.1 rfl) (fun _ hh => by simp [HoldsParagraphs, hty] at hh) hch.1,
      by simp [Node.ofElem, isParagraph, hty]⟩
  inline h ch hty _ hch :=
    ⟨.elem (fun _ x hx => (hch x hx).2) (fun _ hh => by simp [HoldsParagraphs, hty] at hh)
      fun x hx => (hch x hx).1, by simp [Node.ofElem, isParagraph, hty]⟩
  inlineFirst r r' h ch d hty hq := by
    have hiff : HoldsParagraphs (.inline (some d)) ↔ HoldsParagraphs h.ty := by
      rw [hty]; cases d <;> simp [HoldsParagraphs]
    cases hq.1 with
    | elem k1 k2 k3 =>
      exact ⟨.elem (fun hn => k1 (hiff.not.1 hn)) (fun s hh => k2 s (hiff.1 hh)) k3, by simp [isParagraph]⟩

end Mty
