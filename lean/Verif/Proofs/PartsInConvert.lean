import Verif.Proofs.PartsIn
import Verif.Proofs.Page

/-! # The conversion of a text in a block (for C79) -/

set_option autoImplicit false

namespace Mty
open Spec Build

theorem trimSpaces_right {a b : List (Bool × List OutItem)} (h : ∀ x ∈ b, x.1 = true) : trimSpaces (a ++ b) = trimSpaces a := by
  have all : ∀ {a b : List (Bool × List OutItem)}, (∀ x ∈ a, x.1 = true) → (a ++ b).dropWhile (·.1) = b.dropWhile (·.1) :=
    fun h => List.dropWhile_append_of_pos h
  unfold trimSpaces
  by_cases ha : ∀ x ∈ a, x.1 = true
  · rw [all ha]
    have h1 : a.dropWhile (fun x => x.1) = [] := by have := all (b := []) ha; simpa using this
    have h2 : b.dropWhile (fun x => x.1) = [] := by have := all (b := []) h; simpa using this
    rw [h1, h2]
  · have : (a ++ b).dropWhile (fun x => x.1) = a.dropWhile (fun x => x.1) ++ b := by
      clear h
      induction a with
      | nil => simp at ha
      | cons x a ih =>
        rw [List.cons_append, List.dropWhile_cons, List.dropWhile_cons]
        cases hx : x.1 with
        | false => simp
        | true =>
          simp only [if_true]
          exact ih fun h => ha fun y hy => by
            rcases List.mem_cons.1 hy with rfl | hy
            · exact hx
            · exact h y hy
    rw [this, List.reverse_append, all fun x hx => h x (List.mem_reverse.1 hx)]

namespace Parts
open Same

/-- The start tag of an element. -/
def opened (xml : Bool) (name : Str) (ps : List Spec.Part) : Str :=
  '<' :: name ++ ((tagAttributes xml ps).map (attrText xml)).flatten ++ ['>']

/-- The end tag of an element. -/
def closed (name : Str) : Str := '<' :: '/' :: name ++ ['>']

/-- What a line with a selector and a block stands for. -/
theorem in_structure {S : Str} {a x y i j i' j' st en : Nat} {sp : Option Range} {l : Range} {cl : Option Range} {lines : List Ast.Line} {sel : Ast.Selector}
    {nodes : List Node}
    (h : ContentIs S true a [.mk x [.mk none i j (.selector sel), .mk sp i' j' (.block l (.mk st lines en) cl)] y] nodes) :
    ∃ t r c kids, SelectorIs S sel t ∧ ContentIs S true st lines kids ∧ nodes = [element [t] (.standard (.block r)) r c kids] := by
  cases h with
  | mk hl hlay =>
    cases hl with
    | line hl hrest =>
      cases hrest
      cases hl with
      | item h1 => exact absurd h1 id
      | selector h1 h2 h3 =>
        cases h2 with
        | block h2 =>
          cases h3
          refine ⟨_, ⟨i, j'⟩, ⟨st, en⟩, _, h1, h2, ?_⟩
          simp only [spaceBefore, List.nil_append, List.append_nil] at hlay
          generalize hel : element _ _ _ _ _ = el at hlay ⊢
          have hb : isBlockLevel el := by rw [← hel]; exact trivial
          have hv : el.isVisible = true := by rw [← hel]; rfl
          have hc : ¬ Continues el := by rw [← hel]; exact id
          generalize hg : [SrcLine.line x y [el]] = g at hlay
          cases hlay with
          | nil => cases hg
          | blank => cases hg
          | empty => cases hg
          | paragraph hp hs =>
            rw [List.cons_append] at hg
            injection hg with hg _
            injection hg with _ _ hg
            subst hg
            exact absurd ⟨[], el, [], rfl, by simp, hv, hb⟩ hs
          | continued hn hc' ht hend hj hk =>
            rw [List.cons_append] at hg
            injection hg with hg _
            injection hg with _ _ hg
            have hlast := congrArg List.getLast? hg
            simp only [List.getLast?_append, List.getLast?_singleton, Option.some_or, Option.some.injEq] at hlast
            rw [← hlast] at hc'
            exact absurd hc' hc
          | other hn hc' hk =>
            injection hg with hg hg'
            injection hg with _ _ hg
            subst hg'
            cases hk
            simp only [Bool.false_eq_true, if_false, List.nil_append]
            rw [← hg]

/-- Whether a line with a selector and a block has syntax errors. -/
theorem in_wellFormed {S : Str} {a b x y i j i' j' st en : Nat} {sp : Option Range} {l cl : Range} {lines : List Ast.Line} {sel : Ast.Selector}
    (hs : SelectorOk sel) :
    WellFormed S ⟨.mk a [.mk x [.mk none i j (.selector sel), .mk sp i' j' (.block l (.mk st lines en) (some cl))] y] b⟩ ↔ LinesOk S lines := by
  simp only [WellFormed, LinesOk, itemsOf, itemOf, and_true, shapeOf]
  constructor
  · rintro ⟨ig, v, h, -⟩
    have hblock : ∀ {o : Outcome} {st : ChainState} {i : Item} {tl : List Item}, Chain st (i :: tl) o → st = .selector → i.shape = .block → i.ok := by
      intro o st i tl h hst hi
      cases h with
      | selectorComment h1 => rw [hi] at h1; cases h1
      | selectorArrow h1 => rw [hi] at h1; cases h1
      | selectorBlock _ h2 => exact h2
      | arrowSelector => cases hst
      | arrowArrow => cases hst
      | arrowBlock => cases hst
      | arrowLine => cases hst
    have hsel : ∀ {i k : Item} {v : List Bool} {r : List Item}, Items [i, k] v r → i.shape = .selector → k.shape = .block → k.ok := by
      intro i k v r h hi hk
      cases h with
      | comment h1 => rw [hi] at h1; cases h1
      | inl h1 => rw [hi] at h1; cases h1
      | multiline h1 => rw [hi] at h1; cases h1
      | block h1 => rw [hi] at h1; cases h1
      | arrow h1 => rw [hi] at h1; cases h1
      | arrowDangling h1 => rw [hi] at h1; cases h1
      | selector _ _ h3 => exact hblock h3 rfl hk
      | selectorDangling _ _ h3 => exact hblock h3 rfl hk
    have := hsel h rfl rfl
    rw [TypeOk] at this
    exact this.2
  · intro h
    exact ⟨[], [true], .selector rfl (by rw [TypeOk]; exact hs) (.selectorBlock rfl (by rw [TypeOk]; exact ⟨rfl, h⟩)) .nil, .inr rfl⟩

/-- The content of a block with a blank line at the end. -/
theorem content_blank {c : SpecialTagConfig} {s1 s : Str} {a a1 u v : Nat} {L1 A : List Ast.Line}
    {nodes nodes1 : List Node} (h1 : ContentIs s1 true a1 L1 nodes1) (h : ContentIs s true a (A ++ [.mk u [] v]) nodes)
    (hA : SameLines c s1 s L1 A) : ∃ X z Z, nodes = X ++ z :: Z ∧ Seps (z :: Z) ∧ SimsA c s1 s nodes1 X := by
  cases h with
  | mk hl hlay =>
    obtain ⟨l1, l2, rfl, k1, k2⟩ := linesAre_append hl
    cases k2 with
    | blank k2 =>
      cases k2
      obtain ⟨o1, e', b, o2, rfl, j1, j2⟩ := layout_parts hlay l1 rfl
      refine ⟨o1, paragraphSep e' v, o2, rfl, fun n hn => ?_, content_sim h1 hA (.mk k1 j1)⟩
      rcases List.mem_cons.1 hn with rfl | hn
      · exact ⟨_, rfl⟩
      · exact layout_blanks j2 (by simp) n hn

/-- The only element of a document. -/
theorem only_elem {src : Str} {nodes : List Node} {f : Option Form} {raw fmt : Bool} {n : Option Str} {items : List SelectorItem} {ts : List Tree}
    (hs : ∀ n ∈ nodes, SingleSelectors n) (h : forestOf src nodes = [.elem f raw fmt (some (n, items)) ts]) :
    ∃ r h ch, nodes = [.elem r h ch] ∧ forestOf src ch = ts ∧ ∀ c ∈ ch, SingleSelectors c := by
  rcases nodes with _ | ⟨n, _ | ⟨m, ns⟩⟩
  · cases h
  · cases n with
    | text => simp [forestOf, treeOf] at h
    | elem r hd ch =>
      refine ⟨r, hd, ch, rfl, ?_, ?_⟩
      · cases hs _ (List.mem_cons_self ..) with
        | elem hl hc =>
          rw [forestOf, forestOf, treeOf] at h
          rcases hsel : hd.selectors with _ | ⟨x, _ | ⟨y, l⟩⟩
          · rw [hsel, chainTree] at h
            simp at h
          · rw [hsel, chainTree] at h
            simp at h
            exact h.2.2.2.2
          · rw [hsel] at hl
            simp at hl
      · cases hs _ (List.mem_cons_self ..) with
        | elem hl hc => exact hc
  · simp [forestOf] at h

/-- The items of an element that has something in it. -/
theorem elem_items {xml : Bool} {l : Margin} {f : Option Form} {fmt : Bool} {name : Str} {items : List SelectorItem} {t : Tree} {ts us : List Tree}
    (hv : voidName xml name = false) (hu : ∀ w ∈ t :: us, treeSpace w = true) :
    trimSpaces (forestItems xml false l [.elem f false fmt (some (some name, items)) (ts ++ t :: us)]) =
      .start name items false :: .gap (l.inside fmt name) none :: (trimSpaces (forestItems xml false (l.inside fmt name) ts) ++
        [.gap ⟨fmt, l.depth⟩ none, .stop name]) := by
  have hsp : ∀ (l : Margin) (w : List Tree), (∀ t ∈ w, treeSpace t = true) → ∀ x ∈ forestItems xml false l w, x.1 = true := by
    intro l w hu
    induction w with
    | nil => intro x hx; simp [forestItems] at hx
    | cons t w ih =>
      intro x hx
      rw [forestItems] at hx
      rcases List.mem_cons.1 hx with rfl | hx
      · exact hu _ (List.mem_cons_self ..)
      · exact ih (fun t ht => hu t (List.mem_cons_of_mem _ ht)) x hx
  rw [forestItems, forestItems, show treeSpace (.elem f false fmt (some (some name, items)) (ts ++ t :: us)) = false from rfl, trimSpaces_one,
    treeItems.eq_def]
  dsimp only
  have he : (ts ++ t :: us).isEmpty = false := by cases ts <;> rfl
  rw [hv, he, forestItems_append, Bool.false_or, trimSpaces_right (hsp _ _ hu)]
  simp

/-- The conversion of a text in a block. -/
theorem in_convert {p1 p : Parser} {s1 s : Str} {a a1 b b1 x y i j i' j' st en u v : Nat} {sp : Option Range} {l cl : Range} {L1 A : List Ast.Line}
    {sel : Ast.Selector} {n : Option Str} {ps : List Spec.Part} {name : Str} {cfg : OutputConfig} {alnum : Char → Bool}
    (h1 : p1 s1 = .ok ⟨.mk a1 L1 b1⟩)
    (h : p s = .ok ⟨.mk a [.mk x [.mk none i j (.selector sel), .mk sp i' j' (.block l (.mk st (A ++ [.mk u [] v]) en) (some cl))] y] b⟩)
    (g1 : Grammar.Conforms alnum s1 ⟨.mk a1 L1 b1⟩ = true)
    (g : Grammar.Conforms alnum s ⟨.mk a [.mk x [.mk none i j (.selector sel), .mk sp i' j' (.block l (.mk st (A ++ [.mk u [] v]) en) (some cl))] y] b⟩ = true)
    (hA : SameLines cfg.specialTags s1 s L1 A) (hsel : Write.SelSem cfg.isXml s sel n ps) (hname : n.getD "div".toList = name)
    (hctx : contextInside (some name) (some .block) = .section) (hv : voidName cfg.isXml name = false)
    (hi : cfg.indent = none) (hm : cfg.metadata = none) (hc : cfg.completePage.getD false = false) (hl : cfg.lang = none)
    (hst : ∀ k, specialTagName cfg.specialTags k ≠ []) :
    (∃ r : Option Str, (convert p1 s1 cfg = match r with | some o => .ok o | none => .error .unknown) ∧
      (convert p s cfg = match r with | some o => .ok (opened cfg.isXml name ps ++ o ++ closed name) | none => .error .unknown)) ∨
    (∃ es es', convert p1 s1 cfg = .error (.syntax es s1) ∧ convert p s cfg = .error (.syntax es' s)) := by
  obtain ⟨doc1, es1, l1, w1⟩ := build_cases s1 ⟨.mk a1 L1 b1⟩
  obtain ⟨doc, es, l2, w⟩ := build_cases s ⟨.mk a [.mk x [.mk none i j (.selector sel), .mk sp i' j' (.block l (.mk st (A ++ [.mk u [] v]) en) (some cl))] y] b⟩
  have hw : es = [] ↔ es1 = [] := by
    have e1 := lines_ok hA
    rw [show (es = [] ↔ _) from w, in_wellFormed hsel.ok, linesOk_append, ← e1, show (es1 = [] ↔ _) from w1]
    simp only [WellFormed, LinesOk, itemsOf, lineOk_nil, and_true]
  by_cases hn : es = []
  · have hn1 := hw.1 hn
    subst hn hn1
    left
    have f1 := l1.fastOk rfl (Errors.new cfg)
    have f := l2.fastOk rfl (Errors.new cfg)
    rw [convert_ok h1 l1, convert_ok h l2]
    have ht : ∀ s (doc : Document), toInfer cfg s doc = specialNodes cfg.specialTags doc.nodes := by
      intro s doc
      unfold toInfer
      rw [hc]
      rfl
    have hx : (decide (cfg.xml = some true)) = cfg.isXml := by rw [OutputConfig.isXml, Bool.eq_iff_iff]; simp
    obtain ⟨t, r, c, kids, k1, k2, k3⟩ := in_structure (C55_structure _ _ _ _ _ _ f)
    obtain ⟨X, z, Z, rfl, z1, j1⟩ := content_blank (C55_structure _ _ _ _ _ _ f1) k2 hA
    obtain ⟨hsem, hattrs⟩ := hsel.means t k1
    -- the trees
    have d1 := C20_document cfg f1 hm hl
    have d := C20_document cfg f hm hl
    rw [ht] at d1 d
    have hdiv : Divided X := by
      have := (C13_no_loose_text s _ _ _ doc f rfl).2
      rw [k3] at this
      cases this _ (List.mem_cons_self ..) with
      | elem _ h2 _ =>
        intro n hn
        exact h2 trivial trivial n (List.mem_append_left _ hn)
    have htop := top_trees (src := s) hdiv hst
    have hnt : some name ≠ some "thead".toList := by
      intro e
      injection e with e
      rw [e] at hctx
      revert hctx
      decide
    have hplace := inferForest_place (forestOf s (specialNodes cfg.specialTags X)) .section none none (some name) none true
      ⟨fun e => (by cases e), fun e => absurd e hnt⟩ Iff.rfl
    have t1 := infers_sim (forest_sim (specials_sim j1)) .section none none true
    rw [← d1] at t1
    have hd : forestOf s (transformDocument doc s cfg).nodes =
        [.elem (some .block) false false (some (some name, t.items))
          (inferForest .section none none true (forestOf s (specialNodes cfg.specialTags X)) ++ forestOf s (z :: Z))] := by
      rw [d, k3, hplace]
      have e1 : forestOf s (specialNodes cfg.specialTags [element [t] (.standard (.block r)) r c (X ++ z :: Z)]) =
          [.elem (some .block) false false (some (n, t.items)) (forestOf s (specialNodes cfg.specialTags X) ++ forestOf s (z :: Z))] := by
        rw [← forestOf_append, ← special_seps cfg.specialTags z1, ← specialNodes_append, special_seps cfg.specialTags z1, ← hsem]
        rfl
      have e2 : namedSel .section (some .block) true true false (some (n, t.items)) = some (some name, t.items) := by
        cases n with
        | none => rw [← hname]; rfl
        | some n => rw [← hname]; rfl
      rw [e1, inferForest, inferForest, inferTree]
      rw [show (decide ((none : Option Str) = some "thead".toList)) = false from rfl]
      rw [show ([] : List Tree).isEmpty = true from rfl, e2]
      rw [Option.bind_some]
      rw [hctx, inferForest_append, sepTrees z1]
      rfl
    have q1 := C17_single cfg f1
    have q := C17_single cfg f
    have hg1 := written_good (C12_grammar_positions _ _ _ g1) f1 hm
    have hg := written_good (C12_grammar_positions _ _ _ g) f hm
    obtain ⟨r', h', ch, e1, e2, e3⟩ := only_elem q hd
    obtain ⟨X', Z', rfl, e5, e6⟩ := forest_split e2
    rw [← e5] at t1
    have hgX : ∀ x ∈ nodesTexts X', Good s x := by
      refine good_left (b := Z') fun x hx => hg x ?_
      rw [e1, nodesTexts, nodesTexts, nodeTexts, List.append_nil]
      exact hx
    have qX : ∀ n ∈ X', SingleSelectors n := fun n hn => e3 n (List.mem_append_left _ hn)
    have o1 := acts_same t1 rfl rfl q1 qX hg1 hgX ⟨cfg, s1, 0, false, false⟩
    -- the text alone, as a part of the other source
    obtain ⟨D, hD⟩ : ∃ D : Document, D.nodes = X' := ⟨⟨r, r, X'⟩, rfl⟩
    have hout : outputHtmlTo s1 (transformDocument doc1 s1 cfg) cfg = outputHtmlTo s D cfg := by
      rw [output_of hc, output_of hc, hD]
      simp only [withSrc] at o1
      rw [o1]
      rfl
    rw [hout]
    have i1 : documentItems cfg s D = trimSpaces (forestItems cfg.isXml false ⟨false, 0⟩ (forestOf s X')) ++ [.gap ⟨false, 0⟩ none] := by
      rw [documentItems, hD, contentItems_forest _ _ _ _ _ qX, hx, hc]; rfl
    have i2 : documentItems cfg s (transformDocument doc s cfg) = .start name t.items false :: .gap (Margin.inside ⟨false, 0⟩ false name) none ::
        (trimSpaces (forestItems cfg.isXml false (Margin.inside ⟨false, 0⟩ false name) (forestOf s X')) ++
        [.gap ⟨false, 0⟩ none, .stop name]) ++ [.gap ⟨false, 0⟩ none] := by
      rw [documentItems, contentItems_forest _ _ _ _ _ q, hx, hc, hd, e5, forestOf, elem_items hv]
      · rfl
      · intro u hu
        have : ∀ {z : List Node}, Seps z → ∀ u ∈ forestOf s z, treeSpace u = true := by
          intro z
          induction z with
          | nil => intro _ u hu; simp [forestOf] at hu
          | cons n z ih =>
            intro hz u hu
            rw [forestOf] at hu
            rcases List.mem_cons.1 hu with rfl | hu
            · obtain ⟨r, rfl⟩ := hz _ (List.mem_cons_self ..)
              rfl
            · exact ih (fun n hn => hz n (List.mem_cons_of_mem _ hn)) u hu
        exact this z1 u hu
    obtain ⟨w1, v1⟩ := document_weaves (src := s) (doc := D) (cfg := cfg) (by rw [hD]; exact singles_of qX)
    obtain ⟨w2, v2⟩ := document_weaves (src := s) (cfg := cfg) (singles_of q)
    rw [i1] at w1 v1
    rw [i2] at w2 v2
    have hmg := trimItems_margin cfg.isXml false (forestOf s X') ⟨false, 0⟩ (Margin.inside ⟨false, 0⟩ false name)
    have hok : (outputHtmlTo s D cfg).2 = true ↔ (outputHtmlTo s (transformDocument doc s cfg) cfg).2 = true := by
      refine w1.trans (Iff.trans ?_ w2.symm)
      have hgp : ∀ l, Writable cfg.isXml s (.gap l none) := fun _ => trivial
      have hsp : Writable cfg.isXml s (.stop name) := trivial
      have hs' : Writable cfg.isXml s (.start name t.items false) := ⟨_, hattrs.reads⟩
      simp only [List.forall_mem_append, List.forall_mem_cons, List.cons_append, hgp, hsp, hs', true_and, List.not_mem_nil, false_implies,
        implies_true, and_true]
      exact ⟨writable_margin hmg, writable_margin hmg.symm⟩
    rcases y1 : outputHtmlTo s D cfg with ⟨out1, ok1⟩
    rcases y2 : outputHtmlTo s (transformDocument doc s cfg) cfg with ⟨out2, ok2⟩
    rw [y1] at v1 hok
    rw [y2] at v2 hok
    cases ok1 with
    | false =>
      cases ok2 with
      | false => exact ⟨none, rfl, rfl⟩
      | true => simp at hok
    | true =>
      cases ok2 with
      | false => simp at hok
      | true =>
        obtain ⟨x1, v1⟩ := v1 rfl
        obtain ⟨x2, v2⟩ := v2 rfl
        simp only [hi] at v1 v2
        have hgap : ∀ {l : Margin} {ws w' : Bool} {is : List OutItem} {o : Str}, Weaves (pieceOf cfg.isXml s) s none ws is o w' →
            Weaves (pieceOf cfg.isXml s) s none ws (.gap l none :: is) o w' := fun h => .noBreak (.inr (.inr rfl)) h
        have hgap1 : ∀ {w}, Weaves (pieceOf cfg.isXml s) s none w [.gap ⟨false, 0⟩ none] [] w := hgap .nil
        obtain ⟨o, -, w, -, hv1, -⟩ := weaves_split v1
        obtain ⟨rfl, -⟩ := weaves_unique v1 (weaves_append hv1 hgap1)
        rw [e5] at hv1 hmg
        have hmv := weaves_margin hv1 hmg
        obtain ⟨w', hw'⟩ := weaves_fresh hmv (fresh_items htop) false
        have hall : Weaves (pieceOf cfg.isXml s) s none true _
            (pieceOf cfg.isXml s (.start name t.items false) ++ (o ++ (pieceOf cfg.isXml s (.stop name) ++ [])) ++ []) false :=
          weaves_append (.start (hgap (l := Margin.inside ⟨false, 0⟩ false name) (weaves_append hw' (hgap (l := ⟨false, 0⟩) (.stop .nil))))) hgap1
        rw [e5] at v2
        obtain ⟨rfl, -⟩ := weaves_unique v2 hall
        rw [pieceOf_eq (.start hattrs.reads), pieceOf_eq .stop]
        refine ⟨some (o ++ []), rfl, ?_⟩
        simp [opened, closed]
  · have hn1 : es1 ≠ [] := fun hk => hn (hw.2 hk)
    obtain ⟨e, -, -, -, c⟩ := convert_bad h l2 hn cfg
    obtain ⟨e1, -, -, -, c1⟩ := convert_bad h1 l1 hn1 cfg
    exact .inr ⟨e1, e, c1, c⟩

end Parts
end Mty

namespace Mty.Build
open Spec Grammar Grammar.More

theorem block_line_logs {a x y i j i' j' st en : Nat} {sp : Option Range} {r l cl : Range} {lines : List PLine} {sel : Ast.Selector}
    {t : Selector} {kids : List Node} {es : List SyntaxError} (hs : Logs (buildSelector sel) t []) (hk : Logs (contentLoop true [] st lines) kids es) :
    ∃ n, Logs (contentLoop true [] a [⟨x, [⟨none, i, j, .selector r (buildSelector sel)⟩, ⟨sp, i', j', .block (buildBlock l st lines en (some cl))⟩], y⟩]) n es := by
  have hblock : ∀ pr, ∃ h, Logs (buildBlock l st lines en (some cl) pr true) (h, kids) es := by
    intro pr
    refine ⟨{ EHead.new pr (.standard (.block pr)) with contentRange := ⟨st, en⟩ }, ?_⟩
    have := hk.bind (f := fun n => BM.pure (({ EHead.new pr (.standard (.block pr)) with contentRange := ⟨st, en⟩ } : EHead), n)) (Logs.pure _)
    rw [List.append_nil] at this
    exact this
  obtain ⟨h, hb⟩ := hblock ⟨i, j'⟩
  have hpost : Logs (postSelector 7 ⟨i, j⟩ [⟨sp, i', j', .block (buildBlock l st lines en (some cl))⟩] [t] ⟨i, j⟩)
      ([Node.ofElem { h with selectors := [t] } kids], []) es := by
    have := hb.bind (f := fun p => BM.pure (([Node.ofElem { p.1 with selectors := [t] } p.2], []) : LineRes)) (Logs.pure _)
    rw [List.append_nil] at this
    rw [postSelector]
    exact this
  have hext : Logs (extendLine 8 [⟨none, i, j, .selector r (buildSelector sel)⟩, ⟨sp, i', j', .block (buildBlock l st lines en (some cl))⟩])
      ([Node.ofElem { h with selectors := [t] } kids], []) es := by
    have h2 : Logs (extendLine 7 []) (([], []) : LineRes) [] := by rw [extendLine]; exact Logs.pure _
    have h3 := hpost.bind (f := fun p => do
        let (out', rest) ← extendLine 7 p.2
        return (([] ++ p.1 ++ out', rest) : LineRes)) (h2.bind (f := fun q => BM.pure ([] ++ [Node.ofElem { h with selectors := [t] } kids] ++ q.1, q.2)) (Logs.pure _))
    have := hs.bind (f := fun s => do
        let (out, rest) ← postSelector 7 ⟨i, j⟩ [⟨sp, i', j', .block (buildBlock l st lines en (some cl))⟩] [s] ⟨i, j⟩
        let (out', rest) ← extendLine 7 rest
        return (([] ++ out ++ out', rest) : LineRes)) h3
    simp only [List.append_nil, List.nil_append] at this
    rw [extendLine]
    exact this
  have hline : Logs (buildLine 9 [⟨none, i, j, .selector r (buildSelector sel)⟩, ⟨sp, i', j', .block (buildBlock l st lines en (some cl))⟩])
      ([Node.ofElem { h with selectors := [t] } kids], []) es := by
    have hv : Logs (validateLine [Node.ofElem { h with selectors := [t] } kids]) () [] := by
      rw [validateLine, validateLoop]
      split
      · rw [validateLoop]; exact Logs.pure _
      · rw [validateLoop]; exact Logs.pure _
    have h3 := hv.bind (f := fun _ => BM.pure (([Node.ofElem { h with selectors := [t] } kids], []) : LineRes)) (Logs.pure _)
    have := hext.bind (f := fun p => do
        validateLine p.1
        return ((p.1, p.2) : LineRes)) h3
    simp only [List.append_nil] at this
    rw [buildLine]
    exact this
  have := hline.bind (f := fun p => BM.pure (addLine [] p.1 ⟨x, y⟩ a true)) (Logs.pure _)
  rw [List.append_nil] at this
  refine ⟨addLine [] [Node.ofElem { h with selectors := [t] } kids] ⟨x, y⟩ a true, ?_⟩
  rw [contentLoop]
  exact this

/-- The errors of a text, and of the text in a block. -/
theorem in_logs {s pre post : Str} {a a1 b b1 x y i j i' j' st en u v : Nat} {sp : Option Range} {l cl : Range} {L1 : List Ast.Line} {sel : Ast.Selector}
    (h1 : linesIn s a1 b1 L1) (hs : SelectorOk sel) :
    ∃ d1 d es1, Logs (fromAst s ⟨.mk a1 L1 b1⟩) d1 es1 ∧
      Logs (fromAst (pre ++ (s ++ post)) ⟨.mk a [.mk x [.mk none i j (.selector sel),
        .mk sp i' j' (.block l (.mk st (mvLines (byteLen pre) L1 ++ [.mk u [] v]) en) (some cl))] y] b⟩) d (es1.map (mvE (byteLen pre))) := by
  have e1 := lines_two_mv (pre := pre) (post := post) h1
  obtain ⟨e', hl⟩ := contentLoop_append true (prepLines (pre ++ (s ++ post)) [.mk u [] v]) (prepLines (pre ++ (s ++ post)) (mvLines (byteLen pre) L1)) st
  obtain ⟨n1, n1', es1, l1, l1', _⟩ := loop_two true [] [] a1 st e1
  obtain ⟨n2, l2⟩ := blanks_loop (pre ++ (s ++ post)) (B := [.mk u [] v]) (by intro l hl; simp at hl; exact ⟨_, _, hl⟩) n1' e'
  obtain ⟨t, es, hlog, -, hes⟩ := buildSelector_run sel
  rw [hes.2 hs] at hlog
  have hk := l1'.bind (f := fun n => contentLoop true n e' _) l2
  rw [List.append_nil] at hk
  have hk : Logs (contentLoop true [] st (prepLines (pre ++ (s ++ post)) (mvLines (byteLen pre) L1 ++ [.mk u [] v]))) n2 (es1.map (mvE (byteLen pre))) := by
    rw [prepLines_append, hl]
    exact hk
  obtain ⟨n, hn⟩ := block_line_logs (a := a) (x := x) (y := y) (i := i) (j := j) (i' := i') (j' := j') (en := en) (sp := sp) (r := ⟨sel.start, sel.stop⟩)
    (l := l) (cl := cl) hlog hk
  refine ⟨⟨⟨0, byteLen s⟩, ⟨a1, b1⟩, n1⟩, { range := ⟨0, byteLen (pre ++ (s ++ post))⟩, contentRange := ⟨a, b⟩, nodes := n }, es1, ?_, ?_⟩
  · have := l1.bind (f := fun n => BM.pure (Document.mk ⟨0, byteLen s⟩ ⟨a1, b1⟩ n)) (Logs.pure _)
    rw [List.append_nil] at this
    exact this
  · have := hn.bind (f := fun n => BM.pure (Document.mk ⟨0, byteLen (pre ++ (s ++ post))⟩ ⟨a, b⟩ n)) (Logs.pure _)
    rw [List.append_nil] at this
    rw [fromAst]
    dsimp only
    rw [buildContent, prepLines, prepLine, prepNodes, prepNode, prepType, prepNodes, prepNode, prepType, prepNodes, prepLines]
    exact this
end Mty.Build
