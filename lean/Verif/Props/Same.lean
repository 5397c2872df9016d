import Verif.Proofs.SameBuild
import Verif.Proofs.SameOut
import Verif.Props.Ranges
import Verif.Props.RefParser
import Verif.Props.Source
import Verif.Props.Parse

/-!
# C59: the output depends only on what the source says

`Spec.Same` (`Spec/Same.lean`) says when two syntax trees say the same, although they come from different sources. Positions,
indentation, white space in the head of an element, the kind of quotation marks, the delimiters of verbatim texts and the choice
between the short and the long form of inline formatting are not part of it.
-/

set_option autoImplicit false

namespace Mty
open Spec Build

namespace Same

theorem valid_empty {src : Str} {r : Range} (h : ValidRange src r) : (TextSlice.fromSource r).isEmpty = true ↔ r.slice src = [] := by
  obtain ⟨a, m, b, -, h1, h2, h3⟩ := C12_slice src r h
  rw [h3]
  simp only [TextSlice.isEmpty]
  rw [byteLen_append] at h2
  cases m with
  | nil => simp [byteLen] at h2 ⊢; omega
  | cons x m => have := Char.utf8Size_pos x; simp [byteLen] at h2 ⊢; omega

mutual
  theorem text_ranges : ∀ (n : Node) (x : TextLike), x ∈ nodeTexts n → ∀ r ∈ textLikeRanges x, r ∈ nodeRanges n
    | .text _ _, x, hx, r, hr => by
      simp only [nodeTexts, List.mem_singleton] at hx
      subst hx
      simp [nodeRanges, hr]
    | .elem _ _ cs, x, hx, r, hr => by
      simp only [nodeTexts] at hx
      simp [nodeRanges, texts_ranges cs x hx r hr]
  theorem texts_ranges : ∀ (ns : List Node) (x : TextLike), x ∈ nodesTexts ns → ∀ r ∈ textLikeRanges x, r ∈ nodesRanges ns
    | [], x, hx, _, _ => by simp [nodesTexts] at hx
    | n :: ns, x, hx, r, hr => by
      simp only [nodesTexts, List.mem_append] at hx
      rw [nodesRanges, List.mem_append]
      exact hx.imp (fun h => text_ranges n x h r hr) (fun h => texts_ranges ns x h r hr)
end

theorem texts_good {src : Str} {ns : List Node} (h : ∀ r ∈ nodesRanges ns, ValidRange src r) : ∀ x ∈ nodesTexts ns, Good src x := by
  intro x hx
  cases x with
  | text t =>
    have := texts_ranges ns _ hx
    simp only [Good]
    rcases t with ⟨s, k, b, r⟩
    cases s with
    | provided v => simp [TextSlice.isEmpty, TextSlice.asStr]
    | fromSource r => exact valid_empty (h r (this r (by simp [textLikeRanges, sliceRanges])))
  | _ => trivial

/-- The texts of the document that is written. -/
theorem written_good {src : Str} {ast : Ast.Document} {doc : Document} {e e' : Errors} {cfg : OutputConfig} (hp : PositionsOk src ast)
    (h : fromAst src ast e = (some doc, e')) (hm : cfg.metadata = none) :
    ∀ x ∈ nodesTexts (transformDocument doc src cfg).nodes, Good src x := by
  have hd := (C12_ranges src ast e e' _ hp h).1 doc rfl
  have hg : ∀ x ∈ nodesTexts doc.nodes, Good src x := texts_good fun r hr => hd r (by simp [docRanges, hr])
  intro x hx
  rw [transform_texts cfg h, hm, metaTextLike_none, List.map_id] at hx
  rcases toInfer_texts src cfg doc with ⟨-, h1⟩ | h1 | h1
  · rw [h1] at hx; exact hg x hx
  · exact hg x (h1.mem_iff.1 hx)
  · rcases List.mem_cons.1 (h1.mem_iff.1 hx) with rfl | hy
    · trivial
    · exact hg x hy

theorem written_sim {s1 s2 : Str} {d1 d2 : Ast.Document} {doc1 doc2 : Document} {e1 e1' e2 e2' : Errors} {cfg : OutputConfig}
    (h1 : fromAst s1 d1 e1 = (some doc1, e1')) (h2 : fromAst s2 d2 e2 = (some doc2, e2')) (hm : cfg.metadata = none)
    (hs : SimsA cfg.specialTags s1 s2 doc1.nodes doc2.nodes) :
    TreesSim s1 s2 (forestOf s1 (transformDocument doc1 s1 cfg).nodes) (forestOf s2 (transformDocument doc2 s2 cfg).nodes) := by
  have hb : SimsB s1 s2 (toInfer cfg s1 doc1) (toInfer cfg s2 doc2) := by
    have h0 : SimsB s1 s2 (applySpecialTags cfg doc1).nodes (applySpecialTags cfg doc2).nodes := specials_sim hs
    unfold toInfer
    cases cfg.completePage.getD false with
    | false => exact h0
    | true => exact completePage_sim h0
  have hi := infers_sim (forest_sim hb) .section none none true
  rw [← C20_inference cfg h1, ← C20_inference cfg h2] at hi
  have hs1 := (infer_tree s1 _ (toInfer_plain cfg h1)).2
  have hs2 := (infer_tree s2 _ (toInfer_plain cfg h2)).2
  rw [transformDocument_eq, transformDocument_eq, hm]
  cases cfg.lang with
  | none => exact hi
  | some l => exact langs_sim hi hs1 hs2

end Same

open Same

section
variable {parse1 parse2 : Parser} {s1 s2 : Str} {d1 d2 : Ast.Document} {cfg : OutputConfig}

/-- Both conversions write the same, or both reject the source. -/
theorem same_cases (h1 : parse1 s1 = .ok d1) (h2 : parse2 s2 = .ok d2) (p1 : PositionsOk s1 d1) (p2 : PositionsOk s2 d2)
    (hs : Same cfg.specialTags s1 s2 d1 d2) (hm : cfg.metadata = none) :
    (∃ r : Option Str, (convert parse1 s1 cfg = match r with | some o => .ok o | none => .error .unknown) ∧
      (convert parse2 s2 cfg = match r with | some o => .ok o | none => .error .unknown)) ∨
    (∃ es es', convert parse1 s1 cfg = .error (.syntax es s1) ∧ convert parse2 s2 cfg = .error (.syntax es' s2)) := by
  obtain ⟨doc1, es1, l1, w1⟩ := build_cases s1 d1
  obtain ⟨doc2, es2, l2, w2⟩ := build_cases s2 d2
  have hw : WellFormed s1 d1 ↔ WellFormed s2 d2 := by
    cases hs with
    | mk hl => exact lines_ok hl
  by_cases hn : es1 = []
  · have hn2 : es2 = [] := w2.2 (hw.1 (w1.1 hn))
    subst hn hn2
    have f1 := l1.fastOk rfl (Errors.new cfg)
    have f2 := l2.fastOk rfl (Errors.new cfg)
    have hc : SimsA cfg.specialTags s1 s2 doc1.nodes doc2.nodes := by
      cases hs with
      | mk hl =>
        exact content_sim (C55_structure _ _ _ _ _ _ f1) hl (C55_structure _ _ _ _ _ _ f2)
    have ho := output_same cfg (written_sim f1 f2 hm hc) (C17_single cfg f1) (C17_single cfg f2) (written_good p1 f1 hm) (written_good p2 f2 hm)
    left
    rw [convert_ok h1 l1, convert_ok h2 l2, ho]
    rcases outputHtmlTo s2 (transformDocument doc2 s2 cfg) cfg with ⟨out, _ | _⟩
    · exact ⟨none, rfl, rfl⟩
    · exact ⟨some out, rfl, rfl⟩
  · have hn2 : es2 ≠ [] := fun h => hn (w1.2 (hw.2 (w2.1 h)))
    obtain ⟨e1, -, -, -, c1⟩ := convert_bad h1 l1 hn cfg
    obtain ⟨e2, -, -, -, c2⟩ := convert_bad h2 l2 hn2 cfg
    exact .inr ⟨e1, e2, c1, c2⟩

/-- **C59.** Two sources that say the same have the same output, and the one is converted exactly if the other is. -/
theorem C59_same (h1 : parse1 s1 = .ok d1) (h2 : parse2 s2 = .ok d2) (p1 : PositionsOk s1 d1) (p2 : PositionsOk s2 d2)
    (hs : Same cfg.specialTags s1 s2 d1 d2) (hm : cfg.metadata = none) (out : Str) :
    convert parse1 s1 cfg = .ok out ↔ convert parse2 s2 cfg = .ok out := by
  rcases same_cases h1 h2 p1 p2 hs hm with ⟨r, k1, k2⟩ | ⟨e, e', k1, k2⟩
  · rw [k1, k2]
  · rw [k1, k2]; simp

/-- **C59.** Two sources that say the same are rejected for the same kind of reason: both for syntax errors, or both because of the
escapes in attribute values. -/
theorem C59_errors (h1 : parse1 s1 = .ok d1) (h2 : parse2 s2 = .ok d2) (p1 : PositionsOk s1 d1) (p2 : PositionsOk s2 d2)
    (hs : Same cfg.specialTags s1 s2 d1 d2) (hm : cfg.metadata = none) :
    ((∃ es, convert parse1 s1 cfg = .error (.syntax es s1)) ↔ ∃ es, convert parse2 s2 cfg = .error (.syntax es s2)) ∧
    (convert parse1 s1 cfg = .error .unknown ↔ convert parse2 s2 cfg = .error .unknown) := by
  rcases same_cases h1 h2 p1 p2 hs hm with ⟨r, k1, k2⟩ | ⟨e, e', k1, k2⟩
  · rw [k1, k2]; cases r <;> simp
  · rw [k1, k2]; simp

end

/-- **C59, the reference parser.** The positions of the reference parser meet the hypotheses. -/
theorem C59_reference {alnum : Char → Bool} {parse : Parser} {s1 s2 : Str} {d1 d2 : Ast.Document} {cfg : OutputConfig}
    (hp : ∀ src ast, parse src = .ok ast → Grammar.parse alnum src = some ast) (h1 : parse s1 = .ok d1) (h2 : parse s2 = .ok d2)
    (hs : Same cfg.specialTags s1 s2 d1 d2) (hm : cfg.metadata = none) (out : Str) :
    convert parse s1 cfg = .ok out ↔ convert parse s2 cfg = .ok out :=
  C59_same h1 h2 (C12_grammar_positions _ _ _ (Grammar.parse_conforms (hp _ _ h1)))
    (C12_grammar_positions _ _ _ (Grammar.parse_conforms (hp _ _ h2))) hs hm out

/-! ## Every source says the same as itself -/

mutual
  theorem sameType_refl (c : SpecialTagConfig) (s : Str) : ∀ ty : Ast.NodeType, SameType c s s ty ty
    | .multiline _ _ _ => .multiline (.same _)
    | .text t => .text (by
      cases t with
      | segment => exact .segment rfl
      | verbatim => exact .verbatim rfl rfl
      | comment => exact .comment rfl rfl
      | interpolation => exact .interpolation rfl)
    | .selector _ => .selector ⟨rfl, .of_eq rfl, Iff.rfl⟩
    | .line _ => .line
    | .block _ (.mk _ ls _) _ => .block (sameLines_refl c s ls) rfl
    | .inline _ ns _ => .inline (sameNodes_refl c s .top ns) rfl
    | .special _ _ (.mk _ ls _) _ => .special (sameLines_refl c s ls) rfl
    | .code _ => .code rfl
  theorem sameNodes_refl (c : SpecialTagConfig) (s : Str) : ∀ (st : LineSt) (ns : List Ast.Node), SameNodes c s s st ns ns
    | _, [] => .nil
    | _, .mk sp _ _ ty :: ns => .cons (fun _ => by cases sp <;> first | trivial | rfl) (sameType_refl c s ty) (sameNodes_refl c s _ ns)
  theorem sameLines_refl (c : SpecialTagConfig) (s : Str) : ∀ ls : List Ast.Line, SameLines c s s ls ls
    | [] => .nil
    | .mk _ ns _ :: ls => .cons (sameNodes_refl c s .top ns) (sameLines_refl c s ls)
end

theorem same_refl (c : SpecialTagConfig) (s : Str) (d : Ast.Document) : Same c s s d d := by
  obtain ⟨⟨a, ls, b⟩⟩ := d
  exact .mk (sameLines_refl c s ls)

/-! ## A pair of sources with different positions, indentation and forms -/

namespace Ex

/-- The short forms. -/
def srcS : Str := "a <#b#> <`c`>".toList
def astS : Ast.Document := ⟨.mk 0 [.mk 0 [
  .mk none 0 1 (seg 0 1),
  .mk (some ⟨1, 2⟩) 2 7 (.special .strong ⟨2, 4⟩ (.mk 4 [.mk 4 [.mk none 4 5 (seg 4 5)] 5] 5) (some ⟨5, 7⟩)),
  .mk (some ⟨7, 8⟩) 8 13 (.code ⟨8, 13⟩)] 13] 13⟩

/-- The same in the long forms, with a blank line, indentation and a space before `>`. -/
def srcL : Str := "\n  a <(strong > b)> <(code> <[[c]]>)>".toList
def astL : Ast.Document := ⟨.mk 3 [.mk 3 [
  .mk none 3 4 (seg 3 4),
  .mk (some ⟨4, 5⟩) 5 19 (.inline ⟨5, 7⟩ [
    .mk none 7 13 (tag 7 13),
    .mk (some ⟨13, 14⟩) 14 15 (.line ⟨14, 15⟩),
    .mk (some ⟨15, 16⟩) 16 17 (seg 16 17)] (some ⟨17, 19⟩)),
  .mk (some ⟨19, 20⟩) 20 37 (.inline ⟨20, 22⟩ [
    .mk none 22 26 (tag 22 26),
    .mk none 26 27 (.line ⟨26, 27⟩),
    .mk (some ⟨27, 28⟩) 28 35 (.text (.verbatim ⟨28, 30⟩ none (.verbatim0 ⟨30, 35⟩)))] (some ⟨35, 37⟩))] 37] 37⟩

end Ex

set_option maxRecDepth 20000 in
/-- They are trees of the grammar, so their positions are right. -/
example : Grammar.Conforms Char.isAlphanum Ex.srcS Ex.astS = true ∧ Grammar.Conforms Char.isAlphanum Ex.srcL Ex.astL = true := by
  decide +kernel

/-- They say the same. -/
theorem ex_same : Same {} Ex.srcS Ex.srcL Ex.astS Ex.astL := by
  refine .mk (.cons (.cons (fun _ => trivial) (.text (.segment ?_)) (.cons (fun _ => ?_) (.short ?_ ?_ ?_ ?_ ?_ (.text (.segment ?_)) .nil rfl)
    (.cons (fun _ => ?_) (.shortCode ?_ ?_ ?_ ?_ ?_ rfl) .nil))) .nil)
  all_goals first
    | (simp only [SameSlice, SameSpace]; decide +kernel)
    | decide +kernel
    | (intro n hn; rw [List.mem_singleton] at hn; subst hn; exact .inl rfl)
    | exact ⟨fun i hi => absurd hi List.not_mem_nil, fun g hg => absurd hg List.not_mem_nil⟩

set_option maxRecDepth 20000 in
example : convert RepoTests.parser Ex.srcS {} = .ok "<p>a <strong>b</strong> <code>c</code></p>".toList ∧
    convert RepoTests.parser Ex.srcL {} = .ok "<p>a <strong>b</strong> <code>c</code></p>".toList := by
  decide +kernel

/-- The conversion of the one is the conversion of the other, by the theorem. -/
example (cfg : OutputConfig) (h : cfg.specialTags = {}) (hm : cfg.metadata = none) (out : Str) :
    convert (Ex.parser Ex.astS) Ex.srcS cfg = .ok out ↔ convert (Ex.parser Ex.astL) Ex.srcL cfg = .ok out :=
  C59_same rfl rfl (C12_grammar_positions Char.isAlphanum _ _ (by decide +kernel)) (C12_grammar_positions Char.isAlphanum _ _ (by decide +kernel))
    (h ▸ ex_same) hm out

set_option maxRecDepth 20000 in
/-- All short forms of the README and their long forms. -/
example : convert RepoTests.parser "</a/> <_b_> <~c~> <\"d\"> <#e#> <`f`>".toList {} =
      .ok "<p><em>a</em> <u>b</u> <s>c</s> <q>d</q> <strong>e</strong> <code>f</code></p>".toList ∧
    convert RepoTests.parser "<(em> a)> <(u> b)> <(s> c)> <(q> d)> <(strong> e)> <(code> <[[f]]>)>".toList {} =
      .ok "<p><em>a</em> <u>b</u> <s>c</s> <q>d</q> <strong>e</strong> <code>f</code></p>".toList := by
  decide +kernel

set_option maxRecDepth 20000 in
/-- Quotation marks and white space before `>` do not matter. -/
example : convert RepoTests.parser "p[a='1' b=2]>x".toList {} = .ok "<p a=\"1\" b=\"2\">x</p>".toList ∧
    convert RepoTests.parser "p[a=\"1\" b='2']  >x".toList {} = .ok "<p a=\"1\" b=\"2\">x</p>".toList := by
  decide +kernel

/-! ## Selectors with their parts in another order -/

namespace Ex

def srcQ1 : Str := "p.a#b[c=d].e> x".toList
def astQ1 : Ast.Document := ⟨.mk 0 [.mk 0 [
  .mk none 0 12 (.selector ⟨0, .tag (some (.name ⟨0, 1⟩)) [.cls ⟨1, 2⟩ ⟨2, 3⟩, .id ⟨3, 4⟩ ⟨4, 5⟩],
    [.attributes ⟨5, ⟨5, 6⟩, [⟨6, ⟨6, 7⟩, some (.unquoted ⟨8, 9⟩), 9⟩], some ⟨9, 10⟩, 10⟩, .classLike [.cls ⟨10, 11⟩ ⟨11, 12⟩]], 12⟩),
  .mk none 12 13 (.line ⟨12, 13⟩),
  .mk (some ⟨13, 14⟩) 14 15 (seg 14 15)] 15] 15⟩

/-- The attribute first, then the id and then the classes, and a second id. -/
def srcQ2 : Str := "p[c=d]#b.a.e#f> x".toList
def astQ2 : Ast.Document := ⟨.mk 0 [.mk 0 [
  .mk none 0 14 (.selector ⟨0, .tag (some (.name ⟨0, 1⟩)) [],
    [.attributes ⟨1, ⟨1, 2⟩, [⟨2, ⟨2, 3⟩, some (.unquoted ⟨4, 5⟩), 5⟩], some ⟨5, 6⟩, 6⟩,
      .classLike [.id ⟨6, 7⟩ ⟨7, 8⟩, .cls ⟨8, 9⟩ ⟨9, 10⟩, .cls ⟨10, 11⟩ ⟨11, 12⟩, .id ⟨12, 13⟩ ⟨13, 14⟩]], 14⟩),
  .mk none 14 15 (.line ⟨14, 15⟩),
  .mk (some ⟨15, 16⟩) 16 17 (seg 16 17)] 17] 17⟩

end Ex

set_option maxRecDepth 20000 in
example : Grammar.Conforms Char.isAlphanum Ex.srcQ1 Ex.astQ1 = true ∧ Grammar.Conforms Char.isAlphanum Ex.srcQ2 Ex.astQ2 = true := by
  decide +kernel

/-- They say the same. -/
theorem ex_parts (c : SpecialTagConfig) : Same c Ex.srcQ1 Ex.srcQ2 Ex.astQ1 Ex.astQ2 := by
  refine .mk (.cons (.cons (fun _ => trivial) (.selector ⟨?_, ⟨?_, ?_, ?_⟩, ?_⟩) (.cons (fun _ => trivial) .line
    (.cons (fun _ => ?_) (.text (.segment ?_)) .nil))) .nil)
  all_goals first
    | (simp only [SameSlice, SameSpace]; decide +kernel)
    | decide +kernel
    | (simp [SelectorOk, SegmentOk, ClassLikeOk])

set_option maxRecDepth 20000 in
example : convert RepoTests.parser Ex.srcQ1 {} = .ok "<p id=\"b\" class=\"a e\" c=\"d\">x</p>".toList ∧
    convert RepoTests.parser Ex.srcQ2 {} = .ok "<p id=\"b\" class=\"a e\" c=\"d\">x</p>".toList := by
  decide +kernel

example (cfg : OutputConfig) (hm : cfg.metadata = none) (out : Str) :
    convert (Ex.parser Ex.astQ1) Ex.srcQ1 cfg = .ok out ↔ convert (Ex.parser Ex.astQ2) Ex.srcQ2 cfg = .ok out :=
  C59_same rfl rfl (C12_grammar_positions Char.isAlphanum _ _ (by decide +kernel)) (C12_grammar_positions Char.isAlphanum _ _ (by decide +kernel))
    (ex_parts _) hm out

set_option maxRecDepth 20000 in
/-- The order of the classes and the first id do matter. -/
example : convert RepoTests.parser "p.e.a#f#b> x".toList {} = .ok "<p id=\"f\" class=\"e a\">x</p>".toList := by
  decide +kernel

/-! ## What does matter, although it should not

The white space after the `>` is the first child of the element when tags are inferred, so an element after it is not the first. This
is why `Same` asks for the same white space there. -/

set_option maxRecDepth 20000 in
theorem C59_space_after_arrow : convert RepoTests.parser "details><(> a)>".toList {} = .ok "<details><summary>a</summary></details>".toList ∧
    convert RepoTests.parser "details> <(> a)>".toList {} = .ok "<details><p>a</p></details>".toList := by
  decide +kernel

set_option maxRecDepth 20000 in
/-- The short form of an empty element is not written like the long form. This is why `Same` compares short and long forms only if they
have content. -/
theorem C59_empty_short : convert RepoTests.parser "<(strong>)>".toList { xml := some true } = .ok "<p><strong/></p>".toList ∧
    convert RepoTests.parser "<##>".toList { xml := some true } = .ok "<p><strong></strong></p>".toList := by
  decide +kernel

end Mty
