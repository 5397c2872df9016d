import Verif.Proofs.Transform
import Verif.Proofs.Pieces
import Verif.Props.Infer

/-! # The texts of built and converted documents -/

set_option autoImplicit false

namespace Mty
open Build Spec

/-! ## Built documents -/

theorem mem_nodesTexts {x : TextLike} {ns : List Node} : x ∈ nodesTexts ns ↔ ∃ n ∈ ns, x ∈ nodeTexts n := by
  induction ns with
  | nil => simp [nodesTexts]
  | cons n ns ih => simp [nodesTexts, ih]

/-- Text comes from the source; if `strict` its escapes are valid. -/
def KnownText (src : Str) (strict : Prop) : TextLike → Prop
  | .text t => (∃ r, t.slice = .fromSource r) ∧ (strict → t.unescapeIn = true → EscapesOk (t.slice.asStr src)) ∧
      (t.raw = true → t.unescapeIn = false ∧ t.multiline = false)
  | .comment s => ∃ r, s = .fromSource r
  | .space _ => True

theorem known_addLine (K : TextLike → Prop) (hK : ∀ s, K (.space s)) (fp : Bool) (out line : List Node) (r : Range) (e : Nat)
    (ho : ∀ n ∈ out, ∀ x ∈ nodeTexts n, K x) (hl : ∀ n ∈ line, ∀ x ∈ nodeTexts n, K x) :
    ∀ n ∈ Build.addLine out line r e fp, ∀ x ∈ nodeTexts n, K x := by
  have hsp : ∀ n, n = paragraphSep e r.start → ∀ x ∈ nodeTexts n, K x := by
    rintro n rfl x hx; simp [paragraphSep, nodeTexts] at hx; subst hx; exact hK _
  rcases addLine_cases fp out line r e with ⟨o, rg, hd, ch, rfl, hc, h⟩ | h | ⟨hfp, sep, hsep, h⟩ | ⟨hs, sep, hsep, h⟩
  · rw [h]
    intro n hn
    rcases List.mem_append.1 hn with hn | hn
    · exact ho n (List.mem_append_left _ hn)
    · simp only [List.mem_singleton] at hn
      subst hn
      have hlast := ho _ (List.mem_append_right _ (List.mem_singleton.2 rfl))
      intro x hx
      rw [nodeTexts, mem_nodesTexts] at hx
      obtain ⟨m, hm, hx⟩ := hx
      rcases List.mem_append.1 hm with hm | hm
      · exact hlast x (by rw [nodeTexts, mem_nodesTexts]; exact ⟨m, hm, hx⟩)
      · rcases List.mem_cons.1 hm with rfl | hm
        · change x ∈ [TextLike.space _] at hx; rw [List.mem_singleton] at hx; subst hx; exact hK _
        · exact hl m hm x hx
  · rw [h]; exact ho
  · rw [h]
    intro n hn
    simp only [List.mem_append, List.mem_singleton] at hn
    rcases hn with (hn | hn) | rfl
    · exact ho n hn
    · exact hsp n (hsep n hn)
    · intro x hx
      rw [Node.ofElem, nodeTexts, mem_nodesTexts] at hx
      obtain ⟨m, hm, hx⟩ := hx
      exact hl m hm x hx
  · rw [h]
    intro n hn
    simp only [List.mem_append] at hn
    rcases hn with (hn | hn) | hn
    · exact ho n hn
    · exact hsp n (hsep n hn)
    · exact hl n hn

theorem texts_elem {K : TextLike → Prop} {h : EHead} {ch : List Node} (hc : ∀ n ∈ ch, ∀ x ∈ nodeTexts n, K x) :
    ∀ x ∈ nodeTexts (Node.ofElem h ch), K x := by
  intro x hx
  rw [Node.ofElem, nodeTexts, mem_nodesTexts] at hx
  obtain ⟨m, hm, hx⟩ := hx
  exact hc m hm x hx

def textInv (src : Str) (strict : Prop) : DocInv src where
  Q n := ∀ x ∈ nodeTexts n, KnownText src strict x
  QC _ ns := ∀ n ∈ ns, ∀ x ∈ nodeTexts n, KnownText src strict x
  G es := strict → ∀ x ∈ es, x.kind ≠ .invalidEscape
  split h := ⟨fun s x hx => h s x (List.mem_append_left _ hx), fun s x hx => h s x (List.mem_append_right _ hx)⟩
  line h ch c hty hr hch := texts_elem hch
  lineBlock h ch c b hty hr hch := texts_elem hch
  block h ch b hty hr hch := texts_elem hch
  space r x hx := by simp [exactSpace, nodeTexts] at hx; subst hx; trivial
  nil fp := by simp
  blank fp out a b h := by
    intro n hn
    rcases List.mem_append.1 hn with hn | hn
    · exact h n hn
    · simp only [List.mem_singleton] at hn
      subst hn
      intro x hx
      simp [paragraphEnd, nodeTexts] at hx; subst hx; trivial
  addLine fp out line r e es _ _ ho hl := known_addLine _ (fun _ => trivial) fp out line r e ho hl
  text r t es hg ht x hx := by
    simp only [nodeTexts, List.mem_singleton] at hx
    subst hx
    exact ⟨ht.fromSource, fun s => ht.escapes (hg s), ht.raw⟩
  comment r s x hx := by
    simp only [nodeTexts, List.mem_singleton] at hx
    subst hx
    exact ⟨_, rfl⟩
  multiline h r t k es hg ht hty _ hs := texts_elem (by
    intro n hn x hx
    simp only [List.mem_singleton] at hn
    subst hn
    simp only [nodeTexts, List.mem_singleton] at hx
    subst hx
    exact ⟨ht.fromSource, fun s => ht.escapes (hg s), ht.raw⟩)
  code h r t es hg ht hty _ hs := texts_elem (by
    intro n hn x hx
    simp only [List.mem_singleton] at hn
    subst hn
    simp only [nodeTexts, List.mem_singleton] at hx
    subst hx
    exact ⟨ht.fromSource, fun s => ht.escapes (hg s), ht.raw⟩)
  special h ch k hty _ hs hch := texts_elem hch
  inline h ch hty hs hch := texts_elem hch
  inlineFirst r r' h ch d hty h' x hx := by
    rw [nodeTexts] at hx
    exact h' x (by rw [nodeTexts]; exact hx)

/-- The texts of a built document; if no invalid escape sequence is reported, they have none. -/
theorem fromAst_texts_esc {src : Str} {ast : Ast.Document} {e e' : Errors} {doc : Document}
    (h : fromAst src ast e = (some doc, e')) {strict : Prop}
    (hg : ∀ es, e'.syntaxErrors = e.syntaxErrors ++ es → strict → ∀ x ∈ es, x.kind ≠ .invalidEscape) :
    ∀ x ∈ nodesTexts doc.nodes, KnownText src strict x := by
  obtain ⟨es, h1, h2⟩ := ((textInv src strict).fromAst_inv (fun _ => trivial) ast).document h
  intro x hx
  obtain ⟨n, hn, hx⟩ := mem_nodesTexts.1 hx
  exact h1 (hg es h2) n hn x hx

/-- The texts of a built document. -/
theorem fromAst_texts {src : Str} {ast : Ast.Document} {e e' : Errors} {doc : Document}
    (h : fromAst src ast e = (some doc, e')) :
    ∀ x ∈ nodesTexts doc.nodes, KnownText src (e'.syntaxErrors = e.syntaxErrors) x :=
  fromAst_texts_esc h fun es h2 hs x hx => by rw [hs] at h2; simp_all

/-! ## Converted documents -/

/-- With metadata elements comments become texts. -/
def metaTextLike (m : Option MetadataConfig) : TextLike → TextLike
  | .comment s => if (m.map (·.elements)).getD false then .text { slice := s, escapeOut := true } else .comment s
  | x => x

mutual
  theorem specialNode_texts (c : SpecialTagConfig) : ∀ n, nodeTexts (specialNode c n) = nodeTexts n
    | .text _ _ => rfl
    | .elem _ _ ch => by rw [specialNode, nodeTexts, nodeTexts, specialNodes_texts c ch]
  theorem specialNodes_texts (c : SpecialTagConfig) : ∀ ns, nodesTexts (specialNodes c ns) = nodesTexts ns
    | [] => rfl
    | n :: ns => by rw [specialNodes, nodesTexts, nodesTexts, specialNode_texts c n, specialNodes_texts c ns]
end

mutual
  theorem metaNode_texts (m : MetadataConfig) : ∀ n root,
      nodeTexts (metaNode m n root) = (nodeTexts n).map (metaTextLike (some m))
    | .elem _ _ ch, root => by rw [metaNode, nodeTexts, nodeTexts, metaNodes_texts m ch]
    | .text r (.text t), root => by
      rw [metaNode]
      split <;> simp [metaText, nodeTexts, nodesTexts, Node.ofElem, metaTextLike]
    | .text r (.comment s), root => by
      rw [metaNode]
      cases hm : m.elements <;> simp [metaComment, nodeTexts, nodesTexts, Node.ofElem, metaTextLike, hm]
    | .text r (.space s), root => rfl
  theorem metaNodes_texts (m : MetadataConfig) : ∀ ns root,
      nodesTexts (metaNodes m ns root) = (nodesTexts ns).map (metaTextLike (some m))
    | [], _ => rfl
    | n :: ns, root => by
      rw [metaNodes, nodesTexts, nodesTexts, metaNode_texts m n, metaNodes_texts m ns, List.map_append]
end

theorem langNode_texts (l : Str) (ns : List Node) : nodesTexts (ns.map (langNode l)) = nodesTexts ns := by
  induction ns with
  | nil => rfl
  | cons n ns ih =>
    rw [List.map_cons, nodesTexts, nodesTexts, ih]
    cases n <;> rfl

theorem metaTextLike_none : metaTextLike none = id := by funext x; cases x <;> rfl

/-- The texts of a converted document are those of the completed page. -/
theorem transform_texts {src : Str} {ast : Ast.Document} {e e' : Errors} {doc : Document} (cfg : OutputConfig)
    (h : fromAst src ast e = (some doc, e')) :
    nodesTexts (transformDocument doc src cfg).nodes = (nodesTexts (toInfer cfg src doc)).map (metaTextLike cfg.metadata) := by
  rw [transformDocument_eq, ← C19_texts cfg h]
  generalize Infer.infer src (toInfer cfg src doc) = ns
  have hm : nodesTexts ((match cfg.metadata with | some m => (metaNodes m · true) | none => id) ns) =
      (nodesTexts ns).map (metaTextLike cfg.metadata) := by
    cases cfg.metadata with
    | none => rw [metaTextLike_none]; simp
    | some m => exact metaNodes_texts m ns true
  rw [← hm]
  cases cfg.lang with
  | none => rfl
  | some l => exact langNode_texts l _

/-- Completing a page only moves texts. -/
theorem toInfer_texts (src : Str) (cfg : OutputConfig) (doc : Document) :
    (cfg.completePage.getD false = false ∧ nodesTexts (toInfer cfg src doc) = nodesTexts doc.nodes) ∨
    (nodesTexts (toInfer cfg src doc)).Perm (nodesTexts doc.nodes) ∨
    (nodesTexts (toInfer cfg src doc)).Perm (.space .paragraphEnd :: nodesTexts doc.nodes) := by
  unfold toInfer
  have hs : nodesTexts (applySpecialTags cfg doc).nodes = nodesTexts doc.nodes := specialNodes_texts _ _
  cases hc : cfg.completePage.getD false with
  | false => left; exact ⟨rfl, hs⟩
  | true =>
    right
    rw [if_pos rfl, ← hs]
    generalize applySpecialTags cfg doc = doc
    rcases completePage_cases src doc with ⟨h1, h2⟩ | ⟨h1, h2, hd, hh, h3⟩ | ⟨h1, h2, hd, hh, h3⟩
    · left; rw [h2]
    · left; rw [h3]; simp [nodesTexts, nodeTexts, Node.ofElem]
    · right
      rw [h3]
      simp only [nodesTexts, nodeTexts, Node.ofElem, List.append_nil, List.singleton_append]
      exact List.perm_middle.trans ((split_texts src doc.nodes).cons _)

theorem transform_known_of {src : Str} {ast : Ast.Document} {e e' : Errors} {doc : Document} (cfg : OutputConfig)
    (h : fromAst src ast e = (some doc, e')) {strict : Prop} (hk : ∀ x ∈ nodesTexts doc.nodes, KnownText src strict x) :
    ∀ x ∈ nodesTexts (transformDocument doc src cfg).nodes, KnownText src strict x := by
  rw [transform_texts cfg h]
  intro x hx
  obtain ⟨y, hy, rfl⟩ := List.mem_map.1 hx
  have : KnownText src strict y := by
    rcases toInfer_texts src cfg doc with ⟨-, h1⟩ | h1 | h1
    · rw [h1] at hy; exact hk y hy
    · exact hk y (h1.mem_iff.1 hy)
    · rcases List.mem_cons.1 (h1.mem_iff.1 hy) with rfl | hy
      · trivial
      · exact hk y hy
  cases y with
  | text t => exact this
  | space s => exact this
  | comment s =>
    simp only [metaTextLike]
    split
    · exact ⟨this, by simp, by simp⟩
    · exact this

theorem transform_known {src : Str} {ast : Ast.Document} {e e' : Errors} {doc : Document} (cfg : OutputConfig)
    (h : fromAst src ast e = (some doc, e')) :
    ∀ x ∈ nodesTexts (transformDocument doc src cfg).nodes, KnownText src (e'.syntaxErrors = e.syntaxErrors) x :=
  transform_known_of cfg h (fromAst_texts h)

end Mty
