import Verif.Spec.Forms
import Verif.Proofs.Usable
import Verif.Proofs.Paragraphs
import Verif.Proofs.Convert

/-! # Documents under special tags that differ only for forms that are not used (for C95) -/

set_option autoImplicit false

namespace Mty.Forms
open Spec Grammar

/-! ## The writer does not look at the special tags -/

/-- The context with another special tags. -/
def _root_.Mty.OutCx.withTags (cx : OutCx) (b : SpecialTagConfig) : OutCx := { cx with cfg := { cx.cfg with specialTags := b } }

theorem writeAttributes_tags (cx : OutCx) (b : SpecialTagConfig) : ∀ l,
    writeAttributes (cx.withTags b) l = writeAttributes cx l
  | [] => rfl
  | (n, v) :: l => by
    simp only [writeAttributes, writeAttributes_tags cx b l]; rfl

theorem writeMoreClasses_tags (cx : OutCx) (b : SpecialTagConfig) : ∀ l,
    writeMoreClasses (cx.withTags b) l = writeMoreClasses cx l
  | [] => rfl
  | c :: l => by
    simp only [writeMoreClasses, writeMoreClasses_tags cx b l]; rfl

theorem writeOpenTag_tags (cx : OutCx) (b : SpecialTagConfig) (t : Str) (s : Selector) (c : Bool) :
    writeOpenTag (cx.withTags b) t s c = writeOpenTag cx t s c := by
  simp only [writeOpenTag, writeAttributes_tags, writeMoreClasses_tags]; rfl

theorem writeOpenTags_tags (cx : OutCx) (b : SpecialTagConfig) (c : Bool) : ∀ l,
    writeOpenTags (cx.withTags b) c l = writeOpenTags cx c l
  | [] => rfl
  | (t, s) :: l => by
    simp only [writeOpenTags, writeOpenTags_tags cx b c l, writeOpenTag_tags]; rfl

theorem writeCloseTags_tags (cx : OutCx) (b : SpecialTagConfig) (c : Bool) : ∀ l,
    writeCloseTags (cx.withTags b) c l = writeCloseTags cx c l
  | [] => rfl
  | (t, s) :: l => by
    simp only [writeCloseTags, writeCloseTags_tags cx b c l]; rfl

theorem indent_tags (cx : OutCx) (b : SpecialTagConfig) (n : Nat) :
    (cx.withTags b).indent n = (cx.indent n).withTags b := by
  unfold OutCx.indent
  show (if (!cx.fmtInline && cx.cfg.indent.isSome) = true then _ else _) = _
  split <;> rfl

theorem elementAct_tags (cx : OutCx) (b : SpecialTagConfig) (h : EHead) (e : Bool) (c : OutCx → Act)
    (hc : ∀ cx', c (cx'.withTags b) = c cx') : elementAct (cx.withTags b) h e c = elementAct cx h e c := by
  have hin : (cx.withTags b).inContent h = (cx.inContent h).withTags b := rfl
  simp only [elementAct, hin, indent_tags, hc, writeOpenTags_tags, writeCloseTags_tags]
  rfl

mutual
  theorem processNode_tags (b : SpecialTagConfig) : ∀ (n : Node) (cx : OutCx),
      processNode n (cx.withTags b) = processNode n cx
    | .text _ t, cx => by simp only [processNode]; cases t <;> rfl
    | .elem _ h ch, cx => by
      simp only [processNode]
      exact elementAct_tags cx b h _ _ fun cx' => by rw [nodeActs_tags b ch cx']
  theorem nodeActs_tags (b : SpecialTagConfig) : ∀ (ns : List Node) (cx : OutCx),
      nodeActs ns (cx.withTags b) = nodeActs ns cx
    | [], cx => by simp only [nodeActs]
    | n :: ns, cx => by simp only [nodeActs, processNode_tags b n, nodeActs_tags b ns]
end

/-- The writer does not look at special tags. -/
theorem output_tags (src : Str) (doc : Document) (cfg : OutputConfig) (b : SpecialTagConfig) :
    outputHtmlTo src doc { cfg with specialTags := b } = outputHtmlTo src doc cfg := by
  have := nodeActs_tags b doc.nodes
    { cfg, src, indentLevel := 0, fmtInline := false, isRaw := false }
  simp only [OutCx.withTags] at this
  simp only [outputHtmlTo, processContent, this]
  rfl

/-! ## From the syntax tree to the document -/

variable {c c' : SpecialTagConfig} {src : Str}

/-- The same tag is taken for the form. -/
def Agree (c c' : SpecialTagConfig) (k : SpecialKind) : Prop := specialTagName c k = specialTagName c' k

/-- The same tags are taken for elements of the type. -/
def FitsType (c c' : SpecialTagConfig) : ElementType → Prop
  | .special k => Agree c c' k
  | .multiline .code => Agree c c' .codeBlockContainer ∧ Agree c c' .code
  | _ => True

/-- The same at any depth. -/
inductive Fits (c c' : SpecialTagConfig) : Node → Prop
  | text {r x} : Fits c c' (.text r x)
  | elem {r h ch} : FitsType c c' h.ty → (∀ n ∈ ch, Fits c c' n) → Fits c c' (.elem r h ch)

theorem fits_addLine (fp : Bool) (out line : List Node) (r : Range) (e : Nat)
    (ho : ∀ n ∈ out, Fits c c' n) (hl : ∀ n ∈ line, Fits c c' n) : ∀ n ∈ Build.addLine out line r e fp, Fits c c' n := by
  have hsp : ∀ n, n = paragraphSep e r.start → Fits c c' n := by
    rintro n rfl; exact .text
  rcases addLine_cases fp out line r e with ⟨o, rg, hd, ch, rfl, hc, h⟩ | h | ⟨hfp, sep, hsep, h⟩ | ⟨hs, sep, hsep, h⟩
  · rw [h]
    intro n hn
    rcases List.mem_append.1 hn with hn | hn
    · exact ho n (List.mem_append_left _ hn)
    · simp only [List.mem_singleton] at hn
      subst hn
      have hlast := ho _ (List.mem_append_right _ (List.mem_singleton.2 rfl))
      cases hlast with
      | elem k1 k2 =>
        refine .elem k1 fun x hx => ?_
        rcases List.mem_append.1 hx with hx | hx
        · exact k2 x hx
        · rcases List.mem_cons.1 hx with rfl | hx
          · exact .text
          · exact hl x hx
  · rw [h]; exact ho
  · rw [h]
    intro n hn
    simp only [List.mem_append, List.mem_singleton] at hn
    rcases hn with (hn | hn) | rfl
    · exact ho n hn
    · exact hsp n (hsep n hn)
    · exact .elem trivial hl
  · rw [h]
    intro n hn
    simp only [List.mem_append] at hn
    rcases hn with (hn | hn) | hn
    · exact ho n hn
    · exact hsp n (hsep n hn)
    · exact hl n hn

def fitsInv (c c' : SpecialTagConfig) (src : Str) : DocInv src where
  A ty := FitsType c c' ty
  Q n := Fits c c' n
  QC _ ns := ∀ n ∈ ns, Fits c c' n
  G _ := True
  split _ := ⟨trivial, trivial⟩
  line h ch c hty _ hch := .elem (by simp [hty, FitsType]) hch
  lineBlock h ch c b hty _ hch := .elem (by simp [hty, FitsType]) hch
  block h ch b hty _ hch := .elem (by simp [hty, FitsType]) hch
  space r := .text
  nil fp := by simp
  blank fp out a b h := by
    intro n hn
    rcases List.mem_append.1 hn with hn | hn
    · exact h n hn
    · simp only [List.mem_singleton] at hn
      subst hn
      exact .text
  addLine fp out line r e es _ _ ho hl := fits_addLine fp out line r e ho hl
  text r t _ _ _ := .text
  comment r t := .text
  multiline h r t k _ _ _ hty ha _ := .elem ha (by simp only [List.mem_singleton, forall_eq]; exact .text)
  code h r t _ _ _ hty ha _ := .elem ha (by simp only [List.mem_singleton, forall_eq]; exact .text)
  special h ch k hty ha _ hch := .elem ha hch
  inline h ch hty _ hch := .elem (by simp [hty, FitsType]) hch
  inlineFirst r r' h ch d hty h' := by
    cases h' with
    | elem k1 k2 => exact .elem trivial k2

/-- All nodes, at any depth, are in forms with the same tags. -/
def AllFit (c c' : SpecialTagConfig) (ns : List Ast.Node) : Prop :=
  ∀ n ∈ ns, match n with | .mk _ _ _ ty => ∀ k ∈ formsOf ty, Agree c c' k

theorem fromAst_fits {ast : Ast.Document} {e e' : Errors} {doc : Document} (h : Build.fromAst src ast e = (some doc, e'))
    (hg : AllFit c c' (allNodes ast)) : ∀ n ∈ doc.nodes, Fits c c' n := by
  refine (((fitsInv c c' src).fromAst_inv_of ast ?_).document h).choose_spec.1 trivial
  intro sp a b ty hm
  have hf : ∀ k ∈ formsOf ty, Agree c c' k := hg _ hm
  match ty, hf with
  | .special f _ _ _, hf =>
    have hk := hf (formKind f) (by simp [formsOf])
    cases f <;> exact hk
  | .code _, hf => exact hf _ (by simp [formsOf])
  | .multiline .code _ _, hf => exact ⟨hf _ (by simp [formsOf]), hf _ (by simp [formsOf])⟩
  | .multiline .escaped _ _, _ => exact trivial
  | .multiline .unescaped _ _, _ => exact trivial
  | .text _, _ => exact trivial
  | .selector _, _ => exact trivial
  | .line _, _ => exact trivial
  | .block _ _ _, _ => exact trivial
  | .inline _ _ _, _ => exact trivial

/-! ## The special tags of the document -/

theorem head_fits {h : EHead} (ht : FitsType c c' h.ty) : specialHead c h = specialHead c' h := by
  unfold specialHead
  revert ht
  generalize h.ty = ty
  intro ht
  match ty, ht with
  | .special k, ht => dsimp only; rw [show specialTagName c k = _ from ht]
  | .multiline .code, ht => dsimp only; rw [show specialTagName c _ = _ from ht.1, show specialTagName c _ = _ from ht.2]
  | .multiline .escaped, _ => rfl
  | .multiline .unescaped, _ => rfl
  | .paragraph, _ => rfl
  | .standard _, _ => rfl
  | .inline _, _ => rfl
  | .unknown, _ => rfl

mutual
  theorem node_special : ∀ n : Node, Fits c c' n → specialNode c n = specialNode c' n
    | .text _ _, _ => by rw [specialNode, specialNode]
    | .elem r h ch, hf => by
      have h1 : FitsType c c' h.ty := by cases hf with | elem h1 h2 => exact h1
      have h2 : ∀ n ∈ ch, Fits c c' n := by cases hf with | elem h1 h2 => exact h2
      rw [specialNode, specialNode, head_fits h1, nodes_special ch h2]
  theorem nodes_special : ∀ ns : List Node, (∀ n ∈ ns, Fits c c' n) → specialNodes c ns = specialNodes c' ns
    | [], _ => by rw [specialNodes, specialNodes]
    | n :: ns, hf => by
      rw [specialNodes, specialNodes, node_special n (hf n (by simp)), nodes_special ns fun x hx => hf x (by simp [hx])]
end

/-! ## Marks in the source -/

theorem marked_exact {m : Str} {r : Range} (h : reads src (Pat.exact m) r = true) : m <:+: src := by
  obtain ⟨b, x, a, rfl, -, h3⟩ := reads_iff.mp h
  obtain ⟨rfl, -⟩ := exact_some h3
  exact ⟨b, a, by simp⟩

theorem marked_seq {m : Str} {q : Pat} {r : Range} (h : reads src (Pat.seq (Pat.exact m) q) r = true) : m <:+: src := by
  obtain ⟨b, x, a, rfl, -, h3⟩ := reads_iff.mp h
  obtain ⟨m1, r1, m2, h1, -, h2⟩ := seq_some h3
  obtain ⟨rfl, -⟩ := exact_some h1
  exact ⟨b, m2 ++ a, by rw [h2]; simp⟩

/-- The marks of the forms of a node are in the source. -/
def MarkedAll (src : Str) (ns : List Ast.Node) : Prop := ∀ n ∈ ns, match n with | .mk _ _ _ ty => ∀ k ∈ formsOf ty, Marked src k

theorem marked_type {alnum : Char → Bool} {a b : Nat} {ty : Ast.NodeType} (h : typeOk alnum src a b ty = true) :
    ∀ k ∈ formsOf ty, Marked src k := by
  cases ty with
  | special f o ct c =>
    obtain ⟨s, lines, e⟩ := ct
    simp only [typeOk, Bool.and_eq_true] at h
    have := marked_exact h.1.1.1.2
    simp only [formsOf, List.mem_singleton, forall_eq]
    refine ⟨_, ?_, this⟩
    cases f <;> simp [specialDelims, formKind, marksOf]
  | code r =>
    simp only [typeOk, Bool.and_eq_true, Lex.inlineCode] at h
    simp only [formsOf, List.mem_singleton, forall_eq]
    exact ⟨_, by simp [marksOf], marked_seq h.2⟩
  | multiline k s e =>
    cases k with
    | code =>
      simp only [typeOk, Bool.and_eq_true, Lex.multilineOpen] at h
      have : "```".toList <:+: src := marked_seq h.1.1
      intro k hk
      simp only [formsOf, List.mem_cons, List.not_mem_nil, or_false] at hk
      rcases hk with rfl | rfl <;> exact ⟨_, by simp [marksOf], this⟩
    | _ => simp [formsOf]
  | _ => simp [formsOf]

mutual
  theorem markedAll_type (alnum : Char → Bool) (src : Str) : ∀ (ty : Ast.NodeType) (a b : Nat), typeOk alnum src a b ty = true →
      MarkedAll src (allOfType ty)
    | .multiline k s e, a, b, _ => by simp [allOfType, MarkedAll]
    | .text t, a, b, _ => by simp [allOfType, MarkedAll]
    | .selector s, a, b, _ => by simp [allOfType, MarkedAll]
    | .line c, a, b, _ => by simp [allOfType, MarkedAll]
    | .code c, a, b, _ => by simp [allOfType, MarkedAll]
    | .block l (.mk s lines e) r, a, b, h => by
      simp only [typeOk, Bool.and_eq_true] at h
      exact markedAll_lines alnum src lines true s e h.1.2
    | .special f l (.mk s lines e) r, a, b, h => by
      simp only [typeOk, Bool.and_eq_true] at h
      exact markedAll_lines alnum src lines true s e h.1.2
    | .inline o inner c, a, b, h => by
      simp only [typeOk, Bool.and_eq_true] at h
      exact markedAll_nodes alnum src inner _ _ h.1.2
  theorem markedAll_nodes (alnum : Char → Bool) (src : Str) : ∀ (ns : List Ast.Node) (p q : Nat),
      nodesOk alnum src p q ns = true → MarkedAll src (allOf ns)
    | [], p, q, h => by simp [allOf, MarkedAll]
    | .mk sp a b ty :: ns, p, q, h => by
      simp only [nodesOk, Bool.and_eq_true] at h
      have c1 := markedAll_type alnum src ty a b h.1.2
      have c2 := markedAll_nodes alnum src ns b q h.2
      have c3 := marked_type h.1.2
      intro n hn
      rw [allOf] at hn
      simp only [List.mem_cons, List.mem_append] at hn
      rcases hn with rfl | hn | hn
      · exact c3
      · exact c1 n hn
      · exact c2 n hn
  theorem markedAll_lines (alnum : Char → Bool) (src : Str) : ∀ (ls : List Ast.Line) (first : Bool) (p q : Nat),
      linesOk alnum src first p q ls = true → MarkedAll src (allOfLines ls)
    | [], first, p, q, _ => by simp [allOfLines, MarkedAll]
    | .mk s ns e :: ls, first, p, q, h => by
      simp only [linesOk, Bool.and_eq_true] at h
      have c1 := markedAll_nodes alnum src ns _ _ h.1.1.2
      have c2 := markedAll_lines alnum src ls false e q h.2
      intro n hn
      rw [allOfLines, List.mem_append] at hn
      rcases hn with hn | hn
      · exact c1 n hn
      · exact c2 n hn
end

/-- The forms that a tree of the grammar uses are marked in the source. -/
theorem uses_marked {alnum : Char → Bool} {ast : Ast.Document} (hc : Conforms alnum src ast = true) {k : SpecialKind} (hu : Uses ast k) :
    Marked src k := by
  obtain ⟨⟨s, lines, t⟩⟩ := ast
  simp only [Conforms, Bool.and_eq_true] at hc
  obtain ⟨sp, a, b, ty, h1, h2⟩ := hu
  exact markedAll_lines alnum src lines true s t hc.1.2 _ h1 k h2

end Mty.Forms
