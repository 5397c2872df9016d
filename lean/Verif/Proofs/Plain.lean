import Verif.Proofs.Paragraphs
import Verif.Proofs.Infer
import Verif.Model.Convert

/-! # Paragraphs have no selectors, in built documents and up to inference -/

set_option autoImplicit false

namespace Mty
open Build Spec

theorem plain_addLine (fp : Bool) (out line : List Node) (r : Range) (e : Nat)
    (ho : ∀ n ∈ out, PlainParagraphs n) (hl : ∀ n ∈ line, PlainParagraphs n) :
    ∀ n ∈ Build.addLine out line r e fp, PlainParagraphs n := by
  have hsp : ∀ n, n = paragraphSep e r.start → PlainParagraphs n := by
    rintro n rfl; exact .text
  rcases addLine_cases fp out line r e with ⟨o, rg, hd, ch, rfl, hc, h⟩ | h | ⟨hfp, sep, hsep, h⟩ | ⟨hs, sep, hsep, h⟩
  · rw [h]
    intro n hn
    rcases List.mem_append.1 hn with hn | hn
    · exact ho n (List.mem_append_left _ hn)
    · simp only [List.mem_singleton] at hn
      subst hn
      have hlast := ho _ (List.mem_append_right _ (List.mem_singleton.2 rfl))
      cases hlast with
      | elem k1 k2 =>
        refine .elem (fun e => k1 e) fun x hx => ?_
        rcases List.mem_append.1 hx with hx | hx
        · exact k2 x hx
        · rcases List.mem_cons.1 hx with rfl | hx
          · exact .text
          · exact hl x hx
  · rw [h]; exact ho
  · rw [h]
    intro n hn
    simp only [List.mem_append, List.mem_singleton] at hn
    rcases hn with (hn | hn) | rfl
    · exact ho n hn
    · exact hsp n (hsep n hn)
    · exact .elem (fun _ => rfl) hl
  · rw [h]
    intro n hn
    simp only [List.mem_append] at hn
    rcases hn with (hn | hn) | hn
    · exact ho n hn
    · exact hsp n (hsep n hn)
    · exact hl n hn

def plainInv (src : Str) : DocInv src where
  Q n := PlainParagraphs n
  QC _ ns := ∀ n ∈ ns, PlainParagraphs n
  G _ := True
  split _ := ⟨trivial, trivial⟩
  line h ch c hty _ hch := .elem (by simp [hty]) hch
  lineBlock h ch c b hty _ hch := .elem (by simp [hty]) hch
  block h ch b hty _ hch := .elem (by simp [hty]) hch
  space r := .text
  nil fp := by simp
  blank fp out a b h := by
    intro n hn
    rcases List.mem_append.1 hn with hn | hn
    · exact h n hn
    · simp only [List.mem_singleton] at hn
      subst hn
      exact .text
  addLine fp out line r e es _ _ ho hl := plain_addLine fp out line r e ho hl
  text r t _ _ _ := .text
  comment r t := .text
  multiline h r t k _ _ _ hty _ _ := .elem (by simp [hty]) (by simp only [List.mem_singleton, forall_eq]; exact .text)
  code h r t _ _ _ hty _ _ := .elem (by simp [hty]) (by simp only [List.mem_singleton, forall_eq]; exact .text)
  special h ch k hty _ _ hch := .elem (by simp [hty]) hch
  inline h ch hty _ hch := .elem (by simp [hty]) hch
  inlineFirst r r' h ch d hty h' := by
    cases h' with
    | elem k1 k2 => exact .elem (by simp) k2

theorem fromAst_plain {src : Str} {ast : Ast.Document} {e e' : Errors} {doc : Document}
    (h : fromAst src ast e = (some doc, e')) : ∀ n ∈ doc.nodes, PlainParagraphs n :=
  (((plainInv src).fromAst_inv (fun _ => trivial) ast).document h).choose_spec.1 trivial

theorem specialHead_ty (c : SpecialTagConfig) (h : EHead) : (specialHead c h).ty = h.ty := by
  unfold specialHead EHead.applyTags
  split <;> (try rfl) <;> (split <;> (try rfl) <;> (split <;> rfl))

theorem specialHead_paragraph (c : SpecialTagConfig) (h : EHead) (hp : h.ty = .paragraph) : specialHead c h = h := by
  unfold specialHead
  rw [hp]

theorem specialNodes_eq (c : SpecialTagConfig) (ns : List Node) : specialNodes c ns = ns.map (specialNode c) := by
  induction ns with
  | nil => rfl
  | cons n ns ih => simp [specialNodes, ih]

theorem specialNode_plain (c : SpecialTagConfig) (n : Node) (h : PlainParagraphs n) :
    PlainParagraphs (specialNode c n) := by
  induction h with
  | text => exact .text
  | elem h1 h2 ih =>
    rw [specialNode]
    refine .elem (fun e => ?_) fun x hx => ?_
    · rw [specialHead_ty] at e
      rw [specialHead_paragraph c _ e]
      exact h1 e
    · rw [specialNodes_eq] at hx
      obtain ⟨y, hy, rfl⟩ := List.mem_map.1 hx
      exact ih y hy

theorem children_plain {n : Node} (h : PlainParagraphs n) : ∀ c ∈ n.children, PlainParagraphs c := by
  cases h with
  | text => simp [Node.children]
  | elem _ h2 => exact h2

theorem splitPage_plain (src : Str) : ∀ ns : List Node, (∀ n ∈ ns, PlainParagraphs n) →
    (∀ n ∈ (splitPage src ns).1, PlainParagraphs n) ∧ (∀ n ∈ (splitPage src ns).2, PlainParagraphs n)
  | [], _ => by simp [splitPage]
  | n :: ns, h => by
    have ih := splitPage_plain src ns fun x hx => h x (List.mem_cons_of_mem _ hx)
    have hn := h n (List.mem_cons_self ..)
    rw [splitPage]
    split
    rename_i head body heq
    rw [heq] at ih
    dsimp only at *
    split
    · refine ⟨fun x hx => ?_, ih.2⟩
      rcases List.mem_append.1 hx with hx | hx
      · exact children_plain hn x hx
      · exact ih.1 x hx
    · split
      · refine ⟨fun x hx => ?_, ih.2⟩
        rcases List.mem_cons.1 hx with rfl | hx
        · exact hn
        · exact ih.1 x hx
      · refine ⟨ih.1, fun x hx => ?_⟩
        rcases List.mem_cons.1 hx with rfl | hx
        · exact hn
        · exact ih.2 x hx

theorem pageElement_ty (t : Str) : (pageElement t).ty = .unknown := by
  unfold pageElement EHead.applyTags
  split
  · rfl
  · split <;> rfl

theorem completePage_plain (src : Str) (doc : Document) (h : ∀ n ∈ doc.nodes, PlainParagraphs n) :
    ∀ n ∈ (completePage src doc).nodes, PlainParagraphs n := by
  unfold completePage
  split
  · exact h
  · dsimp only
    intro n hn
    rw [List.mem_singleton] at hn
    subst hn
    refine .elem (by simp [pageElement_ty]) fun x hx => ?_
    split at hx
    · exact h x hx
    · have ih := splitPage_plain src doc.nodes h
      simp only [List.mem_cons, List.not_mem_nil, or_false] at hx
      rcases hx with rfl | rfl | rfl
      · exact .elem (by simp [pageElement_ty]) ih.1
      · exact .text
      · exact .elem (by simp [pageElement_ty]) ih.2

/-- The document that is given to tag inference. -/
def beforeInference (cfg : OutputConfig) (src : Str) (doc : Document) : Document :=
  if cfg.completePage.getD false then completePage src (applySpecialTags cfg doc) else applySpecialTags cfg doc

theorem beforeInference_plain (cfg : OutputConfig) (src : Str) (doc : Document)
    (h : ∀ n ∈ doc.nodes, PlainParagraphs n) : ∀ n ∈ (beforeInference cfg src doc).nodes, PlainParagraphs n := by
  have h1 : ∀ n ∈ (applySpecialTags cfg doc).nodes, PlainParagraphs n := by
    intro n hn
    simp only [applySpecialTags, specialNodes_eq, List.mem_map] at hn
    obtain ⟨y, hy, rfl⟩ := hn
    exact specialNode_plain _ _ (h y hy)
  unfold beforeInference
  split
  · exact completePage_plain _ _ h1
  · exact h1

end Mty
