import Verif.Proofs.MetadataText
import Verif.Proofs.Page

/-! # Writing a document with a language (for C27) -/

set_option autoImplicit false

namespace Mty.MetaText
open Spec

/-! ## The writer does not look at the language -/

/-- The context with another language. -/
def _root_.Mty.OutCx.withLang (cx : OutCx) (b : Option Str) : OutCx := { cx with cfg := { cx.cfg with lang := b } }

theorem writeAttributes_lang (cx : OutCx) (b : Option Str) : ∀ l,
    writeAttributes (cx.withLang b) l = writeAttributes cx l
  | [] => rfl
  | (n, v) :: l => by
    simp only [writeAttributes, writeAttributes_lang cx b l]; rfl

theorem writeMoreClasses_lang (cx : OutCx) (b : Option Str) : ∀ l,
    writeMoreClasses (cx.withLang b) l = writeMoreClasses cx l
  | [] => rfl
  | c :: l => by
    simp only [writeMoreClasses, writeMoreClasses_lang cx b l]; rfl

theorem writeOpenTag_lang (cx : OutCx) (b : Option Str) (t : Str) (s : Selector) (c : Bool) :
    writeOpenTag (cx.withLang b) t s c = writeOpenTag cx t s c := by
  simp only [writeOpenTag, writeAttributes_lang, writeMoreClasses_lang]; rfl

theorem writeOpenTags_lang (cx : OutCx) (b : Option Str) (c : Bool) : ∀ l,
    writeOpenTags (cx.withLang b) c l = writeOpenTags cx c l
  | [] => rfl
  | (t, s) :: l => by
    simp only [writeOpenTags, writeOpenTags_lang cx b c l, writeOpenTag_lang]; rfl

theorem writeCloseTags_lang (cx : OutCx) (b : Option Str) (c : Bool) : ∀ l,
    writeCloseTags (cx.withLang b) c l = writeCloseTags cx c l
  | [] => rfl
  | (t, s) :: l => by
    simp only [writeCloseTags, writeCloseTags_lang cx b c l]; rfl

theorem indent_lang (cx : OutCx) (b : Option Str) (n : Nat) :
    (cx.withLang b).indent n = (cx.indent n).withLang b := by
  unfold OutCx.indent
  show (if (!cx.fmtInline && cx.cfg.indent.isSome) = true then _ else _) = _
  split <;> rfl

theorem elementAct_lang (cx : OutCx) (b : Option Str) (h : EHead) (e : Bool) (c : OutCx → Act)
    (hc : ∀ cx', c (cx'.withLang b) = c cx') : elementAct (cx.withLang b) h e c = elementAct cx h e c := by
  have hin : (cx.withLang b).inContent h = (cx.inContent h).withLang b := rfl
  simp only [elementAct, hin, indent_lang, hc, writeOpenTags_lang, writeCloseTags_lang]
  rfl

mutual
  theorem processNode_lang (b : Option Str) : ∀ (n : Node) (cx : OutCx),
      processNode n (cx.withLang b) = processNode n cx
    | .text _ t, cx => by simp only [processNode]; cases t <;> rfl
    | .elem _ h ch, cx => by
      simp only [processNode]
      exact elementAct_lang cx b h _ _ fun cx' => by rw [nodeActs_lang b ch cx']
  theorem nodeActs_lang (b : Option Str) : ∀ (ns : List Node) (cx : OutCx),
      nodeActs ns (cx.withLang b) = nodeActs ns cx
    | [], cx => by simp only [nodeActs]
    | n :: ns, cx => by simp only [nodeActs, processNode_lang b n, nodeActs_lang b ns]
end

/-! ## The document with a language -/

theorem lang_plain {l : Str} (hl : LangCode l) : Plain (LangPair l) := by
  rintro n l' ⟨rfl, rfl⟩ xml
  refine ⟨writeUnescape_ok (noBackslash (by decide)), ?_⟩
  rw [writeEscapeUnescape_ok (unescapes_code fun c hm => (langCode_char (hl _ hm)).1), escWriteStr_eq]
  congr 1
  induction l' with
  | nil => rfl
  | cons c l ih => rw [List.flatMap_cons, (langCode_char (hl c (by simp))).2, ih fun c hc => hl c (by simp [hc])]; rfl

variable {P : Str → Str → Prop}

mutual
  theorem Ext.refl : ∀ n : Node, Ext P n n
    | .text r t => by rw [Ext]
    | .elem r h ch => by
      rw [Ext]
      exact ⟨⟨h.selectors, rfl, List.forall₂_same.2 fun s _ => SelExt.refl s⟩, Exts.refl ch⟩
  theorem Exts.refl : ∀ ns : List Node, Exts P ns ns
    | [] => by rw [Exts]
    | n :: ns => by
      rw [Exts]
      exact ⟨Ext.refl n, Exts.refl ns⟩
end

theorem langSelectors_ext (l : Str) : ∀ ss : List Selector, List.Forall₂ (SelExt (LangPair l)) ss (langSelectors l ss)
  | [] => .nil
  | s :: ss => by
    rw [langSelectors]
    split
    · refine .cons ⟨rfl, ?_, ?_, s.attributes, [(.provided "lang".toList, some (.provided l))], [], by simp, ?_, ?_⟩
        (List.forall₂_same.2 fun s _ => SelExt.refl s)
      · simp only [Selector.id, List.findSome?_append]
        cases List.findSome? _ s.items <;> rfl
      · simp [Selector.classNames]
      · simp [Selector.attributes]
      · intro x hx
        simp only [List.mem_singleton] at hx
        exact ⟨_, _, ⟨rfl, rfl⟩, hx⟩
    · exact .cons (SelExt.refl s) (langSelectors_ext l ss)

theorem langNode_ext (l : Str) : ∀ n : Node, Ext (LangPair l) n (langNode l n)
  | .text r t => by rw [langNode, Ext]
  | .elem r h ch => by
    rw [langNode, Ext]
    exact ⟨⟨_, rfl, langSelectors_ext l _⟩, Exts.refl ch⟩

theorem langNodes_ext (l : Str) : ∀ ns : List Node, Exts (LangPair l) ns (ns.map (langNode l))
  | [] => by simp [Exts]
  | n :: ns => by
    simp only [List.map_cons, Exts]
    exact ⟨langNode_ext l n, langNodes_ext l ns⟩

theorem transform_lang (cfg : OutputConfig) (l : Str) (src : Str) (doc : Document) :
    Exts (LangPair l) (transformDocument doc src { cfg with lang := none }).nodes (transformDocument doc src { cfg with lang := some l }).nodes := by
  rw [transformDocument_eq, transformDocument_eq]
  exact langNodes_ext l _

end Mty.MetaText
