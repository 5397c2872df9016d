import Verif.Proofs.MetadataText
import Verif.Proofs.LangText
import Verif.Props.RefParser

/-!
# C27 and C28 in the output: attributes are inserted into tags, and nothing else changes

The specification is in `Spec/MetadataText.lean`.
-/

set_option autoImplicit false

namespace Mty
open Spec MetaText

/-- Nothing is inserted into the empty text. -/
theorem withAttributes_isEmpty {P : Str → Str → Prop} {a b : Str} (h : WithAttributes P a b) : b.isEmpty = a.isEmpty := by
  cases h with
  | nil => rfl
  | char => rfl
  | @inserted _ b name value _ hc _ =>
    obtain ⟨c, _, hc⟩ := hc
    cases a with
    | nil => cases hc
    | cons => rfl

/-- What two configurations give, if they differ only in attributes. -/
theorem results_with {P : Str → Str → Prop} (parse : Parser) (src : Str) (cfg cfg' : OutputConfig) (hf : cfg.failFast = cfg'.failFast)
    (ho : ∀ doc, (outputHtmlTo src (transformDocument doc src cfg) cfg).2 = (outputHtmlTo src (transformDocument doc src cfg') cfg').2 ∧
      WithAttributes P (outputHtmlTo src (transformDocument doc src cfg) cfg).1 (outputHtmlTo src (transformDocument doc src cfg') cfg').1) :
    (∀ err, convert parse src cfg = .error err ↔ convert parse src cfg' = .error err) ∧
    (∀ out out', convert parse src cfg = .ok out → convert parse src cfg' = .ok out' → WithAttributes P out out') ∧
    (convertTo parse src cfg []).2 = (convertTo parse src cfg' []).2 ∧
    WithAttributes P (convertTo parse src cfg []).1 (convertTo parse src cfg' []).1 ∧
    ForgivingAlike P (convertForgiving parse src cfg) (convertForgiving parse src cfg') := by
  have key : ∀ forgive, (convertToInternal parse src cfg forgive).2 = (convertToInternal parse src cfg' forgive).2 ∧
      WithAttributes P (convertToInternal parse src cfg forgive).1 (convertToInternal parse src cfg' forgive).1 := by
    intro forgive
    unfold convertToInternal
    rw [show Errors.new cfg = Errors.new cfg' by unfold Errors.new; rw [hf]]
    rcases Build.parseDocument parse src (Errors.new cfg') with ⟨_ | doc, e⟩
    · exact ⟨rfl, .nil⟩
    · obtain ⟨h1, h2⟩ := ho doc
      rcases ho1 : outputHtmlTo src (transformDocument doc src cfg) cfg with ⟨o, k⟩
      rcases ho2 : outputHtmlTo src (transformDocument doc src cfg') cfg' with ⟨o', k'⟩
      rw [ho1, ho2] at h1 h2
      dsimp only at h1 h2 ⊢
      subst h1
      rw [ho1, ho2]
      split
      · split
        · exact ⟨rfl, h2⟩
        · exact ⟨rfl, h2⟩
      · exact ⟨rfl, .nil⟩
  obtain ⟨k1, k2⟩ := key false
  obtain ⟨k3, k4⟩ := key true
  rcases h : convertToInternal parse src cfg false with ⟨o, r⟩
  rcases h' : convertToInternal parse src cfg' false with ⟨o', r'⟩
  rw [h, h'] at k1 k2
  dsimp only at k1 k2
  subst k1
  refine ⟨?_, ?_, by simp only [convertTo]; exact k3, by simp only [convertTo, List.nil_append]; exact k4, ?_⟩
  · rw [convert_eq h, convert_eq h']
    cases r <;> simp
  · rw [convert_eq h, convert_eq h']
    intro out out' g g'
    cases r with
    | error e => cases g
    | ok u => cases g; cases g'; exact k2
  · unfold convertForgiving
    rcases g : convertToInternal parse src cfg true with ⟨q, r⟩
    rcases g' : convertToInternal parse src cfg' true with ⟨q', r'⟩
    rw [g, g'] at k3 k4
    dsimp only at k3 k4 ⊢
    subst k3
    cases r with
    | ok u => exact k4
    | error e =>
      dsimp only
      rw [show q'.isEmpty = q.isEmpty from withAttributes_isEmpty k4]
      split
      · exact rfl
      · exact ⟨rfl, k4⟩

/-- **C28, in the output.** For every parser, source and configuration, converting with metadata attributes gives the same errors as
converting without, and the text written, also that beside errors and by a forgiving conversion, is the same but for metadata attributes that are inserted into tags. -/
theorem C28_output (parse : Parser) (src : Str) (cfg : OutputConfig) (m : MetadataConfig) (hm : m.elements = false) :
    (∀ err, convert parse src { cfg with metadata := none } = .error err ↔ convert parse src { cfg with metadata := some m } = .error err) ∧
    (∀ out out', convert parse src { cfg with metadata := none } = .ok out → convert parse src { cfg with metadata := some m } = .ok out' →
      WithMetadata out out') ∧
    (convertTo parse src { cfg with metadata := none } []).2 = (convertTo parse src { cfg with metadata := some m } []).2 ∧
    WithMetadata (convertTo parse src { cfg with metadata := none } []).1 (convertTo parse src { cfg with metadata := some m } []).1 ∧
    ForgivingAlike MetadataPair (convertForgiving parse src { cfg with metadata := none })
      (convertForgiving parse src { cfg with metadata := some m }) := by
  refine results_with parse src { cfg with metadata := none } { cfg with metadata := some m } rfl fun doc => ?_
  have hcx : ∀ (ns : List Node), processContent ns
      { cfg := { cfg with metadata := some m }, src, indentLevel := 0, fmtInline := false, isRaw := false } = processContent ns
      { cfg := { cfg with metadata := none }, src, indentLevel := 0, fmtInline := false, isRaw := false } := by
    intro ns
    unfold processContent
    exact congrArg contentActs (nodeActs_metadata (some m) ns
      { cfg := { cfg with metadata := none }, src, indentLevel := 0, fmtInline := false, isRaw := false })
  have h := contentActs_sim (nodes_sim metadata_plain _ _
    { cfg := { cfg with metadata := none }, src, indentLevel := 0, fmtInline := false, isRaw := false } (transform_ext cfg m hm src doc))
  unfold outputHtmlTo
  dsimp only
  rw [hcx]
  have := (Sim.seq (Sim.refl (if cfg.completePage.getD false then Act.write "<!DOCTYPE html>\n".toList else Act.skip))
    (Sim.seq h (Sim.refl (line { cfg := { cfg with metadata := none }, src, indentLevel := 0, fmtInline := false, isRaw := false })))) true
  exact ⟨this.2.1, this.2.2⟩

set_option maxRecDepth 20000 in
/-- With an attribute, an empty element and the language, which is added after the metadata. -/
example : convert RepoTests.parser "p[a=1]> <(br>)> x".toList { lang := some "en".toList } =
      .ok "<p a=\"1\" lang=\"en\"><br> x</p>".toList ∧
    convert RepoTests.parser "p[a=1]> <(br>)> x".toList { lang := some "en".toList, metadata := some { elements := false } } =
      .ok ("<p a=\"1\" xmlns:mty=\"tag:youngspe.github.io,2024:mintyml/metadata\" mty:start=\"0\" mty:end=\"17\" mty:content-start=\"7\"" ++
        " mty:content-end=\"17\" lang=\"en\"><br mty:start=\"8\" mty:end=\"15\" mty:content-start=\"13\" mty:content-end=\"13\"> x</p>").toList := by
  decide +kernel

/-- **C27, in the output.** For every parser, source and configuration, converting with a language of letters, digits and hyphens gives the
same errors as converting without, and the text written, also that beside errors and by a forgiving conversion, is the same but for the attributes `lang` that are inserted
into tags. -/
theorem C27_output (parse : Parser) (src : Str) (cfg : OutputConfig) (lang : Str) (hl : LangCode lang) :
    (∀ err, convert parse src { cfg with lang := none } = .error err ↔ convert parse src { cfg with lang := some lang } = .error err) ∧
    (∀ out out', convert parse src { cfg with lang := none } = .ok out → convert parse src { cfg with lang := some lang } = .ok out' →
      WithAttributes (LangPair lang) out out') ∧
    (convertTo parse src { cfg with lang := none } []).2 = (convertTo parse src { cfg with lang := some lang } []).2 ∧
    WithAttributes (LangPair lang) (convertTo parse src { cfg with lang := none } []).1
      (convertTo parse src { cfg with lang := some lang } []).1 ∧
    ForgivingAlike (LangPair lang) (convertForgiving parse src { cfg with lang := none })
      (convertForgiving parse src { cfg with lang := some lang }) := by
  refine results_with parse src { cfg with lang := none } { cfg with lang := some lang } rfl fun doc => ?_
  have hcx : ∀ (ns : List Node), processContent ns
      { cfg := { cfg with lang := some lang }, src, indentLevel := 0, fmtInline := false, isRaw := false } = processContent ns
      { cfg := { cfg with lang := none }, src, indentLevel := 0, fmtInline := false, isRaw := false } := by
    intro ns
    unfold processContent
    exact congrArg contentActs (nodeActs_lang (some lang) ns
      { cfg := { cfg with lang := none }, src, indentLevel := 0, fmtInline := false, isRaw := false })
  have h := contentActs_sim (nodes_sim (lang_plain hl) _ _
    { cfg := { cfg with lang := none }, src, indentLevel := 0, fmtInline := false, isRaw := false } (transform_lang cfg lang src doc))
  unfold outputHtmlTo
  dsimp only
  rw [hcx]
  have := (Sim.seq (Sim.refl (if cfg.completePage.getD false then Act.write "<!DOCTYPE html>\n".toList else Act.skip))
    (Sim.seq h (Sim.refl (line { cfg := { cfg with lang := none }, src, indentLevel := 0, fmtInline := false, isRaw := false })))) true
  exact ⟨this.2.1, this.2.2⟩

set_option maxRecDepth 20000 in
/-- A language meets the hypothesis; an attribute that is there stays, and so does an element without a `lang`. -/
example : LangCode "en-GB".toList ∧
    convert RepoTests.parser "p[a=1]> <(br>)> x".toList {} = .ok "<p a=\"1\"><br> x</p>".toList ∧
    convert RepoTests.parser "p[a=1]> <(br>)> x".toList { lang := some "en-GB".toList } =
      .ok "<p a=\"1\" lang=\"en-GB\"><br> x</p>".toList := by
  refine ⟨by unfold LangCode; decide, ?_⟩
  decide +kernel

/-- The output of a forgiving conversion that reports errors, if there is one. -/
def besideErrors : Except (Option Str × ConvertError) Str → Option Str
  | .error (out, _) => out
  | .ok _ => none

set_option maxRecDepth 20000 in
/-- Beside errors. -/
example : besideErrors (convertForgiving RepoTests.parser "p> a\n\n<( c".toList {}) = some "<p>a</p> <p><span>c</span></p>".toList ∧
    besideErrors (convertForgiving RepoTests.parser "p> a\n\n<( c".toList { lang := some "en".toList }) =
      some "<p lang=\"en\">a</p> <p lang=\"en\"><span>c</span></p>".toList := by
  decide +kernel

set_option maxRecDepth 20000 in
/-- Other languages do not meet the hypothesis: they can keep a source from being converted. -/
example : (convert RepoTests.parser "p> x".toList {}).toOption = some "<p>x</p>".toList ∧
    (convert RepoTests.parser "p> x".toList { lang := some "\\q".toList }).toOption = none := by
  decide +kernel

end Mty
