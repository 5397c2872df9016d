import Verif.Proofs.Configured
import Verif.Props.Pieces
import Verif.Props.Page
import Verif.Props.PartsErrors

/-!
# C93: whether a source can be converted does not depend on the configuration

The property as a whole is not true of the code: ids, classes and attributes with invalid escapes are only found when they are written, and
which are written depends on the completion of the page (`C93_page`), the names of special elements (`C93_special`) and metadata elements
(`C93_metadata_elements`); and the language is read as if it were written in a source (`C93_language`).
-/

set_option autoImplicit false

namespace Mty
open Spec

/-- Without metadata elements, with a language in which all escapes are valid, what can be written is decided before language and metadata are
added. -/
theorem written_fine (cfg : OutputConfig) (src : Str) (doc : Document) (hm : ∀ m, cfg.metadata = some m → m.elements = false)
    (hl : ∀ l, cfg.lang = some l → ∃ u, Unescapes Accepted l u) :
    (∀ p ∈ namedSelectors (transformDocument doc src cfg).nodes, ∃ attrs, AttrsRead cfg.isXml src p.2 attrs) ↔
      ∀ s ∈ nodesSelectors (Infer.infer src (toInfer cfg src doc)), FineSelector src s := by
  rw [named_iff, transformDocument_eq]
  generalize Infer.infer src (toInfer cfg src doc) = ns
  have h1 : ∀ ns : List Node, (∀ s ∈ nodesSelectors ((match cfg.metadata with | some m => (metaNodes m · true) | none => id) ns),
      FineSelector src s) ↔ ∀ s ∈ nodesSelectors ns, FineSelector src s := by
    intro ns
    cases h : cfg.metadata with
    | none => exact Iff.rfl
    | some m => exact metaNodes_fine (hm m h) ns true
  cases h : cfg.lang with
  | none => exact h1 ns
  | some l => exact (langs_fine (hl l h) _).trans (h1 ns)

/-- **C93, partial.** Two configurations that agree in the names of special elements and in whether a page is completed, and may differ in
everything else (XML, indentation, language, metadata, whether to stop at the first error): a source can be converted with one exactly if it
can with the other.

Missing: configurations that differ in the names of special elements or the completion of the page, metadata elements, and languages with
invalid escapes, for which it is false. -/
theorem C93_converts_partial (parse : Parser) (src : Str) (cfg cfg' : OutputConfig) (hs : cfg.specialTags = cfg'.specialTags)
    (hc : cfg.completePage.getD false = cfg'.completePage.getD false)
    (hm : ∀ m, cfg.metadata = some m → m.elements = false) (hm' : ∀ m, cfg'.metadata = some m → m.elements = false)
    (hl : ∀ l, cfg.lang = some l → ∃ u, Unescapes Accepted l u) (hl' : ∀ l, cfg'.lang = some l → ∃ u, Unescapes Accepted l u) :
    (∃ out, convert parse src cfg = .ok out) ↔ ∃ out, convert parse src cfg' = .ok out := by
  cases hp : parse src with
  | error pe => simp [convert_parse_error hp]
  | ok ast =>
    obtain ⟨doc, es, hl0, hw⟩ := build_cases src ast
    by_cases hn : es = []
    · subst hn
      have h1 := (C33_unknown hp (hw.1 rfl) (hl0.fastOk rfl (Errors.new cfg))).2
      have h2 := (C33_unknown hp (hw.1 rfl) (hl0.fastOk rfl (Errors.new cfg'))).2
      rw [h1, h2, written_fine cfg src doc hm hl, written_fine cfg' src doc hm' hl']
      have : toInfer cfg src doc = toInfer cfg' src doc := by
        unfold toInfer applySpecialTags
        rw [hs, hc]
      rw [this]
    · have no : ∀ c : OutputConfig, ¬ ∃ out, convert parse src c = .ok out := by
        rintro c ⟨out, h⟩
        obtain ⟨a, _, ha, hwf, _⟩ := (C08_ok_iff parse src c out).1 h
        rw [hp] at ha
        cases ha
        exact hn (hw.2 hwf)
      exact iff_of_false (no _) (no _)

/-- **C93, errors, partial.** If both stop at the first error or neither does, also the errors are the same. The same is missing. -/
theorem C93_errors_partial (parse : Parser) (src : Str) (cfg cfg' : OutputConfig) (hf : cfg.failFast = cfg'.failFast)
    (hs : cfg.specialTags = cfg'.specialTags) (hc : cfg.completePage.getD false = cfg'.completePage.getD false)
    (hm : ∀ m, cfg.metadata = some m → m.elements = false) (hm' : ∀ m, cfg'.metadata = some m → m.elements = false)
    (hl : ∀ l, cfg.lang = some l → ∃ u, Unescapes Accepted l u) (hl' : ∀ l, cfg'.lang = some l → ∃ u, Unescapes Accepted l u)
    (err : ConvertError) : convert parse src cfg = .error err ↔ convert parse src cfg' = .error err := by
  have one : ∀ c c' : OutputConfig, c.failFast = c'.failFast →
      ((∃ out, convert parse src c = .ok out) ↔ ∃ out, convert parse src c' = .ok out) →
      convert parse src c = .error err → convert parse src c' = .error err := by
    intro c c' hf hk h
    cases h' : convert parse src c' with
    | ok out =>
      obtain ⟨o, ho⟩ := hk.2 ⟨out, h'⟩
      rw [ho] at h
      cases h
    | error err' =>
      have syn := fun es s => C67_errors parse src c c' hf es s
      rcases C08_error_cases parse src c err h with ⟨pe, _, rfl⟩ | ⟨_, es, _, _, _, rfl⟩ | ⟨_, _, _, rfl⟩
      · rw [← h', (syn _ _).1 h]
      · rw [← h', (syn _ _).1 h]
      · rcases C08_error_cases parse src c' err' h' with ⟨pe, _, rfl⟩ | ⟨_, es, _, _, _, rfl⟩ | ⟨_, _, _, rfl⟩
        · rw [(syn _ _).2 h'] at h
          cases h
        · rw [(syn _ _).2 h'] at h
          cases h
        · rfl
  have k := C93_converts_partial parse src cfg cfg' hs hc hm hm' hl hl'
  exact ⟨one cfg cfg' hf k, one cfg' cfg hf.symm k.symm⟩

/-! ## Cases -/

/-- Two configurations that meet the hypotheses. -/
def Ex.cfgA : OutputConfig := { lang := some "en".toList, indent := some "  ".toList, metadata := some {} }
def Ex.cfgB : OutputConfig := { xml := some true, lang := some "de".toList, failFast := some true }

example : Ex.cfgA.specialTags = Ex.cfgB.specialTags ∧ Ex.cfgA.completePage.getD false = Ex.cfgB.completePage.getD false ∧
    (∀ m, Ex.cfgA.metadata = some m → m.elements = false) ∧ (∀ m, Ex.cfgB.metadata = some m → m.elements = false) ∧
    (∀ l, Ex.cfgA.lang = some l → ∃ u, Unescapes Accepted l u) ∧ (∀ l, Ex.cfgB.lang = some l → ∃ u, Unescapes Accepted l u) := by
  refine ⟨rfl, rfl, fun m h => ?_, fun m h => ?_, fun l h => ?_, fun l h => ?_⟩
  · cases h; rfl
  · cases h
  · cases h
    exact ⟨_, unescapes_self (by decide)⟩
  · cases h
    exact ⟨_, unescapes_self (by decide)⟩

set_option maxRecDepth 20000 in
example : convert RepoTests.parser "[title=\"\\q\"]> b".toList Ex.cfgA = .error .unknown ∧
    convert RepoTests.parser "[title=\"\\q\"]> b".toList Ex.cfgB = .error .unknown ∧
    convert RepoTests.parser "[title=\"q\"]> b".toList Ex.cfgB = .ok "<p title=\"q\" lang=\"de\">b</p>".toList := by
  decide +kernel

/-! ## Configurations that matter -/

set_option maxRecDepth 20000 in
/-- **C93 is false for the completion of a page**, which drops the attributes of `head`. -/
theorem C93_page :
    convert RepoTests.parser "head[x=\"\\q\"] { title> a }".toList {} = .error .unknown ∧
    convert RepoTests.parser "head[x=\"\\q\"] { title> a }".toList { completePage := some true } =
      .ok "<!DOCTYPE html>\n<html><head><title>a</title></head> <body></body></html>".toList := by
  decide +kernel

set_option maxRecDepth 20000 in
/-- **C93 is false for names of special elements**: in a `picture`, a block gets no name, and its attributes are not written. -/
theorem C93_special :
    convert RepoTests.parser "</ [x=\"\\q\"]{ b } />".toList {} = .error .unknown ∧
    convert RepoTests.parser "</ [x=\"\\q\"]{ b } />".toList { specialTags := { emphasis := some "picture".toList } } =
      .ok "<p><picture><p>b</p></picture></p>".toList := by
  decide +kernel

set_option maxRecDepth 20000 in
/-- **C93 is false for metadata elements**, which have the attributes of elements without a name. -/
theorem C93_metadata_elements :
    convert RepoTests.parser "picture { [x=\"\\q\"]{ b } }".toList {} = .ok "<picture><p>b</p></picture>".toList ∧
    convert RepoTests.parser "picture { [x=\"\\q\"]{ b } }".toList { metadata := some { elements := true } } = .error .unknown := by
  decide +kernel

set_option maxRecDepth 20000 in
/-- **C93 is false for languages with invalid escapes**: nothing with an element can be converted. -/
theorem C93_language :
    convert RepoTests.parser "a".toList {} = .ok "<p>a</p>".toList ∧
    convert RepoTests.parser "a".toList { lang := some "\\q".toList } = .error .unknown := by
  decide +kernel

end Mty
