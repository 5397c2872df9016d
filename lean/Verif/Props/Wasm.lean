import Verif.Model.Wasm
import Verif.Props.Convert

/-! # C47: the JavaScript interface -/

set_option autoImplicit false

namespace Mty
open Wasm

/-- The value of a property of an object, if it is a string. -/
def stringAt (v : JsValue) (key : String) (r : Option Str) : Prop :=
  match v with
  | .object get => ∃ x, get key.toList = .ok x ∧ ((∃ s, x = .string s ∧ r = some s) ∨ ((∀ s, x ≠ .string s) ∧ r = none))
  | _ => r = none

theorem tagField_stringAt {get : Str → Except JsValue JsValue} {key : String} {r : Option Str}
    (h : tagField get key = .ok r) : stringAt (.object get) key r := by
  rw [tagField] at h
  cases hg : get key.toList with
  | error e => rw [hg] at h; cases h
  | ok x =>
    rw [hg] at h
    refine ⟨x, hg, ?_⟩
    cases x with
    | string s => cases h; exact .inl ⟨s, rfl, rfl⟩
    | _ => cases h; exact .inr ⟨by simp, rfl⟩

variable (parse : Parser) (debug : Str → Str) (src : Str) (xml : Option Bool) (indent : Int) (completePage : Option Bool)
  (specialTags metadata : JsValue) (failFast : Option Bool)

/-- **C47.** The configuration corresponds to the arguments: a negative `indent` means no indentation, the special tags are the
properties of the object that are strings, metadata are enabled by any true value. -/
theorem C47_config (cfg : OutputConfig) (h : configOf xml indent completePage specialTags metadata failFast = .ok cfg) :
    cfg.xml = xml ∧ cfg.completePage = completePage ∧ cfg.failFast = failFast ∧ cfg.lang = none ∧
    (indent < 0 → cfg.indent = none) ∧
    (∀ n : Nat, indent = n → ∃ s : Str, cfg.indent = some s ∧ s.length = n ∧ ∀ c ∈ s, c = ' ') ∧
    stringAt specialTags "emphasis" cfg.specialTags.emphasis ∧ stringAt specialTags "strong" cfg.specialTags.strong ∧
    stringAt specialTags "underline" cfg.specialTags.underline ∧ stringAt specialTags "strike" cfg.specialTags.strike ∧
    stringAt specialTags "quote" cfg.specialTags.quote ∧ stringAt specialTags "code" cfg.specialTags.code ∧
    stringAt specialTags "codeBlockContainer" cfg.specialTags.codeBlockContainer ∧
    (cfg.metadata.isSome = metadata.isTruthy) ∧
    (∀ m, cfg.metadata = some m → (m.elements = true ↔
      ∃ get x, metadata = .object get ∧ get "elements".toList = .ok x ∧ x.isTruthy = true)) := by
  rw [configOf] at h
  cases ht : getSpecialTags specialTags with
  | error e => rw [ht] at h; cases h
  | ok tags =>
    cases hm : getMetadata metadata with
    | error e => rw [ht, hm] at h; cases h
    | ok m =>
      rw [ht, hm] at h
      cases h
      refine ⟨rfl, rfl, rfl, rfl, ?_, ?_, ?_⟩
      · intro hi; simp only [ge_iff_le]; rw [if_neg (by omega)]
      · rintro n rfl
        refine ⟨List.replicate n ' ', by simp, by simp, fun c hc => List.eq_of_mem_replicate hc⟩
      have hmeta : (m.isSome = metadata.isTruthy) ∧ (∀ m', m = some m' → (m'.elements = true ↔
          ∃ get x, metadata = .object get ∧ get "elements".toList = .ok x ∧ x.isTruthy = true)) := by
        rw [getMetadata.eq_def] at hm
        by_cases htr : metadata.isTruthy = true
        · rw [if_pos htr] at hm
          cases metadata with
          | object get =>
            cases hg : get "elements".toList with
            | error e => simp only [hg] at hm; cases hm
            | ok x =>
              simp only [hg] at hm
              cases hm
              refine ⟨by simp [htr], ?_⟩
              rintro m' h; cases h
              constructor
              · intro he; exact ⟨get, x, rfl, hg, he⟩
              · rintro ⟨g, y, h1, h2, h3⟩
                cases h1
                rw [hg] at h2; cases h2
                exact h3
          | _ => cases hm; exact ⟨by simp [htr], by rintro m' h; cases h; simp⟩
        · rw [if_neg htr] at hm
          cases hm
          exact ⟨by simpa using htr, by simp⟩
      have htags : stringAt specialTags "emphasis" tags.emphasis ∧ stringAt specialTags "strong" tags.strong ∧
          stringAt specialTags "underline" tags.underline ∧ stringAt specialTags "strike" tags.strike ∧
          stringAt specialTags "quote" tags.quote ∧ stringAt specialTags "code" tags.code ∧
          stringAt specialTags "codeBlockContainer" tags.codeBlockContainer := by
        cases specialTags with
        | object get =>
          simp only [getSpecialTags, bind, Except.bind, pure, Except.pure] at ht
          cases h1 : tagField get "emphasis" with
          | error e => simp only [h1] at ht; cases ht
          | ok r1 =>
          cases h2 : tagField get "strong" with
          | error e => simp only [h1, h2] at ht; cases ht
          | ok r2 =>
          cases h3 : tagField get "underline" with
          | error e => simp only [h1, h2, h3] at ht; cases ht
          | ok r3 =>
          cases h4 : tagField get "strike" with
          | error e => simp only [h1, h2, h3, h4] at ht; cases ht
          | ok r4 =>
          cases h5 : tagField get "quote" with
          | error e => simp only [h1, h2, h3, h4, h5] at ht; cases ht
          | ok r5 =>
          cases h6 : tagField get "code" with
          | error e => simp only [h1, h2, h3, h4, h5, h6] at ht; cases ht
          | ok r6 =>
          cases h7 : tagField get "codeBlockContainer" with
          | error e => simp only [h1, h2, h3, h4, h5, h6, h7] at ht; cases ht
          | ok r7 =>
          simp only [h1, h2, h3, h4, h5, h6, h7] at ht
          cases ht
          exact ⟨tagField_stringAt h1, tagField_stringAt h2, tagField_stringAt h3, tagField_stringAt h4, tagField_stringAt h5,
            tagField_stringAt h6, tagField_stringAt h7⟩
        | _ => cases ht; exact ⟨rfl, rfl, rfl, rfl, rfl, rfl, rfl⟩
      obtain ⟨t1, t2, t3, t4, t5, t6, t7⟩ := htags
      exact ⟨t1, t2, t3, t4, t5, t6, t7, hmeta⟩

/-- **C47.** The arguments are rejected only if a property of one of the objects cannot be read. -/
theorem C47_config_fails (e : JsValue) (h : configOf xml indent completePage specialTags metadata failFast = .error e) :
    ∃ get key, (specialTags = .object get ∨ metadata = .object get) ∧ get key = .error e := by
  have field : ∀ {get : Str → Except JsValue JsValue} {key : String}, tagField get key = .error e → get key.toList = .error e := by
    intro get key h
    rw [tagField] at h
    cases hg : get key.toList with
    | error e => rw [hg] at h; cases h; rfl
    | ok x => rw [hg] at h; cases h
  rw [configOf] at h
  cases ht : getSpecialTags specialTags with
  | error e' =>
    rw [ht] at h; cases h
    cases specialTags with
    | object get =>
      simp only [getSpecialTags, bind, Except.bind, pure, Except.pure] at ht
      repeat' split at ht
      all_goals first
        | (cases ht; done)
        | (cases ht; rename_i h; exact ⟨get, _, .inl rfl, field h⟩)
    | _ => cases ht
  | ok tags =>
    cases hm : getMetadata metadata with
    | ok m => rw [ht, hm] at h; cases h
    | error e =>
      rw [ht, hm] at h; cases h
      rw [getMetadata.eq_def] at hm
      split at hm
      · cases metadata with
        | object get =>
          cases hg : get "elements".toList with
          | error e => simp only [hg] at hm; cases hm; exact ⟨get, _, .inr rfl, hg⟩
          | ok x => simp only [hg] at hm; cases hm
        | _ => cases hm
      · cases hm

/-- **C47.** Success exactly when the conversion with this configuration succeeds; then the output is returned and no
error. -/
theorem C47_success :
    (Wasm.convert parse debug src xml indent completePage specialTags metadata failFast).success = true ↔
    ∃ cfg out, configOf xml indent completePage specialTags metadata failFast = .ok cfg ∧ Mty.convert parse src cfg = .ok out ∧
      Wasm.convert parse debug src xml indent completePage specialTags metadata failFast =
        { success := true, output := some out, error := none } := by
  constructor
  · intro h
    cases hc : configOf xml indent completePage specialTags metadata failFast with
    | error e => simp [Wasm.convert, convertInner, hc] at h
    | ok cfg =>
      cases hf : convertForgiving parse src cfg with
      | error e => obtain ⟨p, e⟩ := e; simp [Wasm.convert, convertInner, hc, hf] at h
      | ok out =>
        exact ⟨cfg, out, rfl, ((C07_convert_forgiving parse src cfg).1 out).mpr hf, by simp [Wasm.convert, convertInner, hc, hf]⟩
  · rintro ⟨cfg, out, h1, h2, h3⟩
    rw [h3]

/-- **C47.** If the conversion fails, the error is returned, with the best-effort output of the forgiving conversion if it is
not empty. -/
theorem C47_failure (cfg : OutputConfig) (e : ConvertError)
    (hc : configOf xml indent completePage specialTags metadata failFast = .ok cfg) (h : Mty.convert parse src cfg = .error e) :
    ∃ output, convertForgiving parse src cfg = .error (output, e) ∧ output ≠ some [] ∧
      Wasm.convert parse debug src xml indent completePage specialTags metadata failFast =
        { success := false, output, error := some (toJsError debug e) } := by
  obtain ⟨p, hp⟩ := ((C07_convert_forgiving parse src cfg).2 e).mp h
  exact ⟨p, hp, by rintro rfl; exact C07_partial_nonempty parse src cfg [] e hp rfl, by simp [Wasm.convert, convertInner, hc, hp]⟩

/-- **C47.** If the arguments cannot be read, the exception is returned as the error. -/
theorem C47_thrown (e : JsValue) (hc : configOf xml indent completePage specialTags metadata failFast = .error e) :
    Wasm.convert parse debug src xml indent completePage specialTags metadata failFast =
      { success := false, output := none, error := some (.thrown e) } := by
  simp [Wasm.convert, convertInner, hc]

/-- **C47.** The error object lists every syntax error with its position and message. -/
theorem C47_errors (es : List SyntaxError) : ∃ l, toJsError debug (.syntax es src) = .errors l ∧ l.length = es.length ∧
    ∀ (i : Nat) (e : SyntaxError), es[i]? = some e → ∃ x, l[i]? = some (e.range.start, e.range.stop, Cli.SyntaxError.displayWithSrc debug src e, x) := by
  refine ⟨_, rfl, by simp, fun i e h => ?_⟩
  rw [List.getElem?_map, h]
  exact ⟨_, rfl⟩

/-- An object with a property `code` and a getter that throws. -/
def exTags (broken : Bool) : JsValue := .object fun k =>
  if k = "code".toList then .ok (.string "kbd".toList) else if broken && k = "quote".toList then .error (.number 7) else .ok .undefined

example : configOf (some true) 2 none (exTags false) (.bool true) none =
    .ok { xml := some true, indent := some "  ".toList, specialTags := { code := some "kbd".toList }, metadata := some {} } := by rfl

example : configOf none (-1) none (exTags true) .undefined none = .error (.number 7) := by rfl

set_option maxRecDepth 20000 in
example : configOf none (-1) none .undefined .null none = .ok {} ∧
    Mty.convert (Ex.parser Ex.ast1) Ex.src1 {} = .ok "<p>a <b>c</b></p>".toList ∧
    Mty.convert (Ex.parser Ex.ast3) Ex.src3 {} = .error .unknown := ⟨rfl, by decide +kernel, by decide +kernel⟩

end Mty
