import Verif.Spec.Js
import Verif.Props.Wasm
import Verif.Props.Ranges
import Verif.Props.Grammar
import Verif.Proofs.PlainAst

/-! # C50, C51: the JavaScript class -/

set_option autoImplicit false

namespace Mty
open Wasm Spec

/-! ## Options -/

theorem stringProperty_unique {v : JsValue} {key : String} {a b : Option Str} (ha : StringProperty v key a)
    (hb : StringProperty v key b) : a = b := by
  rcases ha with ⟨g, s, h1, h2, h3⟩ | ⟨g, x, h1, h2, h3, h4⟩ | ⟨h1, h2⟩ <;>
  rcases hb with ⟨g', s', k1, k2, k3⟩ | ⟨g', x', k1, k2, k3, k4⟩ | ⟨k1, k2⟩
  · rw [h1] at k1; cases k1; rw [h2] at k2; cases k2; rw [h3, k3]
  · rw [h1] at k1; cases k1; rw [h2] at k2; cases k2; exact absurd rfl (k3 s)
  · exact absurd h1 (k1 g)
  · rw [h1] at k1; cases k1; rw [h2] at k2; cases k2; exact absurd rfl (h3 s')
  · rw [h4, k4]
  · rw [h4, k2]
  · exact absurd k1 (h1 g')
  · rw [h2, k4]
  · rw [h2, k2]

theorem stringAt_property {v : JsValue} {key : String} {r : Option Str} (h : stringAt (Js.orNull v) key r) :
    StringProperty v key r := by
  cases v with
  | object get =>
    obtain ⟨x, h1, ⟨s, rfl, h2⟩ | ⟨h2, h3⟩⟩ := h
    · exact .inl ⟨get, s, rfl, h1, h2⟩
    · exact .inr (.inl ⟨get, x, rfl, h1, h2, h3⟩)
  | _ => exact .inr (.inr ⟨by simp, h⟩)

theorem property_readable {get : Str → Except JsValue JsValue} {key : String} {r : Option Str}
    (h : StringProperty (.object get) key r) : ∃ x, get key.toList = .ok x := by
  rcases h with ⟨g, s, h1, h2, h3⟩ | ⟨g, x, h1, h2, h3, h4⟩ | ⟨h1, h2⟩
  · cases h1; exact ⟨_, h2⟩
  · cases h1; exact ⟨_, h2⟩
  · exact absurd rfl (h1 get)

theorem metadataAsked_unique {v : JsValue} {a b : Option MetadataConfig} (ha : MetadataAsked v a) (hb : MetadataAsked v b) :
    a = b := by
  rcases ha with ⟨h1, h2⟩ | ⟨h1, h2, h3⟩ | ⟨g, x, h1, h2, h3⟩ <;>
  rcases hb with ⟨k1, k2⟩ | ⟨k1, k2, k3⟩ | ⟨g', x', k1, k2, k3⟩
  · rw [h2, k2]
  · rw [h1] at k1; cases k1
  · subst k1; cases h1
  · rw [h1] at k1; cases k1
  · rw [h3, k3]
  · exact absurd k1 (h2 g')
  · subst h1; cases k1
  · exact absurd h1 (k2 g)
  · rw [h1] at k1; cases k1; rw [h2] at k2; cases k2; rw [h3, k3]

/-- The configuration asked for is determined by the options. -/
theorem optionsMean_unique {o : Js.Options} {a b : OutputConfig} (ha : OptionsMean o a) (hb : OptionsMean o b) : a = b := by
  have hi : a.indent = b.indent := by
    cases h : o.indent with
    | none => rw [ha.noIndent h, hb.noIndent h]
    | some n =>
      by_cases hn : n < 0
      · rw [ha.negative n h hn, hb.negative n h hn]
      · have h' : o.indent = some (n.toNat : Int) := by rw [h, Int.toNat_of_nonneg (by omega)]
        rw [ha.indent _ h', hb.indent _ h']
  have ht : a.specialTags = b.specialTags := by
    have h1 := stringProperty_unique ha.emphasis hb.emphasis
    have h2 := stringProperty_unique ha.strong hb.strong
    have h3 := stringProperty_unique ha.underline hb.underline
    have h4 := stringProperty_unique ha.strike hb.strike
    have h5 := stringProperty_unique ha.quote hb.quote
    have h6 := stringProperty_unique ha.code hb.code
    have h7 := stringProperty_unique ha.codeBlockContainer hb.codeBlockContainer
    cases hx : a.specialTags; cases hy : b.specialTags
    simp only [hx, hy] at h1 h2 h3 h4 h5 h6 h7
    simp only [h1, h2, h3, h4, h5, h6, h7]
  have hm := metadataAsked_unique ha.metadata hb.metadata
  have h1 := ha.xml.trans hb.xml.symm
  have h2 := ha.completePage.trans hb.completePage.symm
  have h3 := ha.failFast.trans hb.failFast.symm
  have h4 := ha.lang.trans hb.lang.symm
  cases a; cases b
  simp only at hi ht hm h1 h2 h3 h4
  simp only [hi, ht, hm, h1, h2, h3, h4]

/-- The configuration that the class passes on. -/
def classConfig (o : Js.Options) : Except JsValue OutputConfig :=
  configOf o.xml (o.indent.getD (-1)) o.completePage (Js.orNull o.specialTags) (Js.orNull o.metadata) o.failFast

theorem classConfig_means {o : Js.Options} {cfg : OutputConfig} (h : classConfig o = .ok cfg) : OptionsMean o cfg := by
  obtain ⟨h1, h2, h3, h4, h5, h6, t1, t2, t3, t4, t5, t6, t7, _, _⟩ := C47_config _ _ _ _ _ _ _ h
  have hm : MetadataAsked o.metadata cfg.metadata := by
    rw [classConfig, configOf] at h
    cases ht : getSpecialTags (Js.orNull o.specialTags) with
    | error e => rw [ht] at h; cases h
    | ok tags =>
      cases hm : getMetadata (Js.orNull o.metadata) with
      | error e => rw [ht, hm] at h; cases h
      | ok m =>
        rw [ht, hm] at h
        cases h
        show MetadataAsked o.metadata m
        generalize o.metadata = v at hm
        cases v with
        | object get =>
          simp only [Js.orNull, getMetadata, JsValue.isTruthy, if_true] at hm
          cases hg : get "elements".toList with
          | error e => simp only [hg] at hm; cases hm
          | ok x => simp only [hg] at hm; cases hm; exact .inr (.inr ⟨get, x, rfl, hg, rfl⟩)
        | undefined => cases hm; exact .inl ⟨rfl, rfl⟩
        | null => cases hm; exact .inl ⟨rfl, rfl⟩
        | bool b =>
          cases b
          · cases hm; exact .inl ⟨rfl, rfl⟩
          · cases hm; exact .inr (.inl ⟨rfl, by simp, rfl⟩)
        | number n =>
          have hnn : Js.orNull (.number n) = .number n := rfl
          by_cases hn : JsValue.isTruthy (.number n) = true
          · rw [hnn, getMetadata.eq_def, if_pos hn] at hm; cases hm; exact .inr (.inl ⟨hn, by simp, rfl⟩)
          · rw [hnn, getMetadata.eq_def, if_neg hn] at hm; cases hm; exact .inl ⟨by simpa using hn, rfl⟩
        | string n =>
          have hnn : Js.orNull (.string n) = .string n := rfl
          by_cases hn : JsValue.isTruthy (.string n) = true
          · rw [hnn, getMetadata.eq_def, if_pos hn] at hm; cases hm; exact .inr (.inl ⟨hn, by simp, rfl⟩)
          · rw [hnn, getMetadata.eq_def, if_neg hn] at hm; cases hm; exact .inl ⟨by simpa using hn, rfl⟩
  refine ⟨h1, h2, h3, h4, fun h => h5 (by rw [h]; decide), fun n h hn => h5 (by rw [h]; exact hn), fun n h => ?_,
    stringAt_property t1, stringAt_property t2, stringAt_property t3, stringAt_property t4, stringAt_property t5,
    stringAt_property t6, stringAt_property t7, hm⟩
  obtain ⟨s, hs, hl, hc⟩ := h6 n (by rw [h]; rfl)
  rw [hs, List.eq_replicate_of_mem hc, hl]

theorem classConfig_iff (o : Js.Options) (cfg : OutputConfig) : classConfig o = .ok cfg ↔ OptionsMean o cfg := by
  refine ⟨classConfig_means, fun hm => ?_⟩
  suffices h : ∃ c, classConfig o = .ok c by
    obtain ⟨c, hc⟩ := h
    rw [hc, optionsMean_unique (classConfig_means hc) hm]
  have htags : ∃ t, getSpecialTags (Js.orNull o.specialTags) = .ok t := by
    have m1 := hm.emphasis; have m2 := hm.strong; have m3 := hm.underline; have m4 := hm.strike
    have m5 := hm.quote; have m6 := hm.code; have m7 := hm.codeBlockContainer
    generalize o.specialTags = v at m1 m2 m3 m4 m5 m6 m7
    cases v with
    | object get =>
      obtain ⟨x1, g1⟩ := property_readable m1
      obtain ⟨x2, g2⟩ := property_readable m2
      obtain ⟨x3, g3⟩ := property_readable m3
      obtain ⟨x4, g4⟩ := property_readable m4
      obtain ⟨x5, g5⟩ := property_readable m5
      obtain ⟨x6, g6⟩ := property_readable m6
      obtain ⟨x7, g7⟩ := property_readable m7
      simp only [Js.orNull, getSpecialTags, tagField, g1, g2, g3, g4, g5, g6, g7]
      exact ⟨_, rfl⟩
    | _ => exact ⟨_, rfl⟩
  have hmeta : ∃ m, getMetadata (Js.orNull o.metadata) = .ok m := by
    have hm := hm.metadata
    generalize o.metadata = v at hm
    cases v with
    | object get =>
      rcases hm with ⟨h1, h2⟩ | ⟨h1, h2, h3⟩ | ⟨g, x, h1, h2, h3⟩
      · cases h1
      · exact absurd rfl (h2 get)
      · cases h1
        simp only [Js.orNull, getMetadata, JsValue.isTruthy, if_true, h2]
        exact ⟨_, rfl⟩
    | undefined => exact ⟨_, rfl⟩
    | null => exact ⟨_, rfl⟩
    | bool b => cases b; exacts [⟨_, rfl⟩, ⟨_, rfl⟩]
    | number n =>
      by_cases hn : JsValue.isTruthy (.number n) = true
      · exact ⟨some {}, by show getMetadata (.number n) = _; rw [getMetadata.eq_def, if_pos hn]⟩
      · exact ⟨none, by show getMetadata (.number n) = _; rw [getMetadata.eq_def, if_neg hn]⟩
    | string n =>
      by_cases hn : JsValue.isTruthy (.string n) = true
      · exact ⟨some {}, by show getMetadata (.string n) = _; rw [getMetadata.eq_def, if_pos hn]⟩
      · exact ⟨none, by show getMetadata (.string n) = _; rw [getMetadata.eq_def, if_neg hn]⟩
  obtain ⟨t, ht⟩ := htags
  obtain ⟨m, hmm⟩ := hmeta
  rw [classConfig, configOf, ht]
  simp only
  rw [hmm]
  exact ⟨_, rfl⟩

/-! ## C50: success and failure -/

variable (parse : Parser) (debug : Str → Str) (src : Str) (o : Js.Options)

theorem classConvert_eq : (Js.Converter.new o).convert parse debug src =
    match classConfig o with
    | .error e => .rejected (some (.thrown e))
    | .ok cfg =>
      match convertForgiving parse src cfg with
      | .ok out => .fulfilled (some out)
      | .error (_, e) => .rejected (some (Js.toError (toJsError debug e))) := by
  have hc : classConfig o = configOf (Js.Converter.new o).xml ((Js.Converter.new o).indent.getD (-1)) (Js.Converter.new o).completePage
    (Js.Converter.new o).specialTags (Js.Converter.new o).metadata (Js.Converter.new o).failFast := rfl
  rw [Js.Converter.convert, Js.Converter.convertForgiving, Wasm.convert, convertInner, ← hc]
  cases classConfig o with
  | error e => rfl
  | ok cfg =>
    cases hf : convertForgiving parse src cfg with
    | ok out => simp [hf]
    | error e => obtain ⟨p, e⟩ := e; simp [hf, Js.toError]

/-- **C50.** The promise is fulfilled exactly if the conversion with the configuration asked for succeeds, and then with its output. -/
theorem C50_fulfilled (v : Option Str) : (Js.Converter.new o).convert parse debug src = .fulfilled v ↔
    ∃ cfg out, OptionsMean o cfg ∧ convert parse src cfg = .ok out ∧ v = some out := by
  rw [classConvert_eq]
  constructor
  · intro h
    cases hc : classConfig o with
    | error e => rw [hc] at h; cases h
    | ok cfg =>
      rw [hc] at h
      cases hf : convertForgiving parse src cfg with
      | error e => obtain ⟨p, e⟩ := e; simp only [hf] at h; cases h
      | ok out =>
        simp only [hf] at h
        cases h
        exact ⟨cfg, out, (classConfig_iff o cfg).mp hc, ((C07_convert_forgiving parse src cfg).1 out).mpr hf, rfl⟩
  · rintro ⟨cfg, out, h1, h2, rfl⟩
    rw [(classConfig_iff o cfg).mpr h1]
    simp only [((C07_convert_forgiving parse src cfg).1 out).mp h2]

/-- **C50.** It is rejected with an error otherwise, never with `undefined`: with the error of the conversion, or with the
exception thrown by the options themselves. -/
theorem C50_rejected (e : Option Js.Error) (h : (Js.Converter.new o).convert parse debug src = .rejected e) :
    (∃ cfg err, OptionsMean o cfg ∧ convert parse src cfg = .error err ∧ e = some (Js.toError (toJsError debug err))) ∨
    (∃ x get key, e = some (.thrown x) ∧ (o.specialTags = .object get ∨ o.metadata = .object get) ∧ get key = .error x) := by
  rw [classConvert_eq] at h
  cases hc : classConfig o with
  | error x =>
    rw [hc] at h
    cases h
    obtain ⟨get, key, h1, h2⟩ := C47_config_fails _ _ _ _ _ _ _ hc
    refine .inr ⟨x, get, key, rfl, ?_, h2⟩
    have null : ∀ {v : JsValue}, Js.orNull v = .object get → v = .object get := by
      intro v hv; cases v <;> first | exact hv | cases hv
    exact h1.imp null null
  | ok cfg =>
    rw [hc] at h
    cases hf : convertForgiving parse src cfg with
    | ok out => simp only [hf] at h; cases h
    | error x =>
      obtain ⟨p, x⟩ := x
      simp only [hf] at h
      cases h
      exact .inl ⟨cfg, x, (classConfig_iff o cfg).mp hc, ((C07_convert_forgiving parse src cfg).2 x).mpr ⟨p, hf⟩, rfl⟩

/-- **C50.** `convertForgiving` of the class never rejects; it reports success exactly if `convert` is fulfilled and otherwise carries the
error that `convert` is rejected with. -/
theorem C50_forgiving : (Js.Converter.new o).convert parse debug src =
    (if ((Js.Converter.new o).convertForgiving parse debug src).success
     then .fulfilled ((Js.Converter.new o).convertForgiving parse debug src).output
     else .rejected ((Js.Converter.new o).convertForgiving parse debug src).error) ∧
    (((Js.Converter.new o).convertForgiving parse debug src).success = true ↔
      ((Js.Converter.new o).convertForgiving parse debug src).error = none) := by
  refine ⟨rfl, ?_⟩
  rw [Js.Converter.convertForgiving, Wasm.convert]
  cases convertInner parse debug src (Js.Converter.new o).xml ((Js.Converter.new o).indent.getD (-1)) (Js.Converter.new o).completePage
    (Js.Converter.new o).specialTags (Js.Converter.new o).metadata (Js.Converter.new o).failFast with
  | ok out => simp
  | error x => obtain ⟨p, x⟩ := x; simp

/-! ## C50: messages -/

theorem joinWith_intercalate (sep : Str) : ∀ l : List Str, Js.joinWith sep l = sep.intercalate l
  | [] => rfl
  | [s] => by simp [Js.joinWith, List.intercalate]
  | s :: t :: r => by
    rw [Js.joinWith, joinWith_intercalate sep (t :: r)]
    · simp [List.intercalate, List.intersperse]
    · simp

/-- **C50** for a source that cannot be parsed: the message says what was found and what was expected there.

Missing for the full property: errors of other kinds, see `C50_undefined`. -/
theorem C50_message_partial (cfg : OutputConfig) (pre actual post : Str) (expected : List Str) (ho : OptionsMean o cfg)
    (hs : src = pre ++ (actual ++ post)) (hp : parse src = .error ⟨byteLen pre, actual, expected⟩) :
    ∃ found l, (actual ++ post = [] → found = "<end-of-file>".toList) ∧ (actual ++ post ≠ [] → found = actual) ∧
      (Js.Converter.new o).convert parse debug src = .rejected (some (.mintyml
        ("Unexpected '".toList ++ found ++ "'; expected ".toList ++ " | ".toList.intercalate expected) (some l))) := by
  have hc : convert parse src cfg = .error (.syntax [Build.ParseError.toSyntax ⟨byteLen pre, actual, expected⟩] src) :=
    convert_parse_error hp cfg
  obtain ⟨p, hf⟩ := ((C07_convert_forgiving parse src cfg).2 _).mp hc
  rw [classConvert_eq, (classConfig_iff o cfg).mpr ho]
  simp only [hf]
  have hinv : (⟨byteLen pre, byteLen pre + byteLen actual⟩ : Range) ≠ Range.INVALID := by
    intro h
    injection h with h1 h2
    omega
  have hline : ∀ found, actualOf src ⟨byteLen pre, byteLen pre + byteLen actual⟩ = some found →
      ∃ l, Js.toError (toJsError debug (.syntax [Build.ParseError.toSyntax ⟨byteLen pre, actual, expected⟩] src)) = .mintyml
        ("Unexpected '".toList ++ found ++ "'; expected ".toList ++ " | ".toList.intercalate expected) (some l) := by
    intro found hfound
    rw [← joinWith_intercalate, toJsError, Js.toError]
    simp only [List.map_cons, List.map_nil, Build.ParseError.toSyntax, hfound, Js.joinWith]
    exact ⟨_, rfl⟩
  suffices hact : ∃ found, (actual ++ post = [] → found = "<end-of-file>".toList) ∧ (actual ++ post ≠ [] → found = actual) ∧
      actualOf src ⟨byteLen pre, byteLen pre + byteLen actual⟩ = some found by
    obtain ⟨found, h1, h2, h3⟩ := hact
    obtain ⟨l, hl⟩ := hline found h3
    exact ⟨found, l, h1, h2, by rw [hl]⟩
  rw [actualOf, if_neg hinv]
  by_cases he : actual ++ post = []
  · have hlen : byteLen pre ≥ byteLen src := by rw [hs, he, List.append_nil]; exact Nat.le_refl _
    exact ⟨_, fun _ => rfl, fun h => absurd he h, by rw [if_pos hlen]⟩
  · have hlen : ¬ byteLen pre ≥ byteLen src := by
      rw [hs, byteLen_append]
      cases hx : actual ++ post with
      | nil => exact absurd hx he
      | cons c r =>
        have := c.utf8Size_pos
        rw [byteLen]
        omega
    have hsl : (Range.mk (byteLen pre) (byteLen pre + byteLen actual)).slice src = actual := by
      rw [hs, ← byteLen_append]
      exact Grammar.slice_mid pre actual post
    exact ⟨actual, fun h => absurd h he, fun _ => rfl, by rw [if_neg hlen, hsl]⟩

set_option maxRecDepth 20000 in
/-- **C50** fails for all other errors: an unclosed block and an invalid escape are both described as
`Unexpected 'undefined'`. -/
theorem C50_undefined : ∃ l, (Js.Converter.new {}).convert (Ex.parser Ex.ast2) debug Ex.src2 =
    .rejected (some (.mintyml "Unexpected 'undefined'\nUnexpected 'undefined'".toList (some l))) := by
  have h1 : classConfig {} = .ok {} := rfl
  have h2 : convert (Ex.parser Ex.ast2) Ex.src2 {} = .error (.syntax [⟨⟨3, 4⟩, .unclosed .block⟩, ⟨⟨8, 10⟩, .invalidEscape⟩] Ex.src2) := by
    decide +kernel
  obtain ⟨p, hf⟩ := ((C07_convert_forgiving _ _ _).2 _).mp h2
  rw [classConvert_eq, h1]
  simp only [hf]
  exact ⟨_, rfl⟩

/-- Options that ask for something. -/
def exOptions : Js.Options := { indent := some 2, specialTags := exTags false, metadata := .bool true }

example : OptionsMean exOptions
    { indent := some "  ".toList, specialTags := { code := some "kbd".toList }, metadata := some {} } :=
  (classConfig_iff _ _).mp rfl

set_option maxRecDepth 20000 in
example : OptionsMean {} {} ∧ convert (Ex.parser Ex.ast1) Ex.src1 {} = .ok "<p>a <b>c</b></p>".toList ∧
    convert (Ex.parser Ex.ast3) Ex.src3 {} = .error .unknown :=
  ⟨(classConfig_iff _ _).mp rfl, by decide +kernel, by decide +kernel⟩

/-! ## C51: positions -/

/-- **C51** for sources of ASCII characters: `start` and `end` of every error of the result select the text concerned from the
JavaScript string.

Missing for the full property: other characters, see `C51_other_characters`. -/
theorem C51_positions_partial (alnum : Char → Bool) (cfg : OutputConfig) (ast : Ast.Document) (es : List SyntaxError) (s : Str)
    (hp : parse src = .ok ast) (hc : Grammar.Conforms alnum src ast = true) (h : convert parse src cfg = .error (.syntax es s))
    (hascii : ∀ c ∈ src, c.toNat < 128) :
    ∃ l, toJsError debug (.syntax es s) = .errors l ∧ l.length = es.length ∧
    ∀ (i start stop : Nat) (x : Str × Option Str × Option (List Str)), l[i]? = some (start, stop, x) →
      ∃ (e : SyntaxError) (pre text post : Str), es[i]? = some e ∧ src = pre ++ (text ++ post) ∧ byteLen pre = e.range.start ∧
        byteLen (pre ++ text) = e.range.stop ∧ jsSlice (utf16 src) start stop = utf16 text := by
  obtain ⟨rfl, hv⟩ := C12_grammar_errors alnum parse src cfg ast es s hp hc h
  refine ⟨_, rfl, by simp, fun i start stop x hx => ?_⟩
  rw [List.getElem?_map] at hx
  cases hi : es[i]? with
  | none => rw [hi] at hx; cases hx
  | some e =>
    rw [hi] at hx
    cases hx
    obtain ⟨a, m, b, h1, h2, h3, -⟩ := C12_slice s e.range (hv e (List.mem_of_getElem? hi))
    rw [List.append_assoc] at h1
    refine ⟨e, a, m, b, rfl, h1, h2, h3, ?_⟩
    have len : ∀ t : Str, (∀ c ∈ t, c.toNat < 128) → (utf16 t).length = byteLen t := by
      intro t
      induction t with
      | nil => simp [utf16, byteLen]
      | cons c t ih =>
        intro ht
        have hc : c.toNat < 128 := ht c (by simp)
        have h1 : c.utf8Size = 1 := by
          rw [Char.utf8Size]
          have : c.val ≤ 127 := by rw [UInt32.le_iff_toNat_le]; exact Nat.lt_succ_iff.mp hc
          simp [this]
        have := ih fun d hd => ht d (by simp [hd])
        simp only [utf16, List.flatMap_cons, List.length_append, byteLen, utf16Char, if_pos (show c.toNat < 0x10000 by omega)] at this ⊢
        rw [this, h1]; rfl
    rw [← h2, ← h3]
    rw [h1] at hascii ⊢
    rw [jsSlice, ← len a (fun c hc => hascii c (by simp [hc])), ← len (a ++ m) (fun c hc => hascii c (by
      rw [← List.append_assoc]; exact List.mem_append_left _ hc))]
    have : utf16 (a ++ (m ++ b)) = utf16 (a ++ m) ++ utf16 b := by simp [utf16, List.flatMap_append]
    rw [this, List.take_left]
    simp [utf16, List.flatMap_append]

/-- `é\q`: an invalid escape after a character that is not ASCII. -/
def accentSrc : Str := ['é', '\\', 'q']
def accentAst : Ast.Document := ⟨.mk 0 [.mk 0 [.mk none 0 4 (Ex.seg 0 4)] 4] 4⟩

set_option maxRecDepth 20000 in
/-- **C51** fails for other characters: positions are counted in bytes of UTF-8, not in the units of JavaScript strings. For
`é\q` the error is reported at 2 to 4, which selects `q`. -/
theorem C51_other_characters : Grammar.Conforms Char.isAlphanum accentSrc accentAst = true ∧
    convert (Ex.parser accentAst) accentSrc {} = .error (.syntax [⟨⟨2, 4⟩, .invalidEscape⟩] accentSrc) ∧
    jsSlice (utf16 accentSrc) 2 4 = utf16 ['q'] := by decide +kernel

set_option maxRecDepth 20000 in
example : Grammar.Conforms Char.isAlphanum Ex.src2 Ex.ast2 = true ∧ (∀ c ∈ Ex.src2, c.toNat < 128) ∧
    convert (Ex.parser Ex.ast2) Ex.src2 {} = .error (.syntax [⟨⟨3, 4⟩, .unclosed .block⟩, ⟨⟨8, 10⟩, .invalidEscape⟩] Ex.src2) := by
  decide +kernel

end Mty
