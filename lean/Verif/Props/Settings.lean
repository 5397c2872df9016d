import Verif.Spec.Settings
import Verif.Props.RefParser

/-!
# C91: the configuration is what the calls ask for

Specification: `Spec/Settings.lean`.
-/

set_option autoImplicit false

namespace Mty
open Spec

theorem setting_call (c : OutputConfig) (k : ConfigCall) (s : Setting) :
    setting (k.apply c) s = if (asked k).1 = s then some (asked k).2 else setting c s := by
  cases k <;> cases s <;> rfl

theorem setting_calls (s : Setting) : ∀ (calls : List ConfigCall) (c : OutputConfig),
    setting (calls.foldl ConfigCall.apply c) s = (lastAsked calls s).or (setting c s)
  | [], c => rfl
  | k :: calls, c => by
    rw [List.foldl_cons, setting_calls s calls, setting_call]
    unfold lastAsked
    rw [List.map_cons, List.reverse_cons, List.find?_append]
    cases (calls.map asked).reverse.find? (·.1 = s) with
    | some v => rfl
    | none =>
      by_cases h : (asked k).1 = s
      · simp [h]
      · simp [h]

theorem setting_ext {c c' : OutputConfig} (h : ∀ s, setting c s = setting c' s) : c = c' := by
  obtain ⟨a1, a2, ⟨b1, b2, b3, b4, b5, b6, b7⟩, a3, a4, a5, a6⟩ := c
  obtain ⟨a1', a2', ⟨b1', b2', b3', b4', b5', b6', b7'⟩, a3', a4', a5', a6'⟩ := c'
  have inj : ∀ {α : Type} {f : α → Value} (_ : ∀ x y, f x = f y → x = y) {x y : Option α}, x.map f = y.map f → x = y := by
    intro α f hf x y e
    cases x <;> cases y <;> simp at e ⊢
    exact hf _ _ e
  have t : ∀ {x y : Option Str}, x.map Value.text = y.map .text → x = y := inj fun _ _ h => Value.text.inj h
  have f : ∀ {x y : Option Bool}, x.map Value.flag = y.map .flag → x = y := inj fun _ _ h => Value.flag.inj h
  have m : ∀ {x y : Option MetadataConfig}, x.map Value.metadata = y.map .metadata → x = y := inj fun _ _ h => Value.metadata.inj h
  cases t (h .indent)
  cases f (h .xml)
  cases t (h .emphasisTag)
  cases t (h .strongTag)
  cases t (h .underlineTag)
  cases t (h .strikeTag)
  cases t (h .quoteTag)
  cases t (h .codeTag)
  cases t (h .codeBlockContainerTag)
  cases f (h .completePage)
  cases t (h .lang)
  cases m (h .metadata)
  cases f (h .failFast)
  rfl

/-- **C91.** Every option has the value that the last call about it asks for, and none if there is no such call. -/
theorem C91_last (calls : List ConfigCall) (s : Setting) : setting (configured calls) s = lastAsked calls s := by
  rw [configured, setting_calls]
  have : setting OutputConfig.new s = none := by cases s <;> rfl
  rw [this, Option.or_none]

/-- **C91, order.** Chains of calls whose last calls about each option ask for the same make no difference: the configurations are equal, and so
are the results of all conversions. -/
theorem C91_order (calls calls' : List ConfigCall) (h : ∀ s, lastAsked calls s = lastAsked calls' s) :
    configured calls = configured calls' ∧
    ∀ (parse : Parser) (src : Str), convert parse src (configured calls) = convert parse src (configured calls') ∧
      convertForgiving parse src (configured calls) = convertForgiving parse src (configured calls') := by
  have e : configured calls = configured calls' := setting_ext fun s => by rw [C91_last, C91_last, h]
  rw [e]
  exact ⟨rfl, fun _ _ => ⟨rfl, rfl⟩⟩

/-- **C91, one call.** A call sets its option, whatever was called before, and changes no other option. -/
theorem C91_own (c : OutputConfig) (k : ConfigCall) :
    setting (k.apply c) (asked k).1 = some (asked k).2 ∧ ∀ s, s ≠ (asked k).1 → setting (k.apply c) s = setting c s := by
  refine ⟨by rw [setting_call, if_pos rfl], fun s hs => ?_⟩
  rw [setting_call, if_neg (Ne.symm hs)]

/-- **C91, all configurations.** Every configuration is the result of a chain of calls. -/
theorem C91_all (c : OutputConfig) : ∃ calls, configured calls = c := by
  obtain ⟨a1, a2, ⟨b1, b2, b3, b4, b5, b6, b7⟩, a3, a4, a5, a6⟩ := c
  refine ⟨(a1.map .indent).toList ++ (a2.map .xml).toList ++ (b1.map .emphasisTag).toList ++ (b2.map .strongTag).toList ++
    (b3.map .underlineTag).toList ++ (b4.map .strikeTag).toList ++ (b5.map .quoteTag).toList ++ (b6.map .codeTag).toList ++
    (b7.map .codeBlockContainerTag).toList ++ (a3.map .completePage).toList ++ (a4.map .lang).toList ++ (a5.map .metadata).toList ++
    (a6.map .failFast).toList, ?_⟩
  unfold configured
  simp only [List.foldl_append]
  rw [show (Option.map ConfigCall.indent a1).toList.foldl ConfigCall.apply
      OutputConfig.new =
      ({ indent := a1 } : OutputConfig) by cases a1 <;> rfl]
  rw [show (Option.map ConfigCall.xml a2).toList.foldl ConfigCall.apply
      ({ indent := a1 } : OutputConfig) =
      ({ indent := a1, xml := a2 } : OutputConfig) by cases a2 <;> rfl]
  rw [show (Option.map ConfigCall.emphasisTag b1).toList.foldl ConfigCall.apply
      ({ indent := a1, xml := a2 } : OutputConfig) =
      ({ indent := a1, xml := a2, specialTags := { emphasis := b1 } } : OutputConfig) by cases b1 <;> rfl]
  rw [show (Option.map ConfigCall.strongTag b2).toList.foldl ConfigCall.apply
      ({ indent := a1, xml := a2, specialTags := { emphasis := b1 } } : OutputConfig) =
      ({ indent := a1, xml := a2, specialTags := { emphasis := b1, strong := b2 } } : OutputConfig) by cases b2 <;> rfl]
  rw [show (Option.map ConfigCall.underlineTag b3).toList.foldl ConfigCall.apply
      ({ indent := a1, xml := a2, specialTags := { emphasis := b1, strong := b2 } } : OutputConfig) =
      ({ indent := a1, xml := a2, specialTags := { emphasis := b1, strong := b2, underline := b3 } } : OutputConfig) by cases b3 <;> rfl]
  rw [show (Option.map ConfigCall.strikeTag b4).toList.foldl ConfigCall.apply
      ({ indent := a1, xml := a2, specialTags := { emphasis := b1, strong := b2, underline := b3 } } : OutputConfig) =
      ({ indent := a1, xml := a2, specialTags := { emphasis := b1, strong := b2, underline := b3, strike := b4 } } : OutputConfig) by cases b4 <;> rfl]
  rw [show (Option.map ConfigCall.quoteTag b5).toList.foldl ConfigCall.apply
      ({ indent := a1, xml := a2, specialTags := { emphasis := b1, strong := b2, underline := b3, strike := b4 } } : OutputConfig) =
      ({ indent := a1, xml := a2, specialTags := { emphasis := b1, strong := b2, underline := b3, strike := b4, quote := b5 } } : OutputConfig) by cases b5 <;> rfl]
  rw [show (Option.map ConfigCall.codeTag b6).toList.foldl ConfigCall.apply
      ({ indent := a1, xml := a2, specialTags := { emphasis := b1, strong := b2, underline := b3, strike := b4, quote := b5 } } : OutputConfig) =
      ({ indent := a1, xml := a2, specialTags := { emphasis := b1, strong := b2, underline := b3, strike := b4, quote := b5, code := b6 } } : OutputConfig) by cases b6 <;> rfl]
  rw [show (Option.map ConfigCall.codeBlockContainerTag b7).toList.foldl ConfigCall.apply
      ({ indent := a1, xml := a2, specialTags := { emphasis := b1, strong := b2, underline := b3, strike := b4, quote := b5, code := b6 } } : OutputConfig) =
      ({ indent := a1, xml := a2, specialTags := { emphasis := b1, strong := b2, underline := b3, strike := b4, quote := b5, code := b6, codeBlockContainer := b7 } } : OutputConfig) by cases b7 <;> rfl]
  rw [show (Option.map ConfigCall.completePage a3).toList.foldl ConfigCall.apply
      ({ indent := a1, xml := a2, specialTags := { emphasis := b1, strong := b2, underline := b3, strike := b4, quote := b5, code := b6, codeBlockContainer := b7 } } : OutputConfig) =
      ({ indent := a1, xml := a2, completePage := a3, specialTags := { emphasis := b1, strong := b2, underline := b3, strike := b4, quote := b5, code := b6, codeBlockContainer := b7 } } : OutputConfig) by cases a3 <;> rfl]
  rw [show (Option.map ConfigCall.lang a4).toList.foldl ConfigCall.apply
      ({ indent := a1, xml := a2, completePage := a3, specialTags := { emphasis := b1, strong := b2, underline := b3, strike := b4, quote := b5, code := b6, codeBlockContainer := b7 } } : OutputConfig) =
      ({ indent := a1, xml := a2, completePage := a3, lang := a4, specialTags := { emphasis := b1, strong := b2, underline := b3, strike := b4, quote := b5, code := b6, codeBlockContainer := b7 } } : OutputConfig) by cases a4 <;> rfl]
  rw [show (Option.map ConfigCall.metadata a5).toList.foldl ConfigCall.apply
      ({ indent := a1, xml := a2, completePage := a3, lang := a4, specialTags := { emphasis := b1, strong := b2, underline := b3, strike := b4, quote := b5, code := b6, codeBlockContainer := b7 } } : OutputConfig) =
      ({ indent := a1, xml := a2, completePage := a3, lang := a4, metadata := a5, specialTags := { emphasis := b1, strong := b2, underline := b3, strike := b4, quote := b5, code := b6, codeBlockContainer := b7 } } : OutputConfig) by cases a5 <;> rfl]
  rw [show (Option.map ConfigCall.failFast a6).toList.foldl ConfigCall.apply
      ({ indent := a1, xml := a2, completePage := a3, lang := a4, metadata := a5, specialTags := { emphasis := b1, strong := b2, underline := b3, strike := b4, quote := b5, code := b6, codeBlockContainer := b7 } } : OutputConfig) =
      ({ indent := a1, xml := a2, completePage := a3, lang := a4, metadata := a5, failFast := a6, specialTags := { emphasis := b1, strong := b2, underline := b3, strike := b4, quote := b5, code := b6, codeBlockContainer := b7 } } : OutputConfig) by cases a6 <;> rfl]

/-- **C91, metadata.** A configuration of metadata has elements for texts and comments exactly if the last call asks for them, and not if there
is no call. -/
theorem C91_metadata (calls : List Bool) :
    (calls.foldl MetadataConfig.withElements MetadataConfig.new).elements = calls.getLast?.getD false := by
  suffices ∀ m : MetadataConfig, (calls.foldl MetadataConfig.withElements m).elements = calls.getLast?.getD m.elements from this _
  induction calls with
  | nil => intro m; rfl
  | cons b bs ih =>
    intro m
    rw [List.foldl_cons, ih]
    cases bs <;> simp [MetadataConfig.withElements, List.getLast?_cons]

/-! ## A chain with a repeated call -/

example : ([false, true, true, false].foldl MetadataConfig.withElements MetadataConfig.new).elements = false := by decide

namespace Ex

def chain : List ConfigCall := [.indent "\t".toList, .xml true, .lang "en".toList, .strongTag "b".toList, .indent "  ".toList,
  .metadata (MetadataConfig.new.withElements true), .xml false]

end Ex

example : configured Ex.chain =
    { indent := some "  ".toList, xml := some false, lang := some "en".toList, metadata := some { elements := true }
      specialTags := { strong := some "b".toList } } := by decide +kernel

example : lastAsked Ex.chain .indent = some (.text "  ".toList) ∧ lastAsked Ex.chain .failFast = none := by decide +kernel

/-- Another chain with the same last calls. -/
example : ∀ s, lastAsked Ex.chain s = lastAsked [.metadata { elements := true }, .strongTag "b".toList, .lang "en".toList, .xml false, .indent "  ".toList] s := by
  intro s; cases s <;> decide +kernel

set_option maxRecDepth 20000 in
example : convert RepoTests.parser "a <#b#>".toList (configured [.strongTag "b".toList, .lang "en".toList]) =
    .ok "<p lang=\"en\">a <b>b</b></p>".toList := by decide +kernel

end Mty
