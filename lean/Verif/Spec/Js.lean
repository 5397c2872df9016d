import Verif.Model.JsClass

/-!
# Specifications for the JavaScript class (independent of the code, apart from the types of its data)
-/

namespace Mty.Spec
open Wasm

/-- The property of an object has this value if it is a string; anything else, and properties of `null` and `undefined`, count as absent. -/
def StringProperty (v : JsValue) (key : String) (r : Option Str) : Prop :=
  (∃ get s, v = .object get ∧ get key.toList = .ok (.string s) ∧ r = some s) ∨
  (∃ get x, v = .object get ∧ get key.toList = .ok x ∧ (∀ s, x ≠ .string s) ∧ r = none) ∨
  ((∀ get, v ≠ .object get) ∧ r = none)

/-- The metadata asked for: `false`, `null` and the like ask for none, an object for elements if its property `elements` is true. -/
def MetadataAsked (v : JsValue) (r : Option MetadataConfig) : Prop :=
  (v.isTruthy = false ∧ r = none) ∨
  (v.isTruthy = true ∧ (∀ get, v ≠ .object get) ∧ r = some { elements := false }) ∨
  (∃ get x, v = .object get ∧ get "elements".toList = .ok x ∧ r = some { elements := x.isTruthy })

/-- The configuration that the options of the class ask for. -/
structure OptionsMean (o : Js.Options) (cfg : OutputConfig) : Prop where
  xml : cfg.xml = o.xml
  completePage : cfg.completePage = o.completePage
  failFast : cfg.failFast = o.failFast
  lang : cfg.lang = none
  noIndent : o.indent = none → cfg.indent = none
  negative : ∀ n, o.indent = some n → n < 0 → cfg.indent = none
  indent : ∀ n : Nat, o.indent = some n → cfg.indent = some (List.replicate n ' ')
  emphasis : StringProperty o.specialTags "emphasis" cfg.specialTags.emphasis
  strong : StringProperty o.specialTags "strong" cfg.specialTags.strong
  underline : StringProperty o.specialTags "underline" cfg.specialTags.underline
  strike : StringProperty o.specialTags "strike" cfg.specialTags.strike
  quote : StringProperty o.specialTags "quote" cfg.specialTags.quote
  code : StringProperty o.specialTags "code" cfg.specialTags.code
  codeBlockContainer : StringProperty o.specialTags "codeBlockContainer" cfg.specialTags.codeBlockContainer
  metadata : MetadataAsked o.metadata cfg.metadata

/-- The code units of a character in a JavaScript string (UTF-16). -/
def utf16Char (c : Char) : List Nat :=
  if c.toNat < 0x10000 then [c.toNat]
  else [0xD800 + (c.toNat - 0x10000) / 0x400, 0xDC00 + (c.toNat - 0x10000) % 0x400]

/-- The code units of a JavaScript string. -/
def utf16 (s : Str) : List Nat := s.flatMap utf16Char

/-- `s.slice(start, end)` of JavaScript, for `0 ≤ start ≤ end`. -/
def jsSlice (units : List Nat) (start stop : Nat) : List Nat := (units.take stop).drop start

end Mty.Spec
