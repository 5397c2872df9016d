import Verif.Model.Wasm

/-!
# The JavaScript class (`/repo/minty-wasm/src-ts/index.ts`)

Promises that are waited for at once are modelled as results; that the WebAssembly module can be loaded is assumed.
-/

namespace Mty.Js
open Wasm

/-- `Partial<MintymlConverterOptions>` (`/repo/minty-wasm/src-ts/index.ts:51-95`). `none` is `null`, `undefined` or a
missing property for the options of a primitive type. -/
structure Options where
  xml : Option Bool := none
  indent : Option Int := none
  completePage : Option Bool := none
  specialTags : JsValue := .undefined
  metadata : JsValue := .undefined
  failFast : Option Bool := none

/-- `v ?? null` (`/repo/minty-wasm/src-ts/index.ts:127-128`). -/
def orNull : JsValue → JsValue
  | .undefined => .null
  | v => v

/-- `MintymlConverter`, with the fields assigned by the constructor (`/repo/minty-wasm/src-ts/index.ts:119-130`). -/
structure Converter where
  xml : Option Bool
  indent : Option Int
  completePage : Option Bool
  specialTags : JsValue
  metadata : JsValue
  failFast : Option Bool

/-- `new MintymlConverter(options)` (`/repo/minty-wasm/src-ts/index.ts:123-130`). -/
def Converter.new (o : Options) : Converter :=
  { xml := o.xml
    indent := o.indent
    completePage := o.completePage
    specialTags := orNull o.specialTags
    metadata := orNull o.metadata
    failFast := o.failFast }

/-- The error of a result (`MintymlError`, `/repo/minty-wasm/src-ts/index.ts:22-28`): the message and the errors listed,
if any; or a value thrown by a getter of the options, which is passed on unchanged (it is assumed to have no property `syntaxErrors`). -/
inductive Error where
  | mintyml (message : Str) (syntaxErrors : Option (List (Nat × Nat × Str × Option Str × Option (List Str))))
  | thrown (v : JsValue)

/-- `${x}` in a template string, for a string or `undefined` (`/repo/minty-wasm/src-ts/index.ts:163,165`). -/
def template : Option Str → Str
  | some s => s
  | none => "undefined".toList

/-- `[..].join(sep)` (`/repo/minty-wasm/src-ts/index.ts:163,167`). -/
def joinWith (sep : Str) : List Str → Str
  | [] => []
  | [s] => s
  | s :: t => s ++ sep ++ joinWith sep t

/-- The line of the message for one error (`/repo/minty-wasm/src-ts/index.ts:161-166`). -/
def errorLine (e : Nat × Nat × Str × Option Str × Option (List Str)) : Str :=
  match e with
  | (_, _, _, actual, some expected) =>
    "Unexpected '".toList ++ template actual ++ "'; expected ".toList ++ joinWith " | ".toList expected
  | (_, _, _, actual, none) => "Unexpected '".toList ++ template actual ++ "'".toList

/-- `MintymlConversionResult` (`/repo/minty-wasm/src-ts/index.ts:97-117`). -/
structure Result where
  success : Bool
  output : Option Str
  error : Option Error

/-- What `convertForgiving` makes of the error of the WebAssembly function
(`/repo/minty-wasm/src-ts/index.ts:157-169`). -/
def toError : JsError → Error
  | .errors l => .mintyml (joinWith ['\n'] (l.map errorLine)) (some l)
  | .error m => .mintyml m none
  | .thrown v => .thrown v

/-- `MintymlConverter.convertForgiving` (`/repo/minty-wasm/src-ts/index.ts:146-171`). -/
def Converter.convertForgiving (c : Converter) (parse : Parser) (debug : Str → Str) (src : Str) : Result :=
  let r := Wasm.convert parse debug src c.xml (c.indent.getD (-1)) c.completePage c.specialTags c.metadata c.failFast
  { success := r.success, output := r.output, error := r.error.map toError }

/-- A promise: fulfilled or rejected. `rejected none` is a rejection with `undefined`
(`/repo/minty-wasm/src-ts/index.ts:133-140`). -/
inductive Promise where
  | fulfilled (v : Option Str)
  | rejected (e : Option Error)

/-- `MintymlConverter.convert` (`/repo/minty-wasm/src-ts/index.ts:133-140`). -/
def Converter.convert (c : Converter) (parse : Parser) (debug : Str → Str) (src : Str) : Promise :=
  let r := c.convertForgiving parse debug src
  if r.success then .fulfilled r.output else .rejected r.error

end Mty.Js
