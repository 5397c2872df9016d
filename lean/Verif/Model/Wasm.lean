import Verif.Model.Convert
import Verif.Model.Reporter

/-! # The JavaScript interface (`/repo/minty-wasm/src/lib.rs`) -/

namespace Mty.Wasm

/-- A JavaScript value, as far as the interface distinguishes them. `get`: `Reflect::get` on the object;
a getter may throw (arguments of `convert`, `/repo/minty-wasm/src/lib.rs:166-174`). -/
inductive JsValue where
  | undefined
  | null
  | bool (b : Bool)
  | number (n : Int)
  | string (s : Str)
  | object (get : Str → Except JsValue JsValue)

/-- `JsValue::is_object` (used in `/repo/minty-wasm/src/lib.rs:112,147`). -/
def JsValue.isObject : JsValue → Bool
  | .object _ => true
  | _ => false

/-- `JsValue::is_truthy` (used in `/repo/minty-wasm/src/lib.rs:145,150`); numbers are integers (NaN is not modelled). -/
def JsValue.isTruthy : JsValue → Bool
  | .undefined => false
  | .null => false
  | .bool b => b
  | .number n => n ≠ 0
  | .string s => s ≠ []
  | .object _ => true

/-- `JsValue::as_string` (used in `/repo/minty-wasm/src/lib.rs:114`). -/
def JsValue.asString : JsValue → Option Str
  | .string s => some s
  | _ => none

/-- The error reported (`to_js_error`, `/repo/minty-wasm/src/lib.rs:11-109`): for syntax and semantic errors an object with the
list of errors (start, end, message, and for parse errors what was found and expected), otherwise an
`Error` with the text of the error. Or the exception thrown by a getter. -/
inductive JsError where
  | errors (l : List (Nat × Nat × Str × Option Str × Option (List Str)))
  | error (message : Str)
  | thrown (e : JsValue)

/-- `actual` in `to_js_error` (`/repo/minty-wasm/src/lib.rs:57-67`); `none` if the range is `INVALID`. -/
def actualOf (src : Str) (r : Range) : Option Str :=
  if r = Range.INVALID then none
  else some (if r.start ≥ byteLen src then "<end-of-file>".toList else r.slice src)

/-- `to_js_error` (`/repo/minty-wasm/src/lib.rs:11-109`). -/
def toJsError (debug : Str → Str) : ConvertError → JsError
  | .syntax errors src => .errors (errors.map fun e =>
      (e.range.start, e.range.stop, Cli.SyntaxError.displayWithSrc debug src e,
        match e.kind with
        | .parseFailed expected => (actualOf src e.range, some expected)
        | _ => (none, none)))
  | .semantic errors src => .errors (errors.map fun e =>
      (e.range.start, e.range.stop, Cli.SemanticError.displayWithSrc src e, none, none))
  | .unknown => .error "Unknown".toList

/-- One field of `special_tags` (`/repo/minty-wasm/src/lib.rs:113-115`). -/
def tagField (get : Str → Except JsValue JsValue) (key : String) : Except JsValue (Option Str) :=
  match get key.toList with
  | .error e => .error e
  | .ok v => .ok v.asString

/-- `get_special_tags` (`/repo/minty-wasm/src/lib.rs:111-126`). -/
def getSpecialTags (v : JsValue) : Except JsValue SpecialTagConfig :=
  match v with
  | .object get => do
    let emphasis ← tagField get "emphasis"
    let strong ← tagField get "strong"
    let underline ← tagField get "underline"
    let strike ← tagField get "strike"
    let quote ← tagField get "quote"
    let code ← tagField get "code"
    let codeBlockContainer ← tagField get "codeBlockContainer"
    pure { emphasis, strong, underline, strike, quote, code, codeBlockContainer }
  | _ => .ok {}

/-- `metadata` in `convert_inner` (`/repo/minty-wasm/src/lib.rs:145-153`). -/
def getMetadata (v : JsValue) : Except JsValue (Option MetadataConfig) :=
  if v.isTruthy then
    match v with
    | .object get =>
      match get "elements".toList with
      | .error e => .error e
      | .ok x => .ok (some { elements := x.isTruthy })
    | _ => .ok (some {})
  else .ok none

/-- The configuration built by `convert_inner` (`/repo/minty-wasm/src/lib.rs:137-162`). -/
def configOf (xml : Option Bool) (indent : Int) (completePage : Option Bool) (specialTags metadata : JsValue)
    (failFast : Option Bool) : Except JsValue OutputConfig :=
  match getSpecialTags specialTags with
  | .error e => .error e
  | .ok tags =>
    match getMetadata metadata with
    | .error e => .error e
    | .ok m => .ok
      { xml, completePage, failFast, specialTags := tags, metadata := m,
        indent := if indent ≥ 0 then some (List.replicate indent.toNat ' ') else none }

/-- `convert_inner` (`/repo/minty-wasm/src/lib.rs:128-164`). -/
def convertInner (parse : Parser) (debug : Str → Str) (src : Str) (xml : Option Bool) (indent : Int)
    (completePage : Option Bool) (specialTags metadata : JsValue) (failFast : Option Bool) :
    Except (Option Str × JsError) Str :=
  match configOf xml indent completePage specialTags metadata failFast with
  | .error e => .error (none, .thrown e)
  | .ok cfg =>
    match convertForgiving parse src cfg with
    | .ok out => .ok out
    | .error (out, e) => .error (out, toJsError debug e)

/-- The object returned by `convert` (`/repo/minty-wasm/src/lib.rs:189-193`). -/
structure Result where
  success : Bool
  output : Option Str
  error : Option JsError

/-- `convert` (`/repo/minty-wasm/src/lib.rs:166-194`). -/
def convert (parse : Parser) (debug : Str → Str) (src : Str) (xml : Option Bool) (indent : Int)
    (completePage : Option Bool) (specialTags metadata : JsValue) (failFast : Option Bool) : Result :=
  match convertInner parse debug src xml indent completePage specialTags metadata failFast with
  | .ok out => ⟨true, some out, none⟩
  | .error (out, e) => ⟨false, out, some e⟩

end Mty.Wasm
