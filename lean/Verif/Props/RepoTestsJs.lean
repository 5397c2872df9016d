import Verif.Props.RefParser
import Verif.Model.JsClass

/-!
# The tests of the JavaScript class, run on the model

Not proofs: the two tests of `/repo/minty-wasm/src-ts/index.test.ts`.
-/

set_option autoImplicit false
set_option maxRecDepth 100000

namespace Mty.RepoTests

/-- The output if the promise is fulfilled. -/
def jsOutput (o : Js.Options) (src : Str) : Option Str :=
  match (Js.Converter.new o).convert parser id src with
  | .fulfilled v => v
  | .rejected _ => none

/-- `simple example` -/
example : jsOutput { indent := some 4 } "        article {\n            h1> Foo\n\n            ul {\n                > </a/>\n                > b\n                > c\n            }\n        }\n        ".toList =
    some "<article>\n    <h1>Foo</h1>\n    <ul>\n        <li><em>a</em></li>\n        <li>b</li>\n        <li>c</li>\n    </ul>\n</article>\n".toList := by
  decide +kernel

/-- `{ emphasis: 'i', strong: 'b', underline: 'ins', strike: 'del' }` -/
def jsTags : Wasm.JsValue := .object fun key => .ok (
  if key = "emphasis".toList then .string "i".toList
  else if key = "strong".toList then .string "b".toList
  else if key = "underline".toList then .string "ins".toList
  else if key = "strike".toList then .string "del".toList
  else .undefined)

/-- `specialTags` -/
example : jsOutput { indent := some 4, specialTags := jsTags } "        </foo/> <#bar#> <_baz_> <~qux~>\n        ".toList =
    some "<p><i>foo</i> <b>bar</b> <ins>baz</ins> <del>qux</del></p>\n".toList := by decide +kernel

end Mty.RepoTests
