import Verif.Model.Build
import Verif.Model.Transform
import Verif.Model.Metadata
import Verif.Model.Infer

/-! # The public functions (`/repo/mintyml/src/lib.rs`, `/repo/mintyml/src/transform/mod.rs`) -/

namespace Mty

/-- `transform_document` (`/repo/mintyml/src/transform/mod.rs:45-65`); it never fails. -/
def transformDocument (doc : Document) (src : Str) (cfg : OutputConfig) : Document :=
  let doc := applySpecialTags cfg doc
  let doc := if cfg.completePage.getD false then completePage src doc else doc
  let doc := { doc with nodes := Infer.infer src doc.nodes }
  let doc := match cfg.metadata with
    | some m => addMetadata doc m
    | none => doc
  applyLang doc cfg.lang

/-- The parser `ast::parse` (`/repo/mintyml/src/ast.rs:52-54`, external crate `gramma`). -/
abbrev Parser := Str → Except Build.ParseError Ast.Document

/-- `convert_to_internal` (`/repo/mintyml/src/lib.rs:149-175`): characters written to `out` (a
`String`) and the result. -/
def convertToInternal (parse : Parser) (src : Str) (cfg : OutputConfig) (forgive : Bool) :
    Str × Except ConvertError Unit :=
  match Build.parseDocument parse src (Errors.new cfg) with
  | (none, e) => ([], e.toConvertError src)
  | (some doc, e) =>
    let doc := transformDocument doc src cfg
    if e.isEmpty || forgive then
      let (out, ok) := outputHtmlTo src doc cfg
      if ok then (out, e.toConvertError src)
      else (out, (BM.unknownErr e).2.toConvertError src)
    else ([], e.toConvertError src)

/-- `convert` (`/repo/mintyml/src/lib.rs:68-75`). -/
def convert (parse : Parser) (src : Str) (cfg : OutputConfig) : Except ConvertError Str :=
  let (out, r) := convertToInternal parse src cfg false
  match r with
  | .ok () => .ok out
  | .error e => .error e

/-- `convert_forgiving` (`/repo/mintyml/src/lib.rs:102-112`). -/
def convertForgiving (parse : Parser) (src : Str) (cfg : OutputConfig) :
    Except (Option Str × ConvertError) Str :=
  let (out, r) := convertToInternal parse src cfg true
  match r with
  | .ok () => .ok out
  | .error e => if out.isEmpty then .error (none, e) else .error (some out, e)

/-- `convert_to` (`/repo/mintyml/src/lib.rs:141-147`) into a `String` with the given contents:
contents afterwards and result. -/
def convertTo (parse : Parser) (src : Str) (cfg : OutputConfig) (buf : Str) :
    Str × Except ConvertError Unit :=
  let (out, r) := convertToInternal parse src cfg true
  (buf ++ out, r)

end Mty
