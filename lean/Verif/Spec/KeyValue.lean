import Verif.Model.Cli

/-! # The text of overrides of special tags -/

set_option autoImplicit false

namespace Mty.Spec
open Cli

/-- The name a user writes for a kind of special tag. -/
def overrideName : SpecialTag → Str
  | .strong => "strong".toList
  | .emphasis => "emphasis".toList
  | .underline => "underline".toList
  | .strike => "strike".toList
  | .quote => "quote".toList
  | .code => "code".toList
  | .codeBlockContainer => "code-block-container".toList

/-- `name=tag` -/
def overrideText (kv : SpecialTag × Str) : Str := overrideName kv.1 ++ '=' :: kv.2

/-- `name=tag,name=tag,..` -/
def overridesText : List (SpecialTag × Str) → Str
  | [] => []
  | [kv] => overrideText kv
  | kv :: rest => overrideText kv ++ ',' :: overridesText rest

/-- The text of one occurrence of `--special-tag` and what it asks for. -/
def Overrides (text : Str) (l : List (SpecialTag × Str)) : Prop :=
  l ≠ [] ∧ text = overridesText l ∧ ∀ kv ∈ l, ',' ∉ kv.2

end Mty.Spec
