import Verif.Model.Parse
import Verif.Props.Examples

/-! # The parser of `Model/Parse.lean` as a parser of `convert` -/

set_option autoImplicit false

namespace Mty.RepoTests

/-- The parser of `Model/Parse.lean`; the contents of its parse errors are not modelled. `is_alphanumeric` is taken for ASCII
characters. -/
def parser : Parser := fun src =>
  match Grammar.parse Char.isAlphanum src with
  | some d => .ok d
  | none => .error ⟨0, [], []⟩

end Mty.RepoTests
