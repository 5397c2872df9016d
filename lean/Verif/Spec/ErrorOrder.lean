import Verif.Model.Errors

/-! # The order of errors (independent of the code) -/

set_option autoImplicit false

namespace Mty.Spec

/-- Each error is at a place of its own, and the places follow each other. -/
def InSourceOrder (es : List SyntaxError) : Prop :=
  (∀ e ∈ es, e.range.start < e.range.stop) ∧ es.Pairwise fun a b => a.range.stop ≤ b.range.start

end Mty.Spec
