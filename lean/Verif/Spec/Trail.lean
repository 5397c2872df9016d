import Verif.Spec.Infer

/-!
# Specification: the elements around an element

For C92: how an element and the elements it is in are written.
-/

set_option autoImplicit false

namespace Mty.Spec

/-- What can be seen of an element from outside: how it is written, its name if it has one, and whether it is the first and the last node of
the content it is in. -/
structure Seen where
  form : Option Form
  name : Option Str
  first : Bool
  last : Bool
deriving DecidableEq, Repr

/-- The elements on the way to an element, from the outermost one to the element itself. `[2, 0]` is the way to the first node in the third
node; there is none if it does not lead to an element. -/
def trail : List Nat → List Tree → Option (List Seen)
  | [], _ => some []
  | i :: p, ts =>
    match ts[i]? with
    | some (.elem form _ _ sel ch) =>
      (trail p ch).map fun rest => { form := form, name := sel.bind (·.1), first := decide (i = 0), last := decide (i + 1 = ts.length) } :: rest
    | _ => none

end Mty.Spec
