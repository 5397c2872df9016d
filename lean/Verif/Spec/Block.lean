import Verif.Spec.Parts
import Verif.Spec.Pieces
import Verif.Spec.Writing

/-!
# Specification: a source in a block

For C79: a source between `selector {` and `}` is what is between the tags of an element.
-/

set_option autoImplicit false

namespace Mty.Spec

/-- The source in a block: `selector {`, the source, and `}`, each in lines of their own. -/
def inBlock (selector s : Str) : Str := selector ++ " {\n".toList ++ s ++ "\n}".toList

/-- A start tag with this name and these attributes. -/
def StartTagText (xml : Bool) (name : Str) (attrs : List (Str × Option Str)) (tag : Str) : Prop :=
  ∃ ws, List.Forall₂ (AttrWritten xml) attrs ws ∧ tag = '<' :: name ++ ws.flatten ++ ['>']

/-- An end tag. -/
def endTag (name : Str) : Str := '<' :: '/' :: name ++ ['>']

end Mty.Spec
