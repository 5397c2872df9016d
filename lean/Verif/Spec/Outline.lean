import Verif.Spec.Infer

/-!
# Specification: the outline of a document

For C89: which elements a document has, without its comments and white space, and the documents in which comments and white space cannot
take the first or last place of a content from an element.
-/

set_option autoImplicit false

namespace Mty.Spec

/-- A document with nothing but its elements: how they are written, what they are called, and where there is text between them. -/
inductive Outline where
  | text
  | elem (form : Option Form) (name : Option Str) (children : List Outline)

mutual
  /-- The outline of a node; none for comments and white space. -/
  def outlineOf : Tree → Option Outline
    | .leaf (.text _) => some .text
    | .leaf (.comment _) => none
    | .leaf (.space _) => none
    | .elem form _ _ sel ch => some (.elem form (sel.bind (·.1)) (outline ch))
  /-- The outline of the nodes of a content: comments and white space are left out. -/
  def outline : List Tree → List Outline
    | [] => []
    | t :: ts => (outlineOf t).toList ++ outline ts
end

/-- A comment or white space. -/
def isAside : Tree → Bool
  | .leaf (.comment _) => true
  | .leaf (.space _) => true
  | _ => false

/-- An element. -/
def isElem : Tree → Bool
  | .elem _ _ _ _ _ => true
  | _ => false

/-- If an element is the first in the content apart from comments and white space, it is the first of all. -/
def elementFirst (ts : List Tree) : Prop :=
  ∀ pre t post, ts = pre ++ t :: post → (∀ a ∈ pre, isAside a = true) → isElem t = true → pre = []

/-- If an element is the last in the content apart from comments and white space, it is the last of all. -/
def elementLast (ts : List Tree) : Prop :=
  ∀ pre t post, ts = pre ++ t :: post → (∀ a ∈ post, isAside a = true) → isElem t = true → post = []

/-- In `details`, `fieldset` and `html` the first place, and in `picture` the last place, is not taken from an element by comments or white
space. (These are the elements in which the place counts; nothing is required of others.) -/
inductive Placed : Tree → Prop
  | leaf {t} : Placed (.leaf t)
  | elem {form raw fmt sel ch} :
      (sel.bind (·.1) ∈ [some "details".toList, some "fieldset".toList, some "html".toList] → elementFirst ch) →
      (sel.bind (·.1) = some "picture".toList → elementLast ch) →
      (∀ t ∈ ch, Placed t) → Placed (.elem form raw fmt sel ch)

end Mty.Spec
