import Verif.Spec.Writing

/-!
# Specification: the page for a written document (independent of the code)

`pagePieces` is the page that is to be written for the pieces of a document (`Spec/Writing.lean`) without elements `html`, `head` and `body`:
elements for metadata go into the head, everything else into the body.
-/

set_option autoImplicit false

namespace Mty.Spec

/-- An element with one of the names; case does not matter. -/
def isElement (names : List String) : Piece → Bool
  | .elem name _ _ => names.any fun m => name.map Char.toLower = m.toList
  | _ => false

/-- White space between elements. -/
def isGap : Piece → Bool
  | .gap _ => true
  | _ => false

/-- White space that follows white space is left out; `after`: does white space come before? -/
def joinGaps (after : Bool) : List Piece → List Piece
  | [] => []
  | x :: m => if after && isGap x then joinGaps true m else x :: joinGaps (isGap x) m

/-- Without white space at the beginning and at the end. -/
def trimGaps (m : List Piece) : List Piece := ((m.dropWhile isGap).reverse.dropWhile isGap).reverse

/-- What goes into the head: the elements for metadata, with nothing between them. -/
def headPieces (m : List Piece) : List Piece := m.filter (isElement headContentNames)

/-- What goes into the body: everything else. -/
def bodyPieces (m : List Piece) : List Piece := joinGaps false (trimGaps (m.filter fun x => !isElement headContentNames x))

/-- The attribute for the language, if there is one. -/
def langParts : Option Str → List Part
  | none => []
  | some l => [.attribute "lang".toList (some l)]

/-- The page. -/
def pagePieces (lang : Option Str) (m : List Piece) : List Piece :=
  [.elem "html".toList (langParts lang)
    [.elem "head".toList [] (headPieces m), .gap [' '], .elem "body".toList [] (bodyPieces m)]]

end Mty.Spec
