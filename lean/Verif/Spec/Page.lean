import Verif.Model.Str

/-!
# Specification: a page around a document
-/

set_option autoImplicit false

namespace Mty.Spec

/-- The attribute for the language, if there is one. -/
def langText : Option Str → Str
  | none => []
  | some l => " lang=\"".toList ++ l ++ "\"".toList

/-- Letters, digits and hyphens, as in codes of languages. -/
def LangCode (l : Str) : Prop := ∀ c ∈ l, c.isAlphanum = true ∨ c = '-'

/-- The page without metadata around the output for a document, without indentation. In XML elements
without content end in their start tags; `empty` says whether the body is one of them. -/
def pageAround (xml empty : Bool) (lang : Option Str) (out : Str) : Str :=
  "<!DOCTYPE html>\n".toList ++ ("<html".toList ++ langText lang ++ ">".toList ++
    ((if xml then "<head/>".toList else "<head></head>".toList) ++ (" ".toList ++
      ((if xml && empty then "<body/>".toList else "<body>".toList ++ out ++ "</body>".toList) ++ "</html>".toList))))

end Mty.Spec
