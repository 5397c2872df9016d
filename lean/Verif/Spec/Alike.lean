import Verif.Spec.Markup

/-!
# The same markup in HTML and in XML (independent of the code)

HTML and XML write some things differently: an element without content is `<a></a>` or, if it is void, `<a>` in HTML, and can be `<a/>` in
XML; an attribute without a value has none in HTML and an empty one in XML; void elements have an end tag only in XML.
-/

set_option autoImplicit false

namespace Mty.Spec

/-- An attribute without a value has an empty one. -/
def attributeMeant (p : Str × Option Str) : Str × Option Str := (p.1, some (p.2.getD []))

/-- What a token means: `<a/>` is `<a></a>`, and for the void elements of HTML there is a start tag only. -/
def tokenMeant : Token → List Token
  | .start n as e => .start n (as.map attributeMeant) false :: (if e && !voidName false n then [.stop n] else [])
  | .stop n => if voidName false n then [] else [.stop n]
  | t => [t]

/-- What markup means, however it is written. -/
def meant (toks : List Token) : List Token := toks.flatMap tokenMeant

/-- The same without white space. -/
def solid (toks : List Token) : List Token :=
  toks.filter fun
    | .char c => !(c.toNat ∈ whiteSpace)
    | _ => true

/-- No void element has an end tag, that is, no void element has content. -/
def VoidsEmpty (toks : List Token) : Prop := ∀ n, voidName false n = true → Token.stop n ∉ toks

end Mty.Spec
