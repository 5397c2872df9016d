import Verif.Model.Str

/-!
# Specification: output with inserted attributes (C27, C28)

What metadata attributes and the attribute for the language look like in the output, and where they stand.
-/

set_option autoImplicit false

namespace Mty.Spec

/-- The metadata attributes: name and value. -/
def MetadataPair (name value : Str) : Prop :=
  (name = "xmlns:mty".toList ∧ value = "tag:youngspe.github.io,2024:mintyml/metadata".toList) ∨
  (name = "mty:raw".toList ∧ value = "true".toList) ∨
  (name ∈ ["mty:start".toList, "mty:end".toList, "mty:content-start".toList, "mty:content-end".toList] ∧ ∃ k : Nat, value = (toString k).toList)

/-- An attribute as it is written in a tag. -/
def attributeText (name value : Str) : Str := " ".toList ++ name ++ "=\"".toList ++ value ++ "\"".toList

/-- The second text is the first one with attributes with the property `P` of name and value inserted, each before the end of a tag or before
a further attribute; otherwise they are the same character by character. -/
inductive WithAttributes (P : Str → Str → Prop) : Str → Str → Prop
  | nil : WithAttributes P [] []
  | char {a b : Str} (c : Char) : WithAttributes P a b → WithAttributes P (c :: a) (c :: b)
  | inserted {a b name value : Str} : P name value → (∃ c ∈ ['>', '/', ' '], a.head? = some c) → WithAttributes P a b →
      WithAttributes P a (attributeText name value ++ b)

/-- The same for metadata attributes. -/
abbrev WithMetadata : Str → Str → Prop := WithAttributes MetadataPair

/-- The attribute for the language. -/
def LangPair (lang name value : Str) : Prop := name = "lang".toList ∧ value = lang

/-- Two results of a forgiving conversion (an output, or errors with an output if there is one) that are the same but for inserted
attributes. -/
def ForgivingAlike {E : Type} (P : Str → Str → Prop) : Except (Option Str × E) Str → Except (Option Str × E) Str → Prop
  | .ok out, .ok out' => WithAttributes P out out'
  | .error (none, e), .error (none, e') => e = e'
  | .error (some out, e), .error (some out', e') => e = e' ∧ WithAttributes P out out'
  | _, _ => False

end Mty.Spec
