import Verif.Model.Builder

/-!
# Specification: what a chain of calls sets

For C91.
-/

set_option autoImplicit false

namespace Mty.Spec

/-- The options of a configuration. -/
inductive Setting where
  | indent | xml | emphasisTag | strongTag | underlineTag | strikeTag | quoteTag | codeTag | codeBlockContainerTag | completePage | lang
  | metadata | failFast
deriving DecidableEq

/-- The values of options. -/
inductive Value where
  | text (s : Str)
  | flag (b : Bool)
  | metadata (m : MetadataConfig)
deriving DecidableEq

/-- The option that a call is about, and the value. -/
def asked : ConfigCall → Setting × Value
  | .indent v => (.indent, .text v)
  | .xml v => (.xml, .flag v)
  | .emphasisTag v => (.emphasisTag, .text v)
  | .strongTag v => (.strongTag, .text v)
  | .underlineTag v => (.underlineTag, .text v)
  | .strikeTag v => (.strikeTag, .text v)
  | .quoteTag v => (.quoteTag, .text v)
  | .codeTag v => (.codeTag, .text v)
  | .codeBlockContainerTag v => (.codeBlockContainerTag, .text v)
  | .completePage v => (.completePage, .flag v)
  | .lang v => (.lang, .text v)
  | .metadata v => (.metadata, .metadata v)
  | .failFast v => (.failFast, .flag v)

/-- The value of an option in a configuration, if it has one. -/
def setting (c : OutputConfig) : Setting → Option Value
  | .indent => c.indent.map .text
  | .xml => c.xml.map .flag
  | .emphasisTag => c.specialTags.emphasis.map .text
  | .strongTag => c.specialTags.strong.map .text
  | .underlineTag => c.specialTags.underline.map .text
  | .strikeTag => c.specialTags.strike.map .text
  | .quoteTag => c.specialTags.quote.map .text
  | .codeTag => c.specialTags.code.map .text
  | .codeBlockContainerTag => c.specialTags.codeBlockContainer.map .text
  | .completePage => c.completePage.map .flag
  | .lang => c.lang.map .text
  | .metadata => c.metadata.map .metadata
  | .failFast => c.failFast.map .flag

/-- What the last call about the option asks for, if there is one. -/
def lastAsked (calls : List ConfigCall) (s : Setting) : Option Value :=
  ((calls.map asked).reverse.find? (·.1 = s)).map (·.2)

end Mty.Spec
