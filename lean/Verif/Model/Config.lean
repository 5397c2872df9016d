import Verif.Model.Str

/-! # Configuration (`/repo/mintyml/src/config.rs`) -/

namespace Mty

/-- `SpecialTagConfig` (`/repo/mintyml/src/config.rs:7-23`). -/
structure SpecialTagConfig where
  emphasis : Option Str := none
  strong : Option Str := none
  underline : Option Str := none
  strike : Option Str := none
  quote : Option Str := none
  code : Option Str := none
  codeBlockContainer : Option Str := none
deriving DecidableEq, Repr

/-- `MetadataConfig` (`/repo/mintyml/src/config.rs:28-32`). -/
structure MetadataConfig where
  elements : Bool := false
deriving DecidableEq, Repr

/-- `OutputConfig` (`/repo/mintyml/src/config.rs:52-74`). -/
structure OutputConfig where
  indent : Option Str := none
  xml : Option Bool := none
  specialTags : SpecialTagConfig := {}
  completePage : Option Bool := none
  lang : Option Str := none
  metadata : Option MetadataConfig := none
  failFast : Option Bool := none
deriving DecidableEq, Repr

/-- `OutputContext::is_xml` (`/repo/mintyml/src/output/mod.rs:163-165`). -/
def OutputConfig.isXml (c : OutputConfig) : Bool := c.xml == some true

end Mty
