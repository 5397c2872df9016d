import Verif.Model.Config

/-! # Building a configuration (`/repo/mintyml/src/config.rs`) -/

namespace Mty

/-- `MetadataConfig::new` (`/repo/mintyml/src/config.rs:35-37`). -/
def MetadataConfig.new : MetadataConfig := {}

/-- `MetadataConfig::elements` (`/repo/mintyml/src/config.rs:41-46`). -/
def MetadataConfig.withElements (m : MetadataConfig) (enable : Bool) : MetadataConfig := { m with elements := enable }

namespace OutputConfig

/-- `OutputConfig::new` (`/repo/mintyml/src/config.rs:78-80`). -/
def new : OutputConfig := {}

/-- `OutputConfig::update` (`/repo/mintyml/src/config.rs:94-97`). -/
def update (c : OutputConfig) (f : OutputConfig → OutputConfig) : OutputConfig := f c

/-- `OutputConfig::indent` (`/repo/mintyml/src/config.rs:137-139`). -/
def withIndent (c : OutputConfig) (tab : Str) : OutputConfig := c.update fun c => { c with indent := some tab }

/-- `OutputConfig::xml` (`/repo/mintyml/src/config.rs:144-146`). -/
def withXml (c : OutputConfig) (enabled : Bool) : OutputConfig := c.update fun c => { c with xml := some enabled }

/-- `OutputConfig::emphasis_tag` (`/repo/mintyml/src/config.rs:149-151`). -/
def withEmphasis (c : OutputConfig) (tag : Str) : OutputConfig :=
  c.update fun c => { c with specialTags := { c.specialTags with emphasis := some tag } }

/-- `OutputConfig::strong_tag` (`/repo/mintyml/src/config.rs:154-156`). -/
def withStrong (c : OutputConfig) (tag : Str) : OutputConfig :=
  c.update fun c => { c with specialTags := { c.specialTags with strong := some tag } }

/-- `OutputConfig::underline_tag` (`/repo/mintyml/src/config.rs:159-161`). -/
def withUnderline (c : OutputConfig) (tag : Str) : OutputConfig :=
  c.update fun c => { c with specialTags := { c.specialTags with underline := some tag } }

/-- `OutputConfig::strike_tag` (`/repo/mintyml/src/config.rs:164-166`). -/
def withStrike (c : OutputConfig) (tag : Str) : OutputConfig :=
  c.update fun c => { c with specialTags := { c.specialTags with strike := some tag } }

/-- `OutputConfig::quote_tag` (`/repo/mintyml/src/config.rs:169-171`). -/
def withQuote (c : OutputConfig) (tag : Str) : OutputConfig :=
  c.update fun c => { c with specialTags := { c.specialTags with quote := some tag } }

/-- `OutputConfig::code_tag` (`/repo/mintyml/src/config.rs:174-176`). -/
def withCode (c : OutputConfig) (tag : Str) : OutputConfig :=
  c.update fun c => { c with specialTags := { c.specialTags with code := some tag } }

/-- `OutputConfig::code_block_container_tag` (`/repo/mintyml/src/config.rs:180-182`). -/
def withCodeBlockContainer (c : OutputConfig) (tag : Str) : OutputConfig :=
  c.update fun c => { c with specialTags := { c.specialTags with codeBlockContainer := some tag } }

/-- `OutputConfig::complete_page` (`/repo/mintyml/src/config.rs:193-195`). -/
def withCompletePage (c : OutputConfig) (enabled : Bool) : OutputConfig := c.update fun c => { c with completePage := some enabled }

/-- `OutputConfig::lang` (`/repo/mintyml/src/config.rs:200-202`). -/
def withLang (c : OutputConfig) (lang : Str) : OutputConfig := c.update fun c => { c with lang := some lang }

/-- `OutputConfig::metadata` (`/repo/mintyml/src/config.rs:205-210`). -/
def withMetadata (c : OutputConfig) (config : MetadataConfig) : OutputConfig := { c with metadata := some config }

/-- `OutputConfig::fail_fast` (`/repo/mintyml/src/config.rs:213-215`). -/
def withFailFast (c : OutputConfig) (enable : Bool) : OutputConfig := c.update fun c => { c with failFast := some enable }

end OutputConfig

/-- A call of one of the methods that set an option (`/repo/mintyml/src/config.rs:137-215`). -/
inductive ConfigCall where
  | indent (tab : Str)
  | xml (enabled : Bool)
  | emphasisTag (tag : Str)
  | strongTag (tag : Str)
  | underlineTag (tag : Str)
  | strikeTag (tag : Str)
  | quoteTag (tag : Str)
  | codeTag (tag : Str)
  | codeBlockContainerTag (tag : Str)
  | completePage (enabled : Bool)
  | lang (lang : Str)
  | metadata (config : MetadataConfig)
  | failFast (enable : Bool)
deriving DecidableEq, Repr

/-- The configuration after the call (`/repo/mintyml/src/config.rs:137-215`). -/
def ConfigCall.apply (c : OutputConfig) : ConfigCall → OutputConfig
  | .indent tab => c.withIndent tab
  | .xml enabled => c.withXml enabled
  | .emphasisTag tag => c.withEmphasis tag
  | .strongTag tag => c.withStrong tag
  | .underlineTag tag => c.withUnderline tag
  | .strikeTag tag => c.withStrike tag
  | .quoteTag tag => c.withQuote tag
  | .codeTag tag => c.withCode tag
  | .codeBlockContainerTag tag => c.withCodeBlockContainer tag
  | .completePage enabled => c.withCompletePage enabled
  | .lang l => c.withLang l
  | .metadata config => c.withMetadata config
  | .failFast enable => c.withFailFast enable

/-- A chain of calls, as in `OutputConfig::new().indent("  ").xml(true)` (`/repo/mintyml/src/config.rs:78-215`). -/
def configured (calls : List ConfigCall) : OutputConfig := calls.foldl ConfigCall.apply OutputConfig.new

end Mty
