import Verif.Model.Cli

/-!
# Overrides of special tags on the command line

Models `/repo/minty-cli/src/key_value.rs` for the argument `--special-tag` (`/repo/minty-cli/src/args.rs:126-138`). The splitting at
`value_delimiter`, the collection of occurrences by `ArgAction::Append` and the value parsers for enumerations and strings are those of
`clap`, as documented. Texts are assumed to be valid Unicode (`to_string_lossy` is the identity); of an error only the fact is kept.
-/

set_option autoImplicit false

namespace Mty.Cli

/-- `str::split_once('=')`, used in `/repo/minty-cli/src/key_value.rs:49`. -/
def splitKey (sep : Char) : Str → Option (Str × Str)
  | [] => none
  | c :: s => if c = sep then some ([], s) else (splitKey sep s).map fun (k, v) => (c :: k, v)

/-- `EnumValueParser<SpecialTag>` (`/repo/minty-cli/src/args.rs:182-198`): the names `clap` derives for the variants. -/
def SpecialTag.parse (s : Str) : Option SpecialTag :=
  if s = "strong".toList then some .strong
  else if s = "emphasis".toList then some .emphasis
  else if s = "underline".toList then some .underline
  else if s = "strike".toList then some .strike
  else if s = "quote".toList then some .quote
  else if s = "code".toList then some .code
  else if s = "code-block-container".toList then some .codeBlockContainer
  else none

/-- `KeyValueParser::parse_ref` (`/repo/minty-cli/src/key_value.rs:41-81`) with the parsers for special tags and strings. -/
def parseKeyValue (s : Str) : Option (SpecialTag × Str) :=
  match splitKey '=' s with
  | none => none
  | some (k, v) => (SpecialTag.parse k).map fun k => (k, v)

/-- The values of one occurrence of an argument with `value_delimiter = ','` (`/repo/minty-cli/src/args.rs:136`). -/
def splitValues : Str → List Str
  | [] => [[]]
  | c :: s =>
    if c = ',' then [] :: splitValues s
    else match splitValues s with
      | [] => [[c]]
      | w :: ws => (c :: w) :: ws

/-- Every value of a list must be parsed (clap calls the `value_parser` of `/repo/minty-cli/src/args.rs:130` for each). -/
def parseValues : List Str → Option (List (SpecialTag × Str))
  | [] => some []
  | s :: rest =>
    match parseKeyValue s with
    | none => none
    | some kv => (parseValues rest).map (kv :: ·)

/-- The field `special_tag` for the occurrences of `--special-tag` (`/repo/minty-cli/src/args.rs:126-138`). -/
def parseSpecialTags (occurrences : List Str) : Option (List (SpecialTag × Str)) :=
  parseValues (occurrences.flatMap splitValues)

end Mty.Cli
