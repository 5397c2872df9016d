import Verif.Model.Cli

/-! # `serde_json::to_writer` (used in `/repo/minty-cli/src/error_reporter.rs:299`)

`serde_json` is a dependency (`/repo/minty-cli/Cargo.toml`, with the default compact format); its output for the kinds of
values that occur in the error reporter is modelled here from its documentation. -/

namespace Mty.Cli.Serde

/-- A hexadecimal digit, as `serde_json` writes it (`/repo/minty-cli/src/error_reporter.rs:299`). -/
def hexDigit (n : Nat) : Char := "0123456789abcdef".toList.getD n '0'

/-- A character within a string (`/repo/minty-cli/src/error_reporter.rs:299`; `format_escaped_str` of `serde_json`). -/
def writeChar (c : Char) : Str :=
  if c = '"' then ['\\', '"']
  else if c = '\\' then ['\\', '\\']
  else if c.toNat = 8 then ['\\', 'b']
  else if c.toNat = 12 then ['\\', 'f']
  else if c = '\n' then ['\\', 'n']
  else if c = '\r' then ['\\', 'r']
  else if c = '\t' then ['\\', 't']
  else if c.toNat < 32 then ['\\', 'u', '0', '0', hexDigit (c.toNat / 16), hexDigit (c.toNat % 16)]
  else [c]

/-- A string: `serialize_str`, `collect_str` (`/repo/minty-cli/src/error_reporter.rs:74`). -/
def writeStr (s : Str) : Str := '"' :: (s.flatMap writeChar ++ ['"'])

/-- A `usize` (`/repo/minty-cli/src/error_reporter.rs:53-54`). -/
def writeNat (n : Nat) : Str := Nat.toDigits 10 n

/-- Values separated by commas (`/repo/minty-cli/src/error_reporter.rs:47`). -/
def writeItems : List Str → Str
  | [] => []
  | [a] => a
  | a :: b :: l => a ++ ',' :: writeItems (b :: l)

/-- A sequence: `collect_seq` (`/repo/minty-cli/src/error_reporter.rs:47`). -/
def writeSeq (l : List Str) : Str := '[' :: (writeItems l ++ [']'])

/-- A structure, or a variant with data, with the names and the values as written (`/repo/minty-cli/src/error_reporter.rs:21-34`). -/
def writeStruct (l : List (Str × Str)) : Str := '{' :: (writeItems (l.map fun p => writeStr p.1 ++ ':' :: p.2) ++ ['}'])

end Mty.Cli.Serde
