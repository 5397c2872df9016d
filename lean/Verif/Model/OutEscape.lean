import Verif.Model.Escape

/-!
# Writing escaped text and comments

Models the escape writers of `/repo/mintyml/src/output/mod.rs` and `output/utils.rs`.
-/

namespace Mty

/-- `EscapeKind` (`/repo/mintyml/src/output/mod.rs:51-54`). -/
inductive EscapeKind where
  | number (n : Nat)
  | special (s : Str)
deriving DecidableEq, Repr

/-- `HtmlEscape::get_escape` (`/repo/mintyml/src/output/mod.rs:60-71`, `xml = false`) and
`XmlEscape::get_escape` (`mod.rs:85-94`, `xml = true`). -/
def getEscape (xml quote : Bool) (ch : Char) : Option EscapeKind :=
  if ch = '&' then some (.special "&amp;".toList)
  else if ch = '<' then some (.special "&lt;".toList)
  else if ch = '>' then some (.special "&gt;".toList)
  else if ch = '\t' ∧ xml = false then some (.special "&Tab;".toList)
  else if ch = '\n' ∧ xml = false then some (.special "&NewLine;".toList)
  else if ch = '"' ∧ quote = true then some (.special "&quot;".toList)
  else if ch.toNat ≤ 0x1f ∨ (0x7f ≤ ch.toNat ∧ ch.toNat ≤ 0x9f) then some (.number ch.toNat)
  else none

/-- `write_escape` (`/repo/mintyml/src/output/mod.rs:73-78,96-101`); numbers in decimal. -/
def writeEscapeKind : EscapeKind → Str
  | .number n => "&#".toList ++ Nat.toDigits 10 n ++ [';']
  | .special s => s

/-- `EscapeWriter::write_char` (`/repo/mintyml/src/output/mod.rs:144-149`). -/
def escWriteChar (xml quote : Bool) (ch : Char) : Str :=
  match getEscape xml quote ch with
  | some esc => writeEscapeKind esc
  | none => [ch]

/-- The fold in `EscapeWriter::write_str` (`/repo/mintyml/src/output/mod.rs:122-142`). `pending` is
the slice `s[last..idx]` that has not been written yet. -/
def escWriteStrLoop (xml quote : Bool) (pending : Str) : Str → Str
  | [] => pending
  | ch :: s =>
    match getEscape xml quote ch with
    | some esc => pending ++ writeEscapeKind esc ++ escWriteStrLoop xml quote [] s
    | none => escWriteStrLoop xml quote (pending ++ [ch]) s

/-- `EscapeWriter::write_str` (`/repo/mintyml/src/output/mod.rs:122-142`). -/
def escWriteStr (xml quote : Bool) (s : Str) : Str := escWriteStrLoop xml quote [] s

/-- The loop of `write_unescaped` (`/repo/mintyml/src/output/mod.rs:152-157`) over the items of
`unescape_parts`, with a writer given by its `write_str` and `write_char`. Result: characters
written and whether it succeeded (an invalid escape stops with an error). -/
def writeParts (ws : Str → Str) (wc : Char → Str) : List (Except Range Part) → Str × Bool
  | [] => ([], true)
  | .error _ :: _ => ([], false)
  | .ok (.slice s) :: r => let (o, ok) := writeParts ws wc r; (ws s ++ o, ok)
  | .ok (.char c) :: r => let (o, ok) := writeParts ws wc r; (wc c ++ o, ok)

/-- `OutputContext::write_escape_unescape` (`/repo/mintyml/src/output/mod.rs:179-203`). -/
def writeEscapeUnescape (xml quote : Bool) (s : Str) : Str × Bool :=
  writeParts (escWriteStr xml quote) (escWriteChar xml quote) (unescapeParts s 0)

/-- `OutputContext::write_escape` (`/repo/mintyml/src/output/mod.rs:204-219`). -/
def writeEscape (xml quote : Bool) (s : Str) : Str × Bool := (escWriteStr xml quote s, true)

/-- `OutputContext::write_unescape` (`/repo/mintyml/src/output/mod.rs:249-251`). -/
def writeUnescape (s : Str) : Str × Bool :=
  writeParts (fun s => s) (fun c => [c]) (unescapeParts s 0)

/-- Split before the second `-` of the first `--` (`find("--")` and `split_at(i + 1)`,
`/repo/mintyml/src/output/mod.rs:232-234`). -/
def splitDashes : Str → Option (Str × Str)
  | [] => none
  | [_] => none
  | a :: b :: s =>
    if a = '-' ∧ b = '-' then some ([a], b :: s)
    else (splitDashes (b :: s)).map fun (c, r) => (a :: c, r)

/-- The `while` loop of `write_comment_body` and what follows it
(`/repo/mintyml/src/output/mod.rs:230-246`). The fuel bounds the number of iterations (each one
shortens the slice). -/
def commentLoop : Nat → Str → Str
  | 0, slice => slice
  | fuel + 1, slice =>
    match splitDashes slice with
    | some (chunk, rest) => chunk ++ ' ' :: commentLoop fuel rest
    | none => if slice.getLast? = some '-' then slice ++ [' '] else slice

/-- `OutputContext::write_comment_body` (`/repo/mintyml/src/output/mod.rs:222-247`). -/
def writeCommentBody (src : Str) : Str :=
  (if ['>'].isPrefixOf src || ['-', '>'].isPrefixOf src then [' '] else [])
    ++ commentLoop (src.length + 1) src

end Mty
