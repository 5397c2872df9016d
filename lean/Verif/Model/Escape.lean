import Verif.Model.Str

/-!
# Backslash escapes in the source

Models `/repo/mintyml/src/escape.rs`.
-/

namespace Mty

/-- `UnescapePart` (`/repo/mintyml/src/escape.rs:11-14`). -/
inductive Part where
  | slice (s : Str)
  | char (c : Char)
deriving DecidableEq, Repr

/-- `char::to_digit(16)` (Rust std), used by `from_str_radix` in
`/repo/mintyml/src/escape.rs:50,66`. -/
def hexDigit (c : Char) : Option Nat :=
  if '0' ≤ c ∧ c ≤ '9' then some (c.toNat - '0'.toNat)
  else if 'a' ≤ c ∧ c ≤ 'f' then some (c.toNat - 'a'.toNat + 10)
  else if 'A' ≤ c ∧ c ≤ 'F' then some (c.toNat - 'A'.toNat + 10)
  else none

/-- Digit loop of `from_str_radix(_, 16)` (Rust std, used in `/repo/mintyml/src/escape.rs:50,66`) with accumulator; `max` is the type's maximum
(overflow is an error). -/
def hexLoop (max : Nat) : Nat → Str → Option Nat
  | acc, [] => some acc
  | acc, c :: s =>
    match hexDigit c with
    | none => none
    | some d =>
      let acc' := acc * 16 + d
      if acc' ≤ max then hexLoop max acc' s else none

/-- `u8::from_str_radix(_, 16)` / `u32::from_str_radix(_, 16)` (Rust std; `max` = 255 or 2^32-1),
called in `/repo/mintyml/src/escape.rs:50,66`: the empty string and a lone sign are errors, one
leading `+` is skipped, for unsigned types `-` is an invalid digit. -/
def fromStrRadix16 (max : Nat) (s : Str) : Option Nat :=
  match s with
  | [] => none
  | ['+'] => none
  | '+' :: rest => hexLoop max 0 rest
  | _ => hexLoop max 0 s

/-- `char::from_u32` (Rust std), `/repo/mintyml/src/escape.rs:68`. -/
def charFromU32 (n : Nat) : Option Char :=
  if n.isValidChar then some (Char.ofNat n) else none

/-- The characters that denote themselves after a backslash (`/repo/mintyml/src/escape.rs:71`). -/
def selfEscapes : List Char := ['<', '>', '{', '}', '"', '\'', '\\', '[', ']']

/-- The `match first_char` of `/repo/mintyml/src/escape.rs:43-73`: result (`none` = `Err(())`) and
the cursor afterwards. `cur` is the cursor after the backslash and `first`. -/
def escapeBody (first : Char) (cur : Cursor) : Option Char × Cursor :=
  if first = 't' then (some '\t', cur)
  else if first = 'n' then (some '\n', cur)
  else if first = 'r' then (some '\r', cur)
  else if first = 'x' then
    let (r, cur') := cur.advanceBy 2
    let v := match r with
      | .ok digits => ((fromStrRadix16 255 digits).filter (· ≤ 0x7f)).bind charFromU32
      | .error _ => none
    (v, cur')
  else if first = 'u' then
    if cur.peek ≠ some '{' then (none, cur)
    else
      let cur1 := cur.next.2
      match cur1.advanceToChar '}' with
      | (.ok digits, cur2) =>
        if 1 ≤ byteLen digits ∧ byteLen digits ≤ 6 then
          ((fromStrRadix16 4294967295 digits).bind charFromU32, cur2.next.2)
        else (none, cur2)
      | (.error _, cur2) => (none, cur2)
  else if first ∈ selfEscapes then (some first, cur)
  else (none, cur)

/-- One call of the iterator closure in `unescape_parts`
(`/repo/mintyml/src/escape.rs:25-81`): `none` = iterator exhausted; an error carries the range
of the bad sequence. -/
def unescapeStep (offset : Nat) (cur : Cursor) : Option (Except Range Part × Cursor) :=
  match cur.advanceToChar '\\' with
  | (.ok (p :: ps), cur1) => some (.ok (.slice (p :: ps)), cur1)
  | (.error (p :: ps), cur1) => some (.ok (.slice (p :: ps)), cur1)
  | (.error [], _) => none
  | (.ok [], cur1) =>
    let start := offset + cur1.pos
    let cur2 := cur1.next.2
    match cur2.next with
    | (none, cur3) => some (.error ⟨start, offset + cur3.pos⟩, cur3)
    | (some first, cur3) =>
      match escapeBody first cur3 with
      | (some c, cur4) => some (.ok (.char c), cur4)
      | (none, cur4) => some (.error ⟨start, offset + cur4.pos⟩, cur4)

/-- Running the iterator of `unescape_parts` (`/repo/mintyml/src/escape.rs:18-82`) to the end. The fuel bounds the number of `next` calls; `unescapeParts`
provides one more than the number of characters and every call consumes a character
(`unescapeLoop_fuel` in `Proofs/Escape.lean`). -/
def unescapeLoop (offset : Nat) : Nat → Cursor → List (Except Range Part)
  | 0, _ => []
  | fuel + 1, cur =>
    match unescapeStep offset cur with
    | none => []
    | some (r, cur') => r :: unescapeLoop offset fuel cur'

/-- `unescape_parts` (`/repo/mintyml/src/escape.rs:18-82`) as the list of produced items.
`slice_offset = None` is offset 0 (`Location::MIN`, line 22). -/
def unescapeParts (s : Str) (offset : Nat) : List (Except Range Part) :=
  unescapeLoop offset (s.length + 1) (Cursor.new s)

/-- `escape_errors` (`/repo/mintyml/src/escape.rs:84-89`). -/
def escapeErrors (s : Str) (offset : Nat) : List Range :=
  (unescapeParts s offset).filterMap fun
    | .error r => some r
    | .ok _ => none

end Mty
