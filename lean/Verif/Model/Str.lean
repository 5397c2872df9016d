/-!
# Strings, byte positions and the string cursor

Models `/repo/mintyml/src/utils.rs` (`StrCursor`) and the `Location`/`LocationRange`
types re-exported from the external crate `gramma` (used as plain byte positions).
A Rust `str` is a list of Unicode scalar values.
-/

namespace Mty

/-- A Rust `str`/`String` (sequence of `char`), e.g. `src` in `/repo/mintyml/src/utils.rs:10`. -/
abbrev Str := List Char

/-- `str::len`: number of UTF-8 bytes (`char::len_utf8` summed), e.g. `/repo/mintyml/src/utils.rs:42`. -/
def byteLen : Str → Nat
  | [] => 0
  | c :: s => c.utf8Size + byteLen s

/-- `gramma::parse::LocationRange` (`start`/`end` are byte positions); used e.g. in
`/repo/mintyml/src/error.rs:16`. -/
structure Range where
  start : Nat
  stop : Nat
deriving DecidableEq, Repr, Inhabited

namespace Range

/-- `LocationRange::INVALID` (external crate; only `start > end` matters), used in
`/repo/mintyml/src/transform/complete_page.rs:62-99` and `metadata.rs:251`. -/
def INVALID : Range := ⟨18446744073709551615, 0⟩

/-- `LocationRange::combine` (external crate): smallest range containing both; used in
`/repo/mintyml/src/document/elements.rs:92-108`, `line.rs:147`, `text.rs:171`,
`transform/metadata.rs:203-216`. -/
def combine (a b : Range) : Range := ⟨min a.start b.start, max a.stop b.stop⟩

end Range

/-- Drop `n` bytes from the front (whole characters; used with `n` on a char boundary): `&src[n..]`, as in
`/repo/mintyml/src/utils.rs:36-38`. -/
def dropBytes : Nat → Str → Str
  | _, [] => []
  | n, c :: s => if n = 0 then c :: s else dropBytes (n - c.utf8Size) s

/-- Take `n` bytes from the front (whole characters; used with `n` on a char boundary): `&src[..n]`, as in
`/repo/mintyml/src/utils.rs:32-34`. -/
def takeBytes : Nat → Str → Str
  | _, [] => []
  | n, c :: s => if n = 0 then [] else c :: takeBytes (n - c.utf8Size) s

/-- `LocationRange::slice` (external crate): `&src[start..end]`, used in
`/repo/mintyml/src/document/mod.rs:129` and `text.rs:20`.  Rust panics for ranges that are not
char-boundary ranges of `src`; the model returns a meaningless string there. `ValidRange`
(below) says when no panic happens. -/
def Range.slice (r : Range) (src : Str) : Str :=
  takeBytes (r.stop - r.start) (dropBytes r.start src)

/-- `p` is a character boundary of `src` (`str::is_char_boundary`, the condition under which Rust does not panic at
`/repo/mintyml/src/document/text.rs:20` and `mod.rs:129`). -/
def isBoundary (src : Str) (p : Nat) : Prop :=
  ∃ pre post, src = pre ++ post ∧ byteLen pre = p

/-- Slicing `src[start..end]` does not panic (`/repo/mintyml/src/document/text.rs:20`, `mod.rs:129`). -/
def ValidRange (src : Str) (r : Range) : Prop :=
  r.start ≤ r.stop ∧ isBoundary src r.start ∧ isBoundary src r.stop

/-! ## Cursor -/

/-- `StrCursor` (`/repo/mintyml/src/utils.rs:9-13`).  The model keeps the byte `position` and the
remaining input (`post()`, lines 37-39) instead of the whole source string. -/
structure Cursor where
  pos : Nat
  post : Str
deriving DecidableEq, Repr

namespace Cursor

/-- `StrCursor::new` (`/repo/mintyml/src/utils.rs:16-18`). -/
def new (s : Str) : Cursor := ⟨0, s⟩

/-- `StrCursor::next` (`/repo/mintyml/src/utils.rs:87-91`). -/
def next (c : Cursor) : Option Char × Cursor :=
  match c.post with
  | [] => (none, c)
  | ch :: rest => (some ch, ⟨c.pos + ch.utf8Size, rest⟩)

/-- `StrCursor::peek(0)` (`/repo/mintyml/src/utils.rs:93-95`; only called with `dist = 0`). -/
def peek (c : Cursor) : Option Char := c.post.head?

/-- Split a string at the first occurrence of `p` (`str::find(char)` + slicing, `/repo/mintyml/src/utils.rs:75`). The second
component is `none` if `p` does not occur. -/
def splitAtChar (p : Char) : Str → Str × Option Str
  | [] => ([], none)
  | c :: s =>
    if c = p then ([], some (c :: s))
    else
      let (pre, r) := splitAtChar p s
      (c :: pre, r)

/-- `StrCursor::advance_to_char` (`/repo/mintyml/src/utils.rs:73-85`): `Ok(prefix)` with the cursor
at the character, or `Err(rest)` with the cursor at the end. -/
def advanceToChar (c : Cursor) (p : Char) : Except Str Str × Cursor :=
  match splitAtChar p c.post with
  | (pre, some rest) => (.ok pre, ⟨c.pos + byteLen pre, rest⟩)
  | (pre, none) => (.error pre, ⟨c.pos + byteLen pre, []⟩)

/-- `StrCursor::advance_by` (`/repo/mintyml/src/utils.rs:46-71`): `Ok` if `num` characters were
available *or none at all* (line 69), `Err` if some but fewer than `num`. -/
def advanceBy (c : Cursor) (num : Nat) : Except Str Str × Cursor :=
  let slice := c.post.take num
  let c' : Cursor := ⟨c.pos + byteLen slice, c.post.drop num⟩
  if slice.isEmpty then (.ok [], c)
  else if slice.length = num then (.ok slice, c')
  else (.error slice, c')

end Cursor

end Mty
