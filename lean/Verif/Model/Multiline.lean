import Verif.Model.Str

/-! # Trimming multiline text (`/repo/mintyml/src/output/utils.rs`) -/

namespace Mty

/-- `char::is_whitespace` (Rust std: Unicode `White_Space`), used in
`/repo/mintyml/src/output/utils.rs:6`. -/
def isWhitespace (c : Char) : Bool :=
  let n := c.toNat
  (9 ≤ n && n ≤ 13) || n == 0x20 || n == 0x85 || n == 0xa0 || n == 0x1680
    || (0x2000 ≤ n && n ≤ 0x200a) || n == 0x2028 || n == 0x2029 || n == 0x202f || n == 0x205f
    || n == 0x3000

/-- `str::split_once(c)`, `/repo/mintyml/src/output/utils.rs:2`. -/
def splitOnce (p : Char) : Str → Option (Str × Str)
  | [] => none
  | c :: s => if c = p then some ([], s) else (splitOnce p s).map fun (a, b) => (c :: a, b)

/-- `str::rsplit_once(c)`, `/repo/mintyml/src/output/utils.rs:3`: split at the last occurrence. -/
def rsplitOnce (p : Char) : Str → Option (Str × Str)
  | [] => none
  | c :: s =>
    match rsplitOnce p s with
    | some (a, b) => some (c :: a, b)
    | none => if c = p then some ([], s) else none

/-- `str::split_inclusive('\n')`, `/repo/mintyml/src/output/utils.rs:12`: pieces end after each
newline; no empty last piece. -/
def splitInclusive (p : Char) : Str → List Str
  | [] => []
  | c :: s =>
    if c = p then [c] :: splitInclusive p s
    else
      match splitInclusive p s with
      | [] => [[c]]
      | l :: ls => (c :: l) :: ls

/-- `str::strip_prefix(prefix).unwrap_or(l)`, `/repo/mintyml/src/output/utils.rs:13`. -/
def stripPrefix (pre l : Str) : Str := if pre.isPrefixOf l then l.drop pre.length else l

/-- `str::strip_suffix('\r').unwrap_or(src)`, `/repo/mintyml/src/output/utils.rs:10-11`. -/
def stripCr (s : Str) : Str := if s.getLast? = some '\r' then s.dropLast else s

/-- `trim_multiline` (`/repo/mintyml/src/output/utils.rs:1-18`) as the list of produced lines. -/
def trimMultiline (src : Str) : List Str :=
  match splitOnce '\n' src with
  | none => []
  | some (_, src) =>
    match rsplitOnce '\n' src with
    | none => []
    | some (src, last) =>
      let pre := last.takeWhile isWhitespace
      (splitInclusive '\n' (stripCr src)).map (stripPrefix pre)

end Mty
