import Verif.Model.Str

/-!
# Paths

The functions of `std::path` (Unix) used by `/repo/minty-cli/src/convert.rs`. A path is a string
(`OsStr` that is not UTF-8 is not modelled). The standard library is not part of `/repo`; the lines cited are
those where each function is used.
-/

namespace Mty.Path

/-- A reversed path without trailing separators and trailing `.` components: what
`Components::next_back` skips before it finds a component (used by all functions below,
`/repo/minty-cli/src/convert.rs:362-369,526,533`). -/
def trimEndRev : Str → Str
  | '/' :: r => trimEndRev r
  | '.' :: '/' :: r => trimEndRev r
  | r => r

/-- A path without trailing separators and trailing `.` components: `Components::as_path` (used by `Path::parent`,
`/repo/minty-cli/src/convert.rs:330,369`). -/
def trimEnd (p : Str) : Str := (trimEndRev p.reverse).reverse

/-- The last component of a path, before it is classified (empty for the empty path and `/`); helper for
`fileName` and `parent` (`/repo/minty-cli/src/convert.rs:362-369`). -/
def lastSegment (p : Str) : Str := ((trimEndRev p.reverse).takeWhile (· ≠ '/')).reverse

/-- What precedes `lastSegment p` (`/repo/minty-cli/src/convert.rs:362-369`). -/
def beforeLast (p : Str) : Str := ((trimEndRev p.reverse).dropWhile (· ≠ '/')).reverse

/-- `Path::file_name` (used in `/repo/minty-cli/src/convert.rs:333,362-366`). -/
def fileName (p : Str) : Option Str :=
  let seg := lastSegment p
  if seg = [] ∨ seg = ['.'] ∨ seg = ['.', '.'] then none else some seg

/-- `Path::parent` (used in `/repo/minty-cli/src/convert.rs:329-330`, `io_helper.rs:27`). -/
def parent (p : Str) : Option Str :=
  if lastSegment p = [] then none
  else
    let pre := beforeLast p
    if trimEnd pre = [] ∧ pre.head? = some '/' then some ['/'] else some (trimEnd pre)

/-- `PathBuf::pop` (used in `/repo/minty-cli/src/convert.rs:109-110,369`). -/
def pop (p : Str) : Str := (parent p).getD p

/-- `PathBuf::push`, `Path::join` (used in `/repo/minty-cli/src/convert.rs:102,106-107,121,196-199,335,382`). -/
def join (p q : Str) : Str :=
  if q.head? = some '/' then q
  else if p = [] ∨ p.getLast? = some '/' then p ++ q
  else p ++ '/' :: q

/-- `rsplit_file_at_dot` of `std::path` for a file name: the name before and after the last dot, if there is a
dot that is not the first character (used by `Path::extension` and `Path::file_stem`, `/repo/minty-cli/src/convert.rs:525,533`). -/
def splitDot (name : Str) : Option (Str × Str) :=
  let after := (name.reverse.takeWhile (· ≠ '.')).reverse
  let before := (name.reverse.dropWhile (· ≠ '.')).reverse.dropLast
  if '.' ∈ name ∧ before ≠ [] then some (before, after) else none

/-- `Path::extension` (used in `/repo/minty-cli/src/convert.rs:420,533`). -/
def extension (p : Str) : Option Str := (fileName p).bind fun n => (splitDot n).map (·.2)

/-- `Path::file_stem` (used by `PathBuf::set_extension`, `/repo/minty-cli/src/convert.rs:525`). -/
def fileStem (p : Str) : Option Str :=
  (fileName p).map fun n => match splitDot n with
    | some (b, _) => b
    | none => n

/-- `PathBuf::set_extension("")` (used in `/repo/minty-cli/src/convert.rs:525`): truncates the path after the
file stem. -/
def removeExtension (p : Str) : Str :=
  match fileStem p with
  | none => p
  | some stem => beforeLast p ++ stem

/-- `PathExt::has_trailing_slash` (`/repo/minty-cli/src/utils.rs:158-161`). `Path::ends_with("/")` compares
components: it holds only for a path with the single component `/`. -/
def hasTrailingSlash (p : Str) : Bool := p.head? = some '/' ∧ trimEnd p = []

end Mty.Path
