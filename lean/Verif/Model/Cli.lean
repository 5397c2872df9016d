import Verif.Model.Path
import Verif.Model.Errors

/-!
# Command line: options, names, search for sources, plan of the conversions

`/repo/minty-cli/src/args.rs`, `convert.rs`. Argument parsing (`clap`) is not modelled.
-/

namespace Mty.Cli

/-! ## Options -/

/-- `SpecialTag` (`/repo/minty-cli/src/args.rs:182-198`). -/
inductive SpecialTag where
  | strong | emphasis | underline | strike | quote | code | codeBlockContainer
deriving DecidableEq, Repr

/-- `FailFast` (`/repo/minty-cli/src/args.rs:170-180`). -/
inductive FailFast where
  | «false» | «true» | file
deriving DecidableEq, Repr

/-- `ConvertOptions` (`/repo/minty-cli/src/args.rs:89-168`). -/
structure ConvertOptions where
  xml : Bool := false
  pretty : Bool := false
  indent : Nat := 2
  completePage : Option Bool := none
  fragment : Bool := false
  specialTag : List (SpecialTag × Str) := []
  forgiving : Option Bool := none
  failFast : Option FailFast := none
  metadata : Option Bool := none
  metadataElements : Option Bool := none
deriving DecidableEq, Repr

/-- The body of the loop over `special_tag` in `as_config` (`/repo/minty-cli/src/convert.rs:454-467`). -/
def setSpecialTag (t : SpecialTagConfig) (kv : SpecialTag × Str) : SpecialTagConfig :=
  match kv.1 with
  | .strong => { t with strong := some kv.2 }
  | .emphasis => { t with emphasis := some kv.2 }
  | .underline => { t with underline := some kv.2 }
  | .strike => { t with strike := some kv.2 }
  | .quote => { t with quote := some kv.2 }
  | .code => { t with code := some kv.2 }
  | .codeBlockContainer => { t with codeBlockContainer := some kv.2 }

/-- `ConvertOptions::as_config` (`/repo/minty-cli/src/convert.rs:443-490`). -/
def ConvertOptions.asConfig (o : ConvertOptions) : OutputConfig :=
  { xml := some o.xml
    completePage := some (o.completePage.getD (!o.fragment))
    indent := if o.pretty then some (List.replicate o.indent ' ') else none
    specialTags := o.specialTag.foldl setSpecialTag {}
    lang := none
    metadata := match o.metadata, o.metadataElements with
      | none, some _ => some { elements := o.metadataElements.getD false }
      | some true, _ => some { elements := o.metadataElements.getD false }
      | _, _ => none
    failFast := o.failFast.map (· != .false) }

/-! ## Names -/

/-- `u8::to_ascii_lowercase` (for `OsStr::eq_ignore_ascii_case`, `/repo/minty-cli/src/convert.rs:536`). -/
def lowerAscii (c : Char) : Char :=
  if 'A' ≤ c ∧ c ≤ 'Z' then Char.ofNat (c.toNat + 32) else c

/-- `has_minty_extension` (`/repo/minty-cli/src/convert.rs:531-537`). -/
def hasMintyExtension (p : Str) : Bool :=
  match Path.extension p with
  | none => false
  | some ext => ext.map lowerAscii = "mty".toList ∨ ext.map lowerAscii = "minty".toList

/-- `change_extension` (`/repo/minty-cli/src/convert.rs:523-529`). -/
def changeExtension (p : Str) (o : ConvertOptions) : Str :=
  (if hasMintyExtension p then Path.removeExtension p else p) ++
    (if o.xml then ".xhtml".toList else ".html".toList)

/-! ## Streams and errors -/

/-- `StreamName` (`/repo/minty-cli/src/error_reporter.rs:78-83`). -/
inductive StreamName where
  | file (p : Str)
  | stdio
deriving DecidableEq, Repr

/-- `ErrorCategory` (`/repo/minty-cli/src/error_reporter.rs:247-255`). -/
inductive ErrorCategory where
  | syntax | semantic | internal | argument | hidden
deriving DecidableEq, Repr

/-- An `anyhow::Error` as the reporter reads it (`/repo/minty-cli/src/error_reporter.rs:201-218`): the
`ErrorCategory` and `StreamName` attached as context, if any, and the text of the root cause. -/
structure CliError where
  category : Option ErrorCategory := none
  source : Option StreamName := none
  message : Str
deriving DecidableEq, Repr

/-- `anyhow!(..).context(ErrorCategory::Argument)` (e.g. `/repo/minty-cli/src/convert.rs:144-148`). -/
def argumentError (msg : Str) : CliError := { category := some .argument, message := msg }

/-! ## File system queries -/

/-- `PathInfo` (`/repo/minty-cli/src/io_helper.rs:137-141`). -/
structure PathInfo where
  isFile : Bool
  isDir : Bool
deriving DecidableEq, Repr

/-- The queries of `IoHelper` (`/repo/minty-cli/src/io_helper.rs:52-54`). `readDir`: the entries of a directory
(`convert.rs:95` collects them, so the first error is the result). -/
structure Fs where
  pathInfo : Str → Except Str (Option PathInfo)
  readDir : Str → Except Str (List (Str × PathInfo))

/-- `SourceFileLocation` (`/repo/minty-cli/src/convert.rs:375-378`). -/
structure Loc where
  base : Str
  relative : Str
deriving DecidableEq, Repr

/-- `SourceFileLocation::joined` (`/repo/minty-cli/src/convert.rs:380-385`). -/
def Loc.joined (l : Loc) : Str := Path.join l.base l.relative

/-- `impl Display for SourceFileLocation` (`/repo/minty-cli/src/convert.rs:387-396`). -/
def Loc.display (l : Loc) : Str :=
  l.base ++ (if Path.hasTrailingSlash l.base then [] else ['/']) ++ l.relative

/-- `PathType` (`/repo/minty-cli/src/convert.rs:398-405`). -/
inductive PathType where
  | file | probablyFile | unknown | probablyDir | dir (trailingSlash : Bool)
deriving DecidableEq, Repr

/-- `t >= PathType::ProbablyDir` in the derived order (`/repo/minty-cli/src/convert.rs:398,252,307`). -/
def PathType.atLeastProbablyDir : PathType → Bool
  | .probablyDir => true
  | .dir _ => true
  | _ => false

/-- `PathType::for_path` (`/repo/minty-cli/src/convert.rs:407-427`). -/
def PathType.forPath (fs : Fs) (p : Str) : Except CliError PathType :=
  match fs.pathInfo p with
  | .error m => .error { message := m }
  | .ok (some info) => .ok (if info.isDir then .dir (Path.hasTrailingSlash p) else .file)
  | .ok none =>
    .ok (if Path.hasTrailingSlash p then .probablyDir
      else if (Path.extension p).isSome then .probablyFile else .unknown)

/-! ## Search -/

/-- What `search_dir_inner` changes through `&mut` (`/repo/minty-cli/src/convert.rs:87-94`). -/
structure SearchState where
  exact : Str
  rel : Str
  out : List Loc
deriving DecidableEq, Repr

/-- The loop of `search_dir_inner` over the entries (`/repo/minty-cli/src/convert.rs:97-112`); `recurse` is the
recursive call, `none` if `recurse = 0`. -/
def searchEntries (base : Str) (recurse : Option (SearchState → Except Str SearchState)) :
    List (Str × PathInfo) → SearchState → Except Str SearchState
  | [], s => .ok s
  | (name, info) :: rest, s =>
    if info.isFile then
      searchEntries base recurse rest
        (if hasMintyExtension name then { s with out := s.out ++ [⟨base, Path.join s.rel name⟩] } else s)
    else
      match recurse with
      | none => searchEntries base recurse rest s
      | some f =>
        match f { s with rel := Path.join s.rel name, exact := Path.join s.exact name } with
        | .error m => .error m
        | .ok s => searchEntries base recurse rest { s with exact := Path.pop s.exact, rel := Path.pop s.rel }

/-- `search_dir_inner` (`/repo/minty-cli/src/convert.rs:87-114`). -/
def searchDirInner (fs : Fs) (base : Str) : Nat → SearchState → Except Str SearchState
  | recurse, s =>
    match fs.readDir s.exact with
    | .error m => .error m
    | .ok entries =>
      match recurse with
      | 0 => searchEntries base none entries s
      | r + 1 => searchEntries base (some (searchDirInner fs base r)) entries s

/-- `search_dir` (`/repo/minty-cli/src/convert.rs:115-123`). -/
def searchDir (fs : Fs) (recursion : Nat) (base rel : Str) (out : List Loc) : Except CliError (List Loc) :=
  match searchDirInner fs base recursion ⟨Path.join base rel, rel, out⟩ with
  | .error m => .error { message := m }
  | .ok s => .ok s.out

/-- The arguments of the `convert` command that select sources and destination
(`/repo/minty-cli/src/args.rs:30-50,62-87`). -/
structure ConvertArgs where
  stdin : Bool := false
  srcDir : Option Str := none
  srcFiles : Option (List Str) := none
  recurse : Option (Option Nat) := none
  out : Option Str := none
  stdout : Bool := false
  options : ConvertOptions := {}
deriving DecidableEq, Repr

/-- `get_recursion` (`/repo/minty-cli/src/convert.rs:27-34`). -/
def ConvertArgs.recursion (a : ConvertArgs) : Nat :=
  match a.recurse with
  | some (some r) => r
  | some none => 4294967295
  | none => 0

/-- `get_search_parts` with a path (`/repo/minty-cli/src/convert.rs:345-372`; it is never called without one). -/
def searchParts (dir : Option Str) (path : Str) : Loc :=
  match dir with
  | some d => ⟨d, path⟩
  | none => ⟨Path.pop path, (Path.fileName path).getD []⟩

/-- `SourceType` (`/repo/minty-cli/src/convert.rs:429-435`). -/
inductive SourceType where
  | stdin
  | dir (l : List Loc)
  | implicit (l : List Loc)
  | file (l : Loc) (t : PathType)
  | files (l : List Loc)
deriving DecidableEq, Repr

/-- `DestinationType` (`/repo/minty-cli/src/convert.rs:437-441`). -/
inductive DestinationType where
  | stdout
  | implicit
  | file (p : Str) (t : PathType)
deriving DecidableEq, Repr

/-- The loop over several source files (`/repo/minty-cli/src/convert.rs:139-156`). -/
def sourceFiles (fs : Fs) (recursion : Nat) (dir : Option Str) : List Str → List Loc → Except CliError (List Loc)
  | [], out => .ok out
  | f :: rest, out =>
    match fs.pathInfo f with
    | .error m => .error { message := m }
    | .ok none => .error (argumentError ('\'' :: (searchParts dir f).display ++ "' does not exist".toList))
    | .ok (some info) =>
      if info.isDir then
        match searchDir fs recursion (searchParts dir f).base (searchParts dir f).relative out with
        | .error e => .error e
        | .ok out => sourceFiles fs recursion dir rest out
      else sourceFiles fs recursion dir rest (out ++ [searchParts dir f])

/-- `conversion_src_type` (`/repo/minty-cli/src/convert.rs:125-170`). -/
def srcType (fs : Fs) (a : ConvertArgs) : Except CliError SourceType :=
  if a.stdin then .ok .stdin
  else match a.srcFiles, a.srcDir with
    | some [f], dir =>
      match PathType.forPath fs f with
      | .error e => .error e
      | .ok t => .ok (.file (searchParts dir f) t)
    | some fs', dir =>
      match sourceFiles fs a.recursion dir fs' [] with
      | .error e => .error e
      | .ok l => .ok (.files l)
    | none, some d =>
      match searchDir fs a.recursion d [] [] with
      | .error e => .error e
      | .ok l => .ok (.dir l)
    | none, none =>
      match searchDir fs a.recursion ['.'] [] [] with
      | .error e => .error e
      | .ok l => .ok (.implicit l)

/-- `conversion_dest_type` (`/repo/minty-cli/src/convert.rs:172-182`). -/
def destType (fs : Fs) (a : ConvertArgs) : Except CliError DestinationType :=
  if a.stdout then .ok .stdout
  else match a.out with
    | some p =>
      match PathType.forPath fs p with
      | .error e => .error e
      | .ok t => .ok (.file p t)
    | none => .ok .implicit

/-! ## Plan -/

/-- What `convert_src_to_dest` does after choosing: one call of `convert`, or `convert_multiple`
(`/repo/minty-cli/src/convert.rs:215-343`). -/
inductive Plan where
  | one (src dest : StreamName)
  | many (locs : List Loc) (dest : Option Str)
deriving DecidableEq, Repr

/-- `search_dir` followed by `convert_multiple` (`/repo/minty-cli/src/convert.rs:274-276,339-340`). -/
def searchMany (fs : Fs) (a : ConvertArgs) (base rel : Str) (dest : Option Str) : Except CliError Plan :=
  match searchDir fs a.recursion base rel [] with
  | .error e => .error e
  | .ok l => .ok (.many l dest)

/-- `convert_src_to_dest` (`/repo/minty-cli/src/convert.rs:215-343`), up to the conversions. -/
def planOf (fs : Fs) (a : ConvertArgs) : SourceType → DestinationType → Except CliError Plan
  -- 217-220
  | .file src .probablyDir, .file _ .file => .error (argumentError ('\'' :: src.display ++ "' is not a file".toList))
  | .file src .probablyDir, .stdout => .error (argumentError ('\'' :: src.display ++ "' is not a file".toList))
  | .file src (.dir _), .file _ .file => .error (argumentError ('\'' :: src.display ++ "' is not a file".toList))
  | .file src (.dir _), .stdout => .error (argumentError ('\'' :: src.display ++ "' is not a file".toList))
  -- 221-227
  | .file p .probablyFile, _ => .error (argumentError ('\'' :: p.display ++ "' does not exist".toList))
  | .file p .unknown, _ => .error (argumentError ('\'' :: p.display ++ "' does not exist".toList))
  | .file p .probablyDir, _ => .error (argumentError ('\'' :: p.display ++ "' does not exist".toList))
  -- 228-234
  | .dir _, .file out .file => .error (argumentError ('\'' :: out ++ "' is not a directory".toList))
  | .implicit _, .file out .file => .error (argumentError ('\'' :: out ++ "' is not a directory".toList))
  | .files _, .file out .file => .error (argumentError ('\'' :: out ++ "' is not a directory".toList))
  -- 235-239
  | .file src .file, .stdout => .ok (.one (.file src.joined) .stdio)
  -- 240-247
  | .dir _, .stdout => .error { message := "--stdout requires --stdin or exactly one source file".toList }
  | .implicit _, .stdout => .error { message := "--stdout requires --stdin or exactly one source file".toList }
  | .files _, .stdout => .error { message := "--stdout requires --stdin or exactly one source file".toList }
  -- 248-250
  | .stdin, .stdout => .ok (.one .stdio .stdio)
  -- 251-260
  | .stdin, .file dest t =>
    if t.atLeastProbablyDir then .error (argumentError ('\'' :: dest ++ "' is not a file".toList))
    else .ok (.one .stdio (.file dest))
  -- 261-266
  | .stdin, .implicit => .error (argumentError "--stdin requires --stdout or exactly one output file".toList)
  -- 267-269
  | .file src .file, .implicit => .ok (.many [src] none)
  -- 270-277
  | .file l (.dir _), .implicit => searchMany fs a l.base l.relative none
  -- 278-283
  | .dir l, .implicit => .ok (.many l none)
  | .files l, .implicit => .ok (.many l none)
  | .implicit l, .implicit => .ok (.many l none)
  -- 284-289
  | .dir l, .file dest _ => .ok (.many l (some dest))
  | .files l, .file dest _ => .ok (.many l (some dest))
  | .implicit l, .file dest _ => .ok (.many l (some dest))
  -- 291-303
  | .file _ .file, .file dest (.dir false) => .error (argumentError ('\'' :: dest ++ "' is a directory".toList))
  -- 304-315
  | .file src .file, .file dest t =>
    if t.atLeastProbablyDir then .ok (.many [src] (some dest))
    else .ok (.one (.file src.joined) (.file dest))
  -- 317-341
  | .file l (.dir trailingSlash), .file dest _ =>
    if !trailingSlash && Path.hasTrailingSlash dest && l.base.isEmpty then
      searchMany fs a ((Path.parent dest).getD ['.']) ((Path.fileName l.relative).getD []) (some dest)
    else searchMany fs a (Path.join l.base l.relative) [] (some dest)

/-- `ConvertCx::execute` (`/repo/minty-cli/src/convert.rs:80-85`), up to the conversions. -/
def plan (fs : Fs) (a : ConvertArgs) : Except CliError Plan :=
  match srcType fs a with
  | .error e => .error e
  | .ok s =>
    match destType fs a with
    | .error e => .error e
    | .ok d => planOf fs a s d

/-- Source and destination of one conversion (the arguments of `convert`, `/repo/minty-cli/src/convert.rs:36-40`). -/
structure Task where
  src : StreamName
  dest : StreamName
deriving DecidableEq, Repr

/-- The closure of `convert_multiple` (`/repo/minty-cli/src/convert.rs:192-210`), up to the call of `convert`. -/
def multiTask (o : ConvertOptions) (dest : Option Str) (l : Loc) : Task :=
  ⟨.file l.joined,
   .file (changeExtension (match dest with
      | some d => Path.join d l.relative
      | none => Path.join l.base l.relative) o)⟩

/-- The conversions of a plan (`/repo/minty-cli/src/convert.rs:191-192,215-343`). -/
def Plan.tasks (o : ConvertOptions) : Plan → List Task
  | .one s d => [⟨s, d⟩]
  | .many locs dest => locs.map (multiTask o dest)

end Mty.Cli
