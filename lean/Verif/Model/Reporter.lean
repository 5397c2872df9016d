import Verif.Model.Json

/-! # The error reporter (`/repo/minty-cli/src/error_reporter.rs`) and error messages (`/repo/mintyml/src/error.rs`) -/

namespace Mty.Cli

/-- Formatting that is not modelled: `{:?}` of a string (`/repo/mintyml/src/error.rs:77-81`). -/
structure Fmt where
  debug : Str → Str

/-- `ErrorMode` (`/repo/minty-cli/src/args.rs:52-60`). -/
inductive ErrorMode where
  | default | json | silent
deriving DecidableEq, Repr

/-! ## Messages -/

/-- `join_display` (`/repo/mintyml/src/utils.rs:123-150`). -/
def joinDisplay (sep : Str) : List Str → Str
  | [] => []
  | [a] => a
  | a :: b :: l => a ++ sep ++ joinDisplay sep (b :: l)

/-- `src.get(start..end).unwrap_or_default()` (`/repo/mintyml/src/error.rs:79-80`). Simplified: outside of
character boundaries Rust yields the empty string, the model some string. -/
def sampleOf (src : Str) (r : Range) : Str := if r.start ≤ r.stop ∧ r.stop ≤ byteLen src then r.slice src else []

/-- `SyntaxError::display_with_src` with `show_location = false` (`/repo/mintyml/src/error.rs:41-86`), and
`impl Display for SyntaxErrorKind` (88-116). -/
def SyntaxError.displayWithSrc (debug : Str → Str) (src : Str) (e : SyntaxError) : Str :=
  let sample := if e.range.start ≥ byteLen src then "end-of-file".toList else debug (sampleOf src e.range)
  match e.kind with
  | .invalidEscape => "Invalid escape sequence ".toList ++ sample ++ ['.']
  | .parseFailed expected => "Unexpected ".toList ++ sample ++ ". Expected ".toList ++ joinDisplay " | ".toList expected
  | .unclosed _ => "Unclosed delimiter ".toList ++ sample
  | .unknown => "Unknown".toList
  | .invalidItem i => "Invalid ".toList ++ i.display
  | .misplacedItem k => k.display

/-- `SemanticError::display_with_src` (`/repo/mintyml/src/error.rs:378-388`); `SemanticErrorKind` has only `Unknown`. -/
def SemanticError.displayWithSrc (_src : Str) (_e : SemanticError) : Str := "Unknown".toList

/-- `impl Display for ConvertError` (`/repo/mintyml/src/error.rs:292-313`): what `{}` shows for the error of a conversion. -/
def ConvertError.display (debug : Str → Str) : ConvertError → Str
  | .syntax errors src => joinDisplay "; ".toList (errors.map (SyntaxError.displayWithSrc debug src))
  | .semantic errors src => joinDisplay "; ".toList (errors.map (SemanticError.displayWithSrc src))
  | .unknown => "Unknown".toList

/-! ## Entries -/

/-- `ErrorEntry` (`/repo/minty-cli/src/error_reporter.rs:21-34`), `ErrorLocation` (51-63). For `expected`, an iterator, `none`
is one whose `size_hint` says that it is empty (36-38). -/
structure ErrorEntry where
  category : ErrorCategory
  sourceName : Option StreamName
  location : Option (Nat × Nat)
  expected : Option (List Str)
  message : Option Str
deriving DecidableEq, Repr

/-- `ErrorEventData` (`/repo/minty-cli/src/error_reporter.rs:141-147`). -/
structure ErrorEventData where
  src : Option Str := none
  sourceName : Option StreamName := none
  syntaxErrors : List SyntaxError := []
  semanticErrors : List SemanticError := []
  otherErrors : List CliError := []
deriving DecidableEq, Repr

/-- The entry for a syntax error (`/repo/minty-cli/src/error_reporter.rs:162-184`). The upper bound of the `size_hint` of
`Some(expected).into_iter().flatten()` is unknown, that of `None.into_iter().flatten()` is 0. Simplified: `Display` of
`ExpectedParse`, a type of the dependency `gramma`, is taken to be its name. -/
def syntaxEntry (debug : Str → Str) (d : ErrorEventData) (e : SyntaxError) : ErrorEntry :=
  { category := .syntax
    sourceName := d.sourceName
    location := some (e.range.start, e.range.stop)
    expected := match e.kind with
      | .parseFailed expected => some expected
      | _ => none
    message := d.src.map fun s => SyntaxError.displayWithSrc debug s e }

/-- The entry for a semantic error (`/repo/minty-cli/src/error_reporter.rs:185-200`). -/
def semanticEntry (d : ErrorEventData) (e : SemanticError) : ErrorEntry :=
  { category := .semantic
    sourceName := d.sourceName
    location := some (e.range.start, e.range.stop)
    expected := none
    message := d.src.map fun s => SemanticError.displayWithSrc s e }

/-- The entry for another error (`/repo/minty-cli/src/error_reporter.rs:201-220`). -/
def otherEntry (e : CliError) : ErrorEntry :=
  { category := e.category.getD .internal
    sourceName := e.source
    location := none
    expected := none
    message := some e.message }

/-- `impl Display for ErrorCategory` (`/repo/minty-cli/src/error_reporter.rs:247-255`). -/
def ErrorCategory.display : ErrorCategory → Str
  | .syntax => "Syntax".toList
  | .semantic => "Semantic".toList
  | .internal => "Internal".toList
  | .argument => "Argument".toList
  | .hidden => "Hidden".toList

/-- `{}` of a number (`/repo/minty-cli/src/error_reporter.rs:285-287`). -/
def showNat (n : Nat) : Str := (toString n).toList

/-- `#[serde(rename_all = "camelCase")]` of `ErrorCategory` (`/repo/minty-cli/src/error_reporter.rs:247-255`). -/
def ErrorCategory.jsonName : ErrorCategory → Str
  | .syntax => "syntax".toList
  | .semantic => "semantic".toList
  | .internal => "internal".toList
  | .argument => "argument".toList
  | .hidden => "hidden".toList

/-- `#[derive(Serialize)]` of `StreamName` (`/repo/minty-cli/src/error_reporter.rs:78-83`). Simplified: a path is a string; for
one that is not, `serde` returns an error, and the thread panics. -/
def StreamName.toJson : StreamName → Str
  | .file p => Serde.writeStruct [("file".toList, Serde.writeStr p)]
  | .stdio => Serde.writeStr "stdio".toList

/-- `#[derive(Serialize)]` of `ErrorEntry` (`/repo/minty-cli/src/error_reporter.rs:21-34`) and of `ErrorLocation` (50-55): what
`serde_json::to_writer` writes (299). -/
def ErrorEntry.toJson (entry : ErrorEntry) : Str :=
  Serde.writeStruct (
    [("category".toList, Serde.writeStr entry.category.jsonName)] ++
    (match entry.sourceName with
      | some n => [("sourceName".toList, n.toJson)]
      | none => []) ++
    (match entry.location with
      | some (start, stop) => [("location".toList,
          Serde.writeStruct [("start".toList, Serde.writeNat start), ("end".toList, Serde.writeNat stop)])]
      | none => []) ++
    (match entry.expected with
      | some l => [("expected".toList, Serde.writeSeq (l.map Serde.writeStr))]
      | none => []) ++
    [("message".toList, match entry.message with
      | some m => Serde.writeStr m
      | none => "null".toList)])

/-- `write_error` (`/repo/minty-cli/src/error_reporter.rs:257-305`): what is written to stderr. Writing is assumed
to succeed (otherwise the thread panics). -/
def writeError (fmt : Fmt) (mode : ErrorMode) (entry : ErrorEntry) : Str :=
  if entry.category = .hidden then []
  else match mode with
    | .default =>
      (match entry.category with
        | .argument => []
        | c => c.display ++ " error: ".toList) ++
      (match entry.sourceName with
        | some (.file s) => s ++ ": ".toList
        | some .stdio => "<stdin>: ".toList
        | none => []) ++
      (match entry.location with
        | some (start, stop) => "at position ".toList ++ showNat start ++
          (if stop ≥ start + 1 then "..<".toList ++ showNat stop else []) ++ ": ".toList
        | none => []) ++
      (match entry.message with
        | some m => m
        | none => "unknown error".toList) ++ ['\n']
    | .json => entry.toJson ++ ['\n']
    | .silent => []

/-- `ErrorEventData::report` (`/repo/minty-cli/src/error_reporter.rs:149-223`): what is written to stderr. -/
def ErrorEventData.report (fmt : Fmt) (mode : ErrorMode) (d : ErrorEventData) : Str :=
  (d.syntaxErrors.map fun e => writeError fmt mode (syntaxEntry fmt.debug d e)).flatten ++
  (d.semanticErrors.map fun e => writeError fmt mode (semanticEntry d e)).flatten ++
  (d.otherErrors.map fun e => writeError fmt mode (otherEntry e)).flatten

/-! ## The reporter thread -/

/-- `ErrorEvent` (`/repo/minty-cli/src/error_reporter.rs:225-229`). -/
inductive ErrorEvent where
  | error (d : ErrorEventData)
  | mode (m : ErrorMode)
  | close
deriving DecidableEq, Repr

/-- The local variables of the reporter thread (`/repo/minty-cli/src/error_reporter.rs:312-315`); `out` is what it has
written, `running = false` after `break` (347-349). -/
structure ReporterState where
  out : Str := []
  pending : Option (List ErrorEventData) := some []
  mode : ErrorMode := .default
  running : Bool := true
deriving DecidableEq, Repr

/-- `if write_pending { .. }` (`/repo/minty-cli/src/error_reporter.rs:338-345`). -/
def ReporterState.writePending (fmt : Fmt) (s : ReporterState) : ReporterState :=
  { s with
    out := s.out ++ ((s.pending.getD []).map (ErrorEventData.report fmt s.mode)).flatten
    pending := none }

/-- The body of the loop over the events (`/repo/minty-cli/src/error_reporter.rs:317-350`). -/
def reporterStep (fmt : Fmt) (s : ReporterState) (event : ErrorEvent) : ReporterState :=
  if s.running then
    match event with
    | .error d =>
      match s.pending with
      | some batch => { s with pending := some (batch ++ [d]) }
      | none => { s with out := s.out ++ d.report fmt s.mode }
    | .mode m => ({ s with mode := m }).writePending fmt
    | .close => { (s.writePending fmt) with running := false }
  else s

/-- The reporter thread (`/repo/minty-cli/src/error_reporter.rs:311-351`): what has been written after the events
received. -/
def reporterRun (fmt : Fmt) (events : List ErrorEvent) : Str :=
  (events.foldl (reporterStep fmt) {}).out

/-- `conversion_error` (`/repo/minty-cli/src/error_reporter.rs:359-382`): the event sent. -/
def conversionError (source : StreamName) (e : ConvertError) : ErrorEvent :=
  match e with
  | .syntax errors src => .error { src := some src, sourceName := some source, syntaxErrors := errors }
  | .semantic errors src => .error { src := some src, sourceName := some source, semanticErrors := errors }
  | .unknown => .error { sourceName := some source }

/-- `other_error` (`/repo/minty-cli/src/error_reporter.rs:384-394`): the event sent. -/
def otherError (e : CliError) : ErrorEvent := .error { otherErrors := [e] }

end Mty.Cli
