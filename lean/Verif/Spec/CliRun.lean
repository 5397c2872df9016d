import Verif.Model.CliRun
import Verif.Spec.Cli

/-! # Specifications for runs of the command line -/

namespace Mty.Spec
open Cli

/-- A value is written in consecutive chunks. -/
inductive Chunks (emit : Nat → Str → Ev) : Nat → Str → List Ev → Prop
  | done {pos : Nat} : Chunks emit pos [] []
  | chunk {pos : Nat} {c v : Str} {evs : List Ev} : c ≠ [] → Chunks emit (pos + c.length) v evs →
      Chunks emit pos (c ++ v) (emit pos c :: evs)

/-- All of a value has been written to a destination: for a file, the directory was created, and the file opened, made
empty, and written. -/
inductive Written (value : Str) : StreamName → List Ev → Prop
  | stdout {evs : List Ev} : Chunks (fun _ s => .print s) 0 value evs → Written value .stdio evs
  | file {p : Str} {dirs evs : List Ev} : (∀ ev ∈ dirs, ∃ d, ev = .createDirs d) → Chunks (.write p) 0 value evs →
      Written value (.file p) (dirs ++ .open_ p :: .truncate p :: evs)

/-- The events of one conversion, in order. -/
def eventsOf (i : Nat) (trace : List (Nat × Ev)) : List Ev := (trace.filter (·.1 = i)).map (·.2)

/-- An event on a file or directory for the destination `p`. -/
def ChangeFor (p : Str) (ev : Ev) : Prop :=
  (∃ d, Path.parent p = some d ∧ ev = .createDirs d) ∨ ev = .open_ p ∨ ev = .truncate p ∨ ∃ pos c, ev = .write p pos c

/-- An answer of the operating system is a failure to write. -/
def WriteFails (resp : IoResp) : Prop :=
  resp.createDirs.isSome ∨ resp.open_.isSome ∨ resp.truncate.isSome ∨ (∃ m, .error m ∈ resp.writes) ∨ .ok 0 ∈ resp.writes

/-- What the parser expected instead, if the source could not be parsed. -/
def expectedOf : SyntaxErrorKind → Option (List Str)
  | .parseFailed expected => some expected
  | _ => none

/-- The entries for a reported error: one for each syntax or semantic error, with the source name, position and message. -/
def entriesOf (debug : Str → Str) : Ev → List ErrorEntry
  | .report s (.syntax es src) => es.map fun e =>
      ⟨.syntax, some s, some (e.range.start, e.range.stop), expectedOf e.kind, some (SyntaxError.displayWithSrc debug src e)⟩
  | .report s (.semantic es src) => es.map fun e =>
      ⟨.semantic, some s, some (e.range.start, e.range.stop), none, some (SemanticError.displayWithSrc src e)⟩
  | _ => []

end Mty.Spec
