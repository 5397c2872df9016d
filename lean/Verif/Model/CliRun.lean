import Verif.Model.Reporter
import Verif.Model.Convert

/-!
# Command line: running the conversions

`/repo/minty-cli/src/convert.rs` (`convert`, `convert_multiple`), `io_helper.rs` (`read`, `write`), `main.rs`.

What the operating system answers is not determined: the functions take the answers as parameters and
return what they do (events) and their result. File contents are strings (reading a file that is not
UTF-8 is an error).
-/

namespace Mty.Cli

/-! ## One conversion -/

/-- What a conversion does (`/repo/minty-cli/src/convert.rs:36-78`, `io_helper.rs:20-35,79-83`). `createDirs`: a call of
`create_dir_all`, whether or not it succeeds. The others are the calls that succeed. -/
inductive Ev where
  | read (s : StreamName) (r : Except Str Str)
  | report (s : StreamName) (e : ConvertError)
  | createDirs (p : Str)
  | open_ (p : Str)
  | truncate (p : Str)
  | write (p : Str) (pos : Nat) (chunk : Str)
  | print (chunk : Str)
deriving Repr

/-- Does the event create or change a file or directory (`/repo/minty-cli/src/io_helper.rs:26-34,79-83`)? -/
def Ev.isChange : Ev → Bool
  | .createDirs _ => true
  | .open_ _ => true
  | .truncate _ => true
  | .write .. => true
  | _ => false

/-- The answers of the operating system to one conversion: `read_to_string`, `create_dir_all`,
opening the file, `set_len(0)`, and for each `write` call the number of characters written.
`none`: success, `some`: error message (`/repo/minty-cli/src/io_helper.rs:20-35,79-83,132-134`). -/
structure IoResp where
  read : Except Str Str
  createDirs : Option Str := none
  open_ : Option Str := none
  truncate : Option Str := none
  writes : List (Except Str Nat) := []

/-- `Write::write_all` (`std::io`, called in `/repo/minty-cli/src/io_helper.rs:32-34`), at position `pos` of the file.
When there are no more answers everything is written. Simplified: a `write` call writes whole
characters. -/
def writeAll (emit : Nat → Str → Ev) : Nat → Str → List (Except Str Nat) → List Ev × Except Str Unit
  | _, [], _ => ([], .ok ())
  | pos, v, [] => ([emit pos v], .ok ())
  | _, _ :: _, .error m :: _ => ([], .error m)
  | pos, c :: v, .ok n :: answers =>
    if n = 0 then ([], .error "failed to write whole buffer".toList)
    else
      let (evs, r) := writeAll emit (pos + ((c :: v).take n).length) ((c :: v).drop n) answers
      (emit pos ((c :: v).take n) :: evs, r)

/-- `DefaultIoHelper::open_write_path` (`/repo/minty-cli/src/io_helper.rs:79-83`) and `write_all` on the file. -/
def openAndWrite (p : Str) (value : Str) (resp : IoResp) : List Ev × Except Str Unit :=
  match resp.open_ with
  | some m => ([], .error m)
  | none =>
    match resp.truncate with
    | some m => ([.open_ p], .error m)
    | none =>
      let (evs, r) := writeAll (.write p) 0 value resp.writes
      (.open_ p :: .truncate p :: evs, r)

/-- `IoHelper::write` (`/repo/minty-cli/src/io_helper.rs:23-35`). -/
def ioWrite (dest : StreamName) (value : Str) (resp : IoResp) : List Ev × Except Str Unit :=
  match dest with
  | .stdio => writeAll (fun _ s => .print s) 0 value resp.writes
  | .file p =>
    match Path.parent p with
    | none => openAndWrite p value resp
    | some d =>
      match resp.createDirs with
      | some m => ([.createDirs d], .error m)
      | none =>
        let (evs, r) := openAndWrite p value resp
        (.createDirs d :: evs, r)

/-- The conversion in `ConvertCx::convert` (`/repo/minty-cli/src/convert.rs:47-57`): output and error. -/
def convertSource (parse : Parser) (o : ConvertOptions) (src : Str) : Option Str × Option ConvertError :=
  if o.forgiving.getD false then
    match convertForgiving parse src o.asConfig with
    | .ok out => (some out, none)
    | .error (out, e) => (out, some e)
  else
    match convert parse src o.asConfig with
    | .ok out => (some out, none)
    | .error e => (none, some e)

/-- The end of `ConvertCx::convert` (`/repo/minty-cli/src/convert.rs:74-77`). -/
def convertResult (o : ConvertOptions) (success : Bool) : Except CliError Bool :=
  if !success && o.failFast.getD .false == .true then
    .error { category := some .hidden, message := "Hidden".toList }
  else .ok success

/-- `ConvertCx::convert` (`/repo/minty-cli/src/convert.rs:36-78`). The configuration passed by
`convert_multiple` is `as_config()` as well (line 190). -/
def convertOne (parse : Parser) (o : ConvertOptions) (t : Task) (resp : IoResp) : List Ev × Except CliError Bool :=
  match resp.read with
  | .error m => ([.read t.src (.error m)], .error { source := some t.src, message := m })
  | .ok src =>
    let (out, error) := convertSource parse o src
    let success := error.isNone && out.isSome
    let reported := match error with
      | some e => [Ev.report t.src e]
      | none => []
    match out with
    | none => (.read t.src (.ok src) :: reported, convertResult o success)
    | some out =>
      let (evs, r) := ioWrite t.dest out resp
      (.read t.src (.ok src) :: reported ++ evs,
        match r with
        | .error m => .error { source := some t.src, message := m }
        | .ok () => convertResult o success)

/-! ## All conversions -/

/-- One interleaving of sequences of events: each event is the next one of some sequence (threads of
`rayon`, `/repo/minty-cli/src/convert.rs:191`). -/
inductive Interleaving {α : Type} : List (List α) → List α → Prop
  | nil {ls : List (List α)} : (∀ l ∈ ls, l = []) → Interleaving ls []
  | next {pre post : List (List α)} {a : α} {l rest : List α} :
      Interleaving (pre ++ l :: post) rest → Interleaving (pre ++ (a :: l) :: post) (a :: rest)

/-- `try_reduce(|| true, |lhs, rhs| Ok(lhs & rhs))` of `rayon` (`/repo/minty-cli/src/convert.rs:212`): if all items
are `Ok`, their conjunction in whatever order; otherwise one of the errors, and some items
(`none`) may not have been processed. -/
inductive TryReduce : List (Option (Except CliError Bool)) → Except CliError Bool → Prop
  | ok (bs : List Bool) : TryReduce (bs.map fun b => some (.ok b)) (.ok (bs.all id))
  | error {rs : List (Option (Except CliError Bool))} {e : CliError} : some (.error e) ∈ rs → TryReduce rs (.error e)

/-- The conversions of `convert_multiple` (`/repo/minty-cli/src/convert.rs:184-213`) or the single one of
`convert_src_to_dest`: events in the order in which they happen (numbered by conversion), and the result.
`resps`: the answers of the operating system to each conversion that was started. -/
def TasksRun (parse : Parser) (o : ConvertOptions) (tasks : List Task) (resps : List (Option IoResp))
    (trace : List (Nat × Ev)) (result : Except CliError Bool) : Prop :=
  resps.length = tasks.length ∧
  Interleaving ((tasks.zip resps).zipIdx.map fun p => match p.1.2 with
      | none => []
      | some resp => (convertOne parse o p.1.1 resp).1.map fun ev => (p.2, ev)) trace ∧
  TryReduce ((tasks.zip resps).map fun p => p.2.map fun resp => (convertOne parse o p.1 resp).2) result

/-! ## The program -/

/-- The contents of the files that exist (what `/repo/minty-cli/src/io_helper.rs:71-135` operates on; directories are not
part of it). -/
structure World where
  files : Nat → Option Str

/-- Writing a chunk at a position of a file (bytes between the end of the file and the position are zero);
`write(2)`, called in `/repo/minty-cli/src/io_helper.rs:33`. -/
def writeAt (old : Str) (pos : Nat) (chunk : Str) : Str :=
  old.take pos ++ List.replicate (pos - old.length) (Char.ofNat 0) ++ chunk ++ old.drop (pos + chunk.length)

/-- The effect of an event on the files (POSIX; `/repo/minty-cli/src/io_helper.rs:23-35,79-83`). `ident`: the file a
path denotes; two paths may denote the same file. -/
def World.apply (ident : Str → Nat) (w : World) (ev : Ev) : World :=
  match ev with
  | .open_ p => ⟨fun f => if f = ident p then some ((w.files f).getD []) else w.files f⟩
  | .truncate p => ⟨fun f => if f = ident p then some [] else w.files f⟩
  | .write p pos chunk => ⟨fun f => if f = ident p then some (writeAt ((w.files f).getD []) pos chunk) else w.files f⟩
  | _ => w

/-- The files after the events; reads have found the contents at that time (`/repo/minty-cli/src/io_helper.rs:20-22`). -/
inductive Happens (ident : Str → Nat) : World → List (Nat × Ev) → World → Prop
  | nil {w : World} : Happens ident w [] w
  | cons {w w' : World} {i : Nat} {ev : Ev} {rest : List (Nat × Ev)} :
      (∀ p c, ev = .read (.file p) (.ok c) → w.files (ident p) = some c) →
      Happens ident (w.apply ident ev) rest w' → Happens ident w ((i, ev) :: rest) w'

/-- The events sent to the reporter during the conversions (`/repo/minty-cli/src/convert.rs:61-65`). -/
def reported (trace : List (Nat × Ev)) : List ErrorEvent :=
  trace.filterMap fun p => match p.2 with
    | .report s e => some (conversionError s e)
    | _ => none

/-- The events sent to the reporter by `main` after the command (`/repo/minty-cli/src/main.rs:145-152`, `Drop`:
`error_reporter.rs:236-245`). -/
def finalEvents : Except CliError Bool → List ErrorEvent
  | .error e => [otherError e, .close]
  | .ok _ => [.close]

/-- `main` (`/repo/minty-cli/src/main.rs:140-153`, `convert.rs:492-504`) with valid arguments: what happens to the files, what
is written to stderr, and whether the exit status is success. -/
inductive MainRun (parse : Parser) (fmt : Fmt) (fs : Fs) (a : ConvertArgs) (mode : ErrorMode) :
    List (Nat × Ev) → Str → Bool → Prop
  | failed {e : CliError} : plan fs a = .error e →
      MainRun parse fmt fs a mode [] (reporterRun fmt (.mode mode :: finalEvents (.error e))) false
  | ran {p : Plan} {resps : List (Option IoResp)} {trace : List (Nat × Ev)} {result : Except CliError Bool} :
      plan fs a = .ok p → TasksRun parse a.options (p.tasks a.options) resps trace result →
      MainRun parse fmt fs a mode trace (reporterRun fmt (.mode mode :: reported trace ++ finalEvents result))
        (match result with
          | .ok b => b
          | .error _ => false)

end Mty.Cli
