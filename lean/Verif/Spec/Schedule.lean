import Verif.Spec.CliRun

/-!
# C69: the outcome of a run of the command line (independent of the order in which the conversions happen)
-/

set_option autoImplicit false

namespace Mty.Spec
open Cli

/-- The output for a source: that of `convert`, or with `--forgiving` the one of `convert_forgiving`, which may come with an error. -/
def outputFor (parse : Parser) (o : ConvertOptions) (src : Str) : Option Str :=
  if o.forgiving = some true then
    match convertForgiving parse src o.asConfig with
    | .ok out => some out
    | .error (out, _) => out
  else
    match convert parse src o.asConfig with
    | .ok out => some out
    | .error _ => none

/-- Every conversion has read its source, and if there is an output it has been written completely. -/
def Undisturbed (parse : Parser) (o : ConvertOptions) (tasks : List Task) (trace : List (Nat × Ev)) : Prop :=
  ∀ i t, tasks[i]? = some t → ∃ src rest, eventsOf i trace = .read t.src (.ok src) :: rest ∧
    ∀ out, outputFor parse o src = some out → ∃ reports evs, rest = reports ++ evs ∧ (∀ ev ∈ reports, ∃ e, ev = .report t.src e) ∧
      Written out t.dest evs

/-- All sources are files, no destination is a source, and no two conversions have the same destination. -/
def Apart (ident : Str → Nat) (tasks : List Task) : Prop :=
  (∀ t ∈ tasks, ∃ s, t.src = .file s) ∧
  (∀ t ∈ tasks, ∀ t' ∈ tasks, ∀ d s, t.dest = .file d → t'.src = .file s → ident d ≠ ident s) ∧
  ∀ (i j : Nat) (t t' : Task) (d d' : Str), tasks[i]? = some t → tasks[j]? = some t' → i ≠ j → t.dest = .file d → t'.dest = .file d' → ident d ≠ ident d'

/-- The contents of a file afterwards: the output for the source it is the destination of, if there is an output; otherwise what it was. -/
inductive After (parse : Parser) (o : ConvertOptions) (ident : Str → Nat) (tasks : List Task) (w : World) (f : Nat) : Option Str → Prop
  | dest {t : Task} {s d c : Str} : t ∈ tasks → t.src = .file s → t.dest = .file d → ident d = f → w.files (ident s) = some c →
      After parse o ident tasks w f ((outputFor parse o c).or (w.files f))
  | other : (∀ t ∈ tasks, ∀ d, t.dest = .file d → ident d ≠ f) → After parse o ident tasks w f (w.files f)

/-- The errors reported, with the sources. -/
def reportsOf (trace : List (Nat × Ev)) : List (StreamName × ConvertError) :=
  trace.filterMap fun p => match p.2 with
    | .report s e => some (s, e)
    | _ => none

/-- The errors of the sources, in the order of the conversions. -/
def errorsFor (parse : Parser) (o : ConvertOptions) (ident : Str → Nat) (tasks : List Task) (w : World) : List (StreamName × ConvertError) :=
  tasks.filterMap fun t => match t.src with
    | .file s => match w.files (ident s) with
      | some c => match convert parse c o.asConfig with
        | .error e => some (t.src, e)
        | .ok _ => none
      | none => none
    | .stdio => none

end Mty.Spec
