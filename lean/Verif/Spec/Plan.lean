import Verif.Model.CliRun
import Verif.Spec.Cli

/-! # Specification: which files the command line converts -/

namespace Mty.Spec
open Cli

/-- The files a path given as an argument stands for: the file itself, or the MinTyML files in the directory down to the given depth. -/
inductive Named (fs : Fs) (ls : Listing) (depth : Nat) (arg : Str) : List Str → Prop
  | file {i : PathInfo} : fs.pathInfo arg = .ok (some i) → i.isDir = false → Named fs ls depth arg (components arg)
  | dir {i : PathInfo} {names : List Str} : fs.pathInfo arg = .ok (some i) → i.isDir = true →
      Found ls (components arg) depth names → Named fs ls depth arg (components arg ++ names)

/-- The files (by their steps) that the arguments select: those named, otherwise those in the directory given,
otherwise those in the current directory. -/
inductive Selected (fs : Fs) (ls : Listing) (a : ConvertArgs) : List Str → Prop
  | named {files : List Str} {f : Str} {path : List Str} : a.srcFiles = some files → f ∈ files →
      Named fs ls a.recursion f path → Selected fs ls a path
  | directory {d : Str} {names : List Str} : a.srcFiles = none → a.srcDir = some d →
      Found ls (components d) a.recursion names → Selected fs ls a (components d ++ names)
  | current {names : List Str} : a.srcFiles = none → a.srcDir = none →
      Found ls [['.']] a.recursion names → Selected fs ls a (['.'] :: names)

end Mty.Spec
