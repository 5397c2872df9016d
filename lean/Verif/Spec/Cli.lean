import Mathlib.Data.List.Forall2
import Verif.Model.Reporter

/-!
# Specifications for the command line (independent of the code, apart from the types of its data)
-/

namespace Mty.Spec

/-! ## Names -/

/-- A MinTyML file name extension, in upper, lower or mixed case. -/
def MintyExt (ext : Str) : Prop :=
  let letter := fun (c : Char) (p : Char × Char) => c = p.1 ∨ c = p.2
  List.Forall₂ letter ext [('m', 'M'), ('t', 'T'), ('y', 'Y')] ∨
  List.Forall₂ letter ext [('m', 'M'), ('i', 'I'), ('n', 'N'), ('t', 'T'), ('y', 'Y')]

/-- The name of a MinTyML file: something before the extension. -/
def MintyName (name : Str) : Prop := ∃ stem ext, stem ≠ [] ∧ MintyExt ext ∧ name = stem ++ '.' :: ext

/-- The extension of converted files. -/
def htmlSuffix (xml : Bool) : Str := if xml then ".xhtml".toList else ".html".toList

/-- The name of the converted file: a MinTyML extension is replaced, otherwise the suffix is added. -/
inductive Renamed (xml : Bool) : Str → Str → Prop
  | minty {stem ext : Str} : stem ≠ [] → MintyExt ext → Renamed xml (stem ++ '.' :: ext) (stem ++ htmlSuffix xml)
  | other {name : Str} : ¬MintyName name → Renamed xml name (name ++ htmlSuffix xml)

/-- The name of a directory entry. -/
def Plain (name : Str) : Prop := name ≠ [] ∧ name ≠ ['.'] ∧ name ≠ ['.', '.'] ∧ '/' ∉ name

/-- The parts of a path between separators. -/
def segments : Str → List Str
  | [] => [[]]
  | c :: s =>
    if c = '/' then [] :: segments s
    else match segments s with
      | [] => [[c]]
      | x :: xs => (c :: x) :: xs

/-- The steps of a path: `/` for an absolute path, `.` only at the beginning, empty parts do not matter. -/
def components (p : Str) : List Str :=
  (if p.head? = some '/' then [['/']] else if (segments p).head? = some ['.'] then [['.']] else []) ++
    (segments p).filter fun s => s ≠ [] ∧ s ≠ ['.']

/-! ## Search -/

/-- The directories: the entries of each, by its steps, or why it cannot be read. -/
abbrev Listing := List Str → Except Str (List (Str × Cli.PathInfo))

/-- Directories of a file system: entries have proper names and no two have the same name. -/
def ProperListing (ls : Listing) : Prop :=
  ∀ d l, ls d = .ok l → (∀ e ∈ l, Plain e.1) ∧ (l.map Prod.fst).Nodup

/-- `Found ls dir d names`: following the names from a directory leads through at most `d` directories to a
MinTyML file. (Entries that are not files are taken for directories.) -/
inductive Found (ls : Listing) : List Str → Nat → List Str → Prop
  | file {dir l n i d} : ls dir = .ok l → (n, i) ∈ l → i.isFile = true → MintyName n → Found ls dir d [n]
  | sub {dir l n i d names} : ls dir = .ok l → (n, i) ∈ l → i.isFile = false → Found ls (dir ++ [n]) d names →
      Found ls dir (d + 1) (n :: names)

/-- `Below ls dir d sub`: `sub` is the directory itself or at most `d` levels below. -/
inductive Below (ls : Listing) : List Str → Nat → List Str → Prop
  | here {dir d} : Below ls dir d dir
  | sub {dir l n i d sub} : ls dir = .ok l → (n, i) ∈ l → i.isFile = false → Below ls (dir ++ [n]) d sub →
      Below ls dir (d + 1) sub

/-! ## Reporter -/

/-- The mode chosen by an event. -/
def chosenMode : Cli.ErrorEvent → Option Cli.ErrorMode
  | .mode m => some m
  | _ => none

/-- The mode in effect for an error with these events before and after it: the last one chosen before, otherwise the
first one chosen after, otherwise the default. -/
def modeFor (before after : List Cli.ErrorEvent) : Cli.ErrorMode :=
  match before.reverse.findSome? chosenMode with
  | some m => m
  | none => (after.findSome? chosenMode).getD .default

/-- Every error printed once, in order, in the mode in effect. -/
def printedEvents (print : Cli.ErrorMode → Cli.ErrorEventData → Str) (before : List Cli.ErrorEvent) :
    List Cli.ErrorEvent → Str
  | [] => []
  | .error d :: after => print (modeFor before after) d ++ printedEvents print (before ++ [.error d]) after
  | e :: after => printedEvents print (before ++ [e]) after

/-! ## Options -/

/-- The value given last for a special tag. -/
def lastGiven (k : Cli.SpecialTag) (l : List (Cli.SpecialTag × Str)) : Option Str :=
  ((l.filter (·.1 = k)).map (·.2)).getLast?

/-- A list in a sentence: `a`, `a or b`, `a, b, or c`. -/
def sentenceList (conjunction : Str) : List Str → Str
  | [] => []
  | [a] => a
  | [a, b] => a ++ ' ' :: conjunction ++ ' ' :: b
  | a :: rest => a ++ ", ".toList ++ commaList conjunction rest
where
  /-- The rest of a list of at least three items. -/
  commaList (conjunction : Str) : List Str → Str
    | [] => []
    | [a] => conjunction ++ ' ' :: a
    | a :: rest => a ++ ", ".toList ++ commaList conjunction rest

end Mty.Spec
