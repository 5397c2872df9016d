import Verif.Props.Schedule

/-!
# The tests of the command line (`/repo/minty-cli/src/tests.rs`)

Each test on the model, with the reference parser. The tests with files are consequences of C69: they hold for every order of the
conversions. The file system of a test is a list of files (absolute path, contents) and the current directory.
-/

set_option autoImplicit false

namespace Mty
open Spec Cli

namespace CliTests

/-- The components of an absolute path. -/
def components : Str → List Str
  | [] => [[]]
  | c :: cs =>
    match components cs with
    | [] => [[c]]
    | x :: xs => if c = '/' then [] :: x :: xs else (c :: x) :: xs

/-- The components of the path that `p` denotes in the directory `cwd`. -/
def absolute (cwd p : Str) : List Str :=
  (components (if p.head? = some '/' then p else cwd ++ '/' :: p)).filter fun c => c ≠ [] ∧ c ≠ ['.']

def encode (s : Str) (n : Nat) : Nat := s.foldl (fun n c => n * 1114113 + c.toNat + 1) n

/-- A number for each file. -/
def ident (cwd p : Str) : Nat := (absolute cwd p).foldl (fun n c => encode c (n * 1114113)) 0

/-- The files of a list. -/
def world (cwd : Str) (files : List (Str × Str)) : World := ⟨fun f => (files.find? fun p => ident cwd p.1 = f).map (·.2)⟩

/-- The name in the directory `dir` under which a file is found, and whether it is a file. -/
def entry (dir file : List Str) : Option (Str × PathInfo) :=
  match dir, file with
  | [], [name] => some (name, ⟨true, false⟩)
  | [], name :: _ :: _ => some (name, ⟨false, true⟩)
  | d :: ds, c :: cs => if d = c then entry ds cs else none
  | _, [] => none

/-- The queries of `TestIoHelper` (`/repo/minty-cli/src/io_helper.rs:545-784`): files are those of the list, directories those that
contain one. -/
def fs (cwd : Str) (files : List (Str × Str)) : Fs :=
  ⟨fun p => .ok (
      if files.any fun f => absolute cwd f.1 = absolute cwd p then some ⟨true, false⟩
      else if files.any fun f => (entry (absolute cwd p) (absolute cwd f.1)).isSome then some ⟨false, true⟩
      else none),
   fun p => .ok ((files.filterMap fun f => entry (absolute cwd p) (absolute cwd f.1)).eraseDups)⟩

/-- `--complete-page=false`, as in the macro `test_main` (`/repo/minty-cli/src/tests.rs:57-60`). -/
def o : ConvertOptions := { completePage := some false }

/-- `BASIC_SRC` (`/repo/minty-cli/src/tests.rs:6-10`). -/
def src : Str := "\ndiv {\n    <#Hello#>, </world/>!\n}\n".toList

/-- `BASIC_SRC2` (`/repo/minty-cli/src/tests.rs:12-18`). -/
def src2 : Str := "\nul {\n    <#Hello#>,\n\n    </world/>!\n}\n".toList

/-- `BASIC_OUT` (`/repo/minty-cli/src/tests.rs:20`). -/
def out : Str := "<div><p><strong>Hello</strong>, <em>world</em>!</p></div>".toList

/-- `BASIC_OUT2` (`/repo/minty-cli/src/tests.rs:21`). -/
def out2 : Str := "<ul><li><strong>Hello</strong>,</li> <li><em>world</em>!</li></ul>".toList

def cwd : Str := "/a/b".toList

/-- A test: with these arguments and files, in any order of the conversions, the program succeeds, and afterwards there are the files
`new` besides those that were there, which have not changed. Such a run exists. -/
def Test (a : ConvertArgs) (files new : List (Str × Str)) : Prop :=
  ∃ p, plan (fs cwd files) a = .ok p ∧
    (∃ trace stderr exit w', MainRun RepoTests.parser ExRun.fmt (fs cwd files) a .default trace stderr exit ∧
      Undisturbed RepoTests.parser a.options (p.tasks a.options) trace ∧ Happens (ident cwd) (world cwd files) trace w') ∧
    ∀ {trace : List (Nat × Ev)} {stderr : Str} {exit : Bool} {w' : World},
      MainRun RepoTests.parser ExRun.fmt (fs cwd files) a .default trace stderr exit →
      Undisturbed RepoTests.parser a.options (p.tasks a.options) trace → Happens (ident cwd) (world cwd files) trace w' →
      exit = true ∧ w' = world cwd (new ++ files)

/-- What is to be computed. -/
theorem test_of {a : ConvertArgs} {files new : List (Str × Str)} (p : Plan) (hp : plan (fs cwd files) a = .ok p)
    (hap : apartCheck (ident cwd) (p.tasks a.options) = true)
    (hs : ∀ t ∈ p.tasks a.options, ((fileOf t.src).bind fun s => (world cwd files).files (ident cwd s)).isSome = true)
    (he : (errorsFor RepoTests.parser a.options (ident cwd) (p.tasks a.options) (world cwd files)).length = 0)
    (hn : ((p.tasks a.options).map fun t => ((fileOf t.dest).map (ident cwd), (fileOf t.src).bind fun s =>
        ((world cwd files).files (ident cwd s)).bind (outputFor RepoTests.parser a.options))) =
      new.map fun f => (some (ident cwd f.1), some f.2)) : Test a files new := by
  have hap := apart_of_check hap
  refine ⟨p, hp, C69_possible _ _ _ hp hap fun t ht s hts => ?_, fun h hu hw => ?_⟩
  · have := hs t ht
    rw [fileOf_eq hts] at this
    exact Option.isSome_iff_exists.1 this
  obtain ⟨h1, h2, -⟩ := C69_outcome hp hap h hu hw
  refine ⟨h2.2 (List.length_eq_zero_iff.1 he), ?_⟩
  rename_i w'
  have hfiles : w'.files = (world cwd (new ++ files)).files := by
    funext f
    refine after_unique hap (h1 f) ?_
    show After _ _ _ _ _ f ((List.find? _ (new ++ files)).map (·.2))
    rw [List.find?_append]
    cases hf : new.find? fun p => ident cwd p.1 = f with
    | none =>
      refine .other fun t ht d hd hid => ?_
      have : ((fileOf t.dest).map (ident cwd), (fileOf t.src).bind fun s =>
          ((world cwd files).files (ident cwd s)).bind (outputFor RepoTests.parser a.options)) ∈ new.map fun f =>
            (some (ident cwd f.1), some f.2) := hn ▸ List.mem_map.2 ⟨t, ht, rfl⟩
      obtain ⟨x, hx, e⟩ := List.mem_map.1 this
      rw [fileOf_eq hd] at e
      have hx' := List.find?_eq_none.1 hf x hx
      have : ident cwd x.1 = ident cwd d := Option.some.inj (Prod.mk.inj e).1
      rw [this, hid] at hx'
      simp at hx'
    | some x =>
      have hx := List.mem_of_find?_eq_some hf
      have hxf : ident cwd x.1 = f := by simpa using List.find?_some hf
      have : (some (ident cwd x.1), some x.2) ∈ (p.tasks a.options).map fun t => ((fileOf t.dest).map (ident cwd),
          (fileOf t.src).bind fun s => ((world cwd files).files (ident cwd s)).bind (outputFor RepoTests.parser a.options)) :=
        hn ▸ List.mem_map.2 ⟨x, hx, rfl⟩
      obtain ⟨t, ht, e⟩ := List.mem_map.1 this
      obtain ⟨e1, e2⟩ := Prod.mk.inj e
      obtain ⟨d, hd, hd'⟩ := Option.map_eq_some_iff.1 e1
      obtain ⟨s, hs', e2⟩ := Option.bind_eq_some_iff.1 e2
      obtain ⟨c, hc, e2⟩ := Option.bind_eq_some_iff.1 e2
      have k1 : t.src = .file s := by
        cases h : t.src with
        | file q => rw [h] at hs'; cases hs'; rfl
        | stdio => rw [h] at hs'; cases hs'
      have k2 : t.dest = .file d := by
        cases h : t.dest with
        | file q => rw [h] at hd; cases hd; rfl
        | stdio => rw [h] at hd; cases hd
      have := After.dest (parse := RepoTests.parser) (o := a.options) ht k1 k2 (hd'.trans hxf) hc
      rw [e2] at this
      exact this
  cases w'
  exact congrArg World.mk hfiles

set_option maxRecDepth 20000 in
/-- `convert_explicit_file_implicit_dest` (`/repo/minty-cli/src/tests.rs:105-121`). -/
example : Test { srcFiles := some ["c/d/foo.mty".toList], options := o }
    [("/a/b/c/d/foo.mty".toList, src)]
    [("/a/b/c/d/foo.html".toList, out)] :=
  test_of (.many [⟨"c/d".toList, "foo.mty".toList⟩] none) (by decide +kernel) (by decide +kernel) (by decide +kernel) (by decide +kernel) (by decide +kernel)

set_option maxRecDepth 20000 in
/-- `convert_explicit_file_explicit_dest` (`/repo/minty-cli/src/tests.rs:123-139`). -/
example : Test { srcFiles := some ["c/d/foo.mty".toList], out := some "c/foo2.html".toList, options := o }
    [("/a/b/c/d/foo.mty".toList, src)]
    [("/a/b/c/foo2.html".toList, out)] :=
  test_of (.one (.file "c/d/foo.mty".toList) (.file "c/foo2.html".toList)) (by decide +kernel) (by decide +kernel) (by decide +kernel) (by decide +kernel) (by decide +kernel)

set_option maxRecDepth 20000 in
/-- `convert_explicit_file_explicit_absolute_dest` (`/repo/minty-cli/src/tests.rs:141-157`). -/
example : Test { srcFiles := some ["c/d/foo.mty".toList], out := some "/a/foo2.html".toList, options := o }
    [("/a/b/c/d/foo.mty".toList, src)]
    [("/a/foo2.html".toList, out)] :=
  test_of (.one (.file "c/d/foo.mty".toList) (.file "/a/foo2.html".toList)) (by decide +kernel) (by decide +kernel) (by decide +kernel) (by decide +kernel) (by decide +kernel)

set_option maxRecDepth 20000 in
/-- `convert_explicit_files_implicit_dest` (`/repo/minty-cli/src/tests.rs:159-181`). -/
example : Test { srcFiles := some ["c/d/foo.minty".toList, "/a/bar.mty".toList], options := o }
    [("/a/bar.mty".toList, src2), ("/a/b/c/d/foo.minty".toList, src)]
    [("/a/b/c/d/foo.html".toList, out), ("/a/bar.html".toList, out2)] :=
  test_of (.many [⟨"c/d".toList, "foo.minty".toList⟩, ⟨"/a".toList, "bar.mty".toList⟩] none) (by decide +kernel) (by decide +kernel) (by decide +kernel) (by decide +kernel) (by decide +kernel)

set_option maxRecDepth 20000 in
/-- `convert_explicit_files_explicit_dest` (`/repo/minty-cli/src/tests.rs:183-205`). -/
example : Test { srcFiles := some ["c/d/foo.minty".toList, "/a/bar.mty".toList], out := some "c/new_dir1/new_dir2/".toList, options := o }
    [("/a/bar.mty".toList, src2), ("/a/b/c/d/foo.minty".toList, src)]
    [("/a/b/c/new_dir1/new_dir2/foo.html".toList, out), ("/a/b/c/new_dir1/new_dir2/bar.html".toList, out2)] :=
  test_of (.many [⟨"c/d".toList, "foo.minty".toList⟩, ⟨"/a".toList, "bar.mty".toList⟩] (some "c/new_dir1/new_dir2/".toList)) (by decide +kernel) (by decide +kernel) (by decide +kernel) (by decide +kernel) (by decide +kernel)

set_option maxRecDepth 20000 in
/-- `convert_explicit_files_explicit_absolute_dest` (`/repo/minty-cli/src/tests.rs:207-229`). -/
example : Test { srcFiles := some ["c/d/foo.minty".toList, "/a/bar.mty".toList], out := some "/a/new_dir1/new_dir2/".toList, options := o }
    [("/a/bar.mty".toList, src2), ("/a/b/c/d/foo.minty".toList, src)]
    [("/a/new_dir1/new_dir2/foo.html".toList, out), ("/a/new_dir1/new_dir2/bar.html".toList, out2)] :=
  test_of (.many [⟨"c/d".toList, "foo.minty".toList⟩, ⟨"/a".toList, "bar.mty".toList⟩] (some "/a/new_dir1/new_dir2/".toList)) (by decide +kernel) (by decide +kernel) (by decide +kernel) (by decide +kernel) (by decide +kernel)

set_option maxRecDepth 20000 in
/-- `convert_dir_implicit_dest_no_recurse` (`/repo/minty-cli/src/tests.rs:231-256`). -/
example : Test { srcDir := some "c".toList, options := o }
    [("/a/b/c/d2/e2/bar.mty".toList, src2), ("/a/b/c/d/foo.minty".toList, src), ("/a/b/c/baz.mty".toList, src), ("/a/b/c/qux.txt".toList, "no mintyml extension".toList)]
    [("/a/b/c/baz.html".toList, out)] :=
  test_of (.many [⟨"c".toList, "baz.mty".toList⟩] none) (by decide +kernel) (by decide +kernel) (by decide +kernel) (by decide +kernel) (by decide +kernel)

set_option maxRecDepth 20000 in
/-- `convert_dir_implicit_dest_recurse` (`/repo/minty-cli/src/tests.rs:258-289`). -/
example : Test { srcDir := some "c".toList, recurse := some none, options := o }
    [("/a/b/c/d2/e2/bar.mty".toList, src2), ("/a/b/c/d/foo.minty".toList, src), ("/a/b/c/baz.mty".toList, src), ("/a/b/c/qux.txt".toList, "no mintyml extension".toList)]
    [("/a/b/c/d2/e2/bar.html".toList, out2), ("/a/b/c/d/foo.html".toList, out), ("/a/b/c/baz.html".toList, out)] :=
  test_of (.many [⟨"c".toList, "d2/e2/bar.mty".toList⟩, ⟨"c".toList, "d/foo.minty".toList⟩, ⟨"c".toList, "baz.mty".toList⟩] none) (by decide +kernel) (by decide +kernel) (by decide +kernel) (by decide +kernel) (by decide +kernel)

/-! ## Tests with the standard streams -/

/-- With these options the program reads the standard input; if it is `s` and the output could be written, the program succeeds and the
output is `res`. Such a run exists. -/
def StdTest (o : ConvertOptions) (s res : Str) : Prop :=
  (∃ trace stderr, MainRun RepoTests.parser ExRun.fmt (fs cwd []) { stdin := true, stdout := true, options := o } .default trace stderr true ∧
    (0, .read .stdio (.ok s)) ∈ trace) ∧
  ∀ {trace : List (Nat × Ev)} {stderr : Str} {exit : Bool},
    MainRun RepoTests.parser ExRun.fmt (fs cwd []) { stdin := true, stdout := true, options := o } .default trace stderr exit →
    (0, .read .stdio (.ok s)) ∈ trace → (exit = true ↔ ∃ evs, eventsOf 0 trace = .read .stdio (.ok s) :: evs ∧ Written res .stdio evs)

theorem stdTest_of {o : ConvertOptions} {s res : Str} (h : convert RepoTests.parser s o.asConfig = .ok res) : StdTest o s res := by
  have hp : plan (fs cwd []) { stdin := true, stdout := true, options := o } = .ok (.one .stdio .stdio) := rfl
  refine ⟨?_, fun hr hm => ?_⟩
  · have hf : outputFor RepoTests.parser o s = some res := by
      rw [← convertSource_output]
      rcases convertSource_cases RepoTests.parser o s with ⟨x, hc, hs⟩ | ⟨e, x, hc, -⟩
      · rw [h] at hc; cases hc; rw [hs]
      · rw [h] at hc; cases hc
    have hne : sourceErrors RepoTests.parser o s = [] := by rw [sourceErrors, h]
    have h1 := convertOne_read RepoTests.parser o ⟨.stdio, .stdio⟩ { read := .ok s } rfl
    rw [hf, hne] at h1
    dsimp only at h1
    rw [(ioWrite_default .stdio res (.ok s)).1] at h1
    refine ⟨((convertOne RepoTests.parser o ⟨.stdio, .stdio⟩ { read := .ok s }).1.map fun ev => (0, ev)), _,
      .ran (resps := [some { read := .ok s }]) (result := .ok true) hp ⟨rfl, ?_, ?_⟩, ?_⟩
    · have := interleaving_serial [] [(convertOne RepoTests.parser o ⟨.stdio, .stdio⟩ { read := .ok s }).1.map fun ev => (0, ev)]
        (by intro l hl; cases hl)
      rw [List.flatten_singleton, List.nil_append] at this
      exact this
    · show TryReduce [some (convertOne RepoTests.parser o ⟨.stdio, .stdio⟩ { read := .ok s }).2] _
      rw [h1]
      exact .ok [true]
    · rw [h1]; simp
  · rw [C37_exit hr]
    constructor
    · rintro ⟨p, hp', hall⟩
      rw [hp] at hp'
      cases hp'
      obtain ⟨src, out, evs, h1, h2, h3⟩ := hall 0 ⟨.stdio, .stdio⟩ rfl
      rcases main_cases hr with ⟨e, hp', -⟩ | ⟨p', resps, result, hp', hrun, -⟩
      · cases hp'
      · rw [hp] at hp'; cases hp'
        obtain ⟨t, resp, g1, g2, g3⟩ := run_mem hrun hm
        cases g1
        rw [run_started hrun (t := ⟨.stdio, .stdio⟩) rfl g2] at h1
        have hrd : resp.read = .ok src := by
          rcases hr : resp.read with m | c
          · rw [convertOne, hr] at h1; simp at h1
          · rw [convertOne_read _ _ _ _ hr] at h1
            cases hx : outputFor RepoTests.parser o c <;> rw [hx] at h1 <;> simp at h1 <;> rw [h1.1]
        have : src = s := by
          rw [h1] at g3
          rcases List.mem_cons.1 g3 with g3 | g3
          · injection g3 with _ g3; injection g3 with g3; exact g3.symm
          · exfalso
            cases h3 with
            | stdout hc => obtain ⟨_, _, h⟩ := chunks_mem hc _ g3; cases h
        subst this
        rw [h] at h2
        cases h2
        exact ⟨evs, by rw [run_started hrun (t := ⟨.stdio, .stdio⟩) rfl g2, h1], h3⟩
    · rintro ⟨evs, h1, h2⟩
      refine ⟨_, hp, fun i t ht => ?_⟩
      cases i with
      | zero => cases ht; exact ⟨s, res, evs, h1, h, h2⟩
      | succ i => simp [Plan.tasks] at ht

set_option maxRecDepth 20000 in
/-- `basic_test` (`/repo/minty-cli/src/tests.rs:63-69`). -/
example : StdTest o src out := stdTest_of (by decide +kernel)

/-- The output of `complete_page` (`/repo/minty-cli/src/tests.rs:84-91`). -/
def page : Str := "<!DOCTYPE html>\n<html><head><title>Foo</title></head> <body><div><p><strong>Hello</strong>, <em>world</em>!</p></div></body></html>".toList

set_option maxRecDepth 20000 in
/-- `complete_page_implicit` (`/repo/minty-cli/src/tests.rs:94-97`). -/
example : StdTest {} "\ntitle> Foo\ndiv {\n    <#Hello#>, </world/>!\n}\n".toList page := stdTest_of (by decide +kernel)

set_option maxRecDepth 20000 in
/-- `complete_page_explicit` (`/repo/minty-cli/src/tests.rs:99-102`). -/
example : StdTest { completePage := some true } "\ntitle> Foo\ndiv {\n    <#Hello#>, </world/>!\n}\n".toList page :=
  stdTest_of (by decide +kernel)

end CliTests
end Mty
