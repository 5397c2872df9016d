import Verif.Proofs.Plan
import Mathlib.Data.List.Nodup

/-! # C52, C53: sources and destinations of the command line -/

set_option autoImplicit false

namespace Mty
open Cli Spec Path

variable {fs : Fs} {a : ConvertArgs} {p : Plan}

/-! ## C52: destinations -/

/-- **C52.** With `--stdout` there is exactly one conversion, and its output goes to the standard output; with `--stdin` there is exactly
one, and it reads the standard input. Otherwise these streams are not used. -/
theorem C52_streams (h : plan fs a = .ok p) :
    (a.stdout = true → ∃ s, p.tasks a.options = [⟨s, .stdio⟩]) ∧ (a.stdin = true → ∃ d, p.tasks a.options = [⟨.stdio, d⟩]) ∧
    (a.stdout = false → ∀ t ∈ p.tasks a.options, ∃ q, t.dest = .file q) ∧
    (a.stdin = false → ∀ t ∈ p.tasks a.options, ∃ q, t.src = .file q) := by
  rcases plan_cases h with ⟨s, d, rfl, hs, hd⟩ | ⟨l, rfl, h1, h2, -⟩
  · refine ⟨fun h => ?_, fun h => ?_, fun h t ht => ?_, fun h t ht => ?_⟩
    · rcases hd with ⟨_, rfl⟩ | ⟨h', _⟩
      · exact ⟨s, rfl⟩
      · rw [h] at h'; cases h'
    · rcases hs with h' | ⟨h', _, _⟩
      · exact ⟨d, rfl⟩
      · simp_all
    · simp only [Plan.tasks, List.mem_singleton] at ht
      subst ht
      rcases hd with ⟨h', _⟩ | ⟨_, o, u, _, _, _, rfl⟩
      · rw [h] at h'; cases h'
      · exact ⟨o, rfl⟩
    · simp only [Plan.tasks, List.mem_singleton] at ht
      subst ht
      rcases hs with h' | ⟨_, _, _⟩
      · simp_all
      · exact ⟨_, rfl⟩
  · refine ⟨fun h => ?_, fun h => ?_, fun h t ht => ?_, fun h t ht => ?_⟩
    · rw [h] at h2; cases h2
    · rw [h] at h1; cases h1
    · simp only [Plan.tasks, List.mem_map] at ht
      obtain ⟨x, _, rfl⟩ := ht
      exact ⟨_, rfl⟩
    · simp only [Plan.tasks, List.mem_map] at ht
      obtain ⟨x, _, rfl⟩ := ht
      exact ⟨_, rfl⟩

/-- **C52.** Without `--out` and `--stdout` every destination is beside its source, with the name of C39. -/
theorem C52_beside (h : plan fs a = .ok p) (h1 : a.stdout = false) (h2 : a.out = none) :
    ∀ t ∈ p.tasks a.options, ∃ src, t = ⟨.file src, .file (changeExtension src a.options)⟩ ∧
      ∀ dir name, Plain name → components src = dir ++ [name] → (∀ q, src ≠ q ++ ['/'] ∧ src ≠ q ++ ['/', '.']) →
        ∃ name', Renamed a.options.xml name name' ∧ components (changeExtension src a.options) = dir ++ [name'] := by
  intro t ht
  rcases plan_cases h with ⟨s, d, rfl, hs, ⟨h', _⟩ | ⟨_, o, u, h', _⟩⟩ | ⟨l, rfl, _, _, -⟩
  · rw [h1] at h'; cases h'
  · rw [h2] at h'; cases h'
  · simp only [Plan.tasks, List.mem_map] at ht
    obtain ⟨x, _, rfl⟩ := ht
    refine ⟨x.joined, ?_, fun dir name h3 h4 h5 => C39_directory a.options _ name dir h3 h4 h5⟩
    simp only [multiTask, h2]; rfl

/-- **C52.** With `--out` the output goes to exactly that file, if there is one source and the path is not a directory; otherwise to the
same relative path below it. -/
theorem C52_out (h : plan fs a = .ok p) (h1 : a.stdout = false) {o : Str} (h2 : a.out = some o) :
    (∃ s, p.tasks a.options = [⟨s, .file o⟩] ∧ ∀ i, fs.pathInfo o = .ok (some i) → i.isDir = false) ∨
    ∀ t ∈ p.tasks a.options, ∃ base rel, t = ⟨.file (join base rel), .file (changeExtension (join o rel) a.options)⟩ := by
  rcases plan_cases h with ⟨s, d, rfl, hs, ⟨h', _⟩ | ⟨_, o', u, h3, h4, h5, rfl⟩⟩ | ⟨l, rfl, _, _, -⟩
  · rw [h1] at h'; cases h'
  · rw [h2] at h3; cases h3
    refine .inl ⟨s, rfl, fun i hi => ?_⟩
    rw [PathType.forPath, hi] at h4
    cases hd : i.isDir with
    | false => rfl
    | true => simp only [hd, if_true, Except.ok.injEq] at h4; subst h4; cases h5
  · right
    intro t ht
    simp only [Plan.tasks, List.mem_map] at ht
    obtain ⟨x, _, rfl⟩ := ht
    exact ⟨x.base, x.relative, by simp only [multiTask, h2]; rfl⟩

/-- The sources are those found in one directory: the one given with `-d`, the current one, or the only path given. -/
def OneDirectory (fs : Fs) (a : ConvertArgs) : Prop :=
  a.stdin = false ∧ (a.srcFiles = none ∨
    ∃ d i, a.srcFiles = some [d] ∧ a.srcDir = none ∧ fs.pathInfo d = .ok (some i) ∧ i.isDir = true)

theorem one_directory (h : plan fs a = .ok p) (hd : OneDirectory fs a) :
    ∃ base rel l, p = .many l a.out ∧ a.stdout = false ∧ (∀ x ∈ components rel, Plain x) ∧
      searchDir fs a.recursion base rel [] = .ok l := by
  obtain ⟨hi, hd⟩ := hd
  have single : ∀ s, SingleSource fs a s → False := by
    rintro s (h' | @⟨f, _, h2, h3⟩)
    · rw [hi] at h'; cases h'
    · rcases hd with hd | ⟨d, i, hd, hn, h4, h5⟩
      · rw [hd] at h2; cases h2
      · rw [hd] at h2; cases h2
        rw [PathType.forPath, h4] at h3
        simp [h5] at h3
  have name : ∀ q : Str, ∀ x ∈ components ((fileName q).getD []), Plain x := by
    intro q x hx
    cases hf : fileName q with
    | none => rw [hf] at hx; simp [components_nil] at hx
    | some n =>
      rw [hf, Option.getD_some, components_plain (components_split hf).1, List.mem_singleton] at hx
      subst hx
      exact (components_split hf).1
  rcases plan_cases h with ⟨s, d, rfl, hs, -⟩ | ⟨l, rfl, _, h2, hg⟩
  · exact (single s hs).elim
  · cases hg with
    | @file f h3 h4 => exact (single _ (.file hi h3 h4)).elim
    | @dir f ts base rel l h3 h4 h5 h6 =>
      refine ⟨base, rel, l, rfl, h2, ?_, h6⟩
      rcases h5 with ⟨_, _, rfl⟩ | ⟨_, _, _, rfl⟩ | ⟨_, _, rfl⟩
      · rcases hd with hd | ⟨d, i, _, hn, _⟩
        · rw [hd] at h3; cases h3
        · rw [hn]; exact name f
      · exact name _
      · simp [components_nil]
    | @files files l h3 h4 h5 =>
      rcases hd with hd | ⟨d, i, hd, _⟩
      · rw [hd] at h3; cases h3
      · rw [hd] at h3; cases h3; exact absurd rfl (h4 d)
    | search h3 h4 => exact ⟨_, _, l, rfl, h2, by simp [components_nil], h4⟩

variable {ls : Listing}

/-- **C52.** If the sources are those found in a directory, every output is below the directory given with `--out`: no step leads
out of it. -/
theorem C52_within (hfs : ∀ p, fs.readDir p = ls (components p)) (hl : ProperListing ls) (h : plan fs a = .ok p)
    (hd : OneDirectory fs a) {o : Str} (ho : a.out = some o) :
    ∀ t ∈ p.tasks a.options, ∃ dest names, t.dest = .file dest ∧ components dest = components o ++ names ∧ names ≠ [] ∧
      ∀ n ∈ names, Plain n := by
  obtain ⟨base, rel, l, rfl, _, hr, hs⟩ := one_directory h hd
  intro t ht
  simp only [Plan.tasks, List.mem_map] at ht
  obtain ⟨x, hx, rfl⟩ := ht
  obtain ⟨h1, -⟩ := searchDir_found hfs hl hr hs
  obtain ⟨-, h2, h3⟩ := h1 x hx
  obtain ⟨dir, n, n', h4, h5, h6, h7, h8⟩ := dest_steps a.options o h3 h2
  refine ⟨_, dir ++ [n'], by simp only [multiTask, ho], h8, by simp, ?_⟩
  intro m hm
  rcases List.mem_append.mp hm with hm | hm
  · exact h2 m (by rw [h4]; simp [hm])
  · rw [List.mem_singleton] at hm; subst hm; exact renamed_name h7 h6

/-- **C52.** If the sources are those found in a directory, two of them have the same destination only if they are in the same directory
and their names differ only in the extension. -/
theorem C52_distinct (hfs : ∀ p, fs.readDir p = ls (components p)) (hl : ProperListing ls) (h : plan fs a = .ok p)
    (hd : OneDirectory fs a) {i j : Nat} {s1 s2 d1 d2 : Str} (hi : (p.tasks a.options)[i]? = some ⟨.file s1, .file d1⟩)
    (hj : (p.tasks a.options)[j]? = some ⟨.file s2, .file d2⟩) (hij : i ≠ j) (hsame : components d1 = components d2) :
    ∃ dir stem e1 e2, MintyExt e1 ∧ MintyExt e2 ∧ e1 ≠ e2 ∧ components s1 = dir ++ [stem ++ '.' :: e1] ∧
      components s2 = dir ++ [stem ++ '.' :: e2] := by
  obtain ⟨base, rel, l, rfl, _, hr, hs⟩ := one_directory h hd
  obtain ⟨h1, hnd, -⟩ := searchDir_found hfs hl hr hs
  simp only [Plan.tasks, List.getElem?_map, Option.map_eq_some_iff] at hi hj
  obtain ⟨x, hx, ex⟩ := hi
  obtain ⟨y, hy, ey⟩ := hj
  have hxm := List.mem_of_getElem? hx
  have hym := List.mem_of_getElem? hy
  obtain ⟨bx, px, mx⟩ := h1 x hxm
  obtain ⟨by_, py, my⟩ := h1 y hym
  have root : ∀ z : Loc, z.base = base →
      multiTask a.options a.out z = ⟨.file z.joined, .file (changeExtension (join (a.out.getD base) z.relative) a.options)⟩ := by
    intro z hz
    cases ho : a.out with
    | none => rw [← hz]; rfl
    | some d => rfl
  rw [root x bx] at ex
  rw [root y by_] at ey
  cases ex
  cases ey
  obtain ⟨dx, n, n', h4, h5, h6, h7, h8⟩ := dest_steps a.options (a.out.getD base) mx px
  obtain ⟨dy, m, m', k4, k5, k6, k7, k8⟩ := dest_steps a.options (a.out.getD base) my py
  rw [h8, k8] at hsame
  have hc := List.append_cancel_left hsame
  obtain ⟨rfl, hn⟩ := List.append_inj' hc rfl
  simp only [List.cons.injEq, and_true] at hn
  subst hn
  obtain ⟨stem, e1, e2, he1, he2, rfl, rfl⟩ := renamed_same h7 k7 h5 k5
  refine ⟨components base ++ dx, stem, e1, e2, he1, he2, ?_, ?_, ?_⟩
  · rintro rfl
    have hxi : (l.map fun l => components l.relative)[i]? = some (dx ++ [stem ++ '.' :: e1]) := by rw [List.getElem?_map, hx, ← h4]; rfl
    have hyj : (l.map fun l => components l.relative)[j]? = some (dx ++ [stem ++ '.' :: e1]) := by rw [List.getElem?_map, hy, ← k4]; rfl
    obtain ⟨hil, hxi⟩ := List.getElem?_eq_some_iff.mp hxi
    obtain ⟨hjl, hyj⟩ := List.getElem?_eq_some_iff.mp hyj
    exact hij ((List.Nodup.getElem_inj_iff hnd (hi := hil) (hj := hjl)).mp (hxi.trans hyj.symm))
  · rw [Loc.joined, bx, components_join_steps base px, h4, List.append_assoc]
  · rw [Loc.joined, by_, components_join_steps base py, k4, List.append_assoc]

/-- **C52** for the conversion of files given by name: outputs can leave the directory given with `--out`, here with
`convert -d . ../x.mty ../y.mty --out o`. -/
theorem C52_escapes : ∃ (fs : Fs) (a : ConvertArgs) (p : Plan), a.out = some "o".toList ∧ plan fs a = .ok p ∧
    p.tasks a.options = [⟨.file "./../x.mty".toList, .file "o/../x.html".toList⟩, ⟨.file "./../y.mty".toList, .file "o/../y.html".toList⟩] :=
  ⟨⟨fun q => .ok (if q = "o".toList then some ⟨false, true⟩ else some ⟨true, false⟩), fun _ => .ok []⟩,
   { srcDir := some ".".toList, srcFiles := some ["../x.mty".toList, "../y.mty".toList], out := some "o".toList },
   .many [⟨".".toList, "../x.mty".toList⟩, ⟨".".toList, "../y.mty".toList⟩] (some "o".toList), rfl, by decide +kernel, by decide +kernel⟩

/-- `convert -d . -r --out html` in the directories of the example. -/
def planArgs : ConvertArgs := { srcDir := some ".".toList, recurse := some none, out := some "html".toList }

example : (∀ p, (ExFs.fs false).readDir p = ExFs.listing false (components p)) ∧ ProperListing (ExFs.listing false) ∧
    OneDirectory (ExFs.fs false) planArgs :=
  ⟨fun _ => rfl, ExFs.listing_proper false, rfl, .inl rfl⟩

/-! ## C53: sources -/

theorem file_parts {f n : Str} (h : fileName f = some n) : components (searchParts none f).joined = components f := by
  obtain ⟨h1, h2⟩ := components_split h
  rw [searchParts, Loc.joined]
  simp only
  rw [h, Option.getD_some, components_join _ h1, h2]

theorem named_file {depth : Nat} {f n : Str} {i : PathInfo} (hn : fileName f = some n) (hi : fs.pathInfo f = .ok (some i)) (hd : i.isDir = false)
    (path : List Str) : components (searchParts none f).joined = path ↔ Named fs ls depth f path := by
  rw [file_parts hn]
  constructor
  · rintro rfl; exact .file hi hd
  · rintro (@⟨j, h1, h2⟩ | @⟨j, names, h1, h2, _⟩)
    · rfl
    · rw [hi] at h1; cases h1; rw [hd] at h2; cases h2

theorem named_dir {depth : Nat} {f : Str} {i : PathInfo} (hi : fs.pathInfo f = .ok (some i)) (hd : i.isDir = true)
    (path : List Str) : (∃ names, path = components f ++ names ∧ Found ls (components f) depth names) ↔ Named fs ls depth f path := by
  constructor
  · rintro ⟨names, rfl, h⟩; exact .dir hi hd h
  · rintro (@⟨j, h1, h2⟩ | @⟨j, names, h1, h2, h3⟩)
    · rw [hi] at h1; cases h1; rw [hd] at h2; cases h2
    · exact ⟨names, rfl, h3⟩

theorem searchDir_acc {fs : Fs} {depth : Nat} {base rel : Str} {out l : List Loc} {ls : Listing}
    (hfs : ∀ p, fs.readDir p = ls (components p)) (hl : ProperListing ls) (h : searchDir fs depth base rel out = .ok l) :
    ∃ found, l = out ++ found ∧ (∀ x ∈ found, x.base = base) ∧
      ∀ path, path ∈ (found.map fun l => components l.relative) ↔
        ∃ names, path = components rel ++ names ∧ Found ls (components (join base rel)) depth names := by
  obtain ⟨found, h1, h2, _, h4⟩ := C40_found fs ls hfs hl depth base rel out l h
  exact ⟨found, h1, h2, h4⟩

theorem sourceFiles_named (hfs : ∀ p, fs.readDir p = ls (components p)) (hl : ProperListing ls) {depth : Nat} (files : List Str)
    (hn : ∀ f ∈ files, fileName f ≠ none) (out l : List Loc) (h : sourceFiles fs depth none files out = .ok l) :
    ∃ found, l = out ++ found ∧
      ∀ path, (∃ x ∈ found, components x.joined = path) ↔ ∃ f ∈ files, Named fs ls depth f path := by
  induction files generalizing out with
  | nil => cases h; exact ⟨[], by simp, by simp⟩
  | cons f rest ih =>
    obtain ⟨n, hfn⟩ := Option.ne_none_iff_exists'.mp (hn f (by simp))
    have hn' : ∀ f ∈ rest, fileName f ≠ none := fun g hg => hn g (by simp [hg])
    rw [sourceFiles.eq_def] at h
    simp only at h
    cases hi : fs.pathInfo f with
    | error m => rw [hi] at h; cases h
    | ok r =>
      rw [hi] at h
      cases r with
      | none => cases h
      | some i =>
        simp only at h
        cases hd : i.isDir with
        | true =>
          rw [hd] at h
          simp only [if_true] at h
          cases hs : searchDir fs depth (searchParts none f).base (searchParts none f).relative out with
          | error e => rw [hs] at h; cases h
          | ok out' =>
            rw [hs] at h
            simp only at h
            obtain ⟨found, h1, h2, h3⟩ := searchDir_acc hfs hl hs
            obtain ⟨found', h4, h5⟩ := ih hn' out' h
            have hj := file_parts hfn
            rw [Loc.joined] at hj
            rw [hj] at h3
            have hpl := (components_split hfn).1
            have hrel : components (searchParts none f).relative = [n] := by
              rw [searchParts]; simp only; rw [hfn, Option.getD_some, components_plain hpl]
            have hf : ∀ path, (∃ x ∈ found, components x.joined = path) ↔ Named fs ls depth f path := by
              intro path
              rw [← named_dir hi hd path]
              have joined : ∀ x ∈ found, ∀ names, components x.relative = [n] ++ names → (∀ y ∈ names, Plain y) →
                  components x.joined = components f ++ names := by
                intro x hx names he hp
                rw [Loc.joined, h2 x hx, components_join_steps _ (by rw [he]; simpa using ⟨hpl, hp⟩), he, ← List.append_assoc, ← hrel,
                  ← components_join_steps _ (by rw [hrel]; simpa using hpl), hj]
              constructor
              · rintro ⟨x, hx, rfl⟩
                obtain ⟨names, h6, h7⟩ := (h3 _).mp (List.mem_map.mpr ⟨x, hx, rfl⟩)
                rw [hrel] at h6
                exact ⟨names, joined x hx names h6 (found_plain hl h7).1, h7⟩
              · rintro ⟨names, rfl, h7⟩
                obtain ⟨x, hx, h8⟩ := List.mem_map.mp ((h3 ([n] ++ names)).mpr ⟨names, by rw [hrel], h7⟩)
                exact ⟨x, hx, joined x hx names h8 (found_plain hl h7).1⟩
            refine ⟨found ++ found', by rw [h4, h1, List.append_assoc], fun path => ?_⟩
            simp only [List.mem_append, or_and_right, exists_or, List.mem_cons, exists_eq_left]
            rw [hf path, h5 path]
        | false =>
          rw [hd] at h
          simp only [Bool.false_eq_true, if_false] at h
          obtain ⟨found', h4, h5⟩ := ih hn' _ h
          refine ⟨searchParts none f :: found', by rw [h4]; simp, fun path => ?_⟩
          simp only [List.mem_cons, or_and_right, exists_or, exists_eq_left]
          rw [named_file hfn hi hd path, h5 path]

/-- **C53**, unless files are given together with `-d`, a path given ends with `..` (or is `.` or `/`), or the output directory is `/`: the
sources are exactly the files selected.

Missing for the full property: these cases, see `C53_dir_and_file` and `C53_dots`. -/
theorem C53_sources_partial (hfs : ∀ p, fs.readDir p = ls (components p)) (hl : ProperListing ls) (h : plan fs a = .ok p)
    (hi : a.stdin = false) (hdir : a.srcFiles = none ∨ a.srcDir = none)
    (hn : ∀ files, a.srcFiles = some files → ∀ f ∈ files, fileName f ≠ none)
    (hroot : ∀ o, a.out = some o → components o ≠ [['/']]) (path : List Str) :
    (∃ t ∈ p.tasks a.options, ∃ s, t.src = .file s ∧ components s = path) ↔ Selected fs ls a path := by
  have many : ∀ l, (∃ t ∈ (Plan.many l a.out).tasks a.options, ∃ s, t.src = .file s ∧ components s = path) ↔
      ∃ x ∈ l, components x.joined = path := by
    intro l
    simp only [Plan.tasks, List.mem_map]
    constructor
    · rintro ⟨t, ⟨x, hx, rfl⟩, s, h1, h2⟩
      cases h1
      exact ⟨x, hx, h2⟩
    · rintro ⟨x, hx, h2⟩
      exact ⟨_, ⟨x, hx, rfl⟩, _, rfl, h2⟩
  have forFile : ∀ {f}, PathType.forPath fs f = .ok .file → ∃ i, fs.pathInfo f = .ok (some i) ∧ i.isDir = false := by
    intro f h
    rw [PathType.forPath] at h
    split at h
    · cases h
    · rename_i i hi
      cases hd : i.isDir with
      | false => exact ⟨i, hi, hd⟩
      | true => rw [hd] at h; cases h
    · split at h
      · cases h
      · split at h <;> cases h
  have forDir : ∀ {f ts}, PathType.forPath fs f = .ok (.dir ts) → ∃ i, fs.pathInfo f = .ok (some i) ∧ i.isDir = true := by
    intro f ts h
    rw [PathType.forPath] at h
    split at h
    · cases h
    · rename_i i hi
      cases hd : i.isDir with
      | true => exact ⟨i, hi, hd⟩
      | false => rw [hd] at h; cases h
    · split at h
      · cases h
      · split at h <;> cases h
  have named1 : ∀ {f}, a.srcFiles = some [f] → (Named fs ls a.recursion f path ↔ Selected fs ls a path) := by
    intro f hf
    constructor
    · exact fun h => .named hf (by simp) h
    · rintro (@⟨files, g, _, h1, h2, h3⟩ | @⟨_, _, h1, _⟩ | @⟨_, h1, _⟩)
      · rw [hf] at h1; cases h1; rw [List.mem_singleton] at h2; subst h2; exact h3
      · rw [hf] at h1; cases h1
      · rw [hf] at h1; cases h1
  rcases plan_cases h with ⟨s, d, rfl, hs, -⟩ | ⟨l, rfl, _, h2, hg⟩
  · rcases hs with h' | @⟨f, _, h1, h2⟩
    · rw [hi] at h'; cases h'
    · have hsd : a.srcDir = none := by
        rcases hdir with hd | hd
        · rw [hd] at h1; cases h1
        · exact hd
      obtain ⟨n, hfn⟩ := Option.ne_none_iff_exists'.mp (hn _ h1 f (by simp))
      obtain ⟨i, h3, h4⟩ := forFile h2
      rw [← named1 h1, ← named_file hfn h3 h4 path, hsd]
      simp only [Plan.tasks, List.mem_singleton, exists_eq_left, StreamName.file.injEq, exists_eq_left']
  · rw [many]
    cases hg with
    | @file f h1 h2 =>
      have hsd : a.srcDir = none := by
        rcases hdir with hd | hd
        · rw [hd] at h1; cases h1
        · exact hd
      obtain ⟨n, hfn⟩ := Option.ne_none_iff_exists'.mp (hn _ h1 f (by simp))
      obtain ⟨i, h3, h4⟩ := forFile h2
      rw [← named1 h1, ← named_file hfn h3 h4 path, hsd]
      simp only [List.mem_singleton, exists_eq_left]
    | @dir f ts base rel l h1 h2 h5 h6 =>
      have hsd : a.srcDir = none := by
        rcases hdir with hd | hd
        · rw [hd] at h1; cases h1
        · exact hd
      obtain ⟨n, hfn⟩ := Option.ne_none_iff_exists'.mp (hn _ h1 f (by simp))
      obtain ⟨i, h3, h4⟩ := forDir h2
      have hj := file_parts hfn
      have hpl := (components_split hfn).1
      rw [hsd] at h5
      rw [← named1 h1, ← named_dir h3 h4 path]
      rcases h5 with ⟨_, rfl, rfl⟩ | ⟨⟨o, h5, h7⟩, _⟩ | ⟨_, rfl, rfl⟩
      · have hrel : components (searchParts none f).relative = [n] := by
          rw [searchParts]; simp only; rw [hfn, Option.getD_some, components_plain hpl]
        obtain ⟨-, -, h8⟩ := searchDir_found hfs hl (by rw [hrel]; simpa using hpl) h6
        rw [h8]
        rw [Loc.joined] at hj
        rw [hj]
      · exact absurd (hasTrailingSlash_root h7) (hroot o h5)
      · obtain ⟨-, -, h8⟩ := searchDir_found hfs hl (by simp [components_nil]) h6
        rw [h8, components_join_steps _ (by simp [components_nil]), components_nil, List.append_nil, hj]
    | @files files l h1 h4 h5 =>
      have hsd : a.srcDir = none := by
        rcases hdir with hd | hd
        · rw [hd] at h1; cases h1
        · exact hd
      rw [hsd] at h5
      obtain ⟨found, h6, h7⟩ := sourceFiles_named hfs hl files (hn files h1) [] l h5
      rw [List.nil_append] at h6
      subst h6
      rw [h7]
      constructor
      · rintro ⟨f, hf, h8⟩; exact .named h1 hf h8
      · rintro (@⟨files', g, _, h8, h9, h10⟩ | @⟨_, _, h8, _⟩ | @⟨_, h8, _⟩)
        · rw [h1] at h8; cases h8; exact ⟨g, h9, h10⟩
        · rw [h1] at h8; cases h8
        · rw [h1] at h8; cases h8
    | search h1 h4 =>
      obtain ⟨-, -, h8⟩ := searchDir_found hfs hl (by simp [components_nil]) h4
      rw [h8, components_join_steps _ (by simp [components_nil]), components_nil, List.append_nil]
      have hdot : components ['.'] = [['.']] := by decide
      constructor
      · rintro ⟨names, rfl, hf⟩
        cases hd : a.srcDir with
        | none => rw [hd] at hf; rw [Option.getD_none, hdot] at hf ⊢; exact .current h1 hd hf
        | some d => rw [hd] at hf; exact .directory h1 hd hf
      · rintro (@⟨files', g, _, h8, h9, h10⟩ | @⟨d, names, _, h8, h9⟩ | @⟨names, _, h8, h9⟩)
        · rw [h1] at h8; cases h8
        · rw [h8]; exact ⟨names, rfl, h9⟩
        · rw [h8, Option.getD_none, hdot]; exact ⟨names, rfl, h9⟩

/-- A file system with the file `docs/a.mty`. -/
def docsFs : Fs := ⟨fun q => .ok (if components q = ["docs".toList] ∨ components q = [['.']] ∨ components q = ["docs".toList, "..".toList] then some ⟨false, true⟩
    else if components q = ["docs".toList, "a.mty".toList] then some ⟨true, false⟩ else none),
  fun q => if components q = ["docs".toList] then .ok [("a.mty".toList, ⟨true, false⟩)]
    else if components q = [['.']] ∨ components q = ["docs".toList, "..".toList] then .ok [("docs".toList, ⟨false, true⟩), ("b.mty".toList, ⟨true, false⟩)]
    else .error "No such file or directory".toList⟩

/-- **C53** fails with `-d`: `convert -d docs a.mty` says that the existing file `docs/a.mty` does not exist. -/
theorem C53_dir_and_file : docsFs.pathInfo "docs/a.mty".toList = .ok (some ⟨true, false⟩) ∧
    plan docsFs { srcDir := some "docs".toList, srcFiles := some ["a.mty".toList] } =
      .error (argumentError "'docs/a.mty' does not exist".toList) := by decide +kernel

/-- **C53** fails for paths without a name: `convert .` fails although the directory can be read, and `convert docs/..` converts the files
of `docs`. -/
theorem C53_dots : docsFs.readDir ".".toList = .ok [("docs".toList, ⟨false, true⟩), ("b.mty".toList, ⟨true, false⟩)] ∧
    plan docsFs { srcFiles := some [".".toList] } = .error { message := "No such file or directory".toList } ∧
    docsFs.readDir "docs/..".toList = .ok [("docs".toList, ⟨false, true⟩), ("b.mty".toList, ⟨true, false⟩)] ∧
    plan docsFs { srcFiles := some ["docs/..".toList] } = .ok (.many [⟨"docs".toList, "a.mty".toList⟩] none) := by decide +kernel

/-- `convert a.mty sub` in the directories of the example. -/
def mixedArgs : ConvertArgs := { srcFiles := some ["./a.mty".toList, "./sub".toList] }

example : (∀ files, mixedArgs.srcFiles = some files → ∀ f ∈ files, fileName f ≠ none) ∧
    (∀ o, mixedArgs.out = some o → components o ≠ [['/']]) ∧
    plan ⟨fun q => .ok (some (if q = "./sub".toList then ⟨false, true⟩ else ⟨true, false⟩)), (ExFs.fs false).readDir⟩ mixedArgs =
      .ok (.many [⟨".".toList, "a.mty".toList⟩, ⟨".".toList, "sub/b.Minty".toList⟩] none) := by
  refine ⟨?_, by simp [mixedArgs], by decide +kernel⟩
  rintro files ⟨⟩
  decide +kernel

end Mty
