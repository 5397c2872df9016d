import Verif.Proofs.Search

/-!
# C39, C40: names of converted files, search for sources

The specification is in `Spec/Cli.lean`.
-/

set_option autoImplicit false

namespace Mty
open Spec Cli

/-! ## C39: destination naming -/

/-- **C39.** For a path with any directory part and a proper file name, the directory part is unchanged and the
name is changed as described by `Renamed`: a MinTyML extension in any case is replaced, and to other names the
extension is added. -/
theorem C39_named (o : ConvertOptions) (dir name : Str) (hd : dir = [] ∨ dir.getLast? = some '/') (hn : Plain name) :
    ∃ name', Renamed o.xml name name' ∧ changeExtension (dir ++ name) o = dir ++ name' :=
  renamed_plain o hd hn

/-- **C39.** The destination always differs from the source. -/
theorem C39_differs (o : ConvertOptions) (p : Str) : changeExtension p o ≠ p := changeExtension_ne p o

/-- **C39.** The destination is in the same directory. -/
theorem C39_directory (o : ConvertOptions) (p name : Str) (dir : List Str) (hn : Plain name)
    (hc : components p = dir ++ [name]) (hp : ∀ q, p ≠ q ++ ['/'] ∧ p ≠ q ++ ['/', '.']) :
    ∃ name', Renamed o.xml name name' ∧ components (changeExtension p o) = dir ++ [name'] := by
  have hf := Path.fileName_of_components hn hc
  have ht : Path.trimEndRev p.reverse = p.reverse := by
    rw [Path.trimEndRev.eq_def]
    split
    · rename_i r heq
      exact absurd (by rw [← List.reverse_reverse p, heq]; simp) (hp r.reverse).1
    · rename_i r heq
      exact absurd (by rw [← List.reverse_reverse p, heq]; simp) (hp r.reverse).2
    · rfl
  have hsplit : p = Path.beforeLast p ++ name := by
    rw [Path.fileName_eq hf, Path.beforeLast, Path.lastSegment, ← List.reverse_append, List.takeWhile_append_dropWhile, ht,
      List.reverse_reverse]
  have hd : Path.beforeLast p = [] ∨ (Path.beforeLast p).getLast? = some '/' := by
    rw [Path.beforeLast]
    rcases hdw : (Path.trimEndRev p.reverse).dropWhile (· ≠ '/') with _ | ⟨c, r⟩
    · exact .inl rfl
    · right
      have := List.head?_dropWhile_not (fun x : Char => decide (x ≠ '/')) (Path.trimEndRev p.reverse)
      rw [hdw] at this
      simp at this
      simp [this]
  generalize Path.beforeLast p = d at hsplit hd
  subst hsplit
  obtain ⟨name', h1, h2⟩ := C39_named o d name hd hn
  refine ⟨name', h1, ?_⟩
  have hp' : name' ≠ [] ∧ name' ≠ ['.'] ∧ '/' ∉ name' := by
    have hx : '/' ∉ htmlSuffix o.xml := by cases o.xml <;> decide
    have hl : 5 ≤ (htmlSuffix o.xml).length := by cases o.xml <;> decide
    cases h1 with
    | minty hs he =>
      have h3 := hn.2.2.2
      simp only [List.mem_append, not_or] at h3
      refine ⟨?_, ?_, by simp [h3.1, hx]⟩ <;> intro e <;> have := congrArg List.length e <;>
        simp only [List.length_append, List.length_nil, List.length_cons] at this <;> omega
    | other hm =>
      refine ⟨?_, ?_, by simp [hn.2.2.2, hx]⟩ <;> intro e <;> have := congrArg List.length e <;>
        simp only [List.length_append, List.length_nil, List.length_cons] at this <;> omega
  rw [Path.components_dirPart hd hn] at hc
  rw [h2, Path.components_dirPart' hd hp'.1 hp'.2.1 hp'.2.2, (List.append_inj' hc rfl).1]

example : changeExtension "docs/Intro.MTY".toList {} = "docs/Intro.html".toList ∧
    changeExtension "a.b/c.minty".toList { xml := true } = "a.b/c.xhtml".toList ∧
    changeExtension "notes.txt".toList {} = "notes.txt.html".toList ∧
    changeExtension ".mty".toList {} = ".mty.html".toList ∧
    components "./docs//a.mty".toList = [".".toList, "docs".toList, "a.mty".toList] := by decide +kernel

/-- **C39** is not injective: several sources of a directory can have the same destination. -/
theorem C39_collision : changeExtension "a.mty".toList {} = changeExtension "a.minty".toList {} ∧
    changeExtension "a.mty".toList {} = changeExtension "a".toList {} := by decide +kernel

/-! ## C40: search -/

/-- **C40.** A search that succeeds yields the files given before and, each once, exactly the files that are found
within the depth limit, as paths relative to the base directory. -/
theorem C40_found (fs : Fs) (ls : Listing) (hfs : ∀ p, fs.readDir p = ls (components p)) (hl : ProperListing ls)
    (depth : Nat) (base rel : Str) (before locs : List Loc) (h : searchDir fs depth base rel before = .ok locs) :
    ∃ found, locs = before ++ found ∧ (∀ l ∈ found, l.base = base) ∧
      (found.map fun l => components l.relative).Nodup ∧
      ∀ path, path ∈ (found.map fun l => components l.relative) ↔
        ∃ names, path = components rel ++ names ∧ Found ls (components (Path.join base rel)) depth names := by
  have hs := search_inner hfs hl base depth ⟨Path.join base rel, rel, before⟩
  rw [searchDir] at h
  simp only [Extends] at hs
  cases hf : foundList ls depth (components (Path.join base rel)) with
  | error m => rw [hf] at hs; simp only at hs; rw [hs] at h; cases h
  | ok l =>
    rw [hf] at hs
    obtain ⟨s', h1, _, _, found, h2, h3⟩ := hs
    rw [h1] at h
    simp only [Except.ok.injEq] at h
    have h4 : (found.map fun l => components l.relative) = l.map fun n => components rel ++ n := by
      have := congrArg (List.map Prod.snd) h3
      simpa [List.map_map, Function.comp_def] using this
    refine ⟨found, by rw [← h, h2], ?_, ?_, ?_⟩
    · intro x hx
      have : (x.base, components x.relative) ∈ found.map fun l => (l.base, components l.relative) := List.mem_map.mpr ⟨x, hx, rfl⟩
      rw [h3, List.mem_map] at this
      obtain ⟨_, _, e⟩ := this
      exact (congrArg Prod.fst e).symm
    · rw [h4]
      exact List.Pairwise.map _ (fun a b hne e => hne (by simpa using e)) (foundList_nodup hl depth _ l hf)
    · intro path
      rw [h4, List.mem_map]
      rcases foundList_spec hl depth (components (Path.join base rel)) with ⟨l', g1, _, g2⟩ | ⟨m, _, g1, _⟩
      · rw [hf] at g1; cases g1
        constructor
        · rintro ⟨n, hn, rfl⟩; exact ⟨n, rfl, (g2 n).mp hn⟩
        · rintro ⟨n, rfl, hn⟩; exact ⟨n, (g2 n).mpr hn, rfl⟩
      · rw [hf] at g1; cases g1

/-- **C40.** A search fails exactly if a directory within the depth limit cannot be read. -/
theorem C40_fails (fs : Fs) (ls : Listing) (hfs : ∀ p, fs.readDir p = ls (components p)) (hl : ProperListing ls)
    (depth : Nat) (base rel : Str) (before : List Loc) :
    (∃ e, searchDir fs depth base rel before = .error e) ↔
      ∃ sub m, Below ls (components (Path.join base rel)) depth sub ∧ ls sub = .error m := by
  have hs := search_inner hfs hl base depth ⟨Path.join base rel, rel, before⟩
  simp only [Extends] at hs
  rw [searchDir]
  rcases foundList_spec hl depth (components (Path.join base rel)) with ⟨l, g1, g2, _⟩ | ⟨m, sub, g1, g2, g3⟩
  · rw [g1] at hs
    obtain ⟨s', h1, _⟩ := hs
    rw [h1]
    constructor
    · rintro ⟨e, he⟩; cases he
    · rintro ⟨sub, m, h2, h3⟩
      obtain ⟨e, he⟩ := g2 sub h2
      rw [he] at h3; cases h3
  · rw [g1] at hs
    simp only at hs
    rw [hs]
    exact ⟨fun _ => ⟨sub, m, g2, g3⟩, fun _ => ⟨_, rfl⟩⟩

/-- **C40.** The depth limit: without `--recurse` only the directory itself, with `--recurse` alone as good as
none (2³² − 1), otherwise as given. -/
theorem C40_depth (a : ConvertArgs) :
    (a.recurse = none → a.recursion = 0) ∧ (a.recurse = some none → a.recursion = 2 ^ 32 - 1) ∧
    (∀ d, a.recurse = some (some d) → a.recursion = d) := by
  refine ⟨fun h => ?_, fun h => ?_, fun d h => ?_⟩ <;> rw [ConvertArgs.recursion, h]

namespace ExFs

/-- Directories for the examples: `./a.mty ./sub/{b.Minty,c.txt,deep/d.mty} ./link` (`link` is neither a file nor a
directory). -/
def listing (link : Bool) : Listing := fun d =>
  let file : PathInfo := ⟨true, false⟩
  let dir : PathInfo := ⟨false, true⟩
  if d = [".".toList] then
    .ok ([("a.mty".toList, file), ("sub".toList, dir)] ++ if link then [("link".toList, ⟨false, false⟩)] else [])
  else if d = [".".toList, "sub".toList] then
    .ok [("deep".toList, dir), ("b.Minty".toList, file), ("c.txt".toList, file)]
  else if d = [".".toList, "sub".toList, "deep".toList] then .ok [("d.mty".toList, file)]
  else .error "No such file or directory".toList

/-- The file system with these directories. -/
def fs (link : Bool) : Fs := ⟨fun p => .ok (match listing link (components p) with
  | .ok _ => some ⟨false, true⟩
  | .error _ => if p = "a.mty".toList then some ⟨true, false⟩ else none), fun p => listing link (components p)⟩

instance (n : Str) : Decidable (Plain n) := by unfold Plain; infer_instance

theorem listing_proper (link : Bool) : ProperListing (listing link) := by
  intro d l h
  have key : ∀ link : Bool, (∀ e ∈ ([("a.mty".toList, ⟨true, false⟩), ("sub".toList, ⟨false, true⟩)] ++
        if link then [("link".toList, (⟨false, false⟩ : PathInfo))] else [] : List (Str × PathInfo)), Plain e.1) ∧
      (([("a.mty".toList, ⟨true, false⟩), ("sub".toList, ⟨false, true⟩)] ++
        if link then [("link".toList, (⟨false, false⟩ : PathInfo))] else [] : List (Str × PathInfo)).map Prod.fst).Nodup := by
    decide +kernel
  simp only [listing] at h
  split at h
  · cases h; exact key link
  · split at h
    · cases h; decide +kernel
    · split at h
      · cases h; decide +kernel
      · cases h

end ExFs

example : (∀ p, (ExFs.fs false).readDir p = ExFs.listing false (components p)) ∧ ProperListing (ExFs.listing false) ∧
    searchDir (ExFs.fs false) 2 ".".toList [] [] = .ok [⟨".".toList, "a.mty".toList⟩,
      ⟨".".toList, "sub/deep/d.mty".toList⟩, ⟨".".toList, "sub/b.Minty".toList⟩] ∧
    searchDir (ExFs.fs false) 1 ".".toList [] [] = .ok [⟨".".toList, "a.mty".toList⟩, ⟨".".toList, "sub/b.Minty".toList⟩] :=
  ⟨fun _ => rfl, ExFs.listing_proper false, by decide +kernel, by decide +kernel⟩

/-- **C40** for directories with other entries than files and directories (such as symbolic links): a recursive search
takes them for directories and fails. -/
theorem C40_other_entries : ∃ e, searchDir (ExFs.fs true) 1 ".".toList [] [] = .error e :=
  ⟨{ message := "No such file or directory".toList }, by decide +kernel⟩

end Mty
