import Verif.Spec.Plan
import Verif.Proofs.Search
import Verif.Props.Files

/-! # Lemmas about the plan of conversions -/

set_option autoImplicit false

namespace Mty
open Cli Spec Path

theorem components_nil : components [] = [] := by decide

/-- A path whose steps are names. -/
theorem plain_steps {r : Str} (h : ∀ x ∈ components r, Plain x) :
    r.head? ≠ some '/' ∧ components r = (segments r).filter fun s => s ≠ [] ∧ s ≠ ['.'] := by
  have h1 : r.head? ≠ some '/' := by
    intro hh
    have : ['/'] ∈ components r := by rw [components, if_pos hh]; simp
    exact (h _ this).2.2.2 (by simp)
  refine ⟨h1, ?_⟩
  rw [components, if_neg h1]
  split
  · rename_i h2
    have : ['.'] ∈ components r := by rw [components, if_neg h1, if_pos h2]; simp
    exact absurd rfl (h _ this).2.1
  · simp

theorem components_join_steps (p : Str) {r : Str} (h : ∀ x ∈ components r, Plain x) :
    components (join p r) = components p ++ components r := by
  obtain ⟨h1, h2⟩ := plain_steps h
  rw [join, if_neg h1]
  by_cases hp : p = []
  · subst hp; simp [components_nil]
  · by_cases hl : p.getLast? = some '/'
    · rw [if_pos (.inr hl)]
      obtain ⟨q, rfl⟩ : ∃ q, p = q ++ ['/'] := by
        rw [List.getLast?_eq_some_iff] at hl
        exact hl
      by_cases hq : q = []
      · subst hq
        rw [List.nil_append, List.singleton_append, components_root, components_root, h2]
        simp [segments]
      · rw [List.append_assoc, List.singleton_append, components_append hq, components_sep hq, h2]
    · rw [if_neg (by simp [hp, hl]), components_append hp, h2]

/-! ## Results of the search -/

/-- A path that ends with the name of a MinTyML file. -/
def EndsMinty (p : Str) : Prop := ∃ d n, DirPart d ∧ Plain n ∧ MintyName n ∧ p = d ++ n

theorem endsMinty_join (p : Str) {n : Str} (h : Plain n) (hm : MintyName n) : EndsMinty (join p n) := by
  obtain ⟨d, hd, hj, -⟩ := join_plain p h
  exact ⟨d, n, hd, h, hm, hj⟩

theorem entries_ends {base : Str} {rec : Option (SearchState → Except Str SearchState)}
    (hrec : ∀ g, rec = some g → ∀ s s', g s = .ok s' → (∀ l ∈ s.out, EndsMinty l.relative) → ∀ l ∈ s'.out, EndsMinty l.relative)
    (entries : List (Str × PathInfo)) (hp : ∀ e ∈ entries, Plain e.1) (s s' : SearchState)
    (h : searchEntries base rec entries s = .ok s') (hs : ∀ l ∈ s.out, EndsMinty l.relative) :
    ∀ l ∈ s'.out, EndsMinty l.relative := by
  induction entries generalizing s with
  | nil => cases h; exact hs
  | cons e rest ih =>
    obtain ⟨n, i⟩ := e
    have hn : Plain n := hp (n, i) (by simp)
    have hp' : ∀ e ∈ rest, Plain e.1 := fun e h => hp e (by simp [h])
    rw [searchEntries.eq_def] at h
    dsimp only at h
    split at h
    · split at h
      · rename_i hm
        refine ih hp' _ h fun l hl => ?_
        rcases List.mem_append.mp hl with hl | hl
        · exact hs l hl
        · rw [List.mem_singleton] at hl
          subst hl
          exact endsMinty_join s.rel hn ((hasMinty_plain (d := []) (.inl rfl) hn).mp hm)
      · exact ih hp' _ h hs
    · cases rec with
      | none => exact ih hp' _ h hs
      | some g =>
        simp only at h
        cases hg : g { s with rel := join s.rel n, exact := join s.exact n } with
        | error m => rw [hg] at h; cases h
        | ok s1 =>
          rw [hg] at h
          exact ih hp' _ h fun l hl => hrec g rfl _ s1 hg hs l hl

theorem inner_ends {fs : Fs} {ls : Listing} (hfs : ∀ p, fs.readDir p = ls (components p)) (hl : ProperListing ls)
    (base : Str) (d : Nat) (s s' : SearchState) (h : searchDirInner fs base d s = .ok s')
    (hs : ∀ l ∈ s.out, EndsMinty l.relative) : ∀ l ∈ s'.out, EndsMinty l.relative := by
  induction d generalizing s s' with
  | zero =>
    rw [searchDirInner.eq_def] at h; dsimp only at h; rw [hfs] at h
    cases he : ls (components s.exact) with
    | error m => rw [he] at h; cases h
    | ok entries =>
      rw [he] at h
      exact entries_ends (by simp) entries (hl _ _ he).1 s s' h hs
  | succ d ih =>
    rw [searchDirInner.eq_def] at h; dsimp only at h; rw [hfs] at h
    cases he : ls (components s.exact) with
    | error m => rw [he] at h; cases h
    | ok entries =>
      rw [he] at h
      refine entries_ends ?_ entries (hl _ _ he).1 s s' h hs
      rintro g ⟨⟩ s1 s2 h1 h2
      exact ih s1 s2 h1 h2

theorem search_ends {fs : Fs} {ls : Listing} (hfs : ∀ p, fs.readDir p = ls (components p)) (hl : ProperListing ls)
    {d : Nat} {base rel : Str} {out : List Loc} (h : searchDir fs d base rel [] = .ok out) :
    ∀ l ∈ out, EndsMinty l.relative := by
  rw [searchDir] at h
  cases hi : searchDirInner fs base d ⟨join base rel, rel, []⟩ with
  | error m => rw [hi] at h; cases h
  | ok s =>
    rw [hi] at h
    cases h
    exact inner_ends hfs hl base d _ s hi (by simp)

theorem found_plain {ls : Listing} (hl : ProperListing ls) {dir names : List Str} {d : Nat} (h : Found ls dir d names) :
    (∀ x ∈ names, Plain x) ∧ names ≠ [] := by
  induction h with
  | file h1 h2 _ _ => exact ⟨by simpa using (hl _ _ h1).1 _ h2, by simp⟩
  | sub h1 h2 _ _ ih => exact ⟨by simpa using ⟨(hl _ _ h1).1 _ h2, ih.1⟩, by simp⟩

/-- A name is never empty, and is a name, after the extension has been changed. -/
theorem renamed_name {xml : Bool} {n n' : Str} (h : Renamed xml n n') (hn : Plain n) : Plain n' := by
  have hx : '/' ∉ htmlSuffix xml := by cases xml <;> decide
  have hl : 5 ≤ (htmlSuffix xml).length := by cases xml <;> decide
  have key : ∀ s : Str, '/' ∉ s → Plain (s ++ htmlSuffix xml) := by
    intro s hs
    refine ⟨?_, ?_, ?_, by simp [hs, hx]⟩ <;> intro e <;> have := congrArg List.length e <;>
      simp only [List.length_append, List.length_nil, List.length_cons] at this <;> omega
  cases h with
  | minty hs he =>
    have h3 := hn.2.2.2
    simp only [List.mem_append, not_or] at h3
    exact key _ h3.1
  | other hm => exact key _ hn.2.2.2

/-- The destination for a source in a directory. -/
theorem dest_steps (o : ConvertOptions) (base : Str) {rel : Str} (h : EndsMinty rel) (hp : ∀ x ∈ components rel, Plain x) :
    ∃ dir n n', components rel = dir ++ [n] ∧ MintyName n ∧ Plain n ∧ Renamed o.xml n n' ∧
      components (changeExtension (join base rel) o) = components base ++ (dir ++ [n']) := by
  obtain ⟨d, n, hd, hn, hm, rfl⟩ := h
  have hc := components_dirPart hd hn
  have hj : ∃ d', DirPart d' ∧ join base (d ++ n) = d' ++ n := by
    obtain ⟨h1, -⟩ := plain_steps hp
    rw [join, if_neg h1]
    have hne : d ++ n ≠ [] := by simp [hn.1]
    have dp : ∀ q : Str, DirPart q → DirPart (q ++ d) := by
      intro q hq
      rcases hd with rfl | hd
      · simpa using hq
      · right
        rw [List.getLast?_append, hd]; rfl
    split
    · rename_i h2
      exact ⟨base ++ d, dp base h2, by simp⟩
    · exact ⟨base ++ ['/'] ++ d, dp _ (.inr (by simp)), by simp⟩
  obtain ⟨d', hd', hj⟩ := hj
  obtain ⟨n', h1, h2⟩ := renamed_plain o hd' hn
  refine ⟨components d, n, n', hc, hm, hn, h1, ?_⟩
  rw [hj, h2, components_dirPart hd' (renamed_name h1 hn)]
  have := components_join_steps base hp
  rw [hj, components_dirPart hd' hn, hc, ← List.append_assoc] at this
  rw [(List.append_inj' this rfl).1, List.append_assoc]

/-- Different names of MinTyML files with the same converted name have the same stem. -/
theorem renamed_same {xml : Bool} {a b c : Str} (ha : Renamed xml a c) (hb : Renamed xml b c) (hma : MintyName a) (hmb : MintyName b) :
    ∃ stem e1 e2, MintyExt e1 ∧ MintyExt e2 ∧ a = stem ++ '.' :: e1 ∧ b = stem ++ '.' :: e2 := by
  cases ha with
  | other h => exact absurd hma h
  | @minty s1 e1 h1 h2 =>
    generalize hc : s1 ++ htmlSuffix xml = c at hb
    cases hb with
    | other h => exact absurd hmb h
    | @minty s2 e2 h3 h4 =>
      have := List.append_cancel_right hc
      subst this
      exact ⟨s1, e1, e2, h2, h4, rfl, rfl⟩

/-! ## Plans -/

theorem hasTrailingSlash_root {p : Str} (h : hasTrailingSlash p = true) : components p = [['/']] := by
  simp only [hasTrailingSlash, decide_eq_true_eq] at h
  obtain ⟨h1, h2⟩ := h
  rw [trimEnd] at h2
  have h3 : trimEndRev p.reverse = [] := by simpa using h2
  rcases components_trim p.reverse with ⟨_, h5 | ⟨_, h5⟩⟩ | ⟨h4, _⟩
  · simp at h5; subst h5; cases h1
  · simpa using h5
  · exact absurd h3 h4

/-- A search finds files relative to its base. -/
theorem searchDir_found {fs : Fs} {ls : Listing} (hfs : ∀ p, fs.readDir p = ls (components p)) (hl : ProperListing ls)
    {depth : Nat} {base rel : Str} {locs : List Loc} (hr : ∀ x ∈ components rel, Plain x) (h : searchDir fs depth base rel [] = .ok locs) :
    (∀ l ∈ locs, l.base = base ∧ (∀ x ∈ components l.relative, Plain x) ∧ EndsMinty l.relative) ∧
    (locs.map fun l => components l.relative).Nodup ∧
    ∀ path, (∃ l ∈ locs, components l.joined = path) ↔
      ∃ names, path = components (join base rel) ++ names ∧ Found ls (components (join base rel)) depth names := by
  obtain ⟨found, h1, h2, h3, h4⟩ := C40_found fs ls hfs hl depth base rel [] locs h
  rw [List.nil_append] at h1
  subst h1
  have hends := search_ends hfs hl h
  have hpl : ∀ l ∈ locs, ∀ x ∈ components l.relative, Plain x := by
    intro l hlm x hx
    obtain ⟨names, h5, h6⟩ := (h4 (components l.relative)).mp (List.mem_map.mpr ⟨l, hlm, rfl⟩)
    rw [h5] at hx
    rcases List.mem_append.mp hx with hx | hx
    · exact hr x hx
    · exact (found_plain hl h6).1 x hx
  refine ⟨fun l hl => ⟨h2 l hl, hpl l hl, hends l hl⟩, h3, fun path => ?_⟩
  rw [components_join_steps base hr]
  constructor
  · rintro ⟨l, hlm, rfl⟩
    obtain ⟨names, h5, h6⟩ := (h4 (components l.relative)).mp (List.mem_map.mpr ⟨l, hlm, rfl⟩)
    rw [components_join_steps base hr] at h6
    refine ⟨names, ?_, h6⟩
    rw [Loc.joined, h2 l hlm, components_join_steps base (hpl l hlm), h5, List.append_assoc]
  · rintro ⟨names, rfl, hf⟩
    obtain ⟨l, hlm, h5⟩ := List.mem_map.mp ((h4 (components rel ++ names)).mpr ⟨names, rfl, by rwa [components_join_steps base hr]⟩)
    refine ⟨l, hlm, ?_⟩
    rw [Loc.joined, h2 l hlm, components_join_steps base (hpl l hlm), h5, List.append_assoc]

/-- Where the sources of several conversions come from. -/
inductive Gathered (fs : Fs) (a : ConvertArgs) : List Loc → Prop
  | file {f : Str} : a.srcFiles = some [f] → PathType.forPath fs f = .ok .file → Gathered fs a [searchParts a.srcDir f]
  | dir {f : Str} {ts : Bool} {base rel : Str} {l : List Loc} : a.srcFiles = some [f] → PathType.forPath fs f = .ok (.dir ts) →
      (a.out = none ∧ base = (searchParts a.srcDir f).base ∧ rel = (searchParts a.srcDir f).relative ∨
        (∃ o, a.out = some o ∧ hasTrailingSlash o = true) ∧ (searchParts a.srcDir f).base = [] ∧ base = ['.'] ∧
          rel = (fileName (searchParts a.srcDir f).relative).getD [] ∨
        a.out ≠ none ∧ base = (searchParts a.srcDir f).joined ∧ rel = []) →
      searchDir fs a.recursion base rel [] = .ok l → Gathered fs a l
  | files {files : List Str} {l : List Loc} : a.srcFiles = some files → (∀ f, files ≠ [f]) →
      sourceFiles fs a.recursion a.srcDir files [] = .ok l → Gathered fs a l
  | search {l : List Loc} : a.srcFiles = none → searchDir fs a.recursion (a.srcDir.getD ['.']) [] [] = .ok l → Gathered fs a l

/-- The source of a single conversion. -/
inductive SingleSource (fs : Fs) (a : ConvertArgs) : StreamName → Prop
  | stdin : a.stdin = true → SingleSource fs a .stdio
  | file {f : Str} : a.stdin = false → a.srcFiles = some [f] → PathType.forPath fs f = .ok .file →
      SingleSource fs a (.file (searchParts a.srcDir f).joined)

theorem root_parent {o : Str} (h : hasTrailingSlash o = true) : (parent o).getD ['.'] = ['.'] := by
  simp only [hasTrailingSlash, decide_eq_true_eq] at h
  obtain ⟨h1, h2⟩ := h
  have h3 : trimEndRev o.reverse = [] := by rw [trimEnd] at h2; simpa using h2
  have : lastSegment o = [] := by rw [lastSegment, h3]; rfl
  rw [parent, if_pos this]; rfl

theorem srcType_cases {fs : Fs} {a : ConvertArgs} {s : SourceType} (h : srcType fs a = .ok s) :
    (a.stdin = true ∧ s = .stdin) ∨
    (a.stdin = false ∧ ∃ f t, a.srcFiles = some [f] ∧ PathType.forPath fs f = .ok t ∧ s = .file (searchParts a.srcDir f) t) ∨
    (a.stdin = false ∧ ∃ l, (s = .files l ∨ s = .dir l ∨ s = .implicit l) ∧ Gathered fs a l) := by
  rw [srcType.eq_def] at h
  cases hst : a.stdin with
  | true => rw [hst] at h; simp only [if_true] at h; cases h; exact .inl ⟨rfl, rfl⟩
  | false =>
    rw [hst] at h
    simp only [Bool.false_eq_true, if_false] at h
    right
    split at h
    · rename_i f hf
      left
      cases ht : PathType.forPath fs f with
      | error e => rw [ht] at h; cases h
      | ok t => rw [ht] at h; cases h; exact ⟨rfl, f, t, hf, ht, rfl⟩
    · rename_i files hne hf
      right
      cases ht : sourceFiles fs a.recursion a.srcDir files [] with
      | error e => rw [ht] at h; cases h
      | ok l => rw [ht] at h; cases h; exact ⟨rfl, l, .inl rfl, .files hf (fun f e => hne f e) ht⟩
    · rename_i d hf hd
      right
      cases ht : searchDir fs a.recursion d [] [] with
      | error e => rw [ht] at h; cases h
      | ok l => rw [ht] at h; cases h; exact ⟨rfl, l, .inr (.inl rfl), .search hf (by rw [hd]; exact ht)⟩
    · rename_i hf hd
      right
      cases ht : searchDir fs a.recursion ['.'] [] [] with
      | error e => rw [ht] at h; cases h
      | ok l => rw [ht] at h; cases h; exact ⟨rfl, l, .inr (.inr rfl), .search hf (by rw [hd]; exact ht)⟩

theorem destType_cases {fs : Fs} {a : ConvertArgs} {d : DestinationType} (h : destType fs a = .ok d) :
    (a.stdout = true ∧ d = .stdout) ∨ (a.stdout = false ∧ a.out = none ∧ d = .implicit) ∨
    (a.stdout = false ∧ ∃ o t, a.out = some o ∧ PathType.forPath fs o = .ok t ∧ d = .file o t) := by
  rw [destType.eq_def] at h
  cases hst : a.stdout with
  | true => rw [hst] at h; simp only [if_true] at h; cases h; exact .inl ⟨rfl, rfl⟩
  | false =>
    rw [hst] at h
    simp only [Bool.false_eq_true, if_false] at h
    right
    cases ho : a.out with
    | none => rw [ho] at h; cases h; exact .inl ⟨rfl, rfl, rfl⟩
    | some o =>
      rw [ho] at h
      simp only at h
      cases ht : PathType.forPath fs o with
      | error e => rw [ht] at h; cases h
      | ok t => rw [ht] at h; cases h; exact .inr ⟨rfl, o, t, rfl, ht, rfl⟩

theorem plan_cases {fs : Fs} {a : ConvertArgs} {p : Plan} (h : plan fs a = .ok p) :
    (∃ s d, p = .one s d ∧ SingleSource fs a s ∧ (a.stdout = true ∧ d = .stdio ∨
      a.stdout = false ∧ ∃ o t, a.out = some o ∧ PathType.forPath fs o = .ok t ∧ t.atLeastProbablyDir = false ∧ d = .file o)) ∨
    (∃ l, p = .many l a.out ∧ a.stdin = false ∧ a.stdout = false ∧ Gathered fs a l) := by
  rw [plan] at h
  cases hs : srcType fs a with
  | error e => rw [hs] at h; cases h
  | ok s =>
    cases hd : destType fs a with
    | error e => rw [hs, hd] at h; cases h
    | ok d =>
      rw [hs, hd] at h
      simp only at h
      rcases srcType_cases hs with ⟨s1, rfl⟩ | ⟨s1, f, t, s2, s3, rfl⟩ | ⟨s1, l, s2, s3⟩ <;>
      rcases destType_cases hd with ⟨d1, rfl⟩ | ⟨d1, d2, rfl⟩ | ⟨d1, o, u, d2, d3, rfl⟩
      · cases h; exact .inl ⟨_, _, rfl, .stdin s1, .inl ⟨d1, rfl⟩⟩
      · cases h
      · rw [planOf.eq_def] at h
        simp only at h
        split at h
        · cases h
        · rename_i hu
          cases h
          exact .inl ⟨_, _, rfl, .stdin s1, .inr ⟨d1, o, u, d2, d3, by simpa using hu, rfl⟩⟩
      · cases t with
        | file => cases h; exact .inl ⟨_, _, rfl, .file s1 s2 s3, .inl ⟨d1, rfl⟩⟩
        | _ => cases h
      · cases t with
        | file => cases h; rw [d2]; exact .inr ⟨_, rfl, s1, d1, .file s2 s3⟩
        | dir ts =>
          rw [planOf.eq_def] at h
          simp only [searchMany] at h
          cases hse : searchDir fs a.recursion (searchParts a.srcDir f).base (searchParts a.srcDir f).relative [] with
          | error e => rw [hse] at h; cases h
          | ok l => rw [hse] at h; cases h; rw [d2]; exact .inr ⟨_, rfl, s1, d1, .dir s2 s3 (.inl ⟨d2, rfl, rfl⟩) hse⟩
        | _ => cases h
      · rw [d2]
        cases t with
        | file =>
          have hno : ∀ b, (Except.ok p : Except CliError Plan) ≠ .error b := by intro b hb; cases hb
          cases u with
          | dir ts =>
            cases ts with
            | true => cases h; exact .inr ⟨_, rfl, s1, d1, .file s2 s3⟩
            | false => cases h
          | probablyDir => cases h; exact .inr ⟨_, rfl, s1, d1, .file s2 s3⟩
          | file => cases h; exact .inl ⟨_, _, rfl, .file s1 s2 s3, .inr ⟨d1, o, _, rfl, d3, rfl, rfl⟩⟩
          | probablyFile => cases h; exact .inl ⟨_, _, rfl, .file s1 s2 s3, .inr ⟨d1, o, _, rfl, d3, rfl, rfl⟩⟩
          | unknown => cases h; exact .inl ⟨_, _, rfl, .file s1 s2 s3, .inr ⟨d1, o, _, rfl, d3, rfl, rfl⟩⟩
        | dir ts =>
          have key : u ≠ .file ∧ (if (!ts && hasTrailingSlash o && (searchParts a.srcDir f).base.isEmpty) = true then
              searchMany fs a ((parent o).getD ['.']) ((fileName (searchParts a.srcDir f).relative).getD []) (some o)
            else searchMany fs a (join (searchParts a.srcDir f).base (searchParts a.srcDir f).relative) [] (some o)) = .ok p := by
            cases u with
            | file => cases h
            | _ => exact ⟨by simp, h⟩
          replace h := key.2
          split at h
          · rename_i hc
            simp only [Bool.and_eq_true, List.isEmpty_iff] at hc
            rw [searchMany, root_parent hc.1.2] at h
            cases hse : searchDir fs a.recursion ['.'] ((fileName (searchParts a.srcDir f).relative).getD []) [] with
            | error e => rw [hse] at h; cases h
            | ok l =>
              rw [hse] at h; cases h
              exact .inr ⟨_, rfl, s1, d1, .dir s2 s3 (.inr (.inl ⟨⟨o, d2, hc.1.2⟩, hc.2, rfl, rfl⟩)) hse⟩
          · rw [searchMany] at h
            cases hse : searchDir fs a.recursion (join (searchParts a.srcDir f).base (searchParts a.srcDir f).relative) [] [] with
            | error e => rw [hse] at h; cases h
            | ok l =>
              rw [hse] at h; cases h
              exact .inr ⟨_, rfl, s1, d1, .dir s2 s3 (.inr (.inr ⟨by rw [d2]; simp, rfl, rfl⟩)) hse⟩
        | _ => cases u <;> cases h
      · rcases s2 with rfl | rfl | rfl <;> cases h
      · rw [d2]
        rcases s2 with rfl | rfl | rfl <;> cases h <;> exact .inr ⟨_, rfl, s1, d1, s3⟩
      · rw [d2]
        rcases s2 with rfl | rfl | rfl <;> cases u <;> cases h <;> exact .inr ⟨_, rfl, s1, d1, s3⟩

end Mty
