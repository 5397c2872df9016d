import Verif.Proofs.JsonUnique
import Verif.Props.Messages

/-! # C73: errors as JSON -/

set_option autoImplicit false

namespace Mty
open Cli Spec Json

variable {parse : Parser} {fmt fmt' : Fmt} {fs : Fs} {a : ConvertArgs} {trace : List (Nat × Ev)} {stderr : Str} {exit : Bool}

/-- Lines, each ended by a line break. -/
def linesText (lines : List Str) : Str := (lines.map (· ++ ['\n'])).flatten

theorem json_lines (entries : List ErrorEntry) :
    (entries.map (writeError fmt .json)).flatten =
      linesText ((entries.filter (·.category ≠ .hidden)).map ErrorEntry.toJson) := by
  induction entries with
  | nil => rfl
  | cons e l ih =>
    rw [List.map_cons, List.flatten_cons, ih, writeError.eq_def]
    by_cases hh : e.category = .hidden
    · rw [if_pos hh, List.filter_cons_of_neg (by simpa using hh), List.nil_append]
    · rw [if_neg hh, List.filter_cons_of_pos (by simpa using hh)]
      rfl

theorem no_break (e : ErrorEntry) : '\n' ∉ e.toJson := by
  intro h
  exact absurd (clean_entry e _ h) (by decide)

/-- **C73.** In JSON mode the standard error stream consists of lines, one for every reported error in order (and one for an error of the program
itself); each line is JSON for the error: an object with its category, source, position, what was expected, and message. -/
theorem C73_json (h : MainRun parse fmt fs a .json trace stderr exit) :
    ∃ (last : List CliError) (lines : List Str), last.length ≤ 1 ∧ (exit = true → last = []) ∧
      stderr = (lines.map (· ++ ['\n'])).flatten ∧ (∀ l ∈ lines, '\n' ∉ l) ∧
      List.Forall₂ Reads lines ((((trace.flatMap fun (p : Nat × Ev) => entriesOf fmt.debug p.2) ++
        last.map fun e : CliError => (⟨e.category.getD .internal, e.source, none, none, some e.message⟩ : ErrorEntry)).filter
          (·.category ≠ .hidden)).map entryValue) := by
  obtain ⟨last, h1, h2, rfl⟩ := C41_main h
  refine ⟨last, _, h1, h2, json_lines _, ?_, ?_⟩
  · intro l hl
    obtain ⟨e, _, rfl⟩ := List.mem_map.mp hl
    exact no_break e
  · generalize (List.filter _ _ : List ErrorEntry) = es
    induction es with
    | nil => exact .nil
    | cons e es ih => exact .cons (entry_reads e) ih

/-- **C73.** The error of a source that was read is on a line of its own. -/
theorem C73_syntax {src s : Str} {es : List SyntaxError} (h : MainRun parse fmt fs a .json trace stderr exit) {i : Nat} {name : StreamName}
    (hr : (i, .read name (.ok src)) ∈ trace) (hc : convert parse src a.options.asConfig = .error (.syntax es s)) {e : SyntaxError} (he : e ∈ es) :
    ∃ (before : List Str) (line after : Str), stderr = (before.map (· ++ ['\n'])).flatten ++ line ++ '\n' :: after ∧ (∀ l ∈ before, '\n' ∉ l) ∧ '\n' ∉ line ∧
      Reads line (.obj ([("category".toList, .str "syntax".toList), ("sourceName".toList, sourceValue name),
        ("location".toList, .obj [("start".toList, .num e.range.start), ("end".toList, .num e.range.stop)])] ++
        (match e.kind with
          | .parseFailed expected => [("expected".toList, .arr (expected.map .str))]
          | _ => []) ++
        [("message".toList, .str (SyntaxError.displayWithSrc fmt.debug src e))])) := by
  have hrep := C42_reported h hr hc
  obtain ⟨last, -, -, rfl⟩ := C41_main h
  have : s = src := by
    rcases C08_error_cases parse src _ _ hc with ⟨pe, _, he⟩ | ⟨_, es', _, _, _, he⟩ | ⟨_, _, _, he⟩ <;> cases he <;> rfl
  subst this
  have hm : (⟨.syntax, some name, some (e.range.start, e.range.stop), expectedOf e.kind, some (SyntaxError.displayWithSrc fmt.debug s e)⟩ : ErrorEntry) ∈
      ((trace.flatMap fun (p : Nat × Ev) => entriesOf fmt.debug p.2) ++
        last.map fun e : CliError => (⟨e.category.getD .internal, e.source, none, none, some e.message⟩ : ErrorEntry)).filter
          (·.category ≠ .hidden) := by
    refine List.mem_filter.mpr ⟨List.mem_append_left _ (List.mem_flatMap.mpr ⟨_, hrep, List.mem_map.mpr ⟨e, he, rfl⟩⟩), by simp⟩
  rw [json_lines]
  obtain ⟨pre, post, hl⟩ := List.append_of_mem hm
  rw [hl]
  refine ⟨pre.map ErrorEntry.toJson, ErrorEntry.toJson ⟨.syntax, some name, some (e.range.start, e.range.stop), expectedOf e.kind,
    some (SyntaxError.displayWithSrc fmt.debug s e)⟩, linesText (post.map ErrorEntry.toJson), ?_, ?_, no_break _, ?_⟩
  · simp only [linesText, List.map_append, List.map_cons, List.flatten_append, List.flatten_cons, List.append_assoc, List.cons_append,
      List.nil_append]
  · intro l hl
    obtain ⟨e, _, rfl⟩ := List.mem_map.mp hl
    exact no_break e
  · have := entry_reads ⟨.syntax, some name, some (e.range.start, e.range.stop), expectedOf e.kind, some (SyntaxError.displayWithSrc fmt.debug s e)⟩
    obtain ⟨r, k⟩ := e
    cases k <;> exact this

/-- **C73.** A text is JSON for one value only. -/
theorem C73_unique {t : Str} {v v' : Value} (h : Reads t v) (h' : Reads t v') : v = v' := reads_unique h h'

theorem entryValue_inj {e e' : ErrorEntry} (h : entryValue e = entryValue e') : e = e' := by
  obtain ⟨cat, src, loc, ex, msg⟩ := e
  obtain ⟨cat', src', loc', ex', msg'⟩ := e'
  have strs : ∀ {l l' : List Str}, l.map Value.str = l'.map Value.str ↔ l = l' := by
    intro l l'
    exact ⟨fun h => List.map_injective_iff.mpr (fun a b h => Value.str.inj h) h, congrArg _⟩
  have srcs : ∀ {n n' : StreamName}, sourceValue n = sourceValue n' ↔ n = n' := by
    intro n n'
    refine ⟨fun h => ?_, congrArg _⟩
    cases n <;> cases n' <;> simp_all [sourceValue]
  have cats : ∀ (c c' : ErrorCategory), categoryName c = categoryName c' ↔ c = c' := by
    intro c c'
    cases c <;> cases c' <;> decide +kernel
  have n1 : "sourceName".toList ≠ "location".toList := by decide +kernel
  have n2 : "sourceName".toList ≠ "expected".toList := by decide +kernel
  have n3 : "sourceName".toList ≠ "message".toList := by decide +kernel
  have n4 : "location".toList ≠ "expected".toList := by decide +kernel
  have n5 : "location".toList ≠ "message".toList := by decide +kernel
  have n6 : "expected".toList ≠ "message".toList := by decide +kernel
  simp only [entryValue] at h
  generalize "sourceName".toList = a1 at h n1 n2 n3
  generalize "location".toList = a2 at h n1 n4 n5
  generalize "expected".toList = a3 at h n2 n4 n6
  generalize "message".toList = a4 at h n3 n5 n6
  generalize "category".toList = a5 at h
  generalize "start".toList = a6 at h
  generalize "end".toList = a7 at h
  have hm : ∀ {m m' : Option Str}, messageValue m = messageValue m' ↔ m = m' := by
    intro m m'
    cases m <;> cases m' <;> simp [messageValue]
  rcases src with _ | src <;> rcases src' with _ | src' <;> rcases loc with _ | ⟨p, q⟩ <;> rcases loc' with _ | ⟨p', q'⟩ <;>
    rcases ex with _ | ex <;> rcases ex' with _ | ex' <;>
    simp only [Option.map_none, Option.map_some, Option.toList_none, Option.toList_some, List.cons_append, List.nil_append, List.append_nil,
      Value.obj.injEq, List.cons.injEq, Prod.mk.injEq, true_and, and_true, Value.str.injEq, Value.num.injEq, Value.arr.injEq,
      List.nil_eq, reduceCtorEq, and_false, false_and, n1, n2, n3, n4, n5, n6, n1.symm, n2.symm, n3.symm, n4.symm, n5.symm, n6.symm, strs, srcs, cats, hm] at h
  all_goals first | exact h.elim | (obtain ⟨rfl, h⟩ := h; simp_all)

theorem lines_inj : ∀ {l l' : List Str}, (∀ t ∈ l, '\n' ∉ t) → (∀ t ∈ l', '\n' ∉ t) → linesText l = linesText l' → l = l'
  | [], [], _, _, _ => rfl
  | [], b :: l', _, _, h => by simp [linesText] at h
  | a :: l, [], _, _, h => by simp [linesText] at h
  | a :: l, b :: l', h, h', he => by
    have split : ∀ {a b r r' : Str}, '\n' ∉ a → '\n' ∉ b → a ++ '\n' :: r = b ++ '\n' :: r' → a = b ∧ r = r' := by
      intro a
      induction a with
      | nil =>
        intro b r r' _ hb he
        cases b with
        | nil => simpa using he
        | cons c b => simp at he; simp [← he.1] at hb
      | cons c a ih =>
        intro b r r' ha hb he
        cases b with
        | nil => simp at he; simp [he.1] at ha
        | cons d b =>
          simp only [List.cons_append, List.cons.injEq] at he
          obtain ⟨h1, h2⟩ := ih (fun h => ha (by simp [h])) (fun h => hb (by simp [h])) he.2
          exact ⟨by rw [he.1, h1], h2⟩
    have he' : a ++ '\n' :: linesText l = b ++ '\n' :: linesText l' := by simpa [linesText] using he
    obtain ⟨rfl, h2⟩ := split (h a (by simp)) (h' b (by simp)) he'
    rw [lines_inj (l := l) (l' := l') (fun t ht => h t (by simp [ht])) (fun t ht => h' t (by simp [ht])) h2]

/-- **C73.** Nothing is lost: from what is printed in JSON mode, the errors can be recovered. -/
theorem C73_recover {es es' : List ErrorEntry} (hh : ∀ e ∈ es, e.category ≠ .hidden) (hh' : ∀ e ∈ es', e.category ≠ .hidden)
    (h : (es.map (writeError fmt .json)).flatten = (es'.map (writeError fmt' .json)).flatten) : es = es' := by
  rw [json_lines, json_lines] at h
  rw [List.filter_eq_self.mpr (fun e he => by simpa using hh e he), List.filter_eq_self.mpr (fun e he => by simpa using hh' e he)] at h
  have nb : ∀ (l : List ErrorEntry), ∀ t ∈ l.map ErrorEntry.toJson, '\n' ∉ t := by
    intro l t ht
    obtain ⟨e, _, rfl⟩ := List.mem_map.mp ht
    exact no_break e
  have h := lines_inj (nb es) (nb es') h
  refine List.map_injective_iff.mpr (fun e e' he => ?_) h
  have h1 := entry_reads e
  have h2 := entry_reads e'
  rw [he] at h1
  exact entryValue_inj (reads_unique h1 h2)

/-! ## Cases -/

set_option maxRecDepth 20000 in
/-- The run of the examples of C37 in JSON mode. -/
theorem ExRun.mixedJson : MainRun ExRun.parse ExRun.fmt ExRun.fs ExRun.args .json ExRun.trace
    ("{\"category\":\"syntax\",\"sourceName\":{\"file\":\"b.mty\"},\"location\":{\"start\":3,\"end\":4},\"message\":\"Unclosed delimiter {\"}\n".toList ++
      "{\"category\":\"syntax\",\"sourceName\":{\"file\":\"b.mty\"},\"location\":{\"start\":8,\"end\":10},\"message\":\"Invalid escape sequence \\\\q.\"}\n".toList)
    false := by
  have h : MainRun parse fmt fs args .json trace
      (reporterRun fmt (.mode .json :: reported trace ++ finalEvents (.ok false))) false := by
    refine .ran (p := plan1) (resps := resps) (result := .ok false) (by decide +kernel) ⟨by decide +kernel, ?_, ?_⟩
    · have : ((plan1.tasks args.options).zip resps).zipIdx.map (localEvents parse args.options) =
          [trace.filter (·.1 = 0), trace.filter (·.1 = 1)] := by decide +kernel
      show Interleaving (((plan1.tasks args.options).zip resps).zipIdx.map (localEvents parse args.options)) trace
      rw [this]
      exact first (first (first (second (first (first (second (first (.nil (by decide +kernel)))))))))
    · have : ((plan1.tasks args.options).zip resps).map (fun p => p.2.map fun resp => (convertOne parse args.options p.1 resp).2) =
          [true, false].map fun b => some (.ok b) := by decide +kernel
      rw [this]
      exact .ok [true, false]
  refine Eq.subst (motive := fun x => MainRun parse fmt fs args .json trace x false) ?_ h
  decide +kernel

example : ∃ (before : List Str) (line after : Str),
    ("{\"category\":\"syntax\",\"sourceName\":{\"file\":\"b.mty\"},\"location\":{\"start\":3,\"end\":4},\"message\":\"Unclosed delimiter {\"}\n".toList ++
      "{\"category\":\"syntax\",\"sourceName\":{\"file\":\"b.mty\"},\"location\":{\"start\":8,\"end\":10},\"message\":\"Invalid escape sequence \\\\q.\"}\n".toList) =
      (before.map (· ++ ['\n'])).flatten ++ line ++ '\n' :: after ∧ (∀ l ∈ before, '\n' ∉ l) ∧ '\n' ∉ line ∧
      Reads line (.obj [("category".toList, .str "syntax".toList), ("sourceName".toList, .obj [("file".toList, .str "b.mty".toList)]),
        ("location".toList, .obj [("start".toList, .num 8), ("end".toList, .num 10)]),
        ("message".toList, .str "Invalid escape sequence \\q.".toList)]) := by
  obtain ⟨b, l, x, h1, h2, h3, h4⟩ := C73_syntax ExRun.mixedJson (i := 1) (name := .file "b.mty".toList) (src := Ex.src2) (by decide +kernel) (es := [⟨⟨3, 4⟩, .unclosed .block⟩, ⟨⟨8, 10⟩, .invalidEscape⟩])
    (s := Ex.src2) (by decide +kernel) (e := ⟨⟨8, 10⟩, .invalidEscape⟩) (by decide)
  have hm : SyntaxError.displayWithSrc ExRun.fmt.debug Ex.src2 ⟨⟨8, 10⟩, .invalidEscape⟩ = "Invalid escape sequence \\q.".toList := by decide +kernel
  rw [hm] at h4
  exact ⟨b, l, x, h1, h2, h3, h4⟩

/-- White space, escapes and a surrogate pair. -/
example : Reads "[ \"\\u00e9\\ud83d\\ude00/\\/\" , 10 ]".toList (.arr [.str "é😀//".toList, .num 10]) := by
  have b : Json.Blank [' '] := by unfold Json.Blank; decide
  have h0 : Hex '0' 0 := .inl (by decide)
  have hc : Chars "\\u00e9\\ud83d\\ude00/\\/".toList "é😀//".toList := by
    refine .unit (u := ['0', '0', 'e', '9']) (c := 'é') ?_ (.pair (u := ['d', '8', '3', 'd']) (v := ['d', 'e', '0', '0']) (h := 0xd83d) (l := 0xde00)
      ?_ ?_ (by decide) (by decide) (by decide) (by decide) (by decide) (.plain (by decide) (by decide) (by decide) (.short .slash .nil)))
    · exact Unit.mk (i := 0) (j := 0) (k := 14) (l := 9) h0 h0 (.inr (.inl (by decide))) (.inl (by decide))
    · exact Unit.mk (i := 13) (j := 8) (k := 3) (l := 13) (.inr (.inl (by decide))) (.inl (by decide)) (.inl (by decide)) (.inr (.inl (by decide)))
    · exact Unit.mk (i := 13) (j := 14) (k := 0) (l := 0) (.inr (.inl (by decide))) (.inr (.inl (by decide))) h0 h0
  exact .arr (.more (w := [' ']) (w' := [' ']) (r := " 10 ".toList) b (.str hc) b (.one (w := [' ']) (t := "10".toList) (w' := [' ']) b (.num (by unfold Number; decide)) b))

end Mty
