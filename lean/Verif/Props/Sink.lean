import Verif.Proofs.Sink
import Verif.Props.RefParser

/-!
# C75: writers that can fail

`convert_to` writes to any writer. Which calls it makes depends on the source and the configuration only.
-/

set_option autoImplicit false

namespace Mty
open Spec

/-- `convert_to` with any writer: there are calls, the same ones for every writer and every state of it, which together pass the
output; they are made in order up to the first one that fails. If none fails, the result is the one with a `String`. If one fails,
the result is an error: the errors in the source if there are any, otherwise "unknown". -/
theorem C75_writer (parse : Parser) (src : Str) (cfg : OutputConfig) :
    ∃ calls : List Call, callsText calls = (convertTo parse src cfg []).1 ∧
      ∀ (σ : Type) (o : Sink.Out σ) (st : σ),
        (Sink.convertTo o parse src cfg st).1 = (feed o st calls).1 ∧
        ((feed o st calls).2 = true → (Sink.convertTo o parse src cfg st).2 = (convertTo parse src cfg []).2) ∧
        ((feed o st calls).2 = false → (Sink.convertTo o parse src cfg st).2 =
          match (convertTo parse src cfg []).2 with
          | .ok () => .error .unknown
          | .error e => .error e) := by
  unfold convertTo convertToInternal Sink.convertTo Sink.convertToInternal
  rcases Build.parseDocument parse src (Errors.new cfg) with ⟨_ | doc, e⟩
  · exact ⟨[], rfl, fun σ o st => ⟨rfl, fun _ => rfl, fun h => by simp [feed] at h⟩⟩
  · simp only [Bool.or_true, if_true]
    obtain ⟨cs, ht, hc⟩ := Sink.like_output src (transformDocument doc src cfg) cfg
    rcases ho : outputHtmlTo src (transformDocument doc src cfg) cfg with ⟨out, ok⟩
    rw [ho] at ht hc
    have hu : (BM.unknownErr e).2.toConvertError src = match e.toConvertError src with
        | .ok () => .error .unknown
        | .error e => .error e := by
      obtain ⟨a, b, c, d⟩ := e
      unfold BM.unknownErr Errors.toConvertError
      cases a <;> cases b <;> cases c <;> cases d <;> rfl
    refine ⟨cs, ?_, fun σ o st => ?_⟩
    · cases ok <;> exact ht
    · have hc' := hc σ o st
      dsimp only at hc'
      rw [hc']
      cases hf : (feed o st cs).2 <;> cases ok
      · refine ⟨rfl, fun h => (by cases h), fun _ => ?_⟩
        simp only [Bool.false_and, Bool.false_eq_true, if_false, hu]
        cases e.toConvertError src <;> rfl
      · exact ⟨rfl, fun h => (by cases h), fun _ => by simpa using hu⟩
      · exact ⟨rfl, fun _ => rfl, fun h => (by cases h)⟩
      · exact ⟨rfl, fun _ => rfl, fun h => (by cases h)⟩

/-- The calls for `a> b & c` until one fails: a writer that refuses calls of `write_str` with `&amp;`, and counts calls. -/
def ExSink.picky : Sink.Out (Nat × Str) where
  str s st := if s = "&amp;".toList then ((st.1 + 1, st.2), false) else ((st.1 + 1, st.2 ++ s), true)
  char c st := ((st.1 + 1, st.2 ++ [c]), true)

set_option maxRecDepth 20000 in
example : convertTo RepoTests.parser "a> b & c".toList {} [] = ("<a>b &amp; c</a>".toList, .ok ()) ∧
    Sink.convertTo ExSink.picky RepoTests.parser "a> b & c".toList {} (0, []) = ((5, "<a>b ".toList), .error .unknown) ∧
    (Sink.convertTo ExSink.picky RepoTests.parser "a> b c".toList {} (0, [])).1.2 = "<a>b c</a>".toList := by
  decide +kernel

theorem feed_string : ∀ (l : List Call) (st : Str), feed Sink.string st l = (st ++ callsText l, true)
  | [], st => by simp [feed, callsText]
  | .str s :: l, st => by
    have := feed_string l (st ++ s)
    simpa [feed, Call.run, Sink.string, callsText, Call.text] using this
  | .char c :: l, st => by
    have := feed_string l (st ++ [c])
    simpa [feed, Call.run, Sink.string, callsText, Call.text] using this

/-- A `String` never fails: it receives the whole output, after what it held before. -/
theorem C75_string (parse : Parser) (src : Str) (cfg : OutputConfig) (buf : Str) :
    Sink.convertTo Sink.string parse src cfg buf = convertTo parse src cfg buf := by
  obtain ⟨calls, ht, h⟩ := C75_writer parse src cfg
  obtain ⟨h1, h2, -⟩ := h _ Sink.string buf
  rw [feed_string] at h1 h2
  refine Prod.ext ?_ ?_
  · rw [h1, ht]
    simp [convertTo]
  · rw [h2 rfl]
    simp [convertTo]

set_option maxRecDepth 20000 in
example : Sink.convertTo Sink.string RepoTests.parser "a> b & c".toList {} "x".toList =
    ("x<a>b &amp; c</a>".toList, .ok ()) := by decide +kernel

theorem feed_limited (n : Nat) : ∀ (l : List Call) (st : Str), st.length ≤ n →
    (∃ r, (feed (limited n) st l).1 ++ r = st ++ callsText l) ∧ (feed (limited n) st l).1.length ≤ n ∧
    ((feed (limited n) st l).2 = true ↔ (st ++ callsText l).length ≤ n) ∧
    ((feed (limited n) st l).2 = true → (feed (limited n) st l).1 = st ++ callsText l)
  | [], st, h => by simp [feed, callsText, h]
  | c :: l, st, h => by
    have hr : c.run (limited n) st = if (st ++ c.text).length ≤ n then (st ++ c.text, true) else (st, false) := by
      cases c <;> rfl
    have ht : st ++ callsText (c :: l) = (st ++ c.text) ++ callsText l := by simp [callsText]
    rw [feed, hr, ht]
    split
    · rename_i hl
      split at hl
      · rename_i hn
        cases hl
        exact feed_limited n l _ hn
      · cases hl
    · rename_i hl
      split at hl
      · cases hl
      · rename_i hn
        cases hl
        refine ⟨⟨c.text ++ callsText l, by simp⟩, h, ?_, by simp⟩
        simp only [Bool.false_eq_true, false_iff]
        rw [List.length_append]
        omega

/-- A buffer with room for `n` characters: it receives a prefix of the output, never more than `n` characters; all of it, with
the result of a `String`, if the output fits; otherwise the conversion is not successful. -/
theorem C75_limited (n : Nat) (parse : Parser) (src : Str) (cfg : OutputConfig) :
    (∃ rest, (Sink.convertTo (limited n) parse src cfg []).1 ++ rest = (convertTo parse src cfg []).1) ∧
    (Sink.convertTo (limited n) parse src cfg []).1.length ≤ n ∧
    ((convertTo parse src cfg []).1.length ≤ n → Sink.convertTo (limited n) parse src cfg [] = convertTo parse src cfg []) ∧
    (n < (convertTo parse src cfg []).1.length → ∃ e, (Sink.convertTo (limited n) parse src cfg []).2 = .error e) := by
  obtain ⟨calls, ht, h⟩ := C75_writer parse src cfg
  obtain ⟨h1, h2, h3⟩ := h _ (limited n) []
  obtain ⟨hp, hl, hi, hs⟩ := feed_limited n calls [] (Nat.zero_le _)
  rw [List.nil_append, ht] at hp hi hs
  refine ⟨by rw [h1]; exact hp, by rw [h1]; exact hl, fun hf => Prod.ext ?_ (h2 (hi.2 hf)), fun hf => ?_⟩
  · rw [h1, hs (hi.2 hf)]
  · have hfalse : (feed (limited n) [] calls).2 = false := by
      cases hb : (feed (limited n) [] calls).2
      · rfl
      · exact absurd (hi.1 hb) (by omega)
    rw [h3 hfalse]
    cases (convertTo parse src cfg []).2 with
    | ok u => exact ⟨_, rfl⟩
    | error e => exact ⟨_, rfl⟩

set_option maxRecDepth 20000 in
example : Sink.convertTo (limited 9) RepoTests.parser "a> b & c".toList {} [] = ("<a>b ".toList, .error .unknown) ∧
    Sink.convertTo (limited 16) RepoTests.parser "a> b & c".toList {} [] = ("<a>b &amp; c</a>".toList, .ok ()) ∧
    Sink.convertTo (limited 7) RepoTests.parser "a> b\n\n\\q & c".toList {} [] =
      ("<a>b</a".toList, .error (.syntax [⟨⟨6, 8⟩, .invalidEscape⟩] "a> b\n\n\\q & c".toList)) := by
  decide +kernel

end Mty
