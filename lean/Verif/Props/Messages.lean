import Verif.Props.Cli
import Verif.Props.Grammar
import Verif.Props.JsClass
import Verif.Props.RefParser
import Verif.Props.Parse
import Verif.Spec.Message

/-! # C71: what the messages of errors say

`Spec/Message.lean` says what the message of an error is: what was found and what was expected, or what is wrong with the text it
quotes. `PositionsOk` holds for every tree of the grammar (`C12_grammar_positions`). -/

set_option autoImplicit false

namespace Mty
open Cli Spec

variable (debug : Str → Str)

theorem joinDisplay_intercalate (sep : Str) : ∀ l : List Str, joinDisplay sep l = sep.intercalate l
  | [] => rfl
  | [s] => by simp [joinDisplay, List.intercalate]
  | s :: t :: r => by
    rw [joinDisplay, joinDisplay_intercalate sep (t :: r)]
    simp [List.intercalate, List.intersperse]

/-- How the text at a range of the source is shown. -/
theorem shown_sample {src : Str} {r : Range} (h : ValidRange src r) :
    Shown debug src r (if r.start ≥ byteLen src then "end-of-file".toList else debug (sampleOf src r)) := by
  obtain ⟨a, m, b, h1, h2, h3⟩ := h.split
  have hlen : byteLen src = byteLen a + byteLen m + byteLen b := by rw [h1, byteLen_append, byteLen_append]; omega
  have hr1 : r.start = byteLen a := by rw [h2]
  have hr2 : r.stop = byteLen a + byteLen m := by rw [h2]; exact byteLen_append a m
  split
  · rename_i hge
    refine .eof ?_
    cases r
    simp only at hr1 hr2 hge
    congr 1 <;> omega
  · rename_i hlt
    have : sampleOf src r = m := by rw [sampleOf, if_pos (by omega), h3]
    rw [this]
    refine .text a m b h1 h2 ?_
    intro hn
    obtain ⟨rfl, rfl⟩ := List.append_eq_nil_iff.mp hn
    simp only [byteLen] at hlen
    omega

theorem message_parse {src : Str} {r : Range} (h : ValidRange src r) (expected : List Str) :
    MessageOf debug src ⟨r, .parseFailed expected⟩ (SyntaxError.displayWithSrc debug src ⟨r, .parseFailed expected⟩) := by
  rw [SyntaxError.displayWithSrc]
  simp only [joinDisplay_intercalate]
  exact .parse r expected _ (shown_sample debug h)

theorem conjunction_one (s c : Str) : displayConjunctionList [s] c = s := by
  simp [displayConjunctionList, conjunctionLoop]

theorem message_complaint {src : Str} {e : SyntaxError} (h : ValidRange src e.range) {c : Complaint} (hc : Complains e.kind c) :
    MessageOf debug src e (SyntaxError.displayWithSrc debug src e) := by
  obtain ⟨r, k⟩ := e
  have key : SyntaxError.displayWithSrc debug src ⟨r, k⟩ =
      c.text (if r.start ≥ byteLen src then "end-of-file".toList else debug (sampleOf src r)) := by
    rw [SyntaxError.displayWithSrc]
    cases hc with
    | escape => rfl
    | unclosed d => rfl
    | invalid i => rfl
    | mustBeFollowed i o => exact congrArg (fun x => i.display ++ " must be followed by ".toList ++ x) (conjunction_one o.display _)
    | mustNotBeFollowed i o =>
      exact congrArg (fun x => i.display ++ " must not be followed by ".toList ++ x) (conjunction_one o.display _)
    | mustNotFollow i o => exact congrArg (fun x => i.display ++ " must not follow ".toList ++ x) (conjunction_one o.display _)
  rw [key]
  exact .complaint r k c _ (shown_sample debug h) hc

variable {parse : Parser} {src : Str} {cfg : OutputConfig} {es : List SyntaxError} {s : Str}

/-- What is known of every error of a conversion. -/
theorem convert_errors {ast : Ast.Document} (hp : parse src = .ok ast) (hr : PositionsOk src ast)
    (h : convert parse src cfg = .error (.syntax es s)) : s = src ∧ GE src es := by
  obtain ⟨doc, es', hl, _, h2⟩ := fromAst_good hr
  by_cases hn : es' = []
  · subst hn
    rw [convert_ok hp hl] at h
    split at h <;> cases h
  · obtain ⟨e1, _, hpre, _, h4⟩ := convert_bad hp hl hn cfg
    rw [h4] at h
    cases h
    exact ⟨rfl, fun x hx => h2 x (hpre.subset hx)⟩

/-- **C71.** For a source that is parsed, the message of every error is the one it should have: it says what is wrong and quotes the
text of the source at the position of the error. -/
theorem C71_messages {ast : Ast.Document} (hp : parse src = .ok ast) (hr : PositionsOk src ast)
    (h : convert parse src cfg = .error (.syntax es s)) {e : SyntaxError} (he : e ∈ es) :
    MessageOf debug src e (SyntaxError.displayWithSrc debug s e) := by
  obtain ⟨rfl, hg⟩ := convert_errors hp hr h
  obtain ⟨h1, ⟨c, hc⟩, -, -⟩ := hg e he
  exact message_complaint debug h1 hc

/-- **C71.** For a source that cannot be parsed there is one error, which says what was found and all that was expected. -/
theorem C71_parse_failed {a actual b : Str} {expected : List Str} (hs : src = a ++ (actual ++ b))
    (hp : parse src = .error ⟨byteLen a, actual, expected⟩) (h : convert parse src cfg = .error (.syntax es s)) :
    ∃ e, es = [e] ∧ SyntaxError.displayWithSrc debug s e =
      "Unexpected ".toList ++ (if actual ++ b = [] then "end-of-file".toList else debug actual) ++ ". Expected ".toList ++
        " | ".toList.intercalate expected := by
  rw [convert_parse_error hp] at h
  cases h
  refine ⟨_, rfl, ?_⟩
  have hlen : byteLen src = byteLen a + byteLen actual + byteLen b := by rw [hs, byteLen_append, byteLen_append]; omega
  have hv : ValidRange src ⟨byteLen a, byteLen a + byteLen actual⟩ :=
    ⟨by simp, ⟨a, _, hs, rfl⟩, ⟨a ++ actual, b, by simp [hs], byteLen_append a actual⟩⟩
  have hslice : Range.slice ⟨byteLen a, byteLen a + byteLen actual⟩ src = actual := by
    have h2 := takeBytes_append (a ++ actual) b
    rw [byteLen_append] at h2
    subst hs
    have := dropBytes_append a (actual ++ b)
    simp only [Range.slice, this, Nat.add_sub_cancel_left, takeBytes_append]
  have hz : ∀ x : Str, byteLen x = 0 → x = []
    | [], _ => rfl
    | c :: x, hx => by have := Char.utf8Size_pos c; simp only [byteLen] at hx; omega
  have hq : (if byteLen a ≥ byteLen src then "end-of-file".toList else debug (sampleOf src ⟨byteLen a, byteLen a + byteLen actual⟩)) =
      if actual ++ b = [] then "end-of-file".toList else debug actual := by
    by_cases hn : actual ++ b = []
    · obtain ⟨rfl, rfl⟩ := List.append_eq_nil_iff.mp hn
      rw [if_pos (by simp only [byteLen] at hlen; omega), if_pos hn]
    · rw [if_neg hn, if_neg, sampleOf, if_pos (by simp only; omega), hslice]
      intro hge
      exact hn (by rw [hz actual (by omega), hz b (by omega)]; rfl)
  rw [SyntaxError.displayWithSrc]
  simp only [joinDisplay_intercalate, Build.ParseError.toSyntax]
  exact congrArg (fun q => "Unexpected ".toList ++ q ++ ". Expected ".toList ++ " | ".toList.intercalate expected) hq

/-- **C71, unclosed delimiters.** The message quotes the opening delimiter, which is one that opens what is left unclosed. -/
theorem C71_unclosed {ast : Ast.Document} (hp : parse src = .ok ast) (hr : PositionsOk src ast)
    (h : convert parse src cfg = .error (.syntax es s)) {r : Range} {d : UnclosedKind} (he : ⟨r, .unclosed d⟩ ∈ es) :
    ∃ t, Opens d t ∧ TokenAt src t r ∧
      SyntaxError.displayWithSrc debug s ⟨r, .unclosed d⟩ = "Unclosed delimiter ".toList ++ debug t := by
  obtain ⟨rfl, hg⟩ := convert_errors hp hr h
  obtain ⟨-, -, ho, -⟩ := hg _ he
  obtain ⟨t, h1, h2⟩ := ho d rfl
  refine ⟨t, h1, h2, ?_⟩
  obtain ⟨a, b, rfl, rfl⟩ := h2
  have hn : byteLen t ≠ 0 := by cases h1 <;> decide
  have hs : sampleOf (a ++ (t ++ b)) ⟨byteLen a, byteLen (a ++ t)⟩ = t := by
    rw [sampleOf, if_pos (by simp only [byteLen_append]; omega)]
    have := dropBytes_append a (t ++ b)
    rw [Range.slice, this, byteLen_append, Nat.add_sub_cancel_left, takeBytes_append]
  rw [SyntaxError.displayWithSrc]
  simp only [hs]
  rw [if_neg (by simp only [byteLen_append]; omega)]

/-- **C71, escapes.** The message quotes a sequence that begins with a backslash and is not an escape. -/
theorem C71_escape {ast : Ast.Document} (hp : parse src = .ok ast) (hr : PositionsOk src ast)
    (h : convert parse src cfg = .error (.syntax es s)) {r : Range} (he : ⟨r, .invalidEscape⟩ ∈ es) :
    ∃ f, TokenAt src ('\\' :: f) r ∧ (∀ f₁ f₂ c, f = f₁ ++ f₂ → ¬Accepted f₁ c) ∧
      SyntaxError.displayWithSrc debug s ⟨r, .invalidEscape⟩ = "Invalid escape sequence ".toList ++ debug ('\\' :: f) ++ ".".toList := by
  obtain ⟨rfl, hg⟩ := convert_errors hp hr h
  obtain ⟨-, -, -, ho⟩ := hg _ he
  obtain ⟨t, h1, h2⟩ := ho rfl
  refine ⟨t, h1, h2, ?_⟩
  obtain ⟨a, b, rfl, rfl⟩ := h1
  have hn : byteLen ('\\' :: t) ≠ 0 := by have := Char.utf8Size_pos '\\'; simp only [byteLen]; omega
  have hs : sampleOf (a ++ ('\\' :: t ++ b)) ⟨byteLen a, byteLen (a ++ '\\' :: t)⟩ = '\\' :: t := by
    rw [sampleOf, if_pos (by simp only [byteLen_append]; omega)]
    have := dropBytes_append a ('\\' :: t ++ b)
    rw [Range.slice, this, byteLen_append, Nat.add_sub_cancel_left, takeBytes_append]
  rw [SyntaxError.displayWithSrc]
  simp only [hs]
  rw [if_neg (by simp only [byteLen_append]; omega)]
  rfl

/-- **C71, all errors.** What is shown for the error of a conversion lists the messages of all its errors, in order. -/
theorem C71_display (h : convert parse src cfg = .error (.syntax es s)) :
    ConvertError.display debug (.syntax es s) = "; ".toList.intercalate (es.map (SyntaxError.displayWithSrc debug src)) := by
  have : s = src := by
    rcases C08_error_cases parse src _ _ h with ⟨pe, _, he⟩ | ⟨_, es', _, _, _, he⟩ | ⟨_, _, _, he⟩ <;> cases he <;> rfl
  rw [ConvertError.display, joinDisplay_intercalate, this]

theorem glue_file (se s e ca c a : Str) (h1 : se = s ++ e) (h2 : ca = c ++ a) (f x y m nl : Str) :
    s ++ e ++ (f ++ c) ++ (a ++ x ++ y ++ c) ++ m ++ nl = se ++ f ++ ca ++ (x ++ y) ++ c ++ m ++ nl := by
  subst h1 h2
  simp only [List.append_assoc]

theorem glue_stdin (se s e ca c a sc st : Str) (h1 : se = s ++ e) (h2 : ca = c ++ a) (h3 : sc = st ++ c) (x y m nl : Str) :
    s ++ e ++ sc ++ (a ++ x ++ y ++ c) ++ m ++ nl = se ++ st ++ ca ++ (x ++ y) ++ c ++ m ++ nl := by
  subst h1 h2 h3
  simp only [List.append_assoc]

theorem writeError_syntax (fmt : Fmt) (name : StreamName) (r : Range) (x : Option (List Str)) (m : Str) :
    writeError fmt .default ⟨.syntax, some name, some (r.start, r.stop), x, some m⟩ =
      "Syntax error: ".toList ++ sourceLabel name ++ ": at position ".toList ++ positionLabel r ++ ": ".toList ++ m ++ "\n".toList := by
  have h0 : writeError fmt .default ⟨.syntax, some name, some (r.start, r.stop), x, some m⟩ =
      "Syntax".toList ++ " error: ".toList ++ (match name with
        | .file s => s ++ ": ".toList
        | .stdio => "<stdin>: ".toList) ++
      ("at position ".toList ++ showNat r.start ++
        (if r.stop ≥ r.start + 1 then "..<".toList ++ showNat r.stop else []) ++ ": ".toList) ++ m ++ ['\n'] := by
    cases name <;> rfl
  refine h0.trans ?_
  rw [positionLabel]
  cases name with
  | file f => exact glue_file _ _ _ _ _ _ (by decide +kernel) (by decide +kernel) _ _ _ _ _
  | stdio => exact glue_stdin _ _ _ _ _ _ _ _ (by decide +kernel) (by decide +kernel) (by decide +kernel) _ _ _ _

/-- **C71, command line.** For every error of a source that was read, its message is printed as the end of a line that names the source
and the position. -/
theorem C71_printed {fmt : Fmt} {fs : Fs} {args : ConvertArgs} {trace : List (Nat × Ev)} {stderr : Str} {exit : Bool}
    (h : MainRun parse fmt fs args .default trace stderr exit) {i : Nat} {name : StreamName} (hr : (i, .read name (.ok src)) ∈ trace)
    (hc : convert parse src args.options.asConfig = .error (.syntax es s)) {e : SyntaxError} (he : e ∈ es) :
    ("Syntax error: ".toList ++ sourceLabel name ++ ": at position ".toList ++ positionLabel e.range ++ ": ".toList ++
      SyntaxError.displayWithSrc fmt.debug src e ++ "\n".toList) <:+: stderr := by
  have hrep := C42_reported h hr hc
  obtain ⟨last, -, -, rfl⟩ := C41_main h
  have : s = src := by
    rcases C08_error_cases parse src _ _ hc with ⟨pe, _, he⟩ | ⟨_, es', _, _, _, he⟩ | ⟨_, _, _, he⟩ <;> cases he <;> rfl
  subst this
  rw [← writeError_syntax]
  refine List.infix_of_mem_flatten (List.mem_map.mpr ⟨_, List.mem_append_left _ (List.mem_flatMap.mpr ⟨_, hrep, ?_⟩), rfl⟩)
  exact List.mem_map.mpr ⟨e, he, rfl⟩

/-- **C71, JavaScript.** The error that the promise is rejected with carries, for every error in order, its position and its message. -/
theorem C71_js (o : Js.Options) (ho : OptionsMean o cfg) (h : convert parse src cfg = .error (.syntax es s)) :
    ∃ text l, (Js.Converter.new o).convert parse debug src = .rejected (some (.mintyml text (some l))) ∧
      l.map (fun x => (x.1, x.2.1, x.2.2.1)) = es.map fun e => (e.range.start, e.range.stop, SyntaxError.displayWithSrc debug src e) := by
  have : s = src := by
    rcases C08_error_cases parse src _ _ h with ⟨pe, _, he⟩ | ⟨_, es', _, _, _, he⟩ | ⟨_, _, _, he⟩ <;> cases he <;> rfl
  subst this
  obtain ⟨p, hf⟩ := ((C07_convert_forgiving parse s cfg).2 _).mp h
  rw [classConvert_eq, (classConfig_iff o cfg).mpr ho]
  simp only [hf]
  refine ⟨_, _, rfl, ?_⟩
  simp

/-- **C71.** The specification leaves no choice: an error has at most one message. -/
theorem C71_unique {e : SyntaxError} {a b : Str} (ha : MessageOf debug src e a) (hb : MessageOf debug src e b) : a = b := by
  have shown : ∀ {r : Range} {p q : Str}, Shown debug src r p → Shown debug src r q → p = q := by
    intro r p q hp hq
    have zero : ∀ x : Str, byteLen x = 0 → x = []
      | [], _ => rfl
      | c :: x, hx => by have := Char.utf8Size_pos c; simp only [byteLen] at hx; omega
    have both : ∀ {x y z : Str}, src = x ++ (y ++ z) → (⟨byteLen src, byteLen src⟩ : Range) = ⟨byteLen x, byteLen (x ++ y)⟩ → y ++ z = [] := by
      intro x y z h1 h2
      have h3 : byteLen src = byteLen x := (Range.mk.injEq ..).mp h2 |>.1
      rw [h1, byteLen_append] at h3
      exact zero _ (by omega)
    cases hp with
    | eof hr =>
      cases hq with
      | eof => rfl
      | text x y z hs hr' hn => exact absurd (both hs (hr.symm.trans hr')) hn
    | text x y z hs hr hn =>
      cases hq with
      | eof hr' => exact absurd (both hs (hr'.symm.trans hr)) hn
      | text x' y' z' hs' hr' hn' =>
        have h2 := (Range.mk.injEq ..).mp (hr.symm.trans hr')
        obtain ⟨k, rfl, hk⟩ := append_split (hs.symm.trans hs') (by omega)
        have hk0 : k = [] := zero _ (by have := h2.1; rw [byteLen_append] at this; omega)
        subst hk0
        simp only [List.append_nil, List.nil_append] at h2 hk
        obtain ⟨k, rfl, hk'⟩ := append_split hk (by have := h2.2; simp only [byteLen_append] at this; omega)
        have hk0 : k = [] := zero _ (by have := h2.2; simp only [byteLen_append] at this; omega)
        subst hk0
        simp
  cases ha with
  | parse r x p hp =>
    cases hb with
    | parse _ _ q hq => rw [shown hp hq]
    | complaint _ _ c q hq hk => cases hk
  | complaint r k c p hp hk =>
    cases hb with
    | parse _ _ q hq => cases hk
    | complaint _ _ c' q hq hk' =>
      rw [shown hp hq]
      cases hk <;> cases hk' <;> rfl

/-! ## Cases -/

/-- How a string without special characters is shown. -/
def plainDebug (s : Str) : Str := '"' :: s ++ ['"']

/-- A source with an unclosed block, an escape that is none and two selectors one after the other. -/
def badSource : Str := "a> <(é \\q)>\np q {".toList

set_option maxRecDepth 20000 in
theorem bad_fails : convert RepoTests.parser badSource {} = .error (.syntax [⟨⟨8, 10⟩, .invalidEscape⟩, ⟨⟨17, 18⟩, .unclosed .block⟩,
    ⟨⟨15, 18⟩, .misplacedItem (.mustNotFollow [.text] .element)⟩] badSource) := by decide +kernel

/-- The source meets the hypotheses of `C71_messages`, `C71_unclosed`, `C71_escape`. -/
theorem bad_parsed : ∃ ast, RepoTests.parser badSource = .ok ast ∧ PositionsOk badSource ast := by
  cases h : RepoTests.parser badSource with
  | error pe =>
    have := bad_fails
    rw [convert_parse_error h] at this
    injection this with this
    injection this with this
    exact absurd (congrArg List.length this) (by simp)
  | ok ast =>
    refine ⟨ast, rfl, C12_grammar_positions Char.isAlphanum _ _ ?_⟩
    rw [RepoTests.parser] at h
    split at h
    · rename_i d hd
      cases h
      exact C56_sound _ _ _ hd
    · cases h

set_option maxRecDepth 20000 in
/-- C71: what is shown for it. -/
example : ConvertError.display plainDebug (.syntax [⟨⟨8, 10⟩, .invalidEscape⟩, ⟨⟨17, 18⟩, .unclosed .block⟩,
    ⟨⟨15, 18⟩, .misplacedItem (.mustNotFollow [.text] .element)⟩] badSource) =
    "Invalid escape sequence \"\\q\".; Unclosed delimiter \"{\"; element must not follow text".toList := by decide +kernel

/-- C71: the delimiter and the escape that are quoted. -/
example : (∃ t, Opens .block t ∧ TokenAt badSource t ⟨17, 18⟩) ∧ ∃ f, TokenAt badSource ('\\' :: f) ⟨8, 10⟩ := by
  obtain ⟨ast, h1, h2⟩ := bad_parsed
  obtain ⟨t, k1, k2, -⟩ := C71_unclosed plainDebug h1 h2 bad_fails (r := ⟨17, 18⟩) (d := .block) (by simp)
  obtain ⟨f, k3, -⟩ := C71_escape plainDebug h1 h2 bad_fails (r := ⟨8, 10⟩) (by simp)
  exact ⟨⟨t, k1, k2⟩, f, k3⟩

/-- C71: a source that is not parsed, at its end and before. -/
example (debug : Str → Str) : ∃ e, convert (fun _ => .error ⟨4, "}".toList, ["text".toList, "element".toList]⟩) "a b }".toList {} = .error (.syntax [e] "a b }".toList) ∧
    SyntaxError.displayWithSrc debug "a b }".toList e = "Unexpected ".toList ++ debug "}".toList ++ ". Expected text | element".toList := by
  refine ⟨_, rfl, ?_⟩
  obtain ⟨e, he, h⟩ := C71_parse_failed debug (parse := fun _ => .error ⟨byteLen "a b ".toList, "}".toList, ["text".toList, "element".toList]⟩)
    (src := "a b }".toList) (cfg := {}) (a := "a b ".toList) (b := []) (by decide +kernel) rfl rfl
  cases he
  have hE : ". Expected ".toList ++ " | ".toList.intercalate ["text".toList, "element".toList] = ". Expected text | element".toList := by
    decide +kernel
  rw [if_neg (by decide), List.append_assoc, hE] at h
  exact h

end Mty
