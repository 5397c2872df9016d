import Verif.Proofs.Escape
import Verif.Proofs.EscapeRanges
import Verif.Proofs.OutEscape
import Verif.Model.Output

/-!
# C01–C06: escaping

`writeEscape xml quote s` is what the code writes for text `s` that is not unescaped first,
`writeEscapeUnescape xml quote s` what it writes for text and attribute values whose backslash
escapes are resolved first; the Boolean component tells whether writing succeeded.
-/

set_option autoImplicit false

namespace Mty
open Spec

/-! ## C01 -/

/-- **C01.** In text position and in attribute position, HTML and XML: no `<`, `>` is written (and
no `"` in attribute position), and a reader that resolves character references recovers exactly
the original text. The reader rejects a `&` that does not start a reference. -/
theorem C01_escaped_text_inert (xml : Bool) (s : Str) :
    ∃ o, writeEscape xml false s = (o, true) ∧ '<' ∉ o ∧ '>' ∉ o ∧ readText xml o = some s :=
  ⟨_, rfl, fun h => (escWriteStr_safe _ _ _ _ h).1 rfl, fun h => (escWriteStr_safe _ _ _ _ h).2.1 rfl,
    readText_esc xml s⟩

theorem C01_escaped_quoted_inert (xml : Bool) (s : Str) :
    ∃ o, writeEscape xml true s = (o, true) ∧ '<' ∉ o ∧ '>' ∉ o ∧ '"' ∉ o ∧ readQuoted xml o = some s :=
  ⟨_, rfl, fun h => (escWriteStr_safe _ _ _ _ h).1 rfl, fun h => (escWriteStr_safe _ _ _ _ h).2.1 rfl,
    fun h => (escWriteStr_safe _ _ _ _ h).2.2 rfl rfl,
    readQuoted_esc xml s⟩

/-- Two different texts never produce the same output. -/
theorem C01_injective (xml quote : Bool) (s t : Str)
    (h : (writeEscape xml quote s).1 = (writeEscape xml quote t).1) : s = t := by
  cases quote
  · obtain ⟨o, h1, -, -, h2⟩ := C01_escaped_text_inert xml s
    obtain ⟨o', h1', -, -, h2'⟩ := C01_escaped_text_inert xml t
    rw [h1, h1'] at h
    simp only at h
    subst h
    exact Option.some.inj (h2.symm.trans h2')
  · obtain ⟨o, h1, -, -, -, h2⟩ := C01_escaped_quoted_inert xml s
    obtain ⟨o', h1', -, -, -, h2'⟩ := C01_escaped_quoted_inert xml t
    rw [h1, h1'] at h
    simp only at h
    subst h
    exact Option.some.inj (h2.symm.trans h2')

/-- Writing text whose backslash escapes have to be resolved: same statement for the resolved
text. -/
theorem C01_unescaped_text_inert (xml : Bool) (s t : Str) (h : Unescapes Accepted s t) :
    ∃ o, writeEscapeUnescape xml false s = (o, true) ∧ '<' ∉ o ∧ '>' ∉ o ∧ readText xml o = some t := by
  rw [writeEscapeUnescape_ok h]
  exact C01_escaped_text_inert xml t

example : writeEscape false false "a<b>&\"\t".toList = ("a&lt;b&gt;&amp;\"&Tab;".toList, true) := by
  decide
example : readText false "a&lt;b&gt;&amp;\"&Tab;".toList = some "a<b>&\"\t".toList := by decide
example : readText false "a&b".toList = none ∧ readText false "a<b".toList = none := by decide

example : readText true "a&Tab;".toList = none := by decide

/-! ## C48: what standard parsers make of it -/

/-- **C48, exact.** A parser following the HTML standard recovers the text written in HTML mode
exactly if all its characters are representable in HTML, in text and in attribute values. -/
theorem C48_html_exact_partial (s : Str) :
    (readHtmlText (writeEscape false false s).1 = some s ↔ ∀ c ∈ s, HtmlRepresentable c) ∧
    (readHtmlQuoted (writeEscape false true s).1 = some s ↔ ∀ c ∈ s, HtmlRepresentable c) :=
  ⟨readChars_esc_iff htmlNumber _ false false _ (fun _ => html_representable_of) (fun _ => html_number_iff)
    (fun _ h1 h2 h3 h4 h5 => html_literal_iff (quote := false) h1 h2 h3 h4 h5) s,
   readChars_esc_iff htmlNumber _ false true _ (fun _ => html_representable_of) (fun _ => html_number_iff)
    (fun _ h1 h2 h3 h4 h5 => html_literal_iff (quote := true) h1 h2 h3 h4 h5) s⟩

/-- **C48, exact.** The same for XML 1.0 parsers and XML mode. -/
theorem C48_xml_exact_partial (s : Str) :
    (readXmlText (writeEscape true false s).1 = some s ↔ ∀ c ∈ s, XmlRepresentable c) ∧
    (readXmlQuoted (writeEscape true true s).1 = some s ↔ ∀ c ∈ s, XmlRepresentable c) :=
  ⟨readChars_esc_iff xmlNumber _ true false _ (fun _ => xml_representable_of) (fun _ _ => xml_number_iff)
    (fun _ h1 h2 h3 h4 _ => xml_literal_iff (quote := false) h1 h2 h3 h4) s,
   readChars_esc_iff xmlNumber _ true true _ (fun _ => xml_representable_of) (fun _ _ => xml_number_iff)
    (fun _ h1 h2 h3 h4 _ => xml_literal_iff (quote := true) h1 h2 h3 h4) s⟩

/-- **C48 does not hold for all text**: U+0080 is written as `&#128;`, which HTML reads as the euro
sign, although U+0080 could have been written literally; NUL in XML makes the output not
well-formed. -/
theorem C48_not_all_text :
    readHtmlText (writeEscape false false [Char.ofNat 0x80]).1 = some ['€'] ∧
    readHtmlText [Char.ofNat 0x80] = some [Char.ofNat 0x80] ∧
    readXmlText (writeEscape true false [Char.ofNat 0]).1 = none := by
  refine ⟨by decide, by decide, by decide⟩

example : (∀ c ∈ "ä\t\r\n&é".toList, HtmlRepresentable c) ∧ (∀ c ∈ "ä\t\r\n&é".toList, XmlRepresentable c) := by
  constructor
  · unfold HtmlRepresentable; decide
  · unfold XmlRepresentable; decide

/-! ## C02 -/

/-- **C02.** An attribute value never contains `"`, `<` or `>` (even if writing fails half-way). -/
theorem C02_attribute_no_breakout (xml : Bool) (s : Str) :
    '"' ∉ (writeEscapeUnescape xml true s).1 ∧ '<' ∉ (writeEscapeUnescape xml true s).1 ∧
      '>' ∉ (writeEscapeUnescape xml true s).1 :=
  ⟨fun h => (writeParts_safe _ _ _ _ h).2.2 rfl rfl, fun h => (writeParts_safe _ _ _ _ h).1 rfl,
    fun h => (writeParts_safe _ _ _ _ h).2.1 rfl⟩

/-- **C02.** What is written between the quotes reads back as the source value with its escapes
resolved; writing succeeds exactly when the escapes can be resolved. -/
theorem C02_attribute_reads_back (xml : Bool) (s t : Str) :
    (writeEscapeUnescape xml true s).2 = true ∧
      readQuoted xml (writeEscapeUnescape xml true s).1 = some t ↔ Unescapes Accepted s t := by
  constructor
  · rintro ⟨h1, h2⟩
    obtain ⟨t', ht'⟩ := (writeEscapeUnescape_iff _ _ _).1 h1
    rw [writeEscapeUnescape_ok ht'] at h2
    have : readQuoted xml (escWriteStr xml true t') = some t' := readQuoted_esc xml t'
    rw [this] at h2
    cases h2
    exact ht'
  · intro h
    rw [writeEscapeUnescape_ok h]
    exact ⟨rfl, readQuoted_esc xml t⟩

example : Unescapes Accepted "x\\\"y\\n".toList "x\"y\n".toList :=
  .plain (by decide) (.esc (e := ['"']) (.inl (.self (by decide)))
    (.plain (by decide) (.esc (e := ['n']) (.inl .newline) .nil)))
example : writeEscapeUnescape true true "x\\\"y\\n".toList = ("x&quot;y&#10;".toList, true) := by
  decide

/-! ## C03 -/

/-- **C03.** Resolving the escapes of a slice yields `t` exactly when the grammar `Accepted` says
so; `Accepted` is the manual's table `EscSeq` plus the `+` spellings `PlusSeq`. -/
theorem C03_unescape_exact (s t : Str) :
    writeUnescape s = (t, true) ↔ Unescapes Accepted s t := by
  constructor
  · intro h
    obtain ⟨t', ht'⟩ := (writeUnescape_iff s).1 (by rw [h])
    rw [writeUnescape_ok ht'] at h
    cases h
    exact ht'
  · exact writeUnescape_ok

/-- **C03** (the manual's table is implemented). Every spelling in the manual's table is accepted
and means what the table says. -/
theorem C03_manual_accepted (s t : Str) (h : Unescapes EscSeq s t) :
    writeUnescape s = (t, true) :=
  writeUnescape_ok (h.mono fun _ _ => .inl)

/-- **C03, partial** ("nothing else is accepted"). For slices without a `+` the code accepts exactly
the manual's table. Missing: slices with a `+` inside a numeric escape (see
`C03_plus_accepted`). -/
theorem C03_manual_exact_partial (s t : Str) (hp : '+' ∉ s) :
    writeUnescape s = (t, true) ↔ Unescapes EscSeq s t :=
  ⟨fun h => ((C03_unescape_exact s t).1 h).noPlus hp, C03_manual_accepted s t⟩

/-- The statement "nothing else is accepted" is false: the code accepts `\x+7`, which is not in
the table. -/
theorem C03_plus_accepted :
    writeUnescape "\\x+7".toList = ([Char.ofNat 7], true) ∧
      ¬ ∃ t, Unescapes EscSeq "\\x+7".toList t := by
  refine ⟨by decide, ?_⟩
  rintro ⟨t, h⟩
  have key : ∀ e c s, "x+7".toList = e ++ s → ¬ EscSeq e c := by
    intro e c s he h
    cases h with
    | self hc => 
      simp at he hc; obtain ⟨rfl, -⟩ := he; revert hc; decide
    | @byte a b n hv hn hle =>
      simp at he
      obtain ⟨rfl, rfl, rfl⟩ := he
      have hn := (hexNum_iff _ _).1 hn
      rw [show hexAcc 0 ['+', '7'] = none from by decide] at hn
      simp at hn
    | _ => simp at he
  generalize hs : "\\x+7".toList = s at h
  cases h with
  | nil => simp at hs
  | plain hc _ => simp at hs; exact hc hs.1.symm
  | esc he _ => 
    simp at hs
    exact key _ _ _ (by simpa using hs) he

example : Unescapes EscSeq "a\\u{1F600}\\x41\\{".toList "a😀A{".toList := by
  rw [← C03_manual_exact_partial _ _ (by decide)]; decide
example : (writeUnescape "\\ ".toList).2 = false := by decide

/-! ## C04 -/

/-- **C04.** Every text has a spelling that consists of the characters `\ u { }` and hexadecimal
digits only, whose resolved value is that text. -/
theorem C04_any_text_can_be_escaped (t : Str) :
    ∃ s, (∀ c ∈ s, c ∈ "\\u{}0123456789abcdef".toList) ∧ Unescapes EscSeq s t ∧
      writeUnescape s = (t, true) ∧ escapeErrors s 0 = [] :=
  ⟨encode t, encode_chars t, encode_unescapes t, C03_manual_accepted _ _ (encode_unescapes t),
    (escapeErrors_nil_iff _ _).2 ⟨t, (encode_unescapes t).mono fun _ _ => .inl⟩⟩

example : encode "<\n".toList = "\\u{00003c}\\u{00000a}".toList := by decide

/-! ## C05 -/

/-- **C05.** The reported ranges are exactly the invalid escapes found by reading the slice from left
to right (`Scan`). -/
theorem C05_scan (s : Str) (off : Nat) : Scan Accepted off s (escapeErrors s off) :=
  escapeErrors_scan off s

/-- **C05.** Each reported range starts at a backslash of the slice after which no escape is
readable, covers at least that backslash and (if there is one) the next character, lies in the
slice and has character boundaries at both ends; the ranges are in order without overlap. -/
theorem C05_ranges (s : Str) (off : Nat) :
    (∀ r ∈ escapeErrors s off, ∃ pre e post, s = pre ++ '\\' :: e ++ post ∧
      r.start = off + byteLen pre ∧ r.stop = r.start + byteLen ('\\' :: e) ∧
      (e = [] → post = []) ∧ ∀ e₁ e₂ c, e ++ post = e₁ ++ e₂ → ¬ Accepted e₁ c) ∧
    (escapeErrors s off).Pairwise (fun a b => a.stop ≤ b.start) := by
  refine ⟨fun r hr => ?_, (Scan.ordered (C05_scan s off)).2⟩
  obtain ⟨pre, e, post, h1, rfl, h3, h4⟩ := Scan.mem (C05_scan s off) r hr
  exact ⟨pre, e, post, h1, rfl, by simp [byteLen, show ('\\' : Char).utf8Size = 1 from rfl]; omega,
    h3, h4⟩

/-- **C05.** No range is reported exactly when the slice can be resolved. -/
theorem C05_complete (s : Str) (off : Nat) :
    escapeErrors s off = [] ↔ ∃ t, Unescapes Accepted s t :=
  escapeErrors_nil_iff s off

example : escapeErrors "é\\q\\x9g\\".toList 10 = [⟨12, 14⟩, ⟨14, 18⟩, ⟨18, 19⟩] := by decide

/-! ## C06 -/

/-- **C06.** For every comment text, what is written is `<!--` body `-->` where the body is
acceptable to both HTML and XML and is the text with spaces inserted. -/
theorem C06_comment_valid (cx : OutCx) (s : TextSlice) (fs : Bool) :
    ∃ body, writeComment cx s fs = ⟨"<!--".toList ++ body ++ "-->".toList, false, true⟩ ∧
      CommentBody body ∧ InsertSpaces (s.asStr cx.src) body ∧
      (CommentBody (s.asStr cx.src) → body = s.asStr cx.src) :=
  ⟨writeCommentBody (s.asStr cx.src), by simp [writeComment, Act.seq, Act.write, Act.setFs],
    writeCommentBody_spec _, writeCommentBody_insert _, writeCommentBody_id⟩

/-- **C06.** The comment ends exactly at the written terminator: no earlier `-->`, nor `--`. -/
theorem C06_comment_ends (s : Str) (a b : Str)
    (h : writeCommentBody s ++ "-->".toList = a ++ '-' :: '-' :: b) : b = ['>'] := by
  have hb := writeCommentBody_spec s
  generalize writeCommentBody s = body at *
  rcases List.append_eq_append_iff.1 h with ⟨u, h1, h2⟩ | ⟨u, h1, h2⟩
  · cases u with
    | nil => simp at h2; exact h2.symm
    | cons x u =>
      cases u with
      | nil => simp at h2
      | cons y u =>
        have := congrArg List.length h2
        simp at this
        obtain ⟨rfl, rfl⟩ : u = [] ∧ b = [] := by
          cases u <;> cases b <;> simp_all <;> omega
        simp at h2
  · cases u with
    | nil => simp at h2; exact h2
    | cons x u =>
      cases u with
      | nil => simp at h2; exact absurd (by rw [h1, ← h2.1]) (hb.endDash a)
      | cons y u =>
        simp at h2
        obtain ⟨rfl, rfl, -⟩ := h2
        exact absurd h1 (hb.noDashes a u)

example : writeCommentBody "->a---b-".toList = " ->a- - -b- ".toList := by decide

end Mty
