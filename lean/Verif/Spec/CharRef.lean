import Verif.Model.Str

/-!
# Character references in HTML/XML text (independent of the model of the code)

A small reader: `&name;` and `&#digits;` stand for one character, `&` is not allowed
otherwise, and some characters are not allowed to appear literally.
-/

namespace Mty.Spec

/-- Value of a string of decimal digits. -/
def decimal (ds : Str) : Option Nat :=
  if ds.isEmpty then none
  else ds.foldl (fun acc c => acc.bind fun n =>
    ("0123456789".toList.idxOf? c).map fun d => n * 10 + d) (some 0)

/-- The named character references, as far as needed: the five of XML, and in HTML also `&Tab;` and
`&NewLine;`. -/
def namedRef (xml : Bool) (name : Str) : Option Char :=
  if name = "amp".toList then some '&'
  else if name = "lt".toList then some '<'
  else if name = "gt".toList then some '>'
  else if name = "quot".toList then some '"'
  else if name = "apos".toList then some '\''
  else if name = "Tab".toList ∧ xml = false then some '\t'
  else if name = "NewLine".toList ∧ xml = false then some '\n'
  else none

/-- The character a reference denotes, given the characters between `&` and `;` and the meaning of
numbers. -/
def charRef (number : Nat → Option Char) (xml : Bool) (name : Str) : Option Char :=
  match name with
  | '#' :: ds => (decimal ds).bind number
  | _ => namedRef xml name

/-- A number in a reference denotes the character with that code point. -/
def codePoint (n : Nat) : Option Char := if n.isValidChar then some (Char.ofNat n) else none

/-- The table of the HTML standard for numeric references to 0x80-0x9F ("numeric character reference
end state"). -/
def htmlReplacements : List (Nat × Nat) :=
  [(0x80, 0x20AC), (0x82, 0x201A), (0x83, 0x0192), (0x84, 0x201E), (0x85, 0x2026), (0x86, 0x2020),
   (0x87, 0x2021), (0x88, 0x02C6), (0x89, 0x2030), (0x8A, 0x0160), (0x8B, 0x2039), (0x8C, 0x0152),
   (0x8E, 0x017D), (0x91, 0x2018), (0x92, 0x2019), (0x93, 0x201C), (0x94, 0x201D), (0x95, 0x2022),
   (0x96, 0x2013), (0x97, 0x2014), (0x98, 0x02DC), (0x99, 0x2122), (0x9A, 0x0161), (0x9B, 0x203A),
   (0x9C, 0x0153), (0x9E, 0x017E), (0x9F, 0x0178)]

/-- Numbers in references according to the HTML standard: U+FFFD for 0 and for numbers that are not
code points of characters, the table above for some of 0x80-0x9F, the code point otherwise. -/
def htmlNumber (n : Nat) : Option Char :=
  if n = 0 then some (Char.ofNat 0xFFFD)
  else match htmlReplacements.lookup n with
    | some m => codePoint m
    | none => if n.isValidChar then some (Char.ofNat n) else some (Char.ofNat 0xFFFD)

/-- The production `Char` of XML 1.0. -/
def XmlChar (n : Nat) : Bool :=
  n == 0x9 || n == 0xA || n == 0xD || (0x20 ≤ n && n ≤ 0xD7FF) || (0xE000 ≤ n && n ≤ 0xFFFD)
    || (0x10000 ≤ n && n ≤ 0x10FFFF)

/-- Numbers in references according to XML 1.0: only code points of `Char` are well-formed. -/
def xmlNumber (n : Nat) : Option Char := if XmlChar n then codePoint n else none

/-- Reads text, resolving character references with `ref`. `st = some acc` while inside a
reference whose characters so far are `acc`. `none` = not well-formed text. Characters for which
`literal` is false must not appear literally. -/
def readChars (ref : Str → Option Char) (literal : Char → Bool) : Option Str → Str → Option Str
  | none, [] => some []
  | some _, [] => none
  | none, c :: s =>
    if c = '&' then readChars ref literal (some []) s
    else if literal c = false then none
    else (readChars ref literal none s).map (c :: ·)
  | some acc, c :: s =>
    if c = ';' then (ref acc).bind fun ch => (readChars ref literal none s).map (ch :: ·)
    else readChars ref literal (some (acc ++ [c])) s

/-- No literal `<`, `>`; no literal carriage return (a parser would turn it into a line feed). -/
def literalText (c : Char) : Bool := c ≠ '<' && c ≠ '>' && c ≠ '\r'

/-- Between double quotes: no literal `<`, `>`, `"`, carriage return, and no literal tab or line feed
(an XML parser would turn them into spaces). -/
def literalQuoted (c : Char) : Bool := literalText c && c ≠ '"' && c ≠ '\t' && c ≠ '\n'

/-- Text content, numeric references denoting code points. -/
def readText (xml : Bool) (s : Str) : Option Str := readChars (charRef codePoint xml) literalText none s

/-- Text between double quotes, numeric references denoting code points. -/
def readQuoted (xml : Bool) (s : Str) : Option Str :=
  readChars (charRef codePoint xml) literalQuoted none s

/-- Text content as a parser following the HTML standard reads it. -/
def readHtmlText (s : Str) : Option Str :=
  readChars (charRef htmlNumber false) (fun c => literalText c && c.toNat != 0) none s

/-- Text between double quotes as a parser following the HTML standard reads it. -/
def readHtmlQuoted (s : Str) : Option Str :=
  readChars (charRef htmlNumber false) (fun c => literalQuoted c && c.toNat != 0) none s

/-- Text content as a parser following XML 1.0 reads it. -/
def readXmlText (s : Str) : Option Str :=
  readChars (charRef xmlNumber true) (fun c => literalText c && XmlChar c.toNat) none s

/-- Text between double quotes as a parser following XML 1.0 reads it. -/
def readXmlQuoted (s : Str) : Option Str :=
  readChars (charRef xmlNumber true) (fun c => literalQuoted c && XmlChar c.toNat) none s

/-- The characters that can be represented in HTML by a numeric reference or literally. -/
def HtmlRepresentable (c : Char) : Prop := c.toNat ≠ 0 ∧ ∀ p ∈ htmlReplacements, c.toNat ≠ p.1

/-- The characters that can be represented in XML 1.0. -/
def XmlRepresentable (c : Char) : Prop := XmlChar c.toNat = true

/-- A string that may stand between `<!--` and `-->` in both HTML and XML. -/
structure CommentBody (s : Str) : Prop where
  noDashes : ∀ a b, s ≠ a ++ '-' :: '-' :: b
  startGt : ∀ b, s ≠ '>' :: b
  startDashGt : ∀ b, s ≠ '-' :: '>' :: b
  endDash : ∀ a, s ≠ a ++ ['-']

/-- `InsertSpaces s out`: `out` is `s` with spaces inserted (deleting them gives back `s`). -/
inductive InsertSpaces : Str → Str → Prop
  | nil : InsertSpaces [] []
  | keep {c s o} : InsertSpaces s o → InsertSpaces (c :: s) (c :: o)
  | ins {s o} : InsertSpaces s o → InsertSpaces s (' ' :: o)

end Mty.Spec
