import Verif.Spec.Escape
import Verif.Spec.Multiline
import Verif.Spec.Markup

/-!
# Plain text (independent of the code)

A document of words only: "Paragraphs are separated by one or more empty lines" (`/repo/README.md`), the
lines of a paragraph are joined, and characters with a meaning in the language are written as escapes.
-/

namespace Mty.Spec

/-- White space. -/
def White (c : Char) : Prop := c.toNat ∈ whiteSpace

/-- White space within a line. -/
def Blanks (s : Str) : Prop := ∀ c ∈ s, White c ∧ c ≠ '\n'

/-- `WordText s t`: the characters `s` of the source are (part of) a word and stand for `t`. -/
inductive WordText : Str → Str → Prop
  | nil : WordText [] []
  | plain {c s t} : ¬ White c → c ∉ ['\\', '[', ']', '{', '}', '<', '>'] → WordText s t → WordText (c :: s) (c :: t)
  | esc {e c s t} : EscSeq e c → WordText s t → WordText ('\\' :: e ++ s) (c :: t)

/-- `LineText s t`: one or more words with white space between them. -/
inductive LineText : Str → Str → Prop
  | word {s t} : WordText s t → s ≠ [] → LineText s t
  | more {s t sp s' t'} : WordText s t → s ≠ [] → Blanks sp → sp ≠ [] → LineText s' t' →
      LineText (s ++ sp ++ s') (t ++ sp ++ t')

/-- The text begins with the fence of a multiline block. -/
def BeginsWithFence (s : Str) : Prop := ∃ r, s = '"' :: '"' :: '"' :: r ∨ s = '\'' :: '\'' :: '\'' :: r ∨ s = '`' :: '`' :: '`' :: r

/-- `ParagraphText s t`: one or more lines. They are read as one text in which a blank stands for the end of
a line and the white space around it. -/
inductive ParagraphText : Str → Str → Prop
  | line {s t} : LineText s t → ¬ BeginsWithFence s → ParagraphText s t
  | more {s t a b s' t'} : LineText s t → ¬ BeginsWithFence s → Blanks a → Blanks b → ParagraphText s' t' →
      ParagraphText (s ++ a ++ '\n' :: b ++ s') (t ++ ' ' :: t')

/-- `ParagraphsText s ts`: one or more paragraphs with an empty line or more between them. -/
inductive ParagraphsText : Str → List Str → Prop
  | one {s t} : ParagraphText s t → ParagraphsText s [t]
  | more {s t sep s' ts} : ParagraphText s t → (∀ c ∈ sep, White c) → 2 ≤ sep.count '\n' → ParagraphsText s' ts →
      ParagraphsText (s ++ sep ++ s') (t :: ts)

/-- `PlainText s ts`: `s` is a document with the paragraphs `ts`, possibly with white space around. -/
inductive PlainText : Str → List Str → Prop
  | mk {a s b ts} : (∀ c ∈ a, White c) → ParagraphsText s ts → (∀ c ∈ b, White c) → PlainText (a ++ s ++ b) ts

/-- The markup for paragraphs: one `p` element for each, with a blank between them. -/
def paragraphTokens : List Str → List Token
  | [] => []
  | [t] => .start "p".toList [] false :: t.map .char ++ [.stop "p".toList]
  | t :: ts => .start "p".toList [] false :: t.map .char ++ .stop "p".toList :: .char ' ' :: paragraphTokens ts

/-- What a test for letters and digits must satisfy: white space and the characters with a meaning in words are
neither. (`char::is_alphanumeric` of the Rust standard library does.) -/
def LettersAndDigits (alnum : Char → Bool) : Prop :=
  ∀ c, alnum c = true → ¬ White c ∧ c ∉ ['\\', '[', ']', '{', '}', '<', '>']

end Mty.Spec
