import Verif.Model.Multiline

/-!
# Tokens (`/repo/mintyml/src/ast/tokens.rs`, `text.rs`, `selectors.rs`, `elements.rs`)

The string patterns of `gramma::define_string_pattern!` and `gramma::define_token!`. A pattern is a
function of the text before the position and the text after it; it yields the matched text and the
remaining text. The combinators are read as their names say: sequences (`+`) and ordered choices
(`|`); `repeat(..).simple()` takes as many repetitions as there are and does not give any back;
`repeat(..).lazy()` takes as few as possible.
-/

namespace Mty

/-- A pattern of `gramma` (external crate, used in `/repo/mintyml/src/ast/tokens.rs:1-63`). -/
abbrev Pat := Str → Str → Option (Str × Str)

namespace Pat

/-- `char(..)`, `!char(..)`, `whitespace()`: one character
(used e.g. in `/repo/mintyml/src/ast/tokens.rs:7,11`). -/
def chr (p : Char → Bool) : Pat
  | _, c :: r => if p c then some ([c], r) else none
  | _, [] => none

/-- `exactly(..)` (used e.g. in `/repo/mintyml/src/ast/tokens.rs:3,16`). -/
def exact (s : Str) : Pat := fun _ r => if s.isPrefixOf r then some (s, r.drop s.length) else none

/-- `+` (used e.g. in `/repo/mintyml/src/ast/tokens.rs:3`). -/
def seq (p q : Pat) : Pat := fun b r =>
  match p b r with
  | none => none
  | some (m, r1) =>
    match q (b ++ m) r1 with
    | none => none
    | some (m', r2) => some (m ++ m', r2)

/-- `|` (used e.g. in `/repo/mintyml/src/ast/tokens.rs:7`). -/
def alt (p q : Pat) : Pat := fun b r =>
  match p b r with
  | some x => some x
  | none => q b r

/-- The repetitions of `manyS`; the first argument bounds their number by the length of the input
(`/repo/mintyml/src/ast/tokens.rs:3`). -/
def manyLoop (p : Pat) : Nat → Str → Str → Str × Str
  | 0, _, r => ([], r)
  | n + 1, b, r =>
    match p b r with
    | some (c :: m, r1) =>
      let (m', r2) := manyLoop p n (b ++ (c :: m)) r1
      (c :: m ++ m', r2)
    | _ => ([], r)

/-- `repeat(.., p).simple()` (used e.g. in `/repo/mintyml/src/ast/tokens.rs:3,43`). -/
def many (p : Pat) : Pat := fun b r => some (manyLoop p r.length b r)

/-- `repeat(1.., p).simple()` (used e.g. in `/repo/mintyml/src/ast/tokens.rs:11`). -/
def many1 (p : Pat) : Pat := seq p (many p)

/-- `char(..).repeat(..).lazy()` followed by `q` (used e.g. in `/repo/mintyml/src/ast/text.rs:24-30`). -/
def lazyThen (q : Pat) : Pat
  | b, [] => q b []
  | b, c :: r =>
    match q b (c :: r) with
    | some x => some x
    | none =>
      match lazyThen q (b ++ [c]) r with
      | none => none
      | some (m, r') => some (c :: m, r')

/-- `precedes(..)` (used in `/repo/mintyml/src/ast/text.rs:75`, `selectors.rs:49`). -/
def precedes (p : Pat) : Pat := fun b r => if (p b r).isSome then some ([], r) else none

/-- `!precedes(..)` (used e.g. in `/repo/mintyml/src/ast/text.rs:12,17`). -/
def notPrecedes (p : Pat) : Pat := fun b r => if (p b r).isSome then none else some ([], r)

/-- `!follows(char(..))` (used in `/repo/mintyml/src/ast/text.rs:21,25`). -/
def notFollows (p : Char → Bool) : Pat := fun b r =>
  match b.getLast? with
  | some c => if p c then none else some ([], r)
  | none => some ([], r)

/-- `line_end()` (used in `/repo/mintyml/src/ast/text.rs:69,84,99`): before a line feed or at the end. -/
def lineEnd : Pat := fun _ r =>
  match r with
  | [] => some ([], r)
  | c :: _ => if c = '\n' then some ([], r) else none

/-- `src_end()` (used in `/repo/mintyml/src/ast/text.rs:74,89,104`). -/
def srcEnd : Pat := fun _ r => if r = [] then some ([], r) else none

/-- `follows(line_start() + char("\t ").repeat(..).simple())` (`/repo/mintyml/src/ast/text.rs:76,91,106`):
only tabs and spaces since the beginning of the line. -/
def followsIndent : Pat := fun b r =>
  match b.reverse.dropWhile (fun c => c = '\t' || c = ' ') with
  | [] => some ([], r)
  | c :: _ => if c = '\n' then some ([], r) else none

end Pat

/-- `whitespace() & !char('\n')` (`/repo/mintyml/src/ast/tokens.rs:11,43,50`). -/
def isSpace (c : Char) : Bool := isWhitespace c && c ≠ '\n'

/-- `ascii_alphanumeric()` (used in `/repo/mintyml/src/ast/selectors.rs:9`). -/
def isAsciiAlnum (c : Char) : Bool :=
  ('a' ≤ c && c ≤ 'z') || ('A' ≤ c && c ≤ 'Z') || ('0' ≤ c && c ≤ '9')

namespace Lex
open Pat

/-- `unicode_escape` (`/repo/mintyml/src/ast/tokens.rs:2-4`). -/
def unicodeEscape : Pat :=
  seq (exact "\\u{".toList) (seq (many (chr fun c => !(c ∈ ['\n', '{', '}']))) (exact "}".toList))

/-- `escape` (`/repo/mintyml/src/ast/tokens.rs:6-8`). -/
def escape : Pat := alt unicodeEscape (seq (chr (· = '\\')) (chr fun _ => true))

/-- `space` (`/repo/mintyml/src/ast/tokens.rs:10-12`) and `Space` (50-51). -/
def space : Pat := many1 (chr isSpace)

/-- `NewLine` (`/repo/mintyml/src/ast/tokens.rs:43-48`). -/
def newLine : Pat := seq (many (chr isSpace)) (seq (chr (· = '\n')) (many (chr isSpace)))

/-- `QuotedString` (`/repo/mintyml/src/ast/tokens.rs:55-59`). -/
def quotedString : Pat :=
  alt (seq (chr (· = '"')) (seq (many (alt (chr fun c => !(c ∈ ['\\', '"'])) escape)) (chr (· = '"'))))
    (seq (chr (· = '\'')) (seq (many (alt (chr fun c => !(c ∈ ['\\', '\''])) escape)) (chr (· = '\''))))

/-- `AnyChars` (`/repo/mintyml/src/ast/tokens.rs:61-62`). -/
def anyChars : Pat := many1 (chr fun _ => true)

/-- The characters of words other than `<`, `>`, brackets, braces and backslashes
(`/repo/mintyml/src/ast/text.rs:12`, `selectors.rs:29`). -/
def plainChar (c : Char) : Bool :=
  !(c ∈ ['\\', '[', ']', '{', '}', '<', '>', ' ', '\n', '\r', '\t']) && !isWhitespace c

/-- `post_selector_chain` (`/repo/mintyml/src/ast/selectors.rs:35-39`). -/
def postSelectorChain : Pat :=
  alt
    (seq (many (chr fun c => c = ' ' || c = '\t'))
      (alt (chr (· = '>'))
        (seq (chr (· = '{')) (notPrecedes (chr fun c => !(isWhitespace c || c = '}'))))))
    (chr (· = '['))

variable (alnum : Char → Bool)

/-- `text_word` (`/repo/mintyml/src/ast/text.rs:9-18`). `alnum` is `char::is_alphanumeric`. -/
def textWord : Pat :=
  seq (many1 (alt (seq (chr plainChar) (notPrecedes (chr (· = '>')))) (alt (chr alnum) escape)))
    (notPrecedes postSelectorChain)

/-- `TextSegment` (`/repo/mintyml/src/ast/text.rs:35-39`). -/
def textSegment : Pat := seq (textWord alnum) (many (seq space (textWord alnum)))

/-- `interpolation` (`/repo/mintyml/src/ast/text.rs:20-31`) and `Interpolation` (113-114). -/
def interpolation : Pat :=
  alt
    (seq (notFollows fun c => c ∈ ['\\', '{'])
      (seq (exact "{{".toList)
        (seq (notPrecedes (chr (· = '{')))
          (lazyThen (seq (notFollows fun c => c ∈ ['\\', '}']) (seq (exact "}}".toList) (notPrecedes (chr (· = '}')))))))))
    (alt (seq (exact "{%".toList) (lazyThen (exact "%}".toList)))
      (alt (seq (exact "<%".toList) (lazyThen (exact "%>".toList)))
        (seq (exact "<?".toList) (lazyThen (exact "?>".toList)))))

/-- `VerbatimTail0`, `VerbatimTail1`, `VerbatimTail2` (`/repo/mintyml/src/ast/text.rs:53-66`). -/
def verbatimTail (hashes : Nat) : Pat :=
  seq (exact (List.replicate hashes '#' ++ "[".toList))
    (lazyThen (exact ("]".toList ++ List.replicate hashes '#' ++ "]>".toList)))

/-- The openings of multiline blocks (`/repo/mintyml/src/ast/text.rs:68-71,83-86,98-101`); `q` is the fence. -/
def multilineOpen (q : Str) : Pat :=
  seq (exact q) (seq (many (chr fun c => !(c ∈ ['\n', '`']))) lineEnd)

/-- The bodies of multiline blocks (`/repo/mintyml/src/ast/text.rs:72-79,87-94,102-109`). -/
def multilineBody (q : Str) : Pat :=
  seq (chr fun _ => true) (lazyThen (alt srcEnd (seq (precedes (exact q)) followsIndent)))

/-- The ends of multiline blocks (`/repo/mintyml/src/ast/text.rs:80-81,95-96,110-111`); `c` is the character of the fence. -/
def multilineClose (c : Char) : Pat := seq (exact [c, c, c]) (notPrecedes (chr (· = c)))

/-- `CommentText` (`/repo/mintyml/src/ast/text.rs:116-121`). -/
def commentText : Pat :=
  alt (chr fun c => !(c ∈ ['<', '!']))
    (alt (seq (chr (· = '<')) (notPrecedes (chr (· = '!'))))
      (seq (chr (· = '!')) (notPrecedes (chr (· = '>')))))

/-- `Vec<CommentPart>` (`/repo/mintyml/src/ast/text.rs:173-185`): comment text and nested comments, of which the
last one may lack its end. `depth` counts the nested comments that are open. A recursive rule in the code. -/
def commentParts : Nat → Str → Str × Str
  | _, [] => ([], [])
  | depth, '<' :: '!' :: r =>
    let (m, r') := commentParts (depth + 1) r
    ('<' :: '!' :: m, r')
  | 0, '!' :: '>' :: r => ([], '!' :: '>' :: r)
  | depth + 1, '!' :: '>' :: r =>
    let (m, r') := commentParts depth r
    ('!' :: '>' :: m, r')
  | depth, c :: r =>
    let (m, r') := commentParts depth r
    (c :: m, r')

/-- `InlineCode` (`/repo/mintyml/src/ast/elements.rs:33-36`). -/
def inlineCode : Pat := seq (exact "<`".toList) (lazyThen (exact "`>".toList))

/-- `identifier_char` (`/repo/mintyml/src/ast/selectors.rs:8-10`). -/
def identifierChar : Pat := alt (chr fun c => isAsciiAlnum c || c = '-' || c = ':') escape

/-- `element_name` (`/repo/mintyml/src/ast/selectors.rs:23-25`) and `ElementName` (43-44). -/
def elementName : Pat :=
  seq (notPrecedes (chr fun c => '0' ≤ c && c ≤ '9')) (many1 identifierChar)

/-- `class_name` (`/repo/mintyml/src/ast/selectors.rs:12-16`) and `ClassName` (45-46). -/
def className : Pat :=
  many1 (chr fun c => !(c ∈ "\\{}[]()<>`~!@#$%^&*+=,./?\"'|; \t\r\n".toList) && !isWhitespace c)

/-- `selector_chain` (`/repo/mintyml/src/ast/selectors.rs:26-34`) and `SelectorChain` (48-51). -/
def selectorChain : Pat :=
  seq (many1 (alt (seq (chr plainChar) (notPrecedes (chr (· = '>')))) (alt (chr fun c => alnum c || c = '*') escape)))
    (precedes postSelectorChain)

/-- `AttributeName` (`/repo/mintyml/src/ast/selectors.rs:53-56`). -/
def attributeName : Pat :=
  many1 (alt (chr fun c => !(c ∈ "=>'\"/[]\\".toList) && !isWhitespace c) escape)

/-- `UnquotedAttributeValue` (`/repo/mintyml/src/ast/selectors.rs:58-61`). -/
def unquotedValue : Pat :=
  many1 (alt (chr fun c => !(c ∈ "[]\\\"'".toList) && !isWhitespace c) escape)

/-- `Equals` with the white space around it (`/repo/mintyml/src/ast/selectors.rs:129-130`). -/
def assignment : Pat :=
  seq (many (chr isWhitespace)) (seq (chr (· = '=')) (many (chr isWhitespace)))

end Lex

end Mty
