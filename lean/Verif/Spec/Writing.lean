import Verif.Spec.PlainText
import Verif.Spec.Structure
import Verif.Spec.Transform
import Verif.Model.Ast

/-!
# Specification: how documents are written (independent of the code)

A part of the language, as the manual describes it, with what it stands for: text in lines and paragraphs, `selector> text`,
`selector { .. }`, `<(selector> text)>`, the short forms `</ .. />` and so on, code, verbatim text, texts and code of several lines between
fences, comments, and selectors with names, classes, ids and attributes. A document is a list of pieces: text, white space and elements
with their names. The rules of `BlocksSource` say which strings stand for which pieces; names that are not written follow from the tables
in `Spec/Infer.lean`.
-/

set_option autoImplicit false

namespace Mty.Spec

/-! ## What is written -/

/-- Part of a document. Elements have a name and ids, classes and attributes in the order written. -/
inductive Piece where
  | text (t : Str)
  | gap (w : Str)
  | comment (body : Str)
  | elem (name : Str) (parts : List Part) (content : List Piece)

/-- The attributes of a start tag: the first id, all classes in one attribute, then the attributes. Attributes without a value have an
empty one in XML. -/
def tagAttributes (xml : Bool) (parts : List Part) : List (Str × Option Str) :=
  ((parts.filterMap fun | .id v => some v | _ => none).take 1).map (fun v => ("id".toList, some v)) ++
    (match parts.filterMap fun | .cls v => some v | _ => none with
      | [] => []
      | c :: cs => [("class".toList, some (List.intercalate [' '] (c :: cs)))]) ++
    parts.filterMap fun
      | .attribute n v => some (n, if xml then some (v.getD []) else v)
      | _ => none

mutual
  /-- The markup for a piece. Empty elements are `<name/>` in XML; void elements have no end tag in HTML. -/
  def pieceTokens (xml : Bool) : Piece → List Token
    | .text t => t.map .char
    | .gap w => w.map .char
    | .comment b => [.comment b]
    | .elem name parts [] =>
      .start name (tagAttributes xml parts) xml :: (if xml || voidName xml name then [] else [.stop name])
    | .elem name parts (p :: ps) =>
      .start name (tagAttributes xml parts) false :: (pieceTokens xml p ++ piecesTokens xml ps ++ [.stop name])
  /-- The markup for pieces. -/
  def piecesTokens (xml : Bool) : List Piece → List Token
    | [] => []
    | p :: ps => pieceTokens xml p ++ piecesTokens xml ps
end

/-! ## Indentation -/

/-- White space in the markup. -/
def WhiteTokens (l : List Token) : Prop := ∃ w : Str, l = w.map .char ∧ ∀ c ∈ w, White c

/-- The same markup with other white space: white space that was there may look different, and there may be more directly after start
tags and directly before end tags. -/
inductive Respaced : List Token → List Token → Prop
  | nil : Respaced [] []
  | same {t a b} : Respaced a b → Respaced (t :: a) (t :: b)
  | space {w w' a b} : WhiteTokens w → w ≠ [] → WhiteTokens w' → w' ≠ [] → Respaced a b → Respaced (w ++ a) (w' ++ b)
  | afterStart {n l w a b} : WhiteTokens w → Respaced a b → Respaced (.start n l false :: a) (.start n l false :: w ++ b)
  | beforeStop {n w a b} : WhiteTokens w → Respaced a b → Respaced (.stop n :: a) (w ++ .stop n :: b)

/-! ## Selectors -/

/-- ASCII letters and digits. -/
def Ascii (c : Char) : Prop := ('a' ≤ c ∧ c ≤ 'z') ∨ ('A' ≤ c ∧ c ≤ 'Z') ∨ ('0' ≤ c ∧ c ≤ '9')

/-- A name: ASCII letters, digits and `-`, with a letter at the beginning and a letter or digit at the end. -/
def Word (s : Str) : Prop :=
  (∀ c ∈ s, Ascii c ∨ c = '-') ∧ (∃ c, s.head? = some c ∧ Ascii c ∧ ¬ ('0' ≤ c ∧ c ≤ '9')) ∧ ∃ c, s.getLast? = some c ∧ Ascii c

/-- Classes and ids after the name of an element. -/
inductive ClassesSource : Str → List Part → Prop
  | nil : ClassesSource [] []
  | cls {n s ps} : Word n → ClassesSource s ps → ClassesSource ('.' :: n ++ s) (.cls n :: ps)
  | id {n s ps} : Word n → ClassesSource s ps → ClassesSource ('#' :: n ++ s) (.id n :: ps)

/-- The characters between quotation marks and what they stand for. -/
inductive QuotedSource : Str → Str → Prop
  | nil : QuotedSource [] []
  | plain {c s t} : c ∉ ['\\', '"'] → QuotedSource s t → QuotedSource (c :: s) (c :: t)
  | esc {e c s t} : EscSeq e c → QuotedSource s t → QuotedSource ('\\' :: e ++ s) (c :: t)

/-- An attribute: `name`, `name=value` or `name="value"`. -/
inductive AttributeSource : Str → Part → Prop
  | bare {n} : Word n → AttributeSource n (.attribute n none)
  | unquoted {n v} : Word n → v ≠ [] → (∀ c ∈ v, ¬ White c ∧ c ∉ ['[', ']', '\\', '"', '\'']) →
      AttributeSource (n ++ '=' :: v) (.attribute n (some v))
  | quoted {n q v} : Word n → QuotedSource q v → AttributeSource (n ++ '=' :: '"' :: q ++ ['"']) (.attribute n (some v))

/-- Attributes with white space between them. -/
inductive AttributesSource : Str → List Part → Prop
  | one {s p} : AttributeSource s p → AttributesSource s [p]
  | more {s p w s' ps} : AttributeSource s p → w ≠ [] → (∀ c ∈ w, White c) → AttributesSource s' ps →
      AttributesSource (s ++ w ++ s') (p :: ps)

/-- Attributes in brackets, or nothing. -/
inductive BracketsSource : Str → List Part → Prop
  | none : BracketsSource [] []
  | some {a s b ps} : (∀ c ∈ a, White c) → AttributesSource s ps → (∀ c ∈ b, White c) →
      BracketsSource ('[' :: a ++ s ++ b ++ [']']) ps

/-- `SelectorSource s name parts`: a selector, such as `div.a#b[c="d"]`, with or without the name of an element. -/
inductive SelectorSource : Str → Option Str → List Part → Prop
  | named {n s ps b qs} : Word n → ClassesSource s ps → BracketsSource b qs → SelectorSource (n ++ s ++ b) (some n) (ps ++ qs)
  | star {s ps b qs} : ClassesSource s ps → BracketsSource b qs → SelectorSource ('*' :: s ++ b) none (ps ++ qs)
  | unnamed {s ps b qs} : s ++ b ≠ [] → ClassesSource s ps → BracketsSource b qs → SelectorSource (s ++ b) none (ps ++ qs)

/-! ## Places -/

/-- Where an element is: the context, and the names of the element around it and of the one around that. -/
structure Spot where
  context : Context
  parent : Option Str
  grand : Option Str

/-- The top of a document. -/
def Spot.top : Spot := ⟨.section, none, none⟩

/-- Inside an element written in this form. -/
def Spot.inside (p : Spot) (name : Option Str) (form : Option Form) : Spot := ⟨contextInside name form, name, p.parent⟩

/-- The name given to an element of this form, if it is the same wherever it is in its content. -/
def Given (p : Spot) (form : Option Form) (name : String) : Prop :=
  ∀ first last, nameIn p.context form first last (p.grand = some "thead".toList) = some name

/-- The name of an element: the one written, otherwise the one given by the tables. -/
def HasName (p : Spot) (form : Option Form) : Option Str → Str → Prop
  | some n, name => name = n
  | none, name => ∃ n : String, n ≠ "" ∧ Given p form n ∧ name = n.toList

/-- Elements that are neither lines nor blocks nor paragraphs get no name here. -/
def Nameless (p : Spot) : Prop := ∀ first last, nameIn p.context none first last (p.grand = some "thead".toList) = none

/-- Elements with content that is not text (`script`, `style`) are left out here, as is content of void elements. -/
def Holds (name : Str) (content : List Piece) : Prop :=
  name ≠ "script".toList ∧ name ≠ "style".toList ∧ (content ≠ [] → voidName false name = false)

/-! ## Contents -/

/-- White space between selector and `>` or `{`. -/
def Tabs (s : Str) : Prop := ∀ c ∈ s, c = ' ' ∨ c = '\t'

/-- White space within a line, kept in the output. -/
def gapPieces (w : Str) : List Piece := if w = [] then [] else [.gap w]

/-- The short forms with content. -/
def delimiters : Ast.SpecialForm → Str × Str × SpecialKind
  | .emphasis => ("</".toList, "/>".toList, .emphasis)
  | .strong => ("<#".toList, "#>".toList, .strong)
  | .underline => ("<_".toList, "_>".toList, .underline)
  | .strike => ("<~".toList, "~>".toList, .strike)
  | .quote => ("<\"".toList, "\">".toList, .quote)

/-- The forms of `selector> ..`, `selector { .. }` and `selector> { .. }`. -/
inductive ElementForm where
  | line | block | lineBlock
deriving DecidableEq

/-- As the tables call them. -/
def ElementForm.form : ElementForm → Form
  | .line => .line
  | .block => .block
  | .lineBlock => .line

/-- What an item of a line is. Verbatim text counts as an element: it has delimiters. -/
inductive ItemKind where
  | text | element | comment
deriving DecidableEq

/-- Is something shown in a line that begins with this item and goes on with another or nothing? Comments are not shown. -/
def ItemKind.shows : ItemKind → Bool → Bool
  | .comment, rest => rest
  | _, _ => true

/-- What a block of a content is. -/
inductive BlockKind where
  | paragraph | line | block | comment
deriving DecidableEq

/-- How many line feeds are needed between two blocks: a paragraph or comment after a paragraph or after `selector> ..` needs an empty
line. -/
def lineFeeds : BlockKind → BlockKind → Nat
  | .paragraph, .paragraph => 2
  | .paragraph, .comment => 2
  | .line, .paragraph => 2
  | .line, .comment => 2
  | _, _ => 1

/-- What is between two blocks: a blank, but if nothing is shown before (`shown`), then only for empty lines. -/
def between (shown : Bool) (feeds : Nat) : List Piece := if shown = true ∨ 2 ≤ feeds then [.gap [' ']] else []

/-- The text of a comment: comments within are complete. -/
inductive CommentSource : Str → Prop
  | nil : CommentSource []
  | char {c s} : ¬ (c = '<' ∧ (s = [] ∨ s.head? = some '!')) → ¬ (c = '!' ∧ s.head? = some '>') → CommentSource s → CommentSource (c :: s)
  | nested {a s} : CommentSource a → CommentSource s → CommentSource ("<!".toList ++ a ++ "!>".toList ++ s)

/-- The delimiters of verbatim text, with up to two `#`. -/
def verbatimDelimiters (n : Nat) : Str × Str :=
  ("<[".toList ++ List.replicate n '#' ++ "[".toList, "]".toList ++ List.replicate n '#' ++ "]>".toList)

/-- A line that does not begin with a fence of three characters `q`. -/
def FreeLine (q : Char) (l : Str) : Prop := '\n' ∉ l ∧ ∀ w x, Tabs w → l ≠ w ++ q :: q :: q :: x

/-- `FencedSource q s body`: lines between fences. The indentation of the closing fence is removed from each line that has it. What
follows the opening fence in its line is not shown. -/
inductive FencedSource (q : Char) : Str → Str → Prop
  | mk {info indent : Str} {lines : List Str} {l l₁ l₂ : Str} {lines' : List Str} : (∀ c ∈ info, c ≠ '\n' ∧ c ≠ '`') → Tabs indent →
      (∀ x ∈ lines ++ [l], FreeLine q x) → DropCr l l₁ → Dedent indent l₁ l₂ → List.Forall₂ (Dedent indent) lines lines' →
      joinLines (lines' ++ [l₂]) ≠ [] →
      FencedSource q (q :: q :: q :: info ++ '\n' :: joinLines (lines ++ [l]) ++ '\n' :: indent ++ [q, q, q]) (joinLines (lines' ++ [l₂]))

/-- A text between fences: as it is, or with escape sequences. -/
inductive FencedText : Str → Str → Prop
  | verbatim {s b} : FencedSource '\'' s b → b.getLast? ≠ some ' ' → b.getLast? ≠ some '\t' → FencedText s b
  | escaped {s b t} : FencedSource '"' s b → Unescapes EscSeq b t → b.getLast? ≠ some ' ' → b.getLast? ≠ some '\t' → FencedText s t

/-- A fence of quotation marks at the end. -/
def EndsFenced (s : Str) : Prop := ∃ a w, Tabs w ∧ s = a ++ '\n' :: w ++ "\"\"\"".toList

/-- The names of the short forms. `codeBlocks`: is the name of the container of code blocks used? -/
structure Names where
  tag : SpecialKind → Str
  codeBlocks : Prop

/-- The configured names. The name of the container of code blocks is not used; that of emphasis is used instead (see C23). So documents
with code blocks are left out unless both are the same, as they are if nothing is configured. -/
def namesOf (c : SpecialTagConfig) : Names := ⟨configuredTag c, c.emphasis = c.codeBlockContainer⟩

mutual
  /-- `ItemSource p k s m`: a text, an inline element or a comment at the place `p`. -/
  inductive ItemSource (names : Names) : Spot → ItemKind → Str → List Piece → Prop
    /-- Words. (The second condition also excludes a text `""` before `">`.) -/
    | text {p s t} : LineText s t → ¬ BeginsWithFence (s ++ ['"']) → ItemSource names p .text s [.text t]
    /-- `<(selector> ..)>` -/
    | element {p f a s b m} : f ≠ .block → (∀ c ∈ a, White c) → ElementSource names p f s m → (∀ c ∈ b, White c) →
        ItemSource names p .element ("<(".toList ++ a ++ s ++ b ++ ")>".toList) m
    /-- `<(..)>` -/
    | span {p a v s b m name} : (∀ c ∈ a, White c) → HasName p (some .line) none name →
        RowSource names (p.inside (some name) (some .line)) true v s m → Holds name m → (∀ c ∈ b, White c) →
        ItemSource names p .element ("<(".toList ++ a ++ s ++ b ++ ")>".toList) [.elem name [] m]
    /-- `</ .. />` and so on. (After a fence there is white space before `">`.) -/
    | special {p f g a s b m} : (∀ c ∈ a, White c) → LinesSource names (p.inside (some (names.tag (delimiters f).2.2)) none) g true s m →
        Holds (names.tag (delimiters f).2.2) m → (∀ c ∈ b, White c) → (f = .quote → b = [] → ¬ EndsFenced s) →
        ItemSource names p .element ((delimiters f).1 ++ a ++ s ++ b ++ (delimiters f).2.1) [.elem (names.tag (delimiters f).2.2) [] m]
    /-- `` <`code`> `` -/
    | code {p s} : s ≠ [] → (∀ a b, s ≠ a ++ '`' :: '>' :: b) → Holds (names.tag .code) [.text s] →
        ItemSource names p .element ("<`".toList ++ s ++ "`>".toList) [.elem (names.tag .code) [] [.text s]]
    /-- `<[[text]]>`, `<[#[text]#]>` or `<[##[text]##]>`: the text as it is. -/
    | verbatim {p n s} : n ≤ 2 → s ≠ [] → s.getLast? ≠ some ' ' → s.getLast? ≠ some '\t' →
        (∀ a b, s ≠ a ++ (verbatimDelimiters n).2 ++ b) →
        ItemSource names p .element ((verbatimDelimiters n).1 ++ s ++ (verbatimDelimiters n).2) [.text s]
    /-- `<! comment !>`, if the markup can express it. -/
    | comment {p s} : CommentSource s → CommentBody s → ItemSource names p .comment ("<!".toList ++ s ++ "!>".toList) [.comment s]
  /-- `InlineSource p k shown s m`: the content of a line, which begins with an item of the kind `k`; `shown`: it does not consist of
  comments alone. -/
  inductive InlineSource (names : Names) : Spot → ItemKind → Bool → Str → List Piece → Prop
    | one {p k s m} : ItemSource names p k s m → InlineSource names p k (k.shows false) s m
    | more {p k k' v s w s' m m'} : ItemSource names p k s m → InlineSource names p k' v s' m' → ¬ (k = .text ∧ k' = .text) → Blanks w → '\r' ∉ w →
        InlineSource names p k (k.shows v) (s ++ w ++ s') (m ++ gapPieces w ++ m')
  /-- `RowSource p flat shown s m`: a line, or the lines from a fence to the next one; `flat`: no code block. -/
  inductive RowSource (names : Names) : Spot → Bool → Bool → Str → List Piece → Prop
    | inline {p k v s m} : InlineSource names p k v s m → RowSource names p true v s m
    | text {p s t} : Nameless p → FencedText s t → RowSource names p true true s [.text t]
    /-- Code between fences of back quotes. -/
    | code {p s b} : names.codeBlocks → FencedSource '`' s b → Holds (names.tag .codeBlockContainer) [.text b] →
        Holds (names.tag .code) [.text b] →
        RowSource names p false true s [.elem (names.tag .codeBlockContainer) [] [.elem (names.tag .code) [] [.text b]]]
  /-- `LinesSource p flat shown s m`: lines, which are joined by blanks; `shown`: the first one does not consist of comments alone. -/
  inductive LinesSource (names : Names) : Spot → Bool → Bool → Str → List Piece → Prop
    | one {p f v s m} : RowSource names p f v s m → LinesSource names p f v s m
    | more {p f f' v v' s m a b s' m'} : RowSource names p f v s m → Blanks a → Blanks b → LinesSource names p f' v' s' m' →
        LinesSource names p (f && f') v (s ++ a ++ '\n' :: b ++ s') (m ++ .gap [' '] :: m')
  /-- An element with selectors and `>` or `{ .. }`. -/
  inductive ElementSource (names : Names) : Spot → ElementForm → Str → List Piece → Prop
    /-- `selector> ..` -/
    | line {p h n ps name a b f v s m} : SelectorSource h n ps → HasName p (some .line) n name → Tabs a → Blanks b →
        RowSource names (p.inside (some name) (some .line)) f v s m → Holds name m →
        ElementSource names p .line (h ++ a ++ '>' :: b ++ s) [.elem name ps m]
    /-- `selector>` -/
    | empty {p h n ps name a} : SelectorSource h n ps → HasName p (some .line) n name → Tabs a → Holds name [] →
        ElementSource names p .line (h ++ a ++ ['>']) [.elem name ps []]
    /-- `> ..` -/
    | bare {p name b f v s m} : HasName p (some .line) none name → Blanks b →
        RowSource names (p.inside (some name) (some .line)) f v s m → Holds name m →
        ElementSource names p .line ('>' :: b ++ s) [.elem name [] m]
    /-- `selector { .. }` -/
    | block {p h n ps name a b k s c m} : SelectorSource h n ps → HasName p (some .block) n name → Tabs a → b ≠ [] → (∀ c ∈ b, White c) →
        BlocksSource names (p.inside (some name) (some .block)) false k s m → (∀ x ∈ c, White x) → Holds name m →
        ElementSource names p .block (h ++ a ++ '{' :: b ++ s ++ c ++ ['}']) [.elem name ps m]
    /-- `selector> { .. }` -/
    | lineBlock {p h n ps name a b c f s d m} : SelectorSource h n ps → HasName p (some .line) n name → Tabs a → Blanks b → c ≠ [] →
        (∀ x ∈ c, White x) → LinesSource names (p.inside (some name) (some .line)) f true s m → (∀ x ∈ d, White x) → Holds name m →
        ElementSource names p .lineBlock (h ++ a ++ '>' :: b ++ '{' :: c ++ s ++ d ++ ['}']) [.elem name ps m]
    /-- `selector> selector> ..` and `selector> selector { .. }` -/
    | chain {p f h n ps name a b s m} : SelectorSource h n ps → HasName p (some f.form) n name → Tabs a → Blanks b →
        ElementSource names (p.inside (some name) (some f.form)) f s m → Holds name m →
        ElementSource names p f (h ++ a ++ '>' :: b ++ s) [.elem name ps m]
  /-- Paragraphs and elements. -/
  inductive BlockSource (names : Names) : Spot → BlockKind → Str → List Piece → Prop
    | paragraph {p s m name} : HasName p (some .paragraph) none name → LinesSource names (p.inside (some name) (some .paragraph)) true true s m →
        Holds name m → BlockSource names p .paragraph s [.elem name [] m]
    /-- Where paragraphs are plain content. -/
    | plain {p s m} : Given p (some .paragraph) "" → LinesSource names (p.inside none (some .paragraph)) true true s m →
        BlockSource names p .paragraph s m
    | line {p s m} : ElementSource names p .line s m → BlockSource names p .line s m
    | block {p f s m} : f ≠ .line → ElementSource names p f s m → BlockSource names p .block s m
    /-- Code in lines of its own. -/
    | code {p v s m} : RowSource names p false v s m → BlockSource names p .block s m
    /-- A line of comments. -/
    | comment {p k s m} : InlineSource names p k false s m → BlockSource names p .comment s m
  /-- `BlocksSource p shown k s m`: a content, or the rest of it, which begins with a block of the kind `k`: paragraphs, elements and
  comments, each in lines of its own. `shown`: something is shown before. -/
  inductive BlocksSource (names : Names) : Spot → Bool → BlockKind → Str → List Piece → Prop
    | one {p v k s m} : BlockSource names p k s m → BlocksSource names p v k s m
    | more {p v k k' s sep s' m m'} : BlockSource names p k s m → (∀ c ∈ sep, White c) → lineFeeds k k' ≤ sep.count '\n' →
        BlocksSource names p (v || k ≠ .comment) k' s' m' →
        BlocksSource names p v k (s ++ sep ++ s') (m ++ between (v || k ≠ .comment) (sep.count '\n') ++ m')
end

/-- A document, possibly with white space around. -/
inductive DocumentSource (names : Names) : Str → List Piece → Prop
  | mk {a k s b m} : (∀ c ∈ a, White c) → BlocksSource names .top false k s m → (∀ c ∈ b, White c) → DocumentSource names (a ++ s ++ b) m

/-- A test for letters and digits is right for ASCII characters, and neither white space nor the characters with a meaning are letters or
digits. (`char::is_alphanumeric` of the Rust standard library satisfies this.) -/
def RightForAscii (alnum : Char → Bool) : Prop :=
  LettersAndDigits alnum ∧ ∀ c, c.toNat < 128 → (alnum c = true ↔ Ascii c)

/-! ## Trees of elements -/

/-- Ids and classes that are names, then attributes whose names are names; their values are arbitrary. -/
def Labels (parts : List Part) : Prop :=
  ∃ ps qs, parts = ps ++ qs ∧ (∀ q ∈ ps, ∃ n, Word n ∧ (q = .cls n ∨ q = .id n)) ∧
    ∀ q ∈ qs, ∃ n v, Word n ∧ q = .attribute n v

mutual
  /-- An element with labels, and content if it may have any. -/
  inductive ElementTree : Piece → Prop
    | mk {name parts content t} : Word name → Labels parts → Holds name content → ContentTrees t content →
        ElementTree (.elem name parts content)
  /-- Elements and texts in any order, but no text directly after another; `t`: a text comes first. Texts are arbitrary. -/
  inductive ContentTrees : Bool → List Piece → Prop
    | nil : ContentTrees false []
    | text {t ps} : t ≠ [] → ContentTrees false ps → ContentTrees true (.text t :: ps)
    | element {b e ps} : ElementTree e → ContentTrees b ps → ContentTrees false (e :: ps)
end

end Mty.Spec
