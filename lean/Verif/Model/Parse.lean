import Verif.Model.Grammar

/-!
# A parser for the grammar (`/repo/mintyml/src/ast.rs:52-54`, `/repo/mintyml/src/ast/*.rs`)

The rules of the grammar read as a recursive-descent parser with ordered choice: the first alternative that can be read is taken,
repetitions and optional parts take what they can, white space is ignored where a rule says so. The external crate `gramma` decides with
two tokens of lookahead; its source is not part of the repository. No theorem about conversions assumes this parser: they hold for
every parser, or for every one that yields trees of the grammar, of which this is one (`C56_sound`).
-/

namespace Mty.Grammar
open Pat Lex

/-- A position in the source: the text before and after it (`gramma::parse::Location`, used in `/repo/mintyml/src/ast.rs:8`). -/
structure Pos where
  before : Str
  after : Str

/-- The position in bytes (`Location::position`, used in `/repo/mintyml/src/ast.rs:64`). -/
def Pos.at (s : Pos) : Nat := byteLen s.before

/-- Read a token (`/repo/mintyml/src/ast/tokens.rs:15-63`). -/
def token (p : Pat) (s : Pos) : Option (Range × Pos) :=
  match p s.before s.after with
  | none => none
  | some (m, r) => some (⟨s.at, (Pos.mk (s.before ++ m) r).at⟩, ⟨s.before ++ m, r⟩)

/-- Ignore characters (`ignore_before`, `ignore_after`, `ignore_around`, `discard_before`; `/repo/mintyml/src/ast.rs:32,37,40,45`). -/
def skip (p : Char → Bool) (s : Pos) : Pos := ⟨s.before ++ s.after.takeWhile p, s.after.dropWhile p⟩

/-- An optional closing token after white space (`/repo/mintyml/src/ast/elements.rs:44-45,64,70,76,82,88`). -/
def closing (t : Str) (s : Pos) : Option Range × Pos :=
  match token (exact t) (skip isWhitespace s) with
  | some (r, s') => (some r, s')
  | none => (none, s)

variable (alnum : Char → Bool)

/-- `AttributeValue` (`/repo/mintyml/src/ast/selectors.rs:134-137`). -/
def attributeValue (s : Pos) : Option (Ast.AttributeValue × Pos) :=
  match token unquotedValue s with
  | some (r, s') => some (.unquoted r, s')
  | none =>
    match token quotedString s with
    | some (r, s') => some (.quoted r, s')
    | none => none

/-- `Option<AttributeAssignment>` (`/repo/mintyml/src/ast/selectors.rs:125,128-132`). -/
def attributeAssignment (s : Pos) : Option (Ast.AttributeValue × Pos) :=
  match token assignment s with
  | none => none
  | some (_, s1) => attributeValue s1

/-- `Attribute` (`/repo/mintyml/src/ast/selectors.rs:120-127`). -/
def oneAttribute (s : Pos) : Option (Ast.Attribute × Pos) :=
  match token attributeName (skip isWhitespace s) with
  | none => none
  | some (name, s1) =>
    match attributeAssignment s1 with
    | none => some (⟨name.start, name, none, name.stop⟩, s1)
    | some (v, s2) => some (⟨name.start, name, some v, s2.at⟩, s2)

/-- `Vec<Attribute>` (`/repo/mintyml/src/ast/selectors.rs:114`). -/
def attributeList : Nat → Pos → List Ast.Attribute × Pos
  | 0, s => ([], s)
  | n + 1, s =>
    match oneAttribute s with
    | none => ([], s)
    | some (a, s1) =>
      let (as, s2) := attributeList n s1
      (a :: as, s2)

/-- `AttributeSelector` (`/repo/mintyml/src/ast/selectors.rs:111-118`). -/
def attributeSelector (s : Pos) : Option (Ast.AttributeSelector × Pos) :=
  match token (exact "[".toList) s with
  | none => none
  | some (l, s1) =>
    let (parts, s2) := attributeList s1.after.length s1
    let (r, s3) := closing "]".toList s2
    some (⟨l.start, l, parts, r, s3.at⟩, s3)

/-- `ClassSelector`, `IdSelector` (`/repo/mintyml/src/ast/selectors.rs:139-147`): a mark and a name. -/
def marked (t : Str) (s : Pos) : Option (Range × Range × Pos) :=
  match token (exact t) s with
  | none => none
  | some (m, s1) =>
    match token className s1 with
    | none => none
    | some (name, s2) => some (m, name, s2)

/-- `ClassLike` (`/repo/mintyml/src/ast/selectors.rs:93-104`). -/
def classLike (s : Pos) : Option (Ast.ClassLike × Pos) :=
  match marked ".".toList s with
  | some (m, name, s') => some (.cls m name, s')
  | none =>
    match marked "#".toList s with
    | some (m, name, s') => some (.id m name, s')
    | none =>
      match token anyChars s with
      | some (r, s') => some (.invalid r, s')
      | none => none

/-- `Vec<ClassLike>` (`/repo/mintyml/src/ast/selectors.rs:79,89`). -/
def classLikes : Nat → Pos → List Ast.ClassLike × Pos
  | 0, s => ([], s)
  | n + 1, s =>
    match classLike s with
    | none => ([], s)
    | some (c, s1) =>
      let (cs, s2) := classLikes n s1
      (c :: cs, s2)

/-- `Option<ElementSelector>` (`/repo/mintyml/src/ast/selectors.rs:78,106-109`). -/
def elementSelector (s : Pos) : Option Ast.ElementSelector × Pos :=
  match token elementName s with
  | some (r, s') => (some (.name r), s')
  | none =>
    match token (exact "*".toList) s with
    | some (r, s') => (some (.star r), s')
    | none => (none, s)

/-- `parse_as<SelectorChain>` (`/repo/mintyml/src/ast/selectors.rs:76,88`): the text of the token is parsed on its own, up to its
end. -/
def chain (tag : Bool) (s : Pos) : Option (Option Ast.ElementSelector × List Ast.ClassLike × Pos) :=
  match selectorChain alnum s.before s.after with
  | none => none
  | some (m, r) =>
    let (e, s1) := if tag then elementSelector ⟨s.before, m⟩ else (none, ⟨s.before, m⟩)
    let (cs, s2) := classLikes m.length s1
    if s2.after.isEmpty then some (e, cs, ⟨s.before ++ m, r⟩) else none

/-- `SelectorSegment` (`/repo/mintyml/src/ast/selectors.rs:83-91`). -/
def selectorSegment (s : Pos) : Option (Ast.SelectorSegment × Pos) :=
  match attributeSelector s with
  | some (a, s') => some (.attributes a, s')
  | none =>
    match chain alnum false s with
    | some (_, cs, s') => some (.classLike cs, s')
    | none => none

/-- `Vec<SelectorSegment>` (`/repo/mintyml/src/ast/selectors.rs:68`). -/
def selectorSegments : Nat → Pos → List Ast.SelectorSegment × Pos
  | 0, s => ([], s)
  | n + 1, s =>
    match selectorSegment alnum s with
    | none => ([], s)
    | some (g, s1) =>
      let (gs, s2) := selectorSegments n s1
      (g :: gs, s2)

/-- `SelectorStart` (`/repo/mintyml/src/ast/selectors.rs:72-81`). -/
def selectorStart (s : Pos) : Option (Ast.SelectorStart × Pos) :=
  match attributeSelector s with
  | some (a, s') => some (.attributes a, s')
  | none =>
    match chain alnum true s with
    | some (e, cs, s') => some (.tag e cs, s')
    | none => none

/-- `Selector` (`/repo/mintyml/src/ast/selectors.rs:65-70`). -/
def selector (s : Pos) : Option (Ast.NodeType × Pos) :=
  match selectorStart alnum s with
  | none => none
  | some (first, s1) =>
    let (segments, s2) := selectorSegments alnum s1.after.length s1
    some (.selector ⟨s.at, first, segments, s2.at⟩, s2)

/-- `VerbatimTail` (`/repo/mintyml/src/ast/text.rs:143-147`). -/
def verbatimEnd (s : Pos) : Option (Ast.VerbatimTail × Pos) :=
  match token (verbatimTail 0) s with
  | some (r, s') => some (.verbatim0 r, s')
  | none =>
    match token (verbatimTail 1) s with
    | some (r, s') => some (.verbatim1 r, s')
    | none =>
      match token (verbatimTail 2) s with
      | some (r, s') => some (.verbatim2 r, s')
      | none => none

/-- `Verbatim` (`/repo/mintyml/src/ast/text.rs:137-141`). -/
def verbatim (s : Pos) : Option (Ast.NodeType × Pos) :=
  match token (exact "<[".toList) s with
  | none => none
  | some (o, s1) =>
    match token (exact "raw".toList) s1 with
    | some (k, s2) =>
      match verbatimEnd s2 with
      | none => none
      | some (t, s3) => some (.text (.verbatim o (some k) t), s3)
    | none =>
      match verbatimEnd s1 with
      | none => none
      | some (t, s3) => some (.text (.verbatim o none t), s3)

/-- `Comment` (`/repo/mintyml/src/ast/text.rs:173-180`). -/
def comment (s : Pos) : Option (Ast.NodeType × Pos) :=
  match token (exact "<!".toList) s with
  | none => none
  | some (o, s1) =>
    match token (fun _ r => some (commentParts 0 r)) s1 with
    | none => none
    | some (inner, s2) =>
      match token (exact "!>".toList) s2 with
      | some (c, s3) => some (.text (.comment ⟨o.start, o, inner, some c, c.stop⟩), s3)
      | none => some (.text (.comment ⟨o.start, o, inner, none, inner.stop⟩), s2)

/-- `Multiline` (`/repo/mintyml/src/ast/text.rs:149-171`). -/
def multiline (k : MultilineKind) (s : Pos) : Option (Ast.NodeType × Pos) :=
  match token (multilineOpen [fence k, fence k, fence k]) s with
  | none => none
  | some (_, s1) =>
    match token (multilineBody [fence k, fence k, fence k]) s1 with
    | none => none
    | some (body, s2) =>
      match token (multilineClose (fence k)) s2 with
      | none => none
      | some (_, s3) => some (.multiline k body.start body.stop, s3)

/-- A token that is a node (`/repo/mintyml/src/ast/text.rs:130-135`, `elements.rs:33-36,88,94-97`). -/
def leaf (p : Pat) (f : Range → Ast.NodeType) (s : Pos) : Option (Ast.NodeType × Pos) :=
  match token p s with
  | none => none
  | some (r, s') => some (f r, s')

/-- The first alternative that can be read (`/repo/mintyml/src/ast.rs:23-28`). -/
def firstOf : List (Pos → Option (Ast.NodeType × Pos)) → Pos → Option (Ast.NodeType × Pos)
  | [], _ => none
  | f :: fs, s =>
    match f s with
    | some x => some x
    | none => firstOf fs s

mutual
  /-- `NodeType` (`/repo/mintyml/src/ast.rs:23-28`), `InlineText` (`ast/text.rs:130-135`), `Element` (`ast/elements.rs:92-104`),
  `InlineSpecial` (`ast/elements.rs:56-89`). The first argument bounds the recursion. -/
  def nodeType (n : Nat) (s : Pos) : Option (Ast.NodeType × Pos) :=
    match n with
    | 0 => none
    | n + 1 => firstOf
      [multiline .escaped, multiline .unescaped, multiline .code,
        leaf (textSegment alnum) (fun r => .text (.segment r)), verbatim, comment, leaf interpolation (fun r => .text (.interpolation r)),
        selector alnum,
        leaf (exact ">".toList) .line,
        fun s => block n s,
        fun s => inline n s,
        fun s => special n .emphasis s, fun s => special n .strong s, fun s => special n .underline s, fun s => special n .strike s,
        fun s => special n .quote s,
        leaf inlineCode .code] s
  /-- `Block` (`/repo/mintyml/src/ast/elements.rs:40-46`). -/
  def block (n : Nat) (s : Pos) : Option (Ast.NodeType × Pos) :=
    match n with
    | 0 => none
    | n + 1 =>
      match token (exact "{".toList) s with
      | none => none
      | some (l, s1) =>
        let (c, s2) := content n (skip isWhitespace s1)
        let (r, s3) := closing "}".toList s2
        some (.block l c r, s3)
  /-- `Inline` (`/repo/mintyml/src/ast/elements.rs:48-53`). -/
  def inline (n : Nat) (s : Pos) : Option (Ast.NodeType × Pos) :=
    match n with
    | 0 => none
    | n + 1 =>
      match token (exact "<(".toList) s with
      | none => none
      | some (o, s1) =>
        match nodes n (skip isWhitespace s1) with
        | ([], _) =>
          let (c, s3) := closing ")>".toList s1
          some (.inline o [] c, s3)
        | (x :: inner, s2) =>
          let (c, s3) := closing ")>".toList s2
          some (.inline o (x :: inner) c, s3)
  /-- The variants of `InlineSpecial` with content (`/repo/mintyml/src/ast/elements.rs:58-86`). -/
  def special (n : Nat) (f : Ast.SpecialForm) (s : Pos) : Option (Ast.NodeType × Pos) :=
    match n with
    | 0 => none
    | n + 1 =>
      match token (exact (specialDelims f).1) s with
      | none => none
      | some (o, s1) =>
        let (c, s2) := content n (skip isWhitespace s1)
        let (r, s3) := closing (specialDelims f).2 s2
        some (.special f o c r, s3)
  /-- `Vec<(Option<Space>, Node)>` (`/repo/mintyml/src/ast.rs:17-21,33`). -/
  def nodes (n : Nat) (s : Pos) : List Ast.Node × Pos :=
    match n with
    | 0 => ([], s)
    | n + 1 =>
      match token space s with
      | none =>
        match nodeType n s with
        | none => ([], s)
        | some (ty, s1) =>
          let (ns, s2) := nodes n s1
          (.mk none s.at s1.at ty :: ns, s2)
      | some (sp, s0) =>
        match nodeType n s0 with
        | none => ([], s)
        | some (ty, s1) =>
          let (ns, s2) := nodes n s1
          (.mk (some sp) s0.at s1.at ty :: ns, s2)
  /-- `Line` (`/repo/mintyml/src/ast.rs:30-35`). -/
  def line (n : Nat) (s : Pos) : Ast.Line × Pos :=
    match n with
    | 0 => (.mk s.at [] s.at, s)
    | n + 1 =>
      match nodes n (skip isSpace s) with
      | ([], _) => (.mk s.at [] (skip isSpace s).at, skip isSpace s)
      | (x :: ns, s1) => (.mk s.at (x :: ns) (skip isSpace s1).at, skip isSpace s1)
  /-- The lines after the first one, each after a line break (`/repo/mintyml/src/ast.rs:40-41`). -/
  def moreLines (n : Nat) (s : Pos) : List Ast.Line × Pos :=
    match n with
    | 0 => ([], s)
    | n + 1 =>
      match token newLine s with
      | none => ([], s)
      | some (_, s1) =>
        let (l, s2) := line n s1
        let (ls, s3) := moreLines n s2
        (l :: ls, s3)
  /-- `Content` (`/repo/mintyml/src/ast.rs:37-43`). -/
  def content (n : Nat) (s : Pos) : Ast.Content × Pos :=
    match n with
    | 0 => (.mk s.at [] s.at, s)
    | n + 1 =>
      let (l, s1) := line n (skip isWhitespace s)
      let (ls, s2) := moreLines n s1
      (.mk s.at (l :: ls) s2.at, s2)
end

/-- `parse` (`/repo/mintyml/src/ast.rs:45-48,52-54`): the whole source must be read. -/
def parse (src : Str) : Option Ast.Document :=
  let (c, s) := content alnum (8 * src.length + 8) (skip isWhitespace ⟨[], src⟩)
  if (skip isWhitespace s).after.isEmpty then some ⟨c⟩ else none

end Mty.Grammar
