import Verif.Model.Lexer
import Verif.Model.Ast

/-!
# The grammar (`/repo/mintyml/src/ast.rs`, `/repo/mintyml/src/ast/*.rs`)

`Conforms src ast` says that `ast` is a tree of the grammar for `src`: every token of the tree matches
its pattern where it stands, the parts of a rule follow each other as in the rule, and nothing but the
ignored white space is left over. How the external crate `gramma` chooses among several such trees
(order of alternatives, lookahead) is not modelled: the theorems hold for each of them. Positions at
which the crate may or may not skip white space allow both.
-/

namespace Mty.Grammar
open Pat Lex

/-- Split at a byte position; `none` if it is not a character boundary (`&src[..p]`, `&src[p..]` for the
positions in the rules of `/repo/mintyml/src/ast.rs:16-49`). -/
def splitBytes : Str → Nat → Option (Str × Str)
  | s, 0 => some ([], s)
  | [], _ + 1 => none
  | c :: s, n + 1 =>
    if c.utf8Size ≤ n + 1 then
      match splitBytes s (n + 1 - c.utf8Size) with
      | none => none
      | some (a, b) => some (c :: a, b)
    else none

/-- The text before, in and after a range (see `splitBytes`; ranges of `/repo/mintyml/src/ast.rs:16-49`). -/
def span (src : Str) (lo hi : Nat) : Option (Str × Str × Str) :=
  match splitBytes src lo with
  | none => none
  | some (b, r) =>
    if lo ≤ hi then
      match splitBytes r (hi - lo) with
      | none => none
      | some (m, a) => some (b, m, a)
    else none

/-- A token: the pattern matches exactly this range (the tokens of `/repo/mintyml/src/ast/tokens.rs:15-63`). -/
def reads (src : Str) (p : Pat) (r : Range) : Bool :=
  match span src r.start r.stop with
  | none => false
  | some (b, m, a) => p b (m ++ a) = some (m, a)

/-- Ignored characters: `ignore_before`, `ignore_after`, `ignore_around` and `discard_before`
(`/repo/mintyml/src/ast.rs:32,37,40,45`). -/
def gap (src : Str) (p : Char → Bool) (lo hi : Nat) : Bool :=
  match span src lo hi with
  | none => false
  | some (_, m, _) => m.all p

variable (alnum : Char → Bool) (src : Str)

/-- `Attribute`, `AttributeAssignment`, `AttributeValue` (`/repo/mintyml/src/ast/selectors.rs:120-137`). -/
def attributeOk (a : Ast.Attribute) : Bool :=
  a.name.start == a.start && reads src attributeName a.name &&
    match a.value with
    | none => a.stop == a.name.stop
    | some (.unquoted r) =>
      reads src assignment ⟨a.name.stop, r.start⟩ && reads src unquotedValue r && a.stop == r.stop
    | some (.quoted r) =>
      reads src assignment ⟨a.name.stop, r.start⟩ && reads src quotedString r && a.stop == r.stop

/-- `parts: Vec<Attribute>` (`/repo/mintyml/src/ast/selectors.rs:114,120`) and the end of the last one, or `p`. -/
def partsOk (p : Nat) : List Ast.Attribute → Bool × Nat
  | [] => (true, p)
  | a :: as =>
    let (ok, e) := partsOk a.stop as
    (gap src isWhitespace p a.start && attributeOk src a && ok, e)

/-- `AttributeSelector` (`/repo/mintyml/src/ast/selectors.rs:111-118`). -/
def attributesOk (a : Ast.AttributeSelector) : Bool :=
  a.lBracket.start == a.start && reads src (exact "[".toList) a.lBracket &&
    (partsOk src a.lBracket.stop a.parts).1 &&
    match a.rBracket with
    | none => gap src isWhitespace (partsOk src a.lBracket.stop a.parts).2 a.stop
    | some r => gap src isWhitespace (partsOk src a.lBracket.stop a.parts).2 r.start &&
      reads src (exact "]".toList) r && a.stop == r.stop

/-- `Vec<ClassLike>`, `ClassSelector`, `IdSelector` (`/repo/mintyml/src/ast/selectors.rs:93-104,139-147`) between
two positions; `src` ends where the chain ends. -/
def classLikesOk (p q : Nat) : List Ast.ClassLike → Bool
  | [] => p == q
  | .cls dot ident :: cs => dot.start == p && reads src (exact ".".toList) dot && ident.start == dot.stop &&
      reads src className ident && classLikesOk ident.stop q cs
  | .id hash ident :: cs => hash.start == p && reads src (exact "#".toList) hash && ident.start == hash.stop &&
      reads src className ident && classLikesOk ident.stop q cs
  | .invalid r :: cs => r.start == p && reads src anyChars r && classLikesOk r.stop q cs

/-- The end of a list of classes, ids and invalid parts that begins at `p`
(`/repo/mintyml/src/ast/selectors.rs:79,89`). -/
def classLikesEnd (p : Nat) : List Ast.ClassLike → Nat
  | [] => p
  | .cls _ ident :: cs => classLikesEnd ident.stop cs
  | .id _ ident :: cs => classLikesEnd ident.stop cs
  | .invalid r :: cs => classLikesEnd r.stop cs

/-- `parse_as<SelectorChain>` (`/repo/mintyml/src/ast/selectors.rs:76,88`): the token, of which the parts are
then parsed on their own. -/
def chainOk (p q : Nat) (element : Option Ast.ElementSelector) (cs : List Ast.ClassLike) : Bool :=
  reads src (selectorChain alnum) ⟨p, q⟩ &&
    match element with
    | none => classLikesOk (takeBytes q src) p q cs
    | some (.name r) => r.start == p && reads (takeBytes q src) elementName r && classLikesOk (takeBytes q src) r.stop q cs
    | some (.star r) => r.start == p && reads (takeBytes q src) (exact "*".toList) r &&
        classLikesOk (takeBytes q src) r.stop q cs

/-- The end of a selector start that begins at `p` (`/repo/mintyml/src/ast/selectors.rs:72-81`). -/
def selectorStartEnd (p : Nat) : Ast.SelectorStart → Nat
  | .attributes a => a.stop
  | .tag none cs => classLikesEnd p cs
  | .tag (some (.name r)) cs => classLikesEnd r.stop cs
  | .tag (some (.star r)) cs => classLikesEnd r.stop cs

/-- `segments: Vec<SelectorSegment>` (`/repo/mintyml/src/ast/selectors.rs:68,83-91`) between two positions. -/
def segmentsOk (p q : Nat) : List Ast.SelectorSegment → Bool
  | [] => p == q
  | .attributes a :: gs => a.start == p && attributesOk src a && segmentsOk a.stop q gs
  | .classLike cs :: gs => chainOk alnum src p (classLikesEnd p cs) none cs && segmentsOk (classLikesEnd p cs) q gs

/-- `Selector`, `SelectorStart` (`/repo/mintyml/src/ast/selectors.rs:65-81`). -/
def selectorOk (s : Ast.Selector) : Bool :=
  (match s.first with
    | .attributes a => a.start == s.start && attributesOk src a
    | .tag e cs => chainOk alnum src s.start (selectorStartEnd s.start (.tag e cs)) e cs) &&
  segmentsOk alnum src (selectorStartEnd s.start s.first) s.stop s.segments

/-- `VerbatimTail` (`/repo/mintyml/src/ast/text.rs:143-147`): pattern and range. -/
def tailOk : Ast.VerbatimTail → Pat × Range
  | .verbatim0 r => (verbatimTail 0, r)
  | .verbatim1 r => (verbatimTail 1, r)
  | .verbatim2 r => (verbatimTail 2, r)

/-- `InlineText`, `Verbatim`, `Comment` (`/repo/mintyml/src/ast/text.rs:130-141,173-180`) from `a` to `b`. -/
def inlineTextOk (a b : Nat) : Ast.InlineText → Bool
  | .segment r => r == ⟨a, b⟩ && reads src (textSegment alnum) r
  | .verbatim o raw tail =>
    o.start == a && reads src (exact "<[".toList) o && reads src (tailOk tail).1 (tailOk tail).2 && (tailOk tail).2.stop == b &&
    match raw with
    | none => (tailOk tail).2.start == o.stop
    | some k => k.start == o.stop && reads src (exact "raw".toList) k && (tailOk tail).2.start == k.stop
  | .comment c =>
    c.start == a && c.stop == b && c.open_.start == a && reads src (exact "<!".toList) c.open_ &&
    c.inner.start == c.open_.stop && reads src (fun _ r => some (commentParts 0 r)) c.inner &&
    match c.close with
    | none => c.inner.stop == b
    | some r => r.start == c.inner.stop && reads src (exact "!>".toList) r && r.stop == b
  | .interpolation r => r == ⟨a, b⟩ && reads src interpolation r

/-- The character of the fence of multiline text (`/repo/mintyml/src/ast/text.rs:68-111`). -/
def fence : MultilineKind → Char
  | .unescaped => '\''
  | .escaped => '"'
  | .code => '`'

/-- The opening and closing token of special forms (`/repo/mintyml/src/ast/elements.rs:8-31`). -/
def specialDelims : Ast.SpecialForm → Str × Str
  | .emphasis => ("</".toList, "/>".toList)
  | .strong => ("<#".toList, "#>".toList)
  | .underline => ("<_".toList, "_>".toList)
  | .strike => ("<~".toList, "~>".toList)
  | .quote => ("<\"".toList, "\">".toList)

/-- Where a list of nodes begins, with the space before the first one, if there are any
(`/repo/mintyml/src/ast.rs:33`). -/
def nodesStart (p : Nat) : List Ast.Node → Nat
  | [] => p
  | .mk (some r) _ _ _ :: _ => r.start
  | .mk none a _ _ :: _ => a

/-- Where a list of nodes ends (`/repo/mintyml/src/ast.rs:33`). -/
def nodesEnd (p : Nat) : List Ast.Node → Nat
  | [] => p
  | .mk _ _ b _ :: ns => nodesEnd b ns

/-- `Option<Space>` before a node that begins at `a` (`/repo/mintyml/src/ast.rs:33`). -/
def spaceOk (p a : Nat) : Option Range → Bool
  | none => p == a
  | some r => r.start == p && reads src space r && r.stop == a

/-- An optional closing token between `p` and `b`, after ignored white space
(`/repo/mintyml/src/ast/elements.rs:44-45,64,70,76,82`). -/
def closeOk (t : Str) (p b : Nat) : Option Range → Bool
  | none => gap src isWhitespace p b
  | some r => gap src isWhitespace p r.start && reads src (exact t) r && r.stop == b

mutual
  /-- `NodeType` (`/repo/mintyml/src/ast.rs:23-28`), `Multiline` (`ast/text.rs:149-171`), `Element`
  (`ast/elements.rs:92-104`), `Block` (40-46), `Inline` (48-53), `InlineSpecial` (56-89) from `a` to `b`. -/
  def typeOk (a b : Nat) : Ast.NodeType → Bool
    | .multiline k s e =>
      reads src (multilineOpen [fence k, fence k, fence k]) ⟨a, s⟩ &&
      reads src (multilineBody [fence k, fence k, fence k]) ⟨s, e⟩ && reads src (multilineClose (fence k)) ⟨e, b⟩
    | .text t => inlineTextOk alnum src a b t
    | .selector s => s.start == a && s.stop == b && selectorOk alnum src s
    | .line c => c == ⟨a, b⟩ && reads src (exact ">".toList) c
    | .block l (.mk s lines e) r =>
      l.start == a && reads src (exact "{".toList) l && gap src isWhitespace l.stop s &&
      linesOk true s e lines && closeOk src "}".toList e b r
    | .inline o inner c =>
      o.start == a && reads src (exact "<(".toList) o && gap src isWhitespace o.stop (nodesStart o.stop inner) &&
      nodesOk (nodesStart o.stop inner) (nodesEnd o.stop inner) inner &&
      closeOk src ")>".toList (nodesEnd o.stop inner) b c
    | .special f o (.mk s lines e) c =>
      o.start == a && reads src (exact (specialDelims f).1) o && gap src isWhitespace o.stop s &&
      linesOk true s e lines && closeOk src (specialDelims f).2 e b c
    | .code r => r == ⟨a, b⟩ && reads src inlineCode r
  /-- `Vec<(Option<Space>, Node)>` (`/repo/mintyml/src/ast.rs:17-21,33`) between two positions. -/
  def nodesOk (p q : Nat) : List Ast.Node → Bool
    | [] => p == q
    | .mk sp a b ty :: ns => spaceOk src p a sp && typeOk a b ty && nodesOk b q ns
  /-- `Vec<Line>` separated by `NewLine` (`/repo/mintyml/src/ast.rs:30-35,40-41`) between two positions. Before the
  first line white space is ignored. -/
  def linesOk (first : Bool) (p q : Nat) : List Ast.Line → Bool
    | [] => if first then gap src isWhitespace p q else p == q
    | .mk s ns e :: ls =>
      (if first then gap src isWhitespace p s else reads src newLine ⟨p, s⟩) &&
      gap src isSpace s (nodesStart s ns) && nodesOk (nodesStart s ns) (nodesEnd s ns) ns && gap src isSpace (nodesEnd s ns) e &&
      linesOk false e q ls
end

/-- `Document`, `Content` (`/repo/mintyml/src/ast.rs:37-48`): the tree is one of the grammar, and it is the
tree of the whole source. -/
def Conforms (ast : Ast.Document) : Bool :=
  match ast.content with
  | .mk s lines e => gap src isWhitespace 0 s && linesOk alnum src true s e lines && gap src isWhitespace e (byteLen src)

end Mty.Grammar
