import Verif.Model.Doc

/-!
# Syntax tree (`/repo/mintyml/src/ast.rs`, `/repo/mintyml/src/ast/*.rs`)

Shape of the rule types only; tokens are their ranges. Which trees the grammar has for a source is in
`Grammar.lean`; the parser (crate `gramma`) that chooses one of them is not modelled.
-/

namespace Mty.Ast

/-- `Comment` (`/repo/mintyml/src/ast/text.rs:173-180`). -/
structure Comment where
  start : Nat
  open_ : Range
  inner : Range
  close : Option Range
  stop : Nat
deriving DecidableEq, Repr

/-- `VerbatimTail` (`/repo/mintyml/src/ast/text.rs:143-147`). -/
inductive VerbatimTail where
  | verbatim0 (range : Range)
  | verbatim1 (range : Range)
  | verbatim2 (range : Range)
deriving DecidableEq, Repr

/-- `InlineText` (`/repo/mintyml/src/ast/text.rs:130-135`) with `Verbatim`
(`ast/text.rs:137-141`) inlined. -/
inductive InlineText where
  | segment (range : Range)
  | verbatim (open_ : Range) (raw : Option Range) (tail : VerbatimTail)
  | comment (c : Comment)
  | interpolation (range : Range)
deriving DecidableEq, Repr

/-- `AttributeValue` (`/repo/mintyml/src/ast/selectors.rs:134-137`). -/
inductive AttributeValue where
  | unquoted (range : Range)
  | quoted (range : Range)
deriving DecidableEq, Repr

/-- `Attribute` (`/repo/mintyml/src/ast/selectors.rs:121-132`); `value` is `assignment.value`. -/
structure Attribute where
  start : Nat
  name : Range
  value : Option AttributeValue
  stop : Nat
deriving DecidableEq, Repr

/-- `AttributeSelector` (`/repo/mintyml/src/ast/selectors.rs:111-118`). -/
structure AttributeSelector where
  start : Nat
  lBracket : Range
  parts : List Attribute
  rBracket : Option Range
  stop : Nat
deriving DecidableEq, Repr

/-- `ClassLike` (`/repo/mintyml/src/ast/selectors.rs:93-104`). -/
inductive ClassLike where
  | cls (dot ident : Range)
  | id (hash ident : Range)
  | invalid (range : Range)
deriving DecidableEq, Repr

/-- `ElementSelector` (`/repo/mintyml/src/ast/selectors.rs:106-109`). -/
inductive ElementSelector where
  | name (range : Range)
  | star (range : Range)
deriving DecidableEq, Repr

/-- `SelectorStart` (`/repo/mintyml/src/ast/selectors.rs:72-81`). -/
inductive SelectorStart where
  | attributes (a : AttributeSelector)
  | tag (element : Option ElementSelector) (classLike : List ClassLike)
deriving DecidableEq, Repr

/-- `SelectorSegment` (`/repo/mintyml/src/ast/selectors.rs:83-91`). -/
inductive SelectorSegment where
  | attributes (a : AttributeSelector)
  | classLike (items : List ClassLike)
deriving DecidableEq, Repr

/-- `Selector` (`/repo/mintyml/src/ast/selectors.rs:65-70`). -/
structure Selector where
  start : Nat
  first : SelectorStart
  segments : List SelectorSegment
  stop : Nat
deriving DecidableEq, Repr

/-- The variants of `InlineSpecial` with content (`/repo/mintyml/src/ast/elements.rs:56-86`). -/
inductive SpecialForm where
  | emphasis | strong | underline | strike | quote
deriving DecidableEq, Repr

mutual
  /-- `(Option<Space>, Node)` (`/repo/mintyml/src/ast.rs:17-21,33`): a node with the space before
  it. -/
  inductive Node where
    | mk (space : Option Range) (start stop : Nat) (ty : NodeType)
  /-- `NodeType` (`/repo/mintyml/src/ast.rs:23-28`) with `Element`
  (`/repo/mintyml/src/ast/elements.rs:92-104`), `Block` (40-46), `Inline` (48-53),
  `InlineSpecial` (56-89) and `Multiline` (`/repo/mintyml/src/ast/text.rs:149-171`) inlined. -/
  inductive NodeType where
    | multiline (kind : MultilineKind) (start stop : Nat)
    | text (t : InlineText)
    | selector (s : Selector)
    | line (combinator : Range)
    | block (lBrace : Range) (content : Content) (rBrace : Option Range)
    | inline (open_ : Range) (inner : List Node) (close : Option Range)
    | special (form : SpecialForm) (open_ : Range) (inner : Content) (close : Option Range)
    | code (range : Range)
  /-- `Line` (`/repo/mintyml/src/ast.rs:30-35`). -/
  inductive Line where
    | mk (start : Nat) (nodes : List Node) (stop : Nat)
  /-- `Content` (`/repo/mintyml/src/ast.rs:38-43`). -/
  inductive Content where
    | mk (start : Nat) (lines : List Line) (stop : Nat)
end

/-- `Document` (`/repo/mintyml/src/ast.rs:46-48`). -/
structure Document where
  content : Content

end Mty.Ast
