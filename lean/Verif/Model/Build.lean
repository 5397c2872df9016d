import Verif.Model.Ast
import Verif.Model.Errors
import Verif.Model.Escape

/-!
# Building the document from the syntax tree (`/repo/mintyml/src/document/*.rs`)

The functions of `BuildContext`. The Rust functions recurse through the syntax tree
(content → line → node → content ...). To keep this recursion structural, a syntax node is first
turned into a `PNode` (`prepNode`): the same node in which nested content is replaced by
the function that builds it. The line functions (`extendLine`, `postSelector`,
`postChildCombinator`) then work on lists of `PNode`s exactly as the Rust ones work on slices of
syntax nodes; the remaining slice (`nodes: &mut &[..]`) is returned. `out_nodes: &mut Vec` is only
appended to, so the appended nodes are returned.
-/

namespace Mty

/-- `Node::item_type` (`/repo/mintyml/src/document/mod.rs:32-48`). -/
def Node.itemType : Node → ItemType
  | .elem _ h _ =>
    match h.ty with
    | .paragraph => .paragraph
    | .standard _ => .element
    | .inline _ => .inlineElement
    | .special _ => .inlineElement
    | .multiline _ => .multiline
    | .unknown => .unknown
  | .text _ (.text _) => .text
  | .text _ (.comment _) => .comment
  | .text _ (.space _) => .space

namespace Build

/-- `BuildContext::escapable_slice` (`/repo/mintyml/src/document/mod.rs:122-132`) with
`From<EscapeError> for SyntaxError` (`/repo/mintyml/src/error.rs:118-125`). -/
def escapableSlice (src : Str) (range : Range) (escape : Bool) : BM TextSlice := do
  if escape then
    BM.syntaxErr ((escapeErrors (range.slice src) range.start).map fun r => ⟨r, .invalidEscape⟩)
  return .fromSource range

/-- `BuildContext::unclosed` (`/repo/mintyml/src/document/mod.rs:133-142`). -/
def unclosed (opening : Range) (delimiter : UnclosedKind) : BM Unit :=
  BM.syntaxErr [⟨opening, .unclosed delimiter⟩]

/-- `BuildContext::invalid` (`/repo/mintyml/src/document/mod.rs:144-149`). -/
def invalid (range : Range) (item : ItemType) : BM Unit :=
  BM.syntaxErr [⟨range, .invalidItem item⟩]

/-- `BuildContext::misplaced` (`/repo/mintyml/src/document/mod.rs:151-156`). -/
def misplaced (range : Range) (kind : MisplacedKind) : BM Unit :=
  BM.syntaxErr [⟨range, .misplacedItem kind⟩]

/-! ## Text (`document/text.rs`) -/

/-- `build_text_node` (`/repo/mintyml/src/document/text.rs:125-147`). -/
def buildTextNode (src : Str) (range : Range) (unescapeIn escapeOut raw multiline : Bool) :
    BM Node := do
  let slice ← escapableSlice src range unescapeIn
  return .text range (.text { slice, unescapeIn, escapeOut, raw, multiline })

/-- `build_verbatim_node` (`/repo/mintyml/src/document/text.rs:149-187`). The subtraction in
`content_range.end -= inset_end` truncates at 0 in the model. -/
def buildVerbatimNode (open_ : Range) (raw : Option Range) (tail : Ast.VerbatimTail) : Node :=
  let (tailRange, hashCount) : Range × Nat :=
    match tail with
    | .verbatim0 r => (r, 0)
    | .verbatim1 r => (r, 1)
    | .verbatim2 r => (r, 2)
  let contentRange : Range := ⟨tailRange.start + (hashCount + 1), tailRange.stop - (hashCount + 3)⟩
  .text (open_.combine tailRange)
    (.text { slice := .fromSource contentRange, unescapeIn := false, escapeOut := raw.isNone,
             multiline := false, raw := false })

/-- `build_comment_node` (`/repo/mintyml/src/document/text.rs:202-228`). -/
def buildCommentNode (c : Ast.Comment) : BM Node := do
  if c.close.isNone then unclosed c.open_ .comment
  return .text ⟨c.start, c.stop⟩ (.comment (.fromSource c.inner))

/-- `build_inline_text` (`/repo/mintyml/src/document/text.rs:189-200`). -/
def buildInlineText (src : Str) : Ast.InlineText → BM Node
  | .segment r => buildTextNode src r true true false false
  | .verbatim o raw tail => BM.pure (buildVerbatimNode o raw tail)
  | .comment c => buildCommentNode c
  | .interpolation r => buildTextNode src r false false true false

/-- `exact_space` (`/repo/mintyml/src/document/text.rs:230-241`). -/
def exactSpace (range : Range) : Node :=
  .text range (.space (.inline (some (.fromSource range))))

/-- `line_end` (`/repo/mintyml/src/document/text.rs:243-255`). -/
def lineEnd (prevEnd nextStart : Nat) : Node := .text ⟨prevEnd, nextStart⟩ (.space .lineEnd)

/-- `paragraph_end` (`/repo/mintyml/src/document/text.rs:257-269`). -/
def paragraphEnd (prevEnd nextStart : Nat) : Node :=
  .text ⟨prevEnd, nextStart⟩ (.space .paragraphEnd)

/-! ## Selectors (`document/selectors.rs`) -/

/-- `build_attribute` (`/repo/mintyml/src/document/selectors.rs:133-163`). The subtraction in
`range.end -= 1` truncates at 0 in the model. -/
def buildAttribute (a : Ast.Attribute) : Attribute :=
  let valueRange : Option Range := a.value.map fun
    | .unquoted r => r
    | .quoted r => ⟨r.start + 1, r.stop - 1⟩
  { range := ⟨a.start, a.stop⟩
    name := .fromSource a.name
    value := valueRange.map .fromSource }

/-- `build_attribute_list` (`/repo/mintyml/src/document/selectors.rs:165-182`). -/
def buildAttributeList (a : Ast.AttributeSelector) : BM SelectorItem := do
  if a.rBracket.isNone then unclosed a.lBracket .attributeList
  return .attributes ⟨a.start, a.stop⟩ (a.parts.map buildAttribute)

/-- `build_tag` (`/repo/mintyml/src/document/selectors.rs:184-192`). -/
def buildTag : Option Ast.ElementSelector → Tag
  | some (.name r) => .explicit (.fromSource r)
  | some (.star r) => .wildcard r
  | none => .implicit

/-- `build_class_like` (`/repo/mintyml/src/document/selectors.rs:194-212`). -/
def buildClassLike : Ast.ClassLike → BM (Option SelectorItem)
  | .cls dot ident => BM.pure (some (.cls dot (.fromSource ident)))
  | .id hash ident => BM.pure (some (.id hash (.fromSource ident)))
  | .invalid range => do
    invalid range .selector
    return none

/-- `extend_class_like` (`/repo/mintyml/src/document/selectors.rs:214-223`): the appended items. -/
def extendClassLike : List Ast.ClassLike → BM (List SelectorItem)
  | [] => BM.pure []
  | cl :: rest => do
    let i ← buildClassLike cl
    let is ← extendClassLike rest
    return i.toList ++ is

/-- The loop over the segments in `build_selector`
(`/repo/mintyml/src/document/selectors.rs:263-272`). -/
def extendSegments : List Ast.SelectorSegment → BM (List SelectorItem)
  | [] => BM.pure []
  | .attributes a :: rest => do
    let i ← buildAttributeList a
    let is ← extendSegments rest
    return i :: is
  | .classLike items :: rest => do
    let i ← extendClassLike items
    let is ← extendSegments rest
    return i ++ is

/-- `build_selector` (`/repo/mintyml/src/document/selectors.rs:225-280`). -/
def buildSelector (s : Ast.Selector) : BM Selector := do
  let (tag, items) ← match s.first with
    | .tag element classLike => do
      let items ← extendClassLike classLike
      pure (buildTag element, items)
    | .attributes a => do
      let i ← buildAttributeList a
      pure (Tag.implicit, [i])
  let more ← extendSegments s.segments
  return { range := ⟨s.start, s.stop⟩, tag, items := items ++ more }

/-! ## Lines (`document/line.rs`) -/

/-- What `extend_line`, `post_selector` and `post_child_combinator` distinguish in a node type
(`NodeType`, `/repo/mintyml/src/ast.rs:23-28`; `/repo/mintyml/src/document/line.rs:85-170,187-254,268-300`). -/
inductive PKind where
  /-- `NodeType::Text` other than a comment, with `build_inline_text`. -/
  | text (build : BM Node)
  /-- `NodeType::Text` with a comment, with `build_comment_node`. -/
  | comment (build : BM Node)
  /-- `NodeType::Selector` with its range and `build_selector`. -/
  | selector (range : Range) (build : BM Selector)
  /-- `Element::Line`. -/
  | line (combinator : Range)
  /-- `Element::Block` with `build_block` (argument: range, paragraphs). -/
  | block (build : Range → Bool → BM (EHead × List Node))
  /-- other elements and multiline text, with `build_element`/`build_multiline`. -/
  | other (build : BM (List Node))

/-- A syntax node prepared for the line functions (`Node`, `/repo/mintyml/src/ast.rs:17-21`, with the space
before it, line 33). -/
structure PNode where
  space : Option Range
  start : Nat
  stop : Nat
  kind : PKind

/-- A prepared `Line` (`/repo/mintyml/src/ast.rs:30-35`). -/
structure PLine where
  start : Nat
  nodes : List PNode
  stop : Nat

/-- `validate_line` (`/repo/mintyml/src/document/line.rs:311-346`); the state is
`last_item_type` with `last_range`. -/
def validateLoop : Option (ItemType × Range) → List Node → BM Unit
  | _, [] => BM.pure ()
  | last, node :: rest => do
    let itemType := node.itemType
    let range := node.range
    if itemType = .comment ∨ itemType = .space then validateLoop last rest
    else
      match last with
      | some (l, lastRange) =>
        if l = .element ∨ l = .multiline then
          misplaced lastRange (.mustNotPrecede l itemType.asSlice)
        else if itemType = .element ∨ itemType = .multiline then
          misplaced range (.mustNotFollow l.asSlice itemType)
        else pure ()
      | none => pure ()
      validateLoop (some (itemType, range)) rest

/-- `validate_line` (`/repo/mintyml/src/document/line.rs:311-346`). -/
def validateLine (nodes : List Node) : BM Unit := validateLoop none nodes

/-- Result of the line functions: appended nodes and the remaining slice (the parameters `out` and `nodes` of
`/repo/mintyml/src/document/line.rs:74-84,176-185,257-263`). -/
abbrev LineRes := List Node × List PNode

mutual
  /-- `post_child_combinator` (`/repo/mintyml/src/document/line.rs:74-173`). The first argument
  bounds the recursion (every call removes a node from the slice or ends). -/
  def postChildCombinator : Nat → Range → List PNode → List Selector → Range → BM LineRes
    | 0, _, nodes, _, _ => BM.pure ([], nodes)
    | fuel + 1, prefixRange, nodes, selectors, lastRange =>
      let otherwise : BM LineRes := do
        let (children, rest) ← buildLine fuel nodes
        let range := match children.getLast? with
          | some n => prefixRange.combine n.range
          | none => prefixRange
        let contentRange : Range := ⟨prefixRange.stop, range.stop⟩
        let h : EHead := { EHead.new range (.standard (.line lastRange)) with
          selectors, contentRange }
        return ([Node.ofElem h children], rest)
      match nodes with
      | ⟨_, start, stop, kind⟩ :: rest =>
        let nodeRange : Range := ⟨start, stop⟩
        let prefixRange' : Range := ⟨prefixRange.start, stop⟩
        match kind with
        | .selector _ build => do
          let s ← build
          postSelector fuel prefixRange' rest (selectors ++ [s]) nodeRange
        | .block build => do
          let (h, children) ← build nodeRange false
          let h := { h with ty := .standard (.lineBlock lastRange nodeRange), selectors }
          return ([Node.ofElem h children], rest)
        | .line combinator =>
          postChildCombinator fuel prefixRange' rest (selectors ++ [Selector.empty start]) combinator
        | _ => otherwise
      | [] => otherwise
  /-- `post_selector` (`/repo/mintyml/src/document/line.rs:176-255`). -/
  def postSelector : Nat → Range → List PNode → List Selector → Range → BM LineRes
    | 0, _, nodes, _, _ => BM.pure ([], nodes)
    | fuel + 1, prefixRange, nodes, selectors, lastRange =>
      match nodes with
      | ⟨_, start, stop, kind⟩ :: rest =>
        let prefixRange' : Range := ⟨prefixRange.start, stop⟩
        match kind with
        | .selector range _ => do
          misplaced range (.mustNotFollow [.selector] .selector)
          return ([], nodes)
        | .comment build => do
          let c ← build
          let (out, rest) ← postSelector fuel prefixRange' rest selectors lastRange
          return (c :: out, rest)
        | .line combinator => postChildCombinator fuel prefixRange' rest selectors combinator
        | .block build => do
          let (h, children) ← build prefixRange' true
          let h := { h with selectors }
          return ([Node.ofElem h children], rest)
        | _ => do
          misplaced ⟨start, stop⟩ (.mustPrecede .selector [.element])
          return ([], nodes)
      | [] => BM.pure ([], nodes)
  /-- `extend_line` (`/repo/mintyml/src/document/line.rs:257-309`). -/
  def extendLine : Nat → List PNode → BM LineRes
    | 0, nodes => BM.pure ([], nodes)
    | fuel + 1, nodes =>
      match nodes with
      | [] => BM.pure ([], [])
      | ⟨space, start, stop, kind⟩ :: rest => do
        let sp := (space.map exactSpace).toList
        let nodeRange : Range := ⟨start, stop⟩
        match kind with
        | .text build | .comment build => do
          let n ← build
          let (out, rest) ← extendLine fuel rest
          return (sp ++ n :: out, rest)
        | .selector _ build => do
          let s ← build
          let (out, rest) ← postSelector fuel nodeRange rest [s] nodeRange
          let (out', rest) ← extendLine fuel rest
          return (sp ++ out ++ out', rest)
        | .line _ => do
          let (out, rest) ←
            postChildCombinator fuel nodeRange rest [Selector.empty start] nodeRange
          return (sp ++ out, rest)
        | .block build => do
          let (h, children) ← build nodeRange true
          let (out, rest) ← extendLine fuel rest
          return (sp ++ Node.ofElem h children :: out, rest)
        | .other build => do
          let ns ← build
          let (out, rest) ← extendLine fuel rest
          return (sp ++ ns ++ out, rest)
  /-- `build_line` (`/repo/mintyml/src/document/line.rs:348-357`). -/
  def buildLine : Nat → List PNode → BM LineRes
    | 0, nodes => BM.pure ([], nodes)
    | fuel + 1, nodes => do
      let (out, rest) ← extendLine fuel nodes
      validateLine out
      return (out, rest)
end

/-- Not in the code (bounds the recursion of `/repo/mintyml/src/document/line.rs:74-358`). Enough fuel for a slice of nodes: each of the four functions above is entered with at least
two more than needed for each node of the slice (used by every caller of `build_line`). -/
def lineFuel (nodes : List PNode) : Nat := 3 * nodes.length + 3

/-- `add_line`, the test `starts_with_element` (`/repo/mintyml/src/document/line.rs:26-40`). -/
def startsWithElement (line : List Node) : Bool :=
  match line.find? Node.isVisible with
  | some n =>
    match n.asElement with
    | some h =>
      match h.ty with
      | .standard _ => true
      | .multiline .code => true
      | _ => false
    | none => false
  | none => false

/-- `append_to_previous_node_if_applicable` (`/repo/mintyml/src/document/mod.rs:203-248`): new
`out_nodes` and `line`. -/
def appendToPrevious (outNodes line : List Node) (range : Range) (lastLineEnd : Nat) :
    List Node × List Node :=
  match outNodes.getLast? with
  | some (.elem r h children) =>
    match h.ty with
    | .standard (.line _) | .paragraph =>
      let n : Node := .elem { r with stop := range.stop }
        { h with range := { h.range with stop := range.stop } }
        (children ++ lineEnd lastLineEnd range.start :: line)
      (outNodes.dropLast ++ [n], [])
    | _ => (outNodes, line)
  | _ => (outNodes, line)

/-- `add_line` (`/repo/mintyml/src/document/line.rs:18-71`): new `out_nodes`. -/
def addLine (outNodes line : List Node) (range : Range) (lastLineEnd : Nat)
    (formParagraphs : Bool) : List Node :=
  let containsVisible := (line.find? Node.isVisible).isSome
  let startsElem := startsWithElement line
  let (outNodes, line) :=
    if !startsElem then appendToPrevious outNodes line range lastLineEnd else (outNodes, line)
  if !line.isEmpty then
    let outNodes :=
      if outNodes.any Node.isVisible then outNodes ++ [paragraphEnd lastLineEnd range.start]
      else outNodes
    if formParagraphs && !startsElem && containsVisible then
      outNodes ++ [Node.ofElem (EHead.new range .paragraph) line]
    else outNodes ++ line
  else outNodes

/-- The loop of `build_content` (`/repo/mintyml/src/document/mod.rs:174-195`). -/
def contentLoop (formParagraphs : Bool) : List Node → Nat → List PLine → BM (List Node)
  | outNodes, _, [] => BM.pure outNodes
  | outNodes, lastLineEnd, ⟨start, nodes, stop⟩ :: lines => do
    if nodes.isEmpty then
      contentLoop formParagraphs (outNodes ++ [paragraphEnd lastLineEnd stop]) stop lines
    else
      let (line, _) ← buildLine (lineFuel nodes) nodes
      contentLoop formParagraphs
        (addLine outNodes line ⟨start, stop⟩ lastLineEnd formParagraphs) stop lines

/-- `build_content` (`/repo/mintyml/src/document/mod.rs:160-201`): the nodes (the range of the
content is `start..end`). -/
def buildContent (start : Nat) (lines : List PLine) (formParagraphs : Bool) : BM (List Node) :=
  contentLoop formParagraphs [] start lines

/-! ## Elements (`document/elements.rs`) -/

/-- The kind of an inline special form (`/repo/mintyml/src/document/elements.rs:245-252`). -/
def specialKind : Ast.SpecialForm → SpecialKind
  | .emphasis => .emphasis
  | .strong => .strong
  | .underline => .underline
  | .strike => .strike
  | .quote => .quote

/-- `build_inline_special` for forms with content
(`/repo/mintyml/src/document/elements.rs:218-263`). -/
def buildInlineSpecial (range : Range) (form : Ast.SpecialForm) (open_ : Range)
    (cstart : Nat) (lines : List PLine) (cstop : Nat) (close : Option Range) : BM (List Node) := do
  if close.isNone then unclosed open_ (.specialInline (specialKind form))
  let nodes ← buildContent cstart lines false
  let h : EHead := { EHead.new range (.special (specialKind form)) with
    contentRange := ⟨cstart, cstop⟩ }
  return [Node.ofElem h nodes]

/-- `build_inline_special` for code (`/repo/mintyml/src/document/elements.rs:231-242`). The
subtraction in `range.end -= 2` truncates at 0 in the model. -/
def buildInlineCode (src : Str) (range code : Range) : BM (List Node) := do
  let r : Range := ⟨code.start + 2, code.stop - 2⟩
  let n ← buildTextNode src r false true false false
  let h : EHead := { EHead.new range (.special .code) with contentRange := n.range }
  return [Node.ofElem h [n]]

/-- The replacement of the first visible node in `build_inline`
(`/repo/mintyml/src/document/elements.rs:283-298`): if it is a standard element, it becomes an
inline element. -/
def inlineFirst (range : Range) : List Node → Option (List Node)
  | [] => none
  | n :: rest =>
    if n.isVisible then
      match n with
      | .elem _ h children =>
        match h.ty with
        | .standard d => some (.elem range { h with ty := .inline (some d), range := range } children :: rest)
        | _ => none
      | _ => none
    else (inlineFirst range rest).map (n :: ·)

/-- `build_inline` (`/repo/mintyml/src/document/elements.rs:265-312`). -/
def buildInline (range open_ : Range) (inner : List PNode) (close : Option Range) :
    BM (List Node) := do
  let innerRange : Range := ⟨open_.stop, (close.map Range.start).getD range.stop⟩
  if close.isNone then unclosed open_ .inline
  let (line, _) ← buildLine (lineFuel inner) inner
  validateLine line
  match inlineFirst range line with
  | some line => return line
  | none =>
    let h : EHead := { EHead.new range (.inline none) with contentRange := innerRange }
    return [Node.ofElem h line]

/-- `build_block` (`/repo/mintyml/src/document/elements.rs:314-331`). -/
def buildBlock (lBrace : Range) (cstart : Nat) (lines : List PLine) (cstop : Nat)
    (rBrace : Option Range) (range : Range) (paragraphs : Bool) : BM (EHead × List Node) := do
  if rBrace.isNone then unclosed lBrace .block
  let nodes ← buildContent cstart lines paragraphs
  let h : EHead := { EHead.new range (.standard (.block range)) with
    contentRange := ⟨cstart, cstop⟩ }
  return (h, nodes)

/-- `build_multiline` (`/repo/mintyml/src/document/elements.rs:363-405`). -/
def buildMultiline (src : Str) (range : Range) (kind : MultilineKind) (inner : Range) :
    BM (List Node) := do
  let unescapeIn := match kind with
    | .escaped => true
    | .unescaped | .code => false
  let n ← buildTextNode src inner unescapeIn true false true
  let h : EHead := { EHead.new range (.multiline kind) with contentRange := inner }
  return [Node.ofElem h [n]]

mutual
  /-- A syntax node with the functions of `extend_line`
  (`/repo/mintyml/src/document/line.rs:279-305`) and `build_element`
  (`/repo/mintyml/src/document/elements.rs:333-361`) that build it. -/
  def prepNode (src : Str) : Ast.Node → PNode
    | .mk space start stop ty => ⟨space, start, stop, prepType src ⟨start, stop⟩ ty⟩
  /-- See `prepNode` (`/repo/mintyml/src/document/line.rs:279-305`). -/
  def prepType (src : Str) (range : Range) : Ast.NodeType → PKind
    | .multiline kind start stop => .other (buildMultiline src range kind ⟨start, stop⟩)
    | .text (.comment c) => .comment (buildCommentNode c)
    | .text t => .text (buildInlineText src t)
    | .selector s => .selector ⟨s.start, s.stop⟩ (buildSelector s)
    | .line combinator => .line combinator
    | .block lBrace (.mk cstart lines cstop) rBrace =>
      .block (buildBlock lBrace cstart (prepLines src lines) cstop rBrace)
    | .inline open_ inner close => .other (buildInline range open_ (prepNodes src inner) close)
    | .special form open_ (.mk cstart lines cstop) close =>
      .other (buildInlineSpecial range form open_ cstart (prepLines src lines) cstop close)
    | .code code => .other (buildInlineCode src range code)
  /-- The nodes of a line (`/repo/mintyml/src/ast.rs:33`). -/
  def prepNodes (src : Str) : List Ast.Node → List PNode
    | [] => []
    | n :: ns => prepNode src n :: prepNodes src ns
  /-- A line (`/repo/mintyml/src/ast.rs:30-35`). -/
  def prepLine (src : Str) : Ast.Line → PLine
    | .mk start nodes stop => ⟨start, prepNodes src nodes, stop⟩
  /-- The lines of a content (`/repo/mintyml/src/ast.rs:38-43`). -/
  def prepLines (src : Str) : List Ast.Line → List PLine
    | [] => []
    | l :: ls => prepLine src l :: prepLines src ls
end

/-- `Document::from_ast` (`/repo/mintyml/src/document/mod.rs:259-276`). -/
def fromAst (src : Str) (ast : Ast.Document) : BM Document :=
  match ast.content with
  | .mk start lines stop => do
    let nodes ← buildContent start (prepLines src lines) true
    return { range := ⟨0, byteLen src⟩, contentRange := ⟨start, stop⟩, nodes }

/-- `gramma::ParseError` as used by `From<ParseError> for SyntaxError`
(`/repo/mintyml/src/error.rs:127-138`). -/
structure ParseError where
  location : Nat
  actual : Str
  expected : List Str

/-- `From<ParseError> for SyntaxError` (`/repo/mintyml/src/error.rs:127-138`). -/
def ParseError.toSyntax (e : ParseError) : SyntaxError :=
  ⟨⟨e.location, e.location + byteLen e.actual⟩, .parseFailed e.expected⟩

/-- `Document::parse` (`/repo/mintyml/src/document/mod.rs:278-286`). `parse` stands for `ast::parse`
(`/repo/mintyml/src/ast.rs:52-54`), which is the external parser. -/
def parseDocument (parse : Str → Except ParseError Ast.Document) (src : Str) : BM Document :=
  match parse src with
  | .ok ast => fromAst src ast
  | .error e => do
    BM.syntaxErr [e.toSyntax]
    BM.fail

end Build

end Mty
