import Verif.Model.Doc

/-!
# Specification: how the lines of a content are laid out

After `/repo/README.md` ("Paragraphs"): consecutive lines of text form a paragraph; a blank line or
an element ends it; a line after a `>` element continues that element.
-/

namespace Mty.Spec

/-- A line of a content: blank, or a line from `a` to `b` with the nodes it consists of. -/
inductive SrcLine where
  | blank (stop : Nat)
  | line (a b : Nat) (nodes : List Node)

/-- A block or line element, or a code block. -/
def isBlockLevel : Node → Prop
  | .elem _ h _ =>
    match h.ty with
    | .standard _ => True
    | .multiline .code => True
    | _ => False
  | .text _ _ => False

/-- The first visible node is a block-level element. -/
def StartsWithElement (nodes : List Node) : Prop :=
  ∃ pre n post, nodes = pre ++ n :: post ∧ (∀ x ∈ pre, x.isVisible = false) ∧
    n.isVisible = true ∧ isBlockLevel n

/-- Not blank and not starting with a block-level element. -/
def SrcLine.isText : SrcLine → Prop
  | .blank _ => False
  | .line _ _ nodes => ¬ StartsWithElement nodes

/-- The node is a paragraph or a `>` element without block: a following line of text continues
it. -/
def Continues : Node → Prop
  | .elem _ h _ =>
    match h.ty with
    | .paragraph => True
    | .standard (.line _) => True
    | _ => False
  | .text _ _ => False

/-- A separator between paragraphs. -/
def paragraphSep (a b : Nat) : Node := .text ⟨a, b⟩ (.space .paragraphEnd)

/-- A separator between lines. -/
def lineSep (a b : Nat) : Node := .text ⟨a, b⟩ (.space .lineEnd)

/-- `Joined e n run e' n'`: `n` (which ends at or before `e`) with the lines `run` added to it as
further content, separated by line separators, is `n'`, and ends at `e'`. -/
inductive Joined : Nat → Node → List SrcLine → Nat → Node → Prop
  | nil {e n} : Joined e n [] e n
  | cons {e e' r h ch a b nodes run n'} :
      Joined b (.elem { r with stop := b } { h with range := { h.range with stop := b } }
        (ch ++ lineSep e a :: nodes)) run e' n' →
      Joined e (.elem r h ch) (.line a b nodes :: run) e' n'

/-- The run of text lines is maximal: what follows is not a text line. -/
def EndsRun : List SrcLine → Prop
  | [] => True
  | l :: _ => ¬ l.isText

/-- `Layout paragraphs before e lines out`: `out` is the content made of `lines`, the first of which
follows position `e`; `before` says whether something visible comes before. -/
inductive Layout (paragraphs : Bool) : Bool → Nat → List SrcLine → List Node → Prop
  | nil {before e} : Layout paragraphs before e [] []
  /-- A blank line separates paragraphs. -/
  | blank {before e stop ls out} : Layout paragraphs before stop ls out →
      Layout paragraphs before e (.blank stop :: ls) (paragraphSep e stop :: out)
  /-- A line of which nothing is left. -/
  | empty {before e a b ls out} : Layout paragraphs before b ls out →
      Layout paragraphs before e (.line a b [] :: ls) out
  /-- A maximal run of text lines, the first of which has something visible, forms a paragraph. -/
  | paragraph {before e a b nodes run rest e' p out} :
      paragraphs = true → ¬ StartsWithElement nodes → (∃ n ∈ nodes, n.isVisible = true) →
      (∀ l ∈ run, l.isText) → EndsRun rest →
      Joined b (.elem ⟨a, b⟩ (EHead.new ⟨a, b⟩ .paragraph) nodes) run e' p →
      Layout paragraphs true e' rest out →
      Layout paragraphs before e (.line a b nodes :: run ++ rest)
        ((if before then [paragraphSep e a] else []) ++ p :: out)
  /-- Any other line that ends with a `>` element: the element is continued by the following text
  lines. -/
  | continued {before e a b nodes last run rest e' p out} :
      (paragraphs = true → StartsWithElement (nodes ++ [last]) ∨
        ∀ n ∈ nodes ++ [last], n.isVisible = false) →
      Continues last → (∀ l ∈ run, l.isText) → EndsRun rest →
      Joined b last run e' p →
      Layout paragraphs true e' rest out →
      Layout paragraphs before e (.line a b (nodes ++ [last]) :: run ++ rest)
        ((if before then [paragraphSep e a] else []) ++ nodes ++ p :: out)
  /-- Any other line: its nodes are the content. -/
  | other {before e a b nodes last ls out} :
      (paragraphs = true → StartsWithElement (nodes ++ [last]) ∨
        ∀ n ∈ nodes ++ [last], n.isVisible = false) →
      ¬ Continues last →
      Layout paragraphs (before || (nodes ++ [last]).any Node.isVisible) b ls out →
      Layout paragraphs before e (.line a b (nodes ++ [last]) :: ls)
        ((if before then [paragraphSep e a] else []) ++ nodes ++ last :: out)

/-! ## Where paragraphs occur -/

/-- The node is a paragraph. -/
def isParagraph : Node → Prop
  | .elem _ h _ => h.ty = .paragraph
  | .text _ _ => False

/-- The content of elements of this type is divided into paragraphs: only `{ .. }` blocks, also
within `<( .. )>`, not after `>`. -/
def HoldsParagraphs : ElementType → Prop
  | .standard (.block _) => True
  | .inline (some (.block _)) => True
  | _ => False

/-- A visible node of content that is divided into paragraphs is a paragraph or a block-level
element. -/
def Divided (nodes : List Node) : Prop :=
  ∀ c ∈ nodes, c.isVisible = true → isParagraph c ∨ isBlockLevel c

/-- Within the node, paragraphs occur only directly in blocks. If `strict`, there is also nothing
but paragraphs and block-level elements in blocks. -/
inductive ParagraphsOk (strict : Prop) : Node → Prop
  | text {r t} : ParagraphsOk strict (.text r t)
  | elem {r h ch} :
      (¬ HoldsParagraphs h.ty → ∀ c ∈ ch, ¬ isParagraph c) →
      (strict → HoldsParagraphs h.ty → Divided ch) →
      (∀ c ∈ ch, ParagraphsOk strict c) →
      ParagraphsOk strict (.elem r h ch)

end Mty.Spec
