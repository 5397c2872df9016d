import Verif.Model.Ast
import Verif.Spec.PlainText

/-!
# Specification: the tokens of a syntax tree

Every part of the source that a tree accounts for, in order: texts, delimiters, fences, names, values, brackets. `Covers src ts` says
that `src` consists of these parts in this order, with nothing but white space between them.
-/

set_option autoImplicit false

namespace Mty.Spec

/-- `name`, `name=value`. The `=` (with white space around it) is between name and value. -/
def attributeTokens (a : Ast.Attribute) : List Range :=
  match a.value with
  | none => [a.name]
  | some (.unquoted r) => [a.name, ⟨a.name.stop, r.start⟩, r]
  | some (.quoted r) => [a.name, ⟨a.name.stop, r.start⟩, r]

def bracketTokens (a : Ast.AttributeSelector) : List Range :=
  a.lBracket :: a.parts.flatMap attributeTokens ++ a.rBracket.toList

def classTokens : Ast.ClassLike → List Range
  | .cls m n => [m, n]
  | .id m n => [m, n]
  | .invalid r => [r]

def elementTokens : Option Ast.ElementSelector → List Range
  | none => []
  | some (.name r) => [r]
  | some (.star r) => [r]

def segmentTokens : Ast.SelectorSegment → List Range
  | .attributes a => bracketTokens a
  | .classLike cs => cs.flatMap classTokens

def selectorTokens (s : Ast.Selector) : List Range :=
  (match s.first with
    | .attributes a => bracketTokens a
    | .tag e cs => elementTokens e ++ cs.flatMap classTokens) ++ s.segments.flatMap segmentTokens

def textTokens : Ast.InlineText → List Range
  | .segment r => [r]
  | .verbatim o raw tail => o :: raw.toList ++
    [match tail with
      | .verbatim0 r => r
      | .verbatim1 r => r
      | .verbatim2 r => r]
  | .comment c => c.open_ :: c.inner :: c.close.toList
  | .interpolation r => [r]

mutual
  /-- The tokens of a node from `a` to `b`. -/
  def typeTokens (a b : Nat) : Ast.NodeType → List Range
    | .multiline _ s e => [⟨a, s⟩, ⟨s, e⟩, ⟨e, b⟩]
    | .text t => textTokens t
    | .selector s => selectorTokens s
    | .line c => [c]
    | .block l (.mk _ lines _) r => l :: (linesTokens lines ++ r.toList)
    | .inline o inner c => o :: (nodesTokens inner ++ c.toList)
    | .special _ o (.mk _ lines _) c => o :: (linesTokens lines ++ c.toList)
    | .code r => [r]
  def nodesTokens : List Ast.Node → List Range
    | [] => []
    | .mk _ a b ty :: ns => typeTokens a b ty ++ nodesTokens ns
  def linesTokens : List Ast.Line → List Range
    | [] => []
    | .mk _ ns _ :: ls => nodesTokens ns ++ linesTokens ls
end

/-- The tokens of a tree. -/
def treeTokens (ast : Ast.Document) : List Range :=
  match ast.content with
  | .mk _ lines _ => linesTokens lines

/-- After `before`, the text `rest` consists of the given parts with nothing but white space before, between and after them. -/
def CoversFrom : Str → Str → List Range → Prop
  | _, rest, [] => ∀ c ∈ rest, White c
  | before, rest, x :: xs => ∃ w t rest', rest = w ++ (t ++ rest') ∧ (∀ c ∈ w, White c) ∧
      x = ⟨byteLen (before ++ w), byteLen (before ++ w ++ t)⟩ ∧ CoversFrom (before ++ w ++ t) rest' xs

/-- The source consists of the given parts, with nothing but white space before, between and after them. -/
def Covers (src : Str) (ts : List Range) : Prop := CoversFrom [] src ts

end Mty.Spec
