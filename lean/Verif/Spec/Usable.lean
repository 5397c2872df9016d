import Verif.Spec.Structure

/-!
# Specification: sources whose output can be read as markup

Conditions on the source alone: names of elements begin with a letter, names of elements and attributes are written without escapes and
without the characters that end a name in markup, there are no interpolations and, in HTML, no raw texts and no `script` and `style`.
-/

set_option autoImplicit false

namespace Mty.Spec

mutual
  /-- All nodes of a syntax tree, at any depth. -/
  def allOf : List Ast.Node → List Ast.Node
    | [] => []
    | .mk sp a b ty :: ns => .mk sp a b ty :: (allOfType ty ++ allOf ns)
  def allOfType : Ast.NodeType → List Ast.Node
    | .block _ (.mk _ lines _) _ => allOfLines lines
    | .inline _ inner _ => allOf inner
    | .special _ _ (.mk _ lines _) _ => allOfLines lines
    | _ => []
  def allOfLines : List Ast.Line → List Ast.Node
    | [] => []
    | .mk _ ns _ :: ls => allOf ns ++ allOfLines ls
end

/-- All nodes of a document. -/
def allNodes (ast : Ast.Document) : List Ast.Node :=
  match ast.content with
  | .mk _ lines _ => allOfLines lines

/-- ASCII letters. -/
def isLetter (c : Char) : Prop := ('a' ≤ c ∧ c ≤ 'z') ∨ ('A' ≤ c ∧ c ≤ 'Z')

/-- The name of an element begins with a letter and has no escapes. In HTML it is not `script` or `style`. -/
def UsableName (xml : Bool) (n : Str) : Prop :=
  (∃ c s, n = c :: s ∧ isLetter c) ∧ '\\' ∉ n ∧ (xml = false → n ≠ "script".toList ∧ n ≠ "style".toList)

/-- The name of an attribute has no escapes, `<`, `&` or control characters. -/
def UsableAttributeName (n : Str) : Prop :=
  ∀ c ∈ n, c ≠ '\\' ∧ c ≠ '<' ∧ c ≠ '&' ∧ 32 ≤ c.toNat ∧ c.toNat ≠ 127

/-- The node can be written as markup that can be read. -/
def UsableNode (xml : Bool) (src : Str) : Ast.Node → Prop
  | .mk sp _ _ ty => (∀ r, sp = some r → '\r' ∉ r.slice src) ∧
    match ty with
    | .selector s => (∀ n, writtenName src s = some n → UsableName xml n) ∧
        ∀ n v, Part.attribute n v ∈ writtenParts src s → UsableAttributeName n
    | .text (.interpolation _) => False
    | .text (.verbatim _ (some _) _) => xml = true
    | _ => True

/-- The source can be written as markup that can be read. -/
def Usable (xml : Bool) (src : Str) (ast : Ast.Document) : Prop := ∀ n ∈ allNodes ast, UsableNode xml src n

end Mty.Spec
