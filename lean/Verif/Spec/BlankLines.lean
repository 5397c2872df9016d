import Verif.Spec.Same
import Verif.Spec.PlainText

/-!
# Specification: repeated blank lines

For C90: a syntax tree with one blank line where there are several in a row, at the top and in the content of every element.
-/

set_option autoImplicit false

namespace Mty.Spec

mutual
  /-- A node of the syntax tree with single blank lines in its content. -/
  def squeezeType : Ast.NodeType → Ast.NodeType
    | .block l (.mk a lines b) r => .block l (.mk a (squeezeLines false lines) b) r
    | .special f o (.mk a lines b) r => .special f o (.mk a (squeezeLines false lines) b) r
    | .inline o ns r => .inline o (squeezeNodes ns) r
    | .multiline k a b => .multiline k a b
    | .text t => .text t
    | .selector s => .selector s
    | .line r => .line r
    | .code r => .code r
  def squeezeNodes : List Ast.Node → List Ast.Node
    | [] => []
    | .mk sp a b ty :: ns => .mk sp a b (squeezeType ty) :: squeezeNodes ns
  /-- The lines without blank lines that follow another blank line. The first argument says whether the line before is blank. -/
  def squeezeLines : Bool → List Ast.Line → List Ast.Line
    | _, [] => []
    | false, .mk a [] b :: ls => .mk a [] b :: squeezeLines true ls
    | true, .mk _ [] _ :: ls => squeezeLines true ls
    | _, .mk a (n :: ns) b :: ls => .mk a (squeezeNodes (n :: ns)) b :: squeezeLines false ls
end

/-- The syntax tree with single blank lines only. -/
def squeezed : Ast.Document → Ast.Document
  | ⟨.mk a lines b⟩ => ⟨.mk a (squeezeLines false lines) b⟩

/-- A line break, at least one blank line, and an indentation by spaces and tabs. -/
def BlankBetween (gap : Str) : Prop :=
  ∃ lines indent : Str, gap = '\n' :: (lines ++ '\n' :: indent) ∧ (∀ c ∈ lines, White c) ∧ ∀ c ∈ indent, c = ' ' ∨ c = '\t'

end Mty.Spec
