import Verif.Spec.Usable
import Verif.Spec.Transform
import Verif.Spec.Leaves
import Verif.Model.Convert

/-!
# Specification: the forms with configured tags that a source uses (C95)
-/

set_option autoImplicit false

namespace Mty.Spec

/-- The forms with configured tags that a node of the syntax tree has: inline formatting, inline code, and code blocks, which have code in
a container. -/
def formsOf : Ast.NodeType → List SpecialKind
  | .special f _ _ _ => [formKind f]
  | .code _ => [.code]
  | .multiline .code _ _ => [.codeBlockContainer, .code]
  | _ => []

/-- The form occurs in the tree, at any depth. -/
def Uses (ast : Ast.Document) (k : SpecialKind) : Prop := ∃ sp a b ty, Ast.Node.mk sp a b ty ∈ allNodes ast ∧ k ∈ formsOf ty

/-- How the forms begin in the source. -/
def marksOf : SpecialKind → List Str
  | .emphasis => ["</".toList]
  | .strong => ["<#".toList]
  | .underline => ["<_".toList]
  | .strike => ["<~".toList]
  | .quote => ["<\"".toList]
  | .code => ["<`".toList, "```".toList]
  | .codeBlockContainer => ["```".toList]

/-- The beginning of the form occurs somewhere in the source. -/
def Marked (src : Str) (k : SpecialKind) : Prop := ∃ m ∈ marksOf k, m <:+: src

/-- The functions of the library give the same with both configurations: the same output, the same errors, and the same output beside
errors. -/
def SameResults (parse : Parser) (src : Str) (a b : OutputConfig) : Prop :=
  convert parse src a = convert parse src b ∧ convertForgiving parse src a = convertForgiving parse src b ∧
  ∀ buf, convertTo parse src a buf = convertTo parse src b buf

end Mty.Spec
