import Verif.Spec.Structure
import Verif.Spec.Pieces

/-!
# Specification: from the selectors of the source to the start tags of the output (C45)
-/

set_option autoImplicit false

namespace Mty.Spec

/-! ## The selectors of the source -/

/-- The nodes after a selector (`.selector`) or after a `>` that follows one (`.arrow`) complete the element. A selector at the end of its
line, with nothing but comments after it, has no element. -/
def completes : LineSt → List Ast.Node → Bool
  | .selector, [] => false
  | .selector, .mk _ _ _ (.text (.comment _)) :: l => completes .selector l
  | .selector, .mk _ _ _ (.line _) :: l => completes .arrow l
  | .arrow, .mk _ _ _ (.selector _) :: l => completes .selector l
  | .arrow, .mk _ _ _ (.line _) :: l => completes .arrow l
  | _, _ => true

mutual
  /-- The selectors with an element in a node, in order. -/
  def typeSelectors : Ast.NodeType → List Ast.Selector
    | .block _ (.mk _ lines _) _ => linesSelectors lines
    | .inline _ inner _ => lineSelectors inner
    | .special _ _ (.mk _ lines _) _ => linesSelectors lines
    | _ => []
  /-- The selectors with an element in a line. -/
  def lineSelectors : List Ast.Node → List Ast.Selector
    | [] => []
    | .mk _ _ _ (.selector s) :: ns => (if completes .selector ns then [s] else []) ++ lineSelectors ns
    | .mk _ _ _ ty :: ns => typeSelectors ty ++ lineSelectors ns
  /-- The selectors with an element in a content. -/
  def linesSelectors : List Ast.Line → List Ast.Selector
    | [] => []
    | .mk _ ns _ :: ls => lineSelectors ns ++ linesSelectors ls
end

/-- Name and parts of the selectors that have an element, in order; selectors that say nothing (`*`, or a bare `>`) are left out. -/
def sourceSelectors (src : Str) : Ast.Document → List (Option Str × List Part)
  | ⟨.mk _ lines _⟩ => ((linesSelectors lines).map fun s => (writtenName src s, writtenParts src s)).filter (· ≠ (none, []))

/-! ## The start tags of the output -/

/-- `Carried written elements`: every selector written belongs to an element, in the same order, which has its name (or a name that was
filled in) and exactly its ids, classes and attributes. All other elements have none. -/
inductive Carried : List (Option Str × List Part) → List (Option Str × List Part) → Prop
  | nil : Carried [] []
  | written {m n ps l l'} : (m = none ∨ n = m) → Carried l l' → Carried ((m, ps) :: l) ((n, ps) :: l')
  | added {n l l'} : Carried l l' → Carried l ((n, []) :: l')

/-- The ids. -/
def partIds (ps : List Part) : List Str := ps.filterMap fun | .id n => some n | _ => none

/-- The classes. -/
def partClasses (ps : List Part) : List Str := ps.filterMap fun | .cls n => some n | _ => none

/-- The attributes in brackets. -/
def partAttributes (ps : List Part) : List (Str × Option Str) := ps.filterMap fun | .attribute n v => some (n, v) | _ => none

/-- The attributes of the element: the first id, all classes in one attribute, all attributes in order, with escapes resolved. Attributes
without a value have an empty one in XML. -/
inductive PartsRead (xml : Bool) (ps : List Part) : List (Str × Option Str) → Prop
  | mk {id cls attrs} :
      List.Forall₂ (Unescapes Accepted) ((partIds ps).take 1) id →
      List.Forall₂ (Unescapes Accepted) (partClasses ps) cls →
      List.Forall₂ (fun (a p : Str × Option Str) => Unescapes Accepted a.1 p.1 ∧
          (∀ v, a.2 = some v → ∃ x, p.2 = some x ∧ Unescapes Accepted v x) ∧
          (a.2 = none → p.2 = if xml then some [] else none))
        (partAttributes ps) attrs →
      PartsRead xml ps
        (id.map (fun x => ("id".toList, some x)) ++
          (if cls.isEmpty then [] else [("class".toList, some (List.intercalate [' '] cls))]) ++ attrs)

/-- How a start tag is written: the name, then the attributes, with values in quotation marks that are read back as what is meant. -/
def StartTag (xml : Bool) (p : Str × List Part) (tag : Str) : Prop :=
  ∃ attrs ws close, PartsRead xml p.2 attrs ∧ List.Forall₂ (AttrWritten xml) attrs ws ∧ (close = [] ∨ close = ['/']) ∧
    tag = '<' :: p.1 ++ ws.flatten ++ close ++ ['>']

/-- The elements that have a name. -/
def named (l : List (Option Str × List Part)) : List (Str × List Part) := l.filterMap fun p => p.1.map (·, p.2)

/-- Name and parts of a selector of a document. -/
def sigOf (src : Str) (s : Selector) : Option Str × List Part := (s.tag.name.map (·.asStr src), documentParts src s.items)

end Mty.Spec
