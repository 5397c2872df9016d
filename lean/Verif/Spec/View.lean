import Verif.Model.View

/-!
# Specification: the view of the output, links into it, and panes (independent of the code)

The input and the observable parts are those of the page: events, what is in the frame, where it was scrolled to, what a pane shows.
-/

set_option autoImplicit false

namespace Mty.Spec

open View

/-- The last output in a history. -/
def lastOutput : List Event → Option Str
  | [] => none
  | e :: es =>
    match lastOutput es with
    | some s => some s
    | none => match e with
      | .output s => some s
      | _ => none

/-- The elements of the document that are in the head of the frame. -/
def shownHead (s : State) : List Str := s.head.filterMap fun
  | .user x => some x
  | _ => none

/-- The elements of the page itself in the head of the frame: style, theme, and a base. -/
def ownHead (s : State) : List String := s.head.filterMap fun
  | .style => some "style"
  | .theme => some "theme"
  | .base _ => some "base"
  | .user _ => none

/-- Only outputs, none of which has the id. -/
def OutputsWithout (b : Browser) (id : Str) (es : List Event) : Prop :=
  ∀ e ∈ es, ∃ src, e = .output src ∧ id ∉ (b.parse src).ids

/-- Only outputs. -/
def Outputs (es : List Event) : Prop := ∀ e ∈ es, ∃ src, e = .output src

/-- A link to the id has the id as its fragment: so for letters, digits and `-`. -/
def PlainId (b : Browser) (id : Str) : Prop := id ≠ [] ∧ b.fragment id = '#' :: id

/-- Is the pane open after a history, if it is open before? -/
def openAfter : Bool → List PaneEvent → Bool
  | o, [] => o
  | o, .click :: es => openAfter (!o) es
  | _, .set _ :: es => openAfter true es
  | _, .remove :: es => openAfter false es

end Mty.Spec
