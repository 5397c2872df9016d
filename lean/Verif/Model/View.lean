import Verif.Model.Str

/-!
# The view of the output and the panes of the demonstration page

`/repo/web-demo/src/index.ts` (`_updateDoc`, `_showElementInHash`, `updateURL`) and `/repo/web-demo/src/collapsible.ts`. The browser is
external: how it parses markup (`DOMParser`) and how it writes the fragment of an address (`location.hash`) are parameters. A step is one
turn of the event loop, with the microtasks of the turn at its end.
-/

namespace Mty.View

/-- What the browser makes of the output (`new DOMParser().parseFromString(src, 'text/html')`, `/repo/web-demo/src/index.ts:151`): the
`title`, `link` and `style` elements of its head (line 164), its body, and the ids in these. -/
structure Parsed where
  head : List Str
  body : Str
  ids : List Str
deriving DecidableEq, Repr

/-- The browser (used at `/repo/web-demo/src/index.ts:151,209`): the parser of markup, and the fragment as it is given by
`location.hash`, with the `#`, for a link to an id. -/
structure Browser where
  parse : Str → Parsed
  fragment : Str → Str

/-- An element in the head of the frame: those that the constructor puts there (`/repo/web-demo/src/index.ts:78-98`), and those of the
output, which have the class `-user-provided` (lines 160-169). -/
inductive HeadItem where
  | style
  | theme
  | base (href : Option Str)
  | user (element : Str)
deriving DecidableEq, Repr

/-- The state: the document in the frame (`none` if there is none), the address, `_shouldShowElementInHash`
(`/repo/web-demo/src/index.ts:205`), and the ids of the elements that were scrolled into view, in order. -/
structure State where
  head : List HeadItem
  body : Str
  ids : List Str
  /-- `window.location.href`, without the fragment. -/
  address : Str
  /-- `document.location.hash`. -/
  hash : Str
  shouldShow : Bool
  scrolled : List Str
deriving DecidableEq, Repr

/-- The page when it is loaded, after the constructor (`/repo/web-demo/src/index.ts:71-98,205`). -/
def State.new (address hash : Str) : State :=
  { head := [.style, .theme, .base none], body := [], ids := [], address, hash, shouldShow := true, scrolled := [] }

/-- `_showElementInHash` (`/repo/web-demo/src/index.ts:207-222`). -/
def showElementInHash (s : State) : State :=
  let s := { s with shouldShow := false }
  if s.hash.length < 2 then s
  else
    let id := s.hash.drop 1
    if id ∈ s.ids then { s with scrolled := s.scrolled ++ [id] } else { s with shouldShow := true }

/-- `base.href = ..` for the first `base` element (`/repo/web-demo/src/index.ts:155-158`). -/
def setBase (href : Str) : List HeadItem → List HeadItem
  | [] => []
  | .base _ :: rest => .base (some href) :: rest
  | x :: rest => x :: setBase href rest

/-- Does the element have the class `-user-provided`? (`/repo/web-demo/src/index.ts:160`) -/
def HeadItem.isUser : HeadItem → Bool
  | .user _ => true
  | _ => false

/-- `_updateDoc` (`/repo/web-demo/src/index.ts:148-176`) with the microtask of line 174. The frame is assumed to have a document
(line 150). -/
def updateDoc (b : Browser) (src : Str) (s : State) : State :=
  let d := b.parse src
  let s := { s with
    head := (setBase (s.address ++ s.hash) s.head).filter (fun x => !x.isUser) ++ d.head.map .user
    body := d.body
    ids := d.ids }
  if s.shouldShow then showElementInHash s else s

/-- The address part of `_loadExample` (`/repo/web-demo/src/index.ts:13-42,183`): the fragment is removed. `replaceState` causes no
`hashchange`. The new value of the parameter `example` is in `address`. -/
def loadExample (address : Str) (s : State) : State := { s with address, hash := [] }

/-- What can happen: an answer of the worker with an output (`/repo/web-demo/src/index.ts:246-250`), another fragment in the address
(line 232), an example being loaded (lines 195-203), a change of the address without the fragment. -/
inductive Event where
  | output (src : Str)
  | hashChange (id : Str)
  | load (address : Str)
deriving DecidableEq, Repr

/-- One step (`/repo/web-demo/src/index.ts:183,232,250`). -/
def step (b : Browser) (s : State) : Event → State
  | .output src => updateDoc b src s
  | .hashChange id => showElementInHash { s with hash := b.fragment id }
  | .load address => loadExample address s

/-- Any number of steps (the events at `/repo/web-demo/src/index.ts:195-203,232,246-250`). -/
def run (b : Browser) : State → List Event → State
  | s, [] => s
  | s, e :: es => run b (step b s e) es

/-- The page after `init` (`/repo/web-demo/src/index.ts:226-238`), which loads the example. -/
def start (address hash : Str) : State := loadExample address (State.new address hash)

/-! ## Panes (`/repo/web-demo/src/collapsible.ts`) -/

/-- A pane (`/repo/web-demo/src/collapsible.ts:7-10`): the attribute `open` with its value, `ariaExpanded` of the button and `hidden`
of the content. -/
structure Pane where
  open_ : Option Str
  expanded : Str
  hidden : Bool
deriving DecidableEq, Repr

/-- `String(b)` of a Boolean value (JavaScript; `/repo/web-demo/src/collapsible.ts:19,37`). -/
def boolStr (b : Bool) : Str := if b then "true".toList else "false".toList

/-- The constructor (`/repo/web-demo/src/collapsible.ts:12-32`). -/
def Pane.new (open_ : Option Str) : Pane := { open_, expanded := boolStr open_.isSome, hidden := !open_.isSome }

/-- `attributeChangedCallback` (`/repo/web-demo/src/collapsible.ts:34-40`), which the browser calls after each change of the observed
attribute (line 6). -/
def Pane.attributeChanged (name : Str) (newValue : Option Str) (p : Pane) : Pane :=
  if name = "open".toList then
    let isOpen := newValue.isSome
    { p with expanded := boolStr isOpen, hidden := !isOpen }
  else p

/-- A change of the attribute `open` (DOM), with the callback (`/repo/web-demo/src/collapsible.ts:34-40`). -/
def Pane.setOpen (v : Option Str) (p : Pane) : Pane := Pane.attributeChanged "open".toList v { p with open_ := v }

/-- `toggleVisibility`, the handler of clicks (`/repo/web-demo/src/collapsible.ts:27-31`); `toggleAttribute` of the DOM. -/
def Pane.click (p : Pane) : Pane :=
  match p.open_ with
  | some _ => p.setOpen none
  | none => p.setOpen (some [])

/-- What can happen to a pane: a click (`/repo/web-demo/src/collapsible.ts:31`), `setAttribute`, `removeAttribute`
(`/repo/web-demo/src/index.ts:347`). -/
inductive PaneEvent where
  | click
  | set (value : Str)
  | remove
deriving DecidableEq, Repr

/-- One step of a pane (`/repo/web-demo/src/collapsible.ts:27-40`, `/repo/web-demo/src/index.ts:347`). -/
def Pane.step (p : Pane) : PaneEvent → Pane
  | .click => p.click
  | .set v => p.setOpen (some v)
  | .remove => if p.open_.isSome then p.setOpen none else p

/-- Any number of steps (`/repo/web-demo/src/collapsible.ts:27-40`). -/
def Pane.run : Pane → List PaneEvent → Pane
  | p, [] => p
  | p, e :: es => Pane.run (p.step e) es

end Mty.View
