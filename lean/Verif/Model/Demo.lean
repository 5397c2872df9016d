import Verif.Model.JsClass

/-!
# The demonstration page (`/repo/web-demo/src/index.ts`, `/repo/web-demo/src/worker.ts`)

The page is a state machine: the state is what the page keeps and shows, and everything that is still to come
(texts the worker has not answered, timers, downloads, an `input` event of the editor). One step is one turn of the
event loop. Not modelled: the look of the page and the selection. The view of the output as a document
(`_updateDoc`, which is given the same text as the output pane) and `hashchange` are in `Model/View.lean`. The editor (ACE), `localStorage`, `fetch`,
`setTimeout` and the queue of messages of a worker are external; they are assumed to do what their documentation says.
-/

namespace Mty.Demo

/-- What the page is given: the conversion of the worker, and the row and column the editor computes for an offset in a
text (`doc.indexToPosition`, `/repo/web-demo/src/index.ts:257-258`). -/
structure Env where
  conv : Str → Js.Result
  place : Str → Nat → Nat × Nat

/-- The conversion of the worker (`/repo/web-demo/src/worker.ts:7-13`). -/
def workerConv (parse : Parser) (debug : Str → Str) (input : Str) : Js.Result :=
  (Js.Converter.new { indent := some 2, completePage := some true }).convertForgiving parse debug input

/-- `POST_SEND_DELAY` (`/repo/web-demo/src/index.ts:51`). -/
def POST_SEND_DELAY : Int := 3000

/-- The fields of `Demo` (`/repo/web-demo/src/index.ts:56-69`, `_markers` at `:224`), and the state of the page around
it. -/
structure State where
  /-- The text of the editor. -/
  editor : Str
  /-- An `input` event of the editor is still to come (the editor sends it some time after a change). -/
  inputEvent : Bool
  worker : Bool
  sent : Option Int
  dirty : Bool
  lastInput : Option Str
  isLoadingExample : Bool
  exampleName : Str
  /-- The parameter `example` of the URL. -/
  url : Str
  /-- The value of the selection box. -/
  selected : Str
  /-- For every option of the selection box, whether its label has a star. -/
  star : Str → Option Bool
  /-- `localStorage`, by the name of the example. -/
  storage : Str → Option Str
  /-- The texts sent to the worker and not answered, oldest first. -/
  requests : List Str
  /-- The number of timers (`setTimeout`) that have not fired. -/
  timers : Nat
  /-- The examples being downloaded. -/
  fetches : List Str
  /-- `Date.now()`. Nothing is assumed about the clock. -/
  now : Int
  /-- The text of the output pane. -/
  output : Str
  markers : List ((Nat × Nat) × (Nat × Nat))
  annotations : List ((Nat × Nat) × Str)

/-- A function with one value changed (`localStorage.setItem`, `removeItem`, `/repo/web-demo/src/index.ts:326,332`). -/
def put {β : Type} (f : Str → β) (n : Str) (v : β) : Str → β := fun m => if m = n then v else f m

/-- `_storeModified` (`/repo/web-demo/src/index.ts:322-327`). -/
def storeModified (input : Str) (s : State) : State :=
  if s.isLoadingExample then s
  else { s with
    star := match s.star s.exampleName with
      | some _ => put s.star s.exampleName (some true)
      | none => s.star
    storage := put s.storage s.exampleName (some input) }

/-- `_clearModified` (`/repo/web-demo/src/index.ts:329-333`). -/
def clearModified (s : State) : State :=
  { s with
    star := match s.star s.exampleName with
      | some _ => put s.star s.exampleName (some false)
      | none => s.star
    storage := put s.storage s.exampleName none }

/-- The part of `_update` after the checks of `_dirty`, `_worker` and `_sent` (`/repo/web-demo/src/index.ts:313-319`). -/
def send (s : State) : State :=
  if some s.editor = s.lastInput then s
  else
    let s := storeModified s.editor { s with lastInput := some s.editor, sent := some s.now }
    { s with requests := s.requests ++ [s.editor] }

/-- `_update` (`/repo/web-demo/src/index.ts:300-320`). -/
def update (s : State) : State :=
  if s.dirty then s
  else if !s.worker then s
  else
    match s.sent with
    | some t => if s.now - t < POST_SEND_DELAY then { s with dirty := true } else send s
    | none => send s

/-- The end of `_loadExample`, once the text is there (`/repo/web-demo/src/index.ts:189-192`). -/
def finishLoad (name text : Str) (s : State) : State :=
  update { s with exampleName := name, editor := text, inputEvent := true }

/-- `_loadExample` up to the text of the example (`/repo/web-demo/src/index.ts:182-193`): a stored text is used at
once, otherwise the download starts. -/
def loadExample (name : Str) (s : State) : State :=
  let s := { s with url := name, isLoadingExample := true, annotations := [] }
  match s.storage name with
  | some text => finishLoad name text s
  | none => { s with fetches := s.fetches ++ [name] }

/-- `_onExampleSelect` (`/repo/web-demo/src/index.ts:195-197`); the user has changed the selection box. -/
def onExampleSelect (name : Str) (s : State) : State := loadExample name { s with selected := name }

/-- `_onResetClick` (`/repo/web-demo/src/index.ts:199-203`). -/
def onResetClick (s : State) : State :=
  let s := clearModified { s with isLoadingExample := true }
  loadExample s.exampleName s

/-- `e.data.error.syntaxErrors`, if there is an error (`/repo/web-demo/src/index.ts:252-256`). -/
def syntaxErrors : Js.Error → List (Nat × Nat × Str × Option Str × Option (List Str))
  | .mintyml _ (some l) => l
  | _ => []

/-- The marker of an error (`/repo/web-demo/src/index.ts:257-263`). -/
def marker (place : Nat → Nat × Nat) (e : Nat × Nat × Str × Option Str × Option (List Str)) : (Nat × Nat) × (Nat × Nat) :=
  (place e.1, place e.2.1)

/-- The annotation of an error (`/repo/web-demo/src/index.ts:264-271`). -/
def annotation (place : Nat → Nat × Nat) (e : Nat × Nat × Str × Option Str × Option (List Str)) : (Nat × Nat) × Str :=
  (place e.1, match e.2.2.2.2 with
    | some expected => "Expected ".toList ++ Js.joinWith " | ".toList expected
    | none => e.2.2.1)

/-- `if (e.data.output != null) {..}` of the handler (`/repo/web-demo/src/index.ts:246-251`). -/
def showOutput (output : Option Str) (s : State) : State :=
  match output with
  | some o => { s with annotations := [], output := o }
  | none => s

/-- `if (e.data.error != null) {..}` of the handler (`/repo/web-demo/src/index.ts:252-275`). -/
def showErrors (env : Env) (error : Option Js.Error) (s : State) : State :=
  match error with
  | some e => { s with
      markers := (syntaxErrors e).map (marker (env.place s.editor))
      annotations := (syntaxErrors e).map (annotation (env.place s.editor)) }
  | none => s

/-- `worker.onmessage` (`/repo/web-demo/src/index.ts:238-286`), for the answer `r`. -/
def onmessage (env : Env) (r : Js.Result) (s : State) : State :=
  let s := { s with markers := [] }
  let s := showErrors env r.error (showOutput r.output s)
  let s := { s with sent := none }
  if s.dirty then { s with timers := s.timers + 1 } else { s with isLoadingExample := false }

/-- The function given to `setTimeout` (`/repo/web-demo/src/index.ts:279-282`). -/
def onTimeout (s : State) : State := update { s with dirty := false }

/-- What can happen on the page: the handlers of `/repo/web-demo/src/index.ts:229-235` are called, the worker answers
(lines 238-283), a timer fires (279-282), a download ends (186-200). -/
inductive Event where
  /-- The user changes the text of the editor. -/
  | edit (text : Str)
  /-- The editor sends the `input` event. -/
  | input
  /-- The oldest text that is not answered is answered by the worker. -/
  | respond
  /-- A timer fires. -/
  | timeout
  /-- Time passes. -/
  | clock (now : Int)
  /-- The user chooses an example. -/
  | select (name : Str)
  /-- The user presses the reset button. -/
  | reset
  /-- The `i`th pending download delivers a text. -/
  | fetched (i : Nat) (text : Str)
  /-- The `i`th pending download fails. -/
  | failed (i : Nat)

/-- One turn of the event loop: the handlers attached in `init` (`/repo/web-demo/src/index.ts:229-286`) and the
continuation of `_loadExample` (`/repo/web-demo/src/index.ts:188-192`). `none`: this cannot happen now. The worker answers
the messages in the order they were sent (`/repo/web-demo/src/worker.ts:7-13`: every message waits for the same two promises). -/
def step (env : Env) (s : State) : Event → Option State
  | .edit text => some { s with editor := text, inputEvent := true }
  | .input => if s.inputEvent then some (update { s with inputEvent := false }) else none
  | .respond => match s.requests with
    | text :: rest => some (onmessage env (env.conv text) { s with requests := rest })
    | [] => none
  | .timeout => if s.timers = 0 then none else some (onTimeout { s with timers := s.timers - 1 })
  | .clock now => some { s with now := now }
  | .select name => some (onExampleSelect name s)
  | .reset => some (onResetClick s)
  | .fetched i text => match s.fetches[i]? with
    | some name => some (finishLoad name text { s with fetches := s.fetches.eraseIdx i })
    | none => none
  | .failed i => match s.fetches[i]? with
    | some _ => some { s with fetches := s.fetches.eraseIdx i }
    | none => none

/-- `new Demo(..)` (`/repo/web-demo/src/index.ts:56-132`): the name and the names of all examples, with what
`localStorage` holds, the empty editors and the time. -/
def new (name : Str) (storage : Str → Option Str) (now : Int) : State :=
  { editor := [], inputEvent := false, worker := false, sent := none, dirty := false, lastInput := none,
    isLoadingExample := true, exampleName := name, url := name, selected := name, star := fun _ => none,
    storage := storage, requests := [], timers := 0, fetches := [], now := now, output := [], markers := [],
    annotations := [] }

/-- `_updateExampleNames` (`/repo/web-demo/src/index.ts:134-146`), for a page whose selection box is empty. -/
def updateExampleNames (examples : List Str) (s : State) : State :=
  { s with
    star := fun n => if n ∈ examples then some (s.storage n).isSome else s.star n
    selected := s.exampleName }

/-- `init` (`/repo/web-demo/src/index.ts:226-287`). -/
def init (examples : List Str) (s : State) : State :=
  let s := loadExample s.exampleName s
  let s := updateExampleNames examples s
  update { s with worker := true }

end Mty.Demo
