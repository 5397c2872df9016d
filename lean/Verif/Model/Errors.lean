import Verif.Model.Config
import Verif.Model.Doc

/-! # Errors (`/repo/mintyml/src/error.rs`) -/

namespace Mty

/-- `UnclosedDelimiterKind` (`/repo/mintyml/src/error.rs:142-161`). -/
inductive UnclosedKind where
  | block | inline | specialInline (k : SpecialKind) | comment | attributeList
deriving DecidableEq, Repr

/-- `ItemType` (`/repo/mintyml/src/error.rs:165-193`). -/
inductive ItemType where
  | selector | element | paragraph | text | inlineElement | multiline | comment | space | unknown
deriving DecidableEq, Repr

/-- `impl Display for ItemType` (the `display(fmt = ..)` attributes,
`/repo/mintyml/src/error.rs:165-193`). -/
def ItemType.display : ItemType → Str
  | .selector => "selector".toList
  | .element => "element".toList
  | .paragraph => "paragraph".toList
  | .text => "text".toList
  | .inlineElement => "inline element".toList
  | .multiline => "multiline text".toList
  | .comment => "comment".toList
  | .space => "space".toList
  | .unknown => "<unknown>".toList

/-- `ItemType::as_slice` (`/repo/mintyml/src/error.rs:195-209`). -/
def ItemType.asSlice (i : ItemType) : List ItemType := [i]

/-- The loop of `display_conjunction_list` (`/repo/mintyml/src/error.rs:225-236`); `prevLen` items
have been written. -/
def conjunctionLoop (conjunction : Str) : Nat → List Str → Str
  | _, [] => []
  | prevLen, item :: rest =>
    (match prevLen, rest with
      | 0, _ => item
      | 1, [] => conjunction ++ ' ' :: item
      | _ + 2, [] => ", ".toList ++ conjunction ++ ' ' :: item
      | _ + 1, _ :: _ => ", ".toList ++ item) ++ conjunctionLoop conjunction (prevLen + 1) rest

/-- `display_conjunction_list` (`/repo/mintyml/src/error.rs:211-241`). -/
def displayConjunctionList (list : List Str) (conjunction : Str) : Str :=
  match list with
  | [] => "<none>".toList
  | l => conjunctionLoop conjunction 0 l

/-- `MisplacedKind` (`/repo/mintyml/src/error.rs:245-286`). -/
inductive MisplacedKind where
  | mustPrecede (target : ItemType) (post : List ItemType)
  | mustNotPrecede (target : ItemType) (post : List ItemType)
  | mustFollow (pre : List ItemType) (target : ItemType)
  | mustNotFollow (pre : List ItemType) (target : ItemType)
deriving DecidableEq, Repr

/-- `impl Display for MisplacedKind` (`/repo/mintyml/src/error.rs:245-286`). -/
def MisplacedKind.display : MisplacedKind → Str
  | .mustPrecede t p => t.display ++ " must be followed by ".toList ++
      displayConjunctionList (p.map ItemType.display) "or".toList
  | .mustNotPrecede t p => t.display ++ " must not be followed by ".toList ++
      displayConjunctionList (p.map ItemType.display) "or".toList
  | .mustFollow p t => t.display ++ " must follow ".toList ++
      displayConjunctionList (p.map ItemType.display) "or".toList
  | .mustNotFollow p t => t.display ++ " must not follow ".toList ++
      displayConjunctionList (p.map ItemType.display) "or".toList

/-- `SyntaxErrorKind` (`/repo/mintyml/src/error.rs:92-116`); `ExpectedParse` is its name. -/
inductive SyntaxErrorKind where
  | unknown
  | invalidEscape
  | parseFailed (expected : List Str)
  | unclosed (delimiter : UnclosedKind)
  | invalidItem (item : ItemType)
  | misplacedItem (kind : MisplacedKind)
deriving DecidableEq, Repr

/-- `SyntaxError` (`/repo/mintyml/src/error.rs:27-31`). -/
structure SyntaxError where
  range : Range
  kind : SyntaxErrorKind
deriving DecidableEq, Repr

/-- `SemanticError` (`/repo/mintyml/src/error.rs:359-363`). No code of the library creates one. -/
structure SemanticError where
  range : Range
deriving DecidableEq, Repr

/-- `ConvertError` (`/repo/mintyml/src/error.rs:292-313`). -/
inductive ConvertError where
  | syntax (errors : List SyntaxError) (src : Str)
  | semantic (errors : List SemanticError) (src : Str)
  | unknown
deriving DecidableEq, Repr

/-- `Errors` (`/repo/mintyml/src/error.rs:394-399`). -/
structure Errors where
  failFast : Bool
  syntaxErrors : List SyntaxError := []
  semanticErrors : List SemanticError := []
  unknownError : Bool := false
deriving DecidableEq, Repr

namespace Errors

/-- `Errors::new` (`/repo/mintyml/src/error.rs:403-410`). -/
def new (cfg : OutputConfig) : Errors := { failFast := cfg.failFast.getD false }

/-- `Errors::count` (`/repo/mintyml/src/error.rs:412-414`). -/
def count (e : Errors) : Nat :=
  e.syntaxErrors.length + e.semanticErrors.length + (if e.unknownError then 1 else 0)

/-- `Errors::is_empty` (`/repo/mintyml/src/error.rs:416-418`). -/
def isEmpty (e : Errors) : Bool := e.count == 0

/-- `Errors::to_convert_error` (`/repo/mintyml/src/error.rs:420-444`). -/
def toConvertError (e : Errors) (src : Str) : Except ConvertError Unit :=
  match e.syntaxErrors.length, e.semanticErrors.length, e.unknownError with
  | 0, 0, false => .ok ()
  | _ + 1, _, _ => .error (.syntax e.syntaxErrors src)
  | _, _ + 1, _ => .error (.semantic e.semanticErrors src)
  | _, _, true => .error .unknown

end Errors

/-- A computation with `&mut Errors` that may stop with `Err(InternalError)`
(`InternalResult`, `/repo/mintyml/src/error.rs:390-391`). `none` = `Err(InternalError)`. -/
def BM (α : Type) : Type := Errors → Option α × Errors

namespace BM

/-- `Ok(a)` (`InternalResult`, `/repo/mintyml/src/error.rs:391`). -/
def pure {α : Type} (a : α) : BM α := fun e => (some a, e)

/-- `let a = m?; f(a)` (the operator `?` on `InternalResult`, `/repo/mintyml/src/error.rs:391`). -/
def bind {α β : Type} (m : BM α) (f : α → BM β) : BM β := fun e =>
  match m e with
  | (some a, e') => f a e'
  | (none, e') => (none, e')

/-- Notation for `pure` and `bind` (`InternalResult`, `/repo/mintyml/src/error.rs:391`). -/
instance : Monad BM where
  pure := BM.pure
  bind := BM.bind

/-- `Err(InternalError)` (`/repo/mintyml/src/error.rs:390-391`). -/
def fail {α : Type} : BM α := fun e => (none, e)

/-- `Errors::syntax` (`/repo/mintyml/src/error.rs:446-457`). -/
def syntaxErr (errs : List SyntaxError) : BM Unit := fun e =>
  let oldLen := e.syntaxErrors.length
  let e' := { e with syntaxErrors := e.syntaxErrors ++ errs }
  if e.failFast && decide (oldLen < e'.syntaxErrors.length) then (none, e') else (some (), e')

/-- `Errors::unknown` (`/repo/mintyml/src/error.rs:472-478`). -/
def unknownErr : BM Unit := fun e =>
  let e' := { e with unknownError := true }
  if e.failFast then (none, e') else (some (), e')

end BM

end Mty
