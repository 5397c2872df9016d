import Verif.Model.Sink

/-!
# Specification: writing to a writer that can fail

A conversion amounts to a list of calls of the writer.
-/

namespace Mty.Spec

/-- A call of the writer. -/
inductive Call where
  | str (s : Str)
  | char (c : Char)
deriving DecidableEq, Repr

/-- The characters passed. -/
def Call.text : Call → Str
  | .str s => s
  | .char c => [c]

/-- The characters passed by a list of calls. -/
def callsText (l : List Call) : Str := l.flatMap Call.text

/-- A call of the writer `o` in state `st`: the state afterwards, and whether it succeeded. -/
def Call.run {σ : Type} (o : Sink.Out σ) (st : σ) : Call → σ × Bool
  | .str s => o.str s st
  | .char c => o.char c st

/-- The calls are made in order up to the first one that fails, and none after it: the state of the writer afterwards, and whether
all were made with success. -/
def feed {σ : Type} (o : Sink.Out σ) (st : σ) : List Call → σ × Bool
  | [] => (st, true)
  | c :: l =>
    match c.run o st with
    | (st, true) => feed o st l
    | (st, false) => (st, false)

/-- A buffer with room for `n` characters: what does not fit is refused. -/
def limited (n : Nat) : Sink.Out Str where
  str s st := if (st ++ s).length ≤ n then (st ++ s, true) else (st, false)
  char c st := if (st ++ [c]).length ≤ n then (st ++ [c], true) else (st, false)

end Mty.Spec
