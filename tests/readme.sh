#!/bin/sh
# Converts /repo/README.mty with the model (reference parser, two spaces of indentation, underline as `ins`) and compares
# the result with /repo/README.md, which the project generates from it. Takes a few minutes. Run after `lake build`.
set -e
t=$(mktemp -d)
cat > "$t/Readme.lean" <<'L'
import Verif.Props.RefParser
open Mty
def main (args : List String) : IO Unit := do
  let s ← IO.FS.readFile args[0]!
  let cfg : OutputConfig := { indent := some "  ".toList, specialTags := { underline := some "ins".toList } }
  match convert RepoTests.parser s.toList cfg with
  | .ok out => IO.print (String.ofList out)
  | .error e => IO.eprintln (repr e)
L
cd "$(dirname "$0")/../lean"
lake env lean --run "$t/Readme.lean" /repo/README.mty > "$t/out"
if cmp "$t/out" /repo/README.md; then echo same; fi
