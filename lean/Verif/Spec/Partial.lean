import Verif.Spec.Pieces

/-!
# C68: output of a conversion that failed (independent of the code)
-/

set_option autoImplicit false

namespace Mty.Spec

/-- The part of the source that a text consists of: for a block its content lines. -/
inductive TextSource (src : Str) (t : Text) : Str → Prop
  | plain : t.multiline = false → TextSource src t (t.slice.asStr src)
  | block {body} : t.multiline = true → Trimmed (t.slice.asStr src) body → TextSource src t body

/-- `ValidStart s u`: before its first invalid escape sequence the text `s` stands for `u`. -/
inductive ValidStart : Str → Str → Prop
  | mk {pre bad u} : Unescapes Accepted pre u → (∀ e rest c, bad = e ++ rest → ¬ Accepted e c) → ValidStart (pre ++ '\\' :: bad) u

/-- A part of a start tag after the name of the element: fixed characters, the name of an attribute or (part of) a value. -/
inductive TagPart
  | fixed (s : Str)
  | name (s : TextSlice)
  | value (s : TextSlice)

/-- The parts of an attribute. -/
def attributeTagParts (xml : Bool) (a : Attribute) : List TagPart :=
  [.fixed [' '], .name a.name] ++
    match a.value with
    | some v => [.fixed ['=', '"'], .value v, .fixed ['"']]
    | none => if xml then [.fixed ['=', '"', '"']] else []

/-- The parts of a start tag: the (first) id, the classes in one attribute, the attributes. -/
def tagParts (xml : Bool) (items : List SelectorItem) : List TagPart :=
  ((idsOf items).take 1).flatMap (fun i => [.fixed " id=\"".toList, .value i, .fixed ['"']]) ++
  (match classesOf items with
    | [] => []
    | c :: cs => [.fixed " class=\"".toList, .value c] ++ cs.flatMap (fun c => [.fixed [' '], .value c]) ++ [.fixed ['"']]) ++
  (attributesOf items).flatMap (attributeTagParts xml)

/-- How a part is written. -/
inductive PartWritten (xml : Bool) (src : Str) : TagPart → Str → Prop
  | fixed {s} : PartWritten xml src (.fixed s) s
  | name {s u} : Unescapes Accepted (s.asStr src) u → PartWritten xml src (.name s) u
  | value {s u o} : Unescapes Accepted (s.asStr src) u → readQuoted xml o = some u → PartWritten xml src (.value s) o

/-- What is written of a part with an invalid escape sequence. -/
inductive PartBegun (xml : Bool) (src : Str) : TagPart → Str → Prop
  | name {s u} : ValidStart (s.asStr src) u → PartBegun xml src (.name s) u
  | value {s u o} : ValidStart (s.asStr src) u → readQuoted xml o = some u → PartBegun xml src (.value s) o

/-- What is written of an item with an invalid escape sequence: of a text, what precedes it; of a start tag, the name, the parts before the one
with the invalid escape sequence, and what precedes it in this part. -/
inductive Begun (xml : Bool) (src : Str) : OutItem → Str → Prop
  | verbatim {t s u} : t.unescapeIn = true → TextSource src t s → ValidStart s u → Begun xml src (.text t true) u
  | escaped {t s u o} : t.unescapeIn = true → TextSource src t s → ValidStart s u → readText xml o = some u → Begun xml src (.text t false) o
  | start {n items e before bad after ws o} : tagParts xml items = before ++ bad :: after → List.Forall₂ (PartWritten xml src) before ws →
      PartBegun xml src bad o → Begun xml src (.start n items e) ('<' :: n ++ ws.flatten ++ o)

/-- The output breaks off: it consists of the pieces of some items and the beginning of the next one, which cannot be written. -/
def BreaksOff (piece : OutItem → Str) (xml : Bool) (src : Str) (indent : Option Str) (ws : Bool) (items : List OutItem) (out : Str) : Prop :=
  ∃ before bad after o ws' begun, items = before ++ bad :: after ∧ (∀ i ∈ before, Writable xml src i) ∧ ¬ Writable xml src bad ∧
    Weaves piece src indent ws before o ws' ∧ Begun xml src bad begun ∧ out = o ++ begun

end Mty.Spec
