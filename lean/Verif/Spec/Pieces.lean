import Verif.Spec.Markup
import Verif.Spec.Leaves

/-!
# The output as a sequence of pieces (independent of the code)

A document is a list of items in reading order: tags, texts, comments, and places where white space
may be written. Every item but the last kind is written as one piece.
-/

namespace Mty.Spec

/-- Where something is written: is the enclosing element written inline, and how many elements around it are not (`html` is not
counted)? -/
structure Margin where
  inline : Bool
  depth : Nat
deriving DecidableEq, Repr

/-- The content of an element with this name. -/
def Margin.inside (l : Margin) (inline : Bool) (name : Str) : Margin :=
  ⟨inline, if inline || name.map Char.toLower = "html".toList then l.depth else l.depth + 1⟩

/-- Part of the output. -/
inductive OutItem where
  | doctype
  | start (name : Str) (items : List SelectorItem) (empty : Bool)
  | stop (name : Str)
  | text (t : Text) (verbatim : Bool)
  | comment (s : TextSlice)
  /-- A space between nodes (`some`), or the beginning or end of the content of an element. -/
  | gap (l : Margin) (s : Option Space)
deriving DecidableEq, Repr

/-- The spaces at the beginning and end of content are not items. -/
def trimSpaces (l : List (Bool × List OutItem)) : List OutItem :=
  (((l.dropWhile (·.1)).reverse.dropWhile (·.1)).reverse.map (·.2)).flatten

/-- The name and the selector of an element. -/
def namedBy (h : EHead) : Option (TextSlice × Selector) :=
  h.selectors.head?.bind fun s => s.tag.name.map fun n => (n, s)

mutual
  /-- The items of a node with at most one selector for each element. `raw`: inside an element with raw
  content, `l`: the margin of the enclosing content. Text is verbatim (not escaped) if it is an
  interpolation, and in HTML if it is to be or inside of raw content. The content of an element with a name is one level deeper, its
  end tag is not. -/
  def nodeItems (xml : Bool) (src : Str) (raw : Bool) (l : Margin) : Node → List OutItem
    | .text _ (.text t) => [.text t (t.raw || (!xml && (!t.escapeOut || raw)))]
    | .text _ (.comment s) => [.comment s]
    | .text _ (.space s) => [.gap l (some s)]
    | .elem _ h ch =>
      match namedBy h with
      | none => trimSpaces (contentItems xml src (raw || h.isRaw) ⟨onOneLine h, l.depth⟩ ch)
      | some (n, s) =>
        if xml && ch.isEmpty then [.start (n.asStr src) s.items true]
        else .start (n.asStr src) s.items false ::
          ((if ch.isEmpty then [] else
            .gap (l.inside (onOneLine h) (n.asStr src)) none ::
              trimSpaces (contentItems xml src (raw || h.isRaw) (l.inside (onOneLine h) (n.asStr src)) ch) ++
              [.gap ⟨onOneLine h, l.depth⟩ none]) ++
            (if voidName xml (n.asStr src) then [] else [.stop (n.asStr src)]))
  /-- The items of each node; is it a space? -/
  def contentItems (xml : Bool) (src : Str) (raw : Bool) (l : Margin) : List Node → List (Bool × List OutItem)
    | [] => []
    | n :: ns => (inner.isSpaceNode n, nodeItems xml src raw l n) :: contentItems xml src raw l ns
end

/-- The items of a document. -/
def documentItems (cfg : OutputConfig) (src : Str) (doc : Document) : List OutItem :=
  (if cfg.completePage.getD false then [.doctype] else []) ++
    trimSpaces (contentItems (cfg.xml = some true) src false ⟨false, 0⟩ doc.nodes) ++ [.gap ⟨false, 0⟩ none]

/-- How an attribute is written. -/
inductive AttrWritten (xml : Bool) : Str × Option Str → Str → Prop
  | bare {n} : AttrWritten xml (n, none) (' ' :: n)
  | value {n v q} : readQuoted xml q = some v →
      AttrWritten xml (n, some v) (' ' :: n ++ ('=' :: '"' :: q ++ ['"']))

/-- How an item is written. Text that is not verbatim has to be read as markup; it contains no tags. -/
inductive Writes (xml : Bool) (src : Str) : OutItem → Str → Prop
  | doctype : Writes xml src .doctype "<!DOCTYPE html>\n".toList
  | start {n items e attrs ws} : AttrsRead xml src items attrs → List.Forall₂ (AttrWritten xml) attrs ws →
      Writes xml src (.start n items e) ('<' :: n ++ ws.flatten ++ (if e then ['/', '>'] else ['>']))
  | stop {n} : Writes xml src (.stop n) ('<' :: '/' :: n ++ ['>'])
  | verbatim {t u} : TextChars src t u → Writes xml src (.text t true) u
  | escaped {t u o} : TextChars src t u → readText xml o = some u → Writes xml src (.text t false) o
  | comment {s b} : CommentRead (s.asStr src) b → Writes xml src (.comment s) ("<!--".toList ++ b ++ "-->".toList)

/-- An item that can be written: the escapes in it are valid. -/
def Writable (xml : Bool) (src : Str) : OutItem → Prop
  | .text t _ => ∃ u, TextChars src t u
  | .start _ items _ => ∃ attrs, AttrsRead xml src items attrs
  | _ => True

/-- How a space is written. Line breaks are followed by the indentation of the enclosing elements. -/
inductive SpaceText (indent : Option Str) (src : Str) (l : Margin) : Space → Str → Prop
  | written {t} : SpaceText indent src l (.inline (some t)) (t.asStr src)
  | blank : SpaceText indent src l (.inline none) [' ']
  | unbroken {s} : s = .lineEnd ∨ s = .paragraphEnd → indent = none ∨ l.inline = true →
      SpaceText indent src l s [' ']
  | broken {s i} : s = .lineEnd ∨ s = .paragraphEnd → indent = some i → l.inline = false →
      SpaceText indent src l s ('\n' :: (List.replicate l.depth i).flatten)

/-- Does it end with a blank? -/
def endsBlank (s : Str) : Bool := s.getLast? = some ' ' || s.getLast? = some '\t'

/-- A block without content: there is no line, or one empty line, between the opening and the closing line. -/
def Hollow (s : Str) : Prop :=
  s.count '\n' < 2 ∨ ∃ first last, '\n' ∉ first ∧ '\n' ∉ last ∧ (s = first ++ "\n\n".toList ++ last ∨ s = first ++ "\n\r\n".toList ++ last)

/-- `TextStop src t ws ws'`: does the text count as white space that has just been written (`ws'`), if `ws` says so for the time before
it? Texts do if they end with a blank in the source: escaped blanks do not count. For blocks the content counts. (But if there is none,
the closing line counts.) -/
inductive TextStop (src : Str) (t : Text) : Bool → Bool → Prop
  | empty {ws} : t.slice.isEmpty = true → TextStop src t ws ws
  | plain {ws} : t.slice.isEmpty = false → t.multiline = false ∨ Hollow (t.slice.asStr src) →
      TextStop src t ws (endsBlank (t.slice.asStr src))
  | block {ws body} : t.slice.isEmpty = false → t.multiline = true → ¬ Hollow (t.slice.asStr src) →
      Trimmed (t.slice.asStr src) body → TextStop src t ws (endsBlank body)

/-- `Weaves piece src indent ws items out ws'`: the output consists of the pieces of the items in order.
White space is written for a space unless white space has just been written (`ws`). With indentation there are line breaks around the
content of elements that are not written inline, unless white space has just been written; there is no other white space. `ws'`: the
same after the output. -/
inductive Weaves (piece : OutItem → Str) (src : Str) (indent : Option Str) : Bool → List OutItem → Str → Bool → Prop
  | nil {ws} : Weaves piece src indent ws [] [] ws
  | doctype {ws is out ws'} : Weaves piece src indent ws is out ws' →
      Weaves piece src indent ws (.doctype :: is) (piece .doctype ++ out) ws'
  | start {ws n a e is out ws'} : Weaves piece src indent false is out ws' →
      Weaves piece src indent ws (.start n a e :: is) (piece (.start n a e) ++ out) ws'
  | stop {ws n is out ws'} : Weaves piece src indent false is out ws' →
      Weaves piece src indent ws (.stop n :: is) (piece (.stop n) ++ out) ws'
  | comment {ws s is out ws'} : Weaves piece src indent false is out ws' →
      Weaves piece src indent ws (.comment s :: is) (piece (.comment s) ++ out) ws'
  | text {ws t v u ws1 is out ws'} : TextChars src t u → TextStop src t ws ws1 →
      Weaves piece src indent ws1 is out ws' →
      Weaves piece src indent ws (.text t v :: is) (piece (.text t v) ++ out) ws'
  | dropped {l s is out ws'} : Weaves piece src indent true is out ws' →
      Weaves piece src indent true (.gap l (some s) :: is) out ws'
  | space {l s w is out ws'} : SpaceText indent src l s w → Weaves piece src indent true is out ws' →
      Weaves piece src indent false (.gap l (some s) :: is) (w ++ out) ws'
  | noBreak {ws l is out ws'} : ws = true ∨ l.inline = true ∨ indent = none → Weaves piece src indent ws is out ws' →
      Weaves piece src indent ws (.gap l none :: is) out ws'
  | break_ {l i is out ws'} : indent = some i → l.inline = false → Weaves piece src indent true is out ws' →
      Weaves piece src indent false (.gap l none :: is) ('\n' :: (List.replicate l.depth i).flatten ++ out) ws'

/-! ## Texts -/

/-- The texts among the items, each with whether it is written verbatim. -/
def itemTexts (items : List OutItem) : List (Text × Bool) :=
  items.filterMap fun
    | .text t v => some (t, v)
    | _ => none

/-- The comments among the items. -/
def itemComments (items : List OutItem) : List TextSlice :=
  items.filterMap fun
    | .comment s => some s
    | _ => none

/-- The start tags among the items. -/
def itemStarts (items : List OutItem) : List (Str × List SelectorItem) :=
  items.filterMap fun
    | .start n i _ => some (n, i)
    | _ => none

/-- Is it the name of an element whose content HTML does not parse? -/
def unparsed (name : Option Str) : Bool := name = some "script".toList || name = some "style".toList

mutual
  /-- Each text with whether it is to be written verbatim: interpolations, and in HTML also
  `<[raw[...]]>` (`escapeOut = false`) and text inside of `script` and `style` elements. -/
  def nodeVerbatim (xml : Bool) (src : Str) (inside : Bool) : Node → List (Text × Bool)
    | .text _ (.text t) => [(t, t.raw || (!xml && (!t.escapeOut || inside)))]
    | .text _ _ => []
    | .elem _ h ch =>
      nodesVerbatim xml src (inside || unparsed ((namedBy h).map fun p => p.1.asStr src)) ch
  def nodesVerbatim (xml : Bool) (src : Str) (inside : Bool) : List Node → List (Text × Bool)
    | [] => []
    | n :: ns => nodeVerbatim xml src inside n ++ nodesVerbatim xml src inside ns
end

/-- The interpolations among the leaves of a syntax tree. -/
def interpolations (src : Str) (leaves : List Leaf) : List Str :=
  leaves.filterMap fun
    | .text r _ _ true _ => some (r.slice src)
    | _ => none

/-- The parts are found in the text, in order and without overlap. -/
inductive Contains : List Str → Str → Prop
  | nil {s} : Contains [] s
  | cons {p ps a s} : Contains ps s → Contains (p :: ps) (a ++ p ++ s)

/-! ## Spaces -/

/-- The second content is the first one with a space removed: at the beginning or end of the content of
an element or the document, or next to another space. (Content that consists of spaces only is
not the same as no content.) -/
inductive Tidied : List Node → List Node → Prop
  | first {r s ns} : ns ≠ [] → Tidied (.text r (.space s) :: ns) ns
  | last {r s ns} : ns ≠ [] → Tidied (ns ++ [.text r (.space s)]) ns
  | double {pre r s r' s' post} : Tidied (pre ++ .text r (.space s) :: .text r' (.space s') :: post)
      (pre ++ .text r (.space s) :: post)
  | inside {pre r h ch ch' post} : Tidied ch ch' → Tidied (pre ++ .elem r h ch :: post) (pre ++ .elem r h ch' :: post)

/-- White space. -/
def isBlank (c : Char) : Bool := c.toNat ∈ whiteSpace

/-- How a start tag is written: the name, then the first id, all classes in one attribute, and all attributes in order, with values in
quotation marks that are read back as what is written in the source (escapes resolved). -/
def TagWritten (xml : Bool) (src : Str) (p : TextSlice × List SelectorItem) (tag : Str) : Prop :=
  ∃ attrs ws close, AttrsRead xml src p.2 attrs ∧ List.Forall₂ (AttrWritten xml) attrs ws ∧ (close = [] ∨ close = ['/']) ∧
    tag = '<' :: p.1.asStr src ++ ws.flatten ++ close ++ ['>']

end Mty.Spec
