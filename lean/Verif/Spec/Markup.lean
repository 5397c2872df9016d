import Verif.Spec.CharRef
import Verif.Spec.Escape
import Verif.Spec.Multiline
import Verif.Model.Doc
import Verif.Spec.Infer
import Verif.Spec.Transform

/-!
# Specification: reading markup (independent of the code)

A small reader for tags, comments and text, one character at a time. It accepts only a strict subset
of HTML and XML: attribute values in double quotes, no stray `<`, `>` or `&`.
-/

namespace Mty.Spec

/-- What markup consists of. `empty` = `<name/>`. Attributes without a value are `none`. -/
inductive Token where
  | start (name : Str) (attrs : List (Str × Option Str)) (empty : Bool)
  | stop (name : Str)
  | comment (body : Str)
  | doctype (text : Str)
  | char (c : Char)
deriving DecidableEq, Repr

/-- Where the reader is. -/
inductive ReadState where
  | data
  | ref (acc : Str)
  | open_
  | name (name : Str)
  | beforeAttr (name : Str) (attrs : List (Str × Option Str))
  | attrName (name : Str) (attrs : List (Str × Option Str)) (attr : Str)
  | beforeValue (name : Str) (attrs : List (Str × Option Str)) (attr : Str)
  | value (name : Str) (attrs : List (Str × Option Str)) (attr value : Str)
  | valueRef (name : Str) (attrs : List (Str × Option Str)) (attr value acc : Str)
  | afterValue (name : Str) (attrs : List (Str × Option Str))
  | slash (name : Str) (attrs : List (Str × Option Str))
  | stopName (name : Str)
  | bang (acc : Str)
  | comment (acc : Str)
deriving DecidableEq, Repr

/-- Names begin with an ASCII letter. -/
def nameStart (c : Char) : Bool := ('a' ≤ c && c ≤ 'z') || ('A' ≤ c && c ≤ 'Z')

/-- Names consist of ASCII letters, digits, and `-`, `:`, `_`, `.`. -/
def nameChar (c : Char) : Bool := nameStart c || ('0' ≤ c && c ≤ '9') || c ∈ ['-', ':', '_', '.']

/-- Characters that end the name of an attribute or are not allowed in one. -/
def attrChar (c : Char) : Bool :=
  33 ≤ c.toNat && !(c ∈ ['"', '\'', '>', '<', '/', '=', '&', Char.ofNat 127])

/-- One character: the next state and what has been read. `none`: not well-formed. In XML attributes
must have a value, in HTML there is no `<name/>`. -/
def readStep (xml : Bool) : ReadState → Char → Option (ReadState × List Token)
  | .data, c =>
    if c = '<' then some (.open_, [])
    else if c = '&' then some (.ref [], [])
    else if literalText c then some (.data, [.char c])
    else none
  | .ref acc, c =>
    if c = ';' then (charRef codePoint xml acc).map fun ch => (.data, [.char ch])
    else some (.ref (acc ++ [c]), [])
  | .open_, c =>
    if c = '/' then some (.stopName [], [])
    else if c = '!' then some (.bang [], [])
    else if nameStart c then some (.name [c], [])
    else none
  | .name n, c =>
    if c = ' ' then some (.beforeAttr n [], [])
    else if c = '/' && xml then some (.slash n [], [])
    else if c = '>' then some (.data, [.start n [] false])
    else if nameChar c then some (.name (n ++ [c]), [])
    else none
  | .beforeAttr n as, c => if attrChar c then some (.attrName n as [c], []) else none
  | .attrName n as a, c =>
    if c = '=' then some (.beforeValue n as a, [])
    else if c = ' ' && !xml then some (.beforeAttr n (as ++ [(a, none)]), [])
    else if c = '>' && !xml then some (.data, [.start n (as ++ [(a, none)]) false])
    else if attrChar c then some (.attrName n as (a ++ [c]), [])
    else none
  | .beforeValue n as a, c => if c = '"' then some (.value n as a [], []) else none
  | .value n as a v, c =>
    if c = '"' then some (.afterValue n (as ++ [(a, some v)]), [])
    else if c = '&' then some (.valueRef n as a v [], [])
    else if literalQuoted c then some (.value n as a (v ++ [c]), [])
    else none
  | .valueRef n as a v acc, c =>
    if c = ';' then (charRef codePoint xml acc).map fun ch => (.value n as a (v ++ [ch]), [])
    else some (.valueRef n as a v (acc ++ [c]), [])
  | .afterValue n as, c =>
    if c = ' ' then some (.beforeAttr n as, [])
    else if c = '/' && xml then some (.slash n as, [])
    else if c = '>' then some (.data, [.start n as false])
    else none
  | .slash n as, c => if c = '>' then some (.data, [.start n as true]) else none
  | .stopName n, c =>
    if c = '>' then (if n.isEmpty then none else some (.data, [.stop n]))
    else if nameChar c then some (.stopName (n ++ [c]), [])
    else none
  | .bang acc, c =>
    if acc = ['-'] then (if c = '-' then some (.comment [], []) else none)
    else if c = '>' then some (.data, [.doctype acc])
    else some (.bang (acc ++ [c]), [])
  | .comment acc, c =>
    if acc.drop (acc.length - 2) = ['-', '-'] then
      (if c = '>' then some (.data, [.comment (acc.take (acc.length - 2))]) else none)
    else some (.comment (acc ++ [c]), [])

/-- Many characters. -/
def readRun (xml : Bool) : ReadState → Str → Option (ReadState × List Token)
  | st, [] => some (st, [])
  | st, c :: s =>
    (readStep xml st c).bind fun (st', toks) =>
      (readRun xml st' s).map fun (st'', toks') => (st'', toks ++ toks')

/-- The tokens of a text; `none` if it is not well-formed. -/
def readMarkup (xml : Bool) (s : Str) : Option (List Token) :=
  match readRun xml .data s with
  | some (.data, toks) => some toks
  | _ => none

/-! ## Nesting -/

/-- Tags are properly nested. Elements with a name in `void` have a start tag only. -/
inductive Balanced (void : Str → Bool) : List Token → Prop
  | nil : Balanced void []
  | char {c ts} : Balanced void ts → Balanced void (.char c :: ts)
  | comment {b ts} : Balanced void ts → Balanced void (.comment b :: ts)
  | empty {n as ts} : Balanced void ts → Balanced void (.start n as true :: ts)
  | void {n as ts} : void n = true → Balanced void ts → Balanced void (.start n as false :: ts)
  | pair {n as inner ts} : void n = false → Balanced void inner → Balanced void ts →
      Balanced void (.start n as false :: inner ++ .stop n :: ts)

/-- The void elements of HTML (HTML standard, 13.1.2, and `param`), case does not matter; XML has
none. -/
def voidName (xml : Bool) (name : Str) : Bool :=
  !xml && ["area", "base", "br", "col", "embed", "hr", "img", "input", "link", "meta", "param", "source",
    "track", "wbr"].any fun v => name.map Char.toLower = v.toList

/-! ## Documents and what is read -/

/-- The characters that a text stands for. -/
inductive TextChars (src : Str) (t : Text) : Str → Prop
  | plain {u} : t.multiline = false →
      (if t.unescapeIn then Unescapes Accepted (t.slice.asStr src) u else u = t.slice.asStr src) →
      TextChars src t u
  | block {body u} : t.multiline = true → Trimmed (t.slice.asStr src) body →
      (if t.unescapeIn then Unescapes Accepted body u else u = body) → TextChars src t u
  | short : t.multiline = true → (t.slice.asStr src).count '\n' < 2 → TextChars src t []

/-- The ids of a selector. -/
def idsOf (items : List SelectorItem) : List TextSlice := items.filterMap fun | .id _ v => some v | _ => none

/-- The classes of a selector. -/
def classesOf (items : List SelectorItem) : List TextSlice := items.filterMap fun | .cls _ v => some v | _ => none

/-- The attributes of a selector. -/
def attributesOf (items : List SelectorItem) : List Attribute := items.flatMap fun | .attributes _ as => as | _ => []

/-- Ids, classes and attributes of a selector as they are to be read: the first id, all classes in
one attribute, all attributes in order. Attributes without a value have an empty one in XML. -/
inductive AttrsRead (xml : Bool) (src : Str) (items : List SelectorItem) : List (Str × Option Str) → Prop
  | mk {id cls attrs} :
      List.Forall₂ (fun i x => Unescapes Accepted (i.asStr src) x)
        ((idsOf items).take 1) id →
      List.Forall₂ (fun i x => Unescapes Accepted (i.asStr src) x)
        (classesOf items) cls →
      List.Forall₂ (fun (a : Attribute) (p : Str × Option Str) =>
          Unescapes Accepted (a.name.asStr src) p.1 ∧
          match a.value with
          | some v => ∃ x, p.2 = some x ∧ Unescapes Accepted (v.asStr src) x
          | none => p.2 = if xml then some [] else none)
        (attributesOf items) attrs →
      AttrsRead xml src items
        (id.map (fun x => ("id".toList, some x)) ++
          (if cls.isEmpty then [] else [("class".toList, some (List.intercalate [' '] cls))]) ++ attrs)

/-- White space added for indentation: nothing, or a line feed and some indentation if this is enabled
and the content is not written inline. -/
inductive Break (indent : Option Str) (inline : Bool) : List Token → Prop
  | none : Break indent inline []
  | line {i} (k : Nat) : indent = some i → inline = false →
      Break indent inline (('\n' :: (List.replicate k i).flatten).map .char)

/-- What a space is read as: the space written in the source or a blank; the end of a line or paragraph
as a blank or as indentation. -/
inductive Separator (indent : Option Str) (src : Str) (inline : Bool) : Space → List Token → Prop
  | written {t} : Separator indent src inline (.inline (some t)) ((t.asStr src).map .char)
  | blank : Separator indent src inline (.inline none) [.char ' ']
  | lineEnd : indent = none ∨ inline = true → Separator indent src inline .lineEnd [.char ' ']
  | paragraphEnd : indent = none ∨ inline = true → Separator indent src inline .paragraphEnd [.char ' ']
  | brokenLine {toks} : Break indent inline toks → toks ≠ [] → Separator indent src inline .lineEnd toks
  | brokenParagraph {toks} : Break indent inline toks → toks ≠ [] →
      Separator indent src inline .paragraphEnd toks

/-- `Gap indent inline ws ws' toks`: white space around the content of an element. `ws`, `ws'`: whether
white space has just been read, before and afterwards. -/
inductive Gap (indent : Option Str) (inline : Bool) : Bool → Bool → List Token → Prop
  | none {ws} : Gap indent inline ws ws []
  | line {ws toks} : Break indent inline toks → toks ≠ [] → Gap indent inline ws true toks

/-- `TextEnd t u ws ws'`: `ws'` holds only if white space has just been read after the characters `u` of
the text; `ws` is the same for the time before. (A block that stands for nothing at all may
count as white space.) -/
def TextEnd (t : Text) (u : Str) (ws ws' : Bool) : Prop :=
  ws' = true → match u.getLast? with
    | some c => c = ' ' ∨ c = '\t'
    | none => ws = true ∨ t.multiline = true

/-- How a comment is read: spaces may have been inserted, but only if its text cannot be written. -/
inductive CommentRead (text : Str) : Str → Prop
  | mk {b} : InsertSpaces text b → CommentBody b → (CommentBody text → b = text) → CommentRead text b

/-- The content of an element without the spaces at its beginning and end. -/
def inner : List Node → List Node := fun l =>
  ((l.dropWhile isSpaceNode).reverse.dropWhile isSpaceNode).reverse
where
  isSpaceNode : Node → Bool
    | .text _ (.space _) => true
    | _ => false

/-- `ReadsAs xml src indent inline ws nodes toks ws'`: the tokens are those of the nodes. `inline`: the
enclosing element is written inline, without line breaks. `ws`: white space has just been read
(or nothing at all); a space between nodes is dropped only in this case. `ws'`: the same
after the tokens. -/
inductive ReadsAs (xml : Bool) (src : Str) (indent : Option Str) :
    Bool → Bool → List Node → List Token → Bool → Prop
  | nil {inl ws} : ReadsAs xml src indent inl ws [] [] ws
  | dropped {inl ws' r s ns rest} : ReadsAs xml src indent inl true ns rest ws' →
      ReadsAs xml src indent inl true (.text r (.space s) :: ns) rest ws'
  | space {inl ws ws' r s toks ns rest} : Separator indent src inl s toks →
      ReadsAs xml src indent inl true ns rest ws' →
      ReadsAs xml src indent inl ws (.text r (.space s) :: ns) (toks ++ rest) ws'
  | text {inl ws ws1 ws' r t u ns rest} : TextChars src t u → TextEnd t u ws ws1 →
      ReadsAs xml src indent inl ws1 ns rest ws' →
      ReadsAs xml src indent inl ws (.text r (.text t) :: ns) (u.map .char ++ rest) ws'
  | comment {inl ws ws' r s b ns rest} : CommentRead (s.asStr src) b →
      ReadsAs xml src indent inl false ns rest ws' →
      ReadsAs xml src indent inl ws (.text r (.comment s) :: ns) (.comment b :: rest) ws'
  | unnamed {inl ws ws1 ws' r h ch body ns rest} : (∀ s ∈ h.selectors, s.tag.name = none) →
      ReadsAs xml src indent (onOneLine h) ws (inner ch) body ws1 →
      ReadsAs xml src indent inl ws1 ns rest ws' →
      ReadsAs xml src indent inl ws (.elem r h ch :: ns) (body ++ rest) ws'
  | empty {inl ws ws' r h s n attrs ns rest} : xml = true → h.selectors = [s] → s.tag.name = some n →
      AttrsRead xml src s.items attrs → ReadsAs xml src indent inl false ns rest ws' →
      ReadsAs xml src indent inl ws (.elem r h [] :: ns) (.start (n.asStr src) attrs true :: rest) ws'
  | void {inl ws ws1 ws2 ws3 ws' r h s n attrs ch body a b ns rest} : h.selectors = [s] →
      s.tag.name = some n → voidName xml (n.asStr src) = true → AttrsRead xml src s.items attrs →
      Gap indent (onOneLine h) false ws1 a →
      ReadsAs xml src indent (onOneLine h) ws1 (inner ch) body ws2 →
      Gap indent (onOneLine h) ws2 ws3 b → ReadsAs xml src indent inl ws3 ns rest ws' →
      ReadsAs xml src indent inl ws (.elem r h ch :: ns)
        (.start (n.asStr src) attrs false :: (a ++ body ++ b) ++ rest) ws'
  | named {inl ws ws1 ws2 ws3 ws' r h s n attrs ch body a b ns rest} : h.selectors = [s] →
      s.tag.name = some n → voidName xml (n.asStr src) = false → (ch = [] → xml = false) →
      AttrsRead xml src s.items attrs → Gap indent (onOneLine h) false ws1 a →
      ReadsAs xml src indent (onOneLine h) ws1 (inner ch) body ws2 →
      Gap indent (onOneLine h) ws2 ws3 b → ReadsAs xml src indent inl false ns rest ws' →
      ReadsAs xml src indent inl ws (.elem r h ch :: ns)
        (.start (n.asStr src) attrs false :: (a ++ body ++ b) ++ .stop (n.asStr src) :: rest) ws'

/-- The start tags. -/
def startTags (toks : List Token) : List (Str × List (Str × Option Str)) :=
  toks.filterMap fun
    | .start n as _ => some (n, as)
    | _ => none

/-- The comments. -/
def commentBodies (toks : List Token) : List Str :=
  toks.filterMap fun
    | .comment b => some b
    | _ => none

/-- Selectors with the name of an element. -/
def namedSelectors (nodes : List Node) : List (TextSlice × List SelectorItem) :=
  (nodesSelectors nodes).filterMap fun s => s.tag.name.map fun n => (n, s.items)

/-! ## Conditions -/

/-- A name that can be used in markup. -/
def SafeName (n : Str) : Prop := ∃ c s, n = c :: s ∧ nameStart c = true ∧ ∀ d ∈ s, nameChar d = true

/-- A name of an attribute that can be used in markup. -/
def SafeAttrName (n : Str) : Prop := n ≠ [] ∧ ∀ c ∈ n, attrChar c = true

/-- White space that markup may contain literally (no carriage return). -/
def Blank (s : Str) : Prop := ∀ c ∈ s, c.toNat ∈ whiteSpace ∧ c ≠ '\r'

/-- The node can be read back: every element has at most one selector and a name that can be used
in markup, so have the attributes (escapes resolved), spaces are white space, and no text is written
without escaping. `raw`: inside of an element with raw content. -/
inductive Readable (xml : Bool) (src : Str) : Bool → Node → Prop
  | space {raw r s} : (∀ t, s = .inline (some t) → Blank (t.asStr src) ∧ t.asStr src ≠ []) →
      Readable xml src raw (.text r (.space s))
  | text {raw r t} : t.raw = false → (xml = false → t.escapeOut = true ∧ raw = false) →
      Readable xml src raw (.text r (.text t))
  | comment {raw r s} : Readable xml src raw (.text r (.comment s))
  | elem {raw r h ch} : h.selectors.length ≤ 1 →
      (∀ s ∈ h.selectors, ∀ n, s.tag.name = some n → SafeName (n.asStr src)) →
      (∀ s ∈ h.selectors, ∀ a ∈ attributesOf s.items, ∀ x, Unescapes Accepted (a.name.asStr src) x → SafeAttrName x) →
      (∀ c ∈ ch, Readable xml src (raw || h.isRaw) c) →
      Readable xml src raw (.elem r h ch)

/-- The HTML elements whose content is not parsed. -/
def rawName (xml : Bool) (name : Option Str) : Bool :=
  !xml && (name = some "script".toList || name = some "style".toList)

/-- The same for a tree in which names may be missing yet: the names of elements and attributes can be
used in markup, spaces are white space, and no text is to be written without escaping, that is there
are no interpolations, and in HTML no `<[raw[...]]>` and no text in `script` and `style`. -/
inductive Clean (xml : Bool) (src : Str) : Bool → Tree → Prop
  | space {raw s} : (∀ t, s = .inline (some t) → Blank (t.asStr src) ∧ t.asStr src ≠ []) →
      Clean xml src raw (.leaf (.space s))
  | text {raw t} : t.raw = false → (xml = false → t.escapeOut = true ∧ raw = false) →
      Clean xml src raw (.leaf (.text t))
  | comment {raw s} : Clean xml src raw (.leaf (.comment s))
  | elem {raw f raw' fmt sel ch} :
      (∀ n, sel.bind (·.1) = some n → SafeName n) →
      (∀ s, sel = some s → ∀ a ∈ attributesOf s.2, ∀ x, Unescapes Accepted (a.name.asStr src) x →
        SafeAttrName x) →
      (∀ c ∈ ch, Clean xml src (raw || raw' || rawName xml (sel.bind (·.1))) c) →
      Clean xml src raw (.elem f raw' fmt sel ch)

/-- The tags for special elements can be used in markup: names, or nothing. In HTML they are not
`script` or `style`. -/
def SafeTags (xml : Bool) (c : SpecialTagConfig) : Prop :=
  ∀ k, configuredTag c k = [] ∨
    (SafeName (configuredTag c k) ∧ rawName xml (some (configuredTag c k)) = false)

end Mty.Spec
