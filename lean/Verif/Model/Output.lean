import Verif.Model.Config
import Verif.Model.Doc
import Verif.Model.OutEscape
import Verif.Model.Multiline

/-!
# Writing the document (`/repo/mintyml/src/output/mod.rs`)

The writer is a `String` (its `write_str` never fails), so an output action is a function of
the only other mutable state that survives between nodes, `follows_space`; it yields the
characters written, the new `follows_space` and whether it succeeded. `indent_level`, `element`
and `is_raw` are set and restored around content (`indent`, `in_content`), so they are
parameters.
-/

namespace Mty

/-- Result of an output action: characters written, `follows_space` afterwards
(`/repo/mintyml/src/output/mod.rs:42`), `Ok`/`Err` (`OutputResult`, line 505). -/
structure Emit where
  out : Str
  fs : Bool
  ok : Bool
deriving DecidableEq, Repr

/-- An output action: takes `follows_space` (`/repo/mintyml/src/output/mod.rs:42`). -/
abbrev Act := Bool → Emit

namespace Act

/-- `a?; b` on `OutputResult`: on error nothing more is written (e.g. `/repo/mintyml/src/output/mod.rs:332-378`). -/
def seq (a b : Act) : Act := fun fs =>
  let r := a fs
  if r.ok then
    let q := b r.fs
    { q with out := r.out ++ q.out }
  else r

/-- `Ok(())` (e.g. `/repo/mintyml/src/output/mod.rs:377`). -/
def skip : Act := fun fs => ⟨[], fs, true⟩

/-- Write characters, keep `follows_space` (`write!`, `write_str`, `write_char` on `self.out`, e.g.
`/repo/mintyml/src/output/mod.rs:338,381`). -/
def write (s : Str) : Act := fun fs => ⟨s, fs, true⟩

/-- Write with a possible failure, keep `follows_space` (`write_escape_unescape` and its siblings,
`/repo/mintyml/src/output/mod.rs:179-251`). -/
def writeR (r : Str × Bool) : Act := fun fs => ⟨r.1, fs, r.2⟩

/-- `self.follows_space = b` (e.g. `/repo/mintyml/src/output/mod.rs:376`). -/
def setFs (b : Bool) : Act := fun _ => ⟨[], b, true⟩

/-- Sequence of actions (`try_for_each`, `/repo/mintyml/src/output/mod.rs:489`). -/
def all : List Act → Act
  | [] => skip
  | a :: as => seq a (all as)

end Act

/-- The parts of `OutputContext` (`/repo/mintyml/src/output/mod.rs:35-44`) that are constant while
a node is written: configuration, source, `indent_level`, `format_inline()` of the
enclosing element (lines 167-169) and `is_raw`. -/
structure OutCx where
  cfg : OutputConfig
  src : Str
  indentLevel : Nat
  fmtInline : Bool
  isRaw : Bool

/-- `is_void` (`/repo/mintyml/src/output/mod.rs:21-27`). -/
def isVoidTag (tag : Str) : Bool :=
  tag ∈ ["area".toList, "base".toList, "br".toList, "col".toList, "embed".toList, "hr".toList,
    "img".toList, "input".toList, "link".toList, "meta".toList, "param".toList, "source".toList,
    "track".toList, "wbr".toList]

/-- `char::to_ascii_lowercase` (Rust std; `make_ascii_lowercase` in
`/repo/mintyml/src/utils.rs:199`). -/
def asciiLowerChar (c : Char) : Char :=
  if 'A' ≤ c ∧ c ≤ 'Z' then Char.ofNat (c.toNat + 32) else c

/-- `to_lowercase` (`/repo/mintyml/src/utils.rs:193-201`). The shortcut for strings that are
already lower case returns the same string. -/
def asciiLower (s : Str) : Str :=
  if s.all (fun c => decide ('a' ≤ c ∧ c ≤ 'z')) then s else s.map asciiLowerChar

/-- `str::eq_ignore_ascii_case` (Rust std), used in `/repo/mintyml/src/output/mod.rs:254` and
`transform/complete_page.rs:30`. -/
def eqIgnoreAsciiCase (a b : Str) : Bool := a.map asciiLowerChar == b.map asciiLowerChar

/-- `TagInfo` (`/repo/mintyml/src/output/mod.rs:30-33`). -/
structure TagInfo where
  isVoid : Bool := false
  isRoot : Bool := false
deriving DecidableEq, Repr

/-- `OutputContext::get_info` (`/repo/mintyml/src/output/mod.rs:253-258`). -/
def getInfo (cfg : OutputConfig) (tag : Str) : TagInfo :=
  { isRoot := eqIgnoreAsciiCase tag "html".toList
    isVoid := !cfg.isXml && isVoidTag (asciiLower tag) }

/-- `OutputContext::_line` (`/repo/mintyml/src/output/mod.rs:260-270`). -/
def lineRaw (cx : OutCx) : Act :=
  match cx.cfg.indent with
  | some indent =>
    Act.seq (Act.write ('\n' :: (List.replicate cx.indentLevel indent).flatten)) (Act.setFs true)
  | none => Act.skip

/-- `OutputContext::line` (`/repo/mintyml/src/output/mod.rs:272-278`). -/
def line (cx : OutCx) : Act := fun fs =>
  if fs || cx.fmtInline then Act.skip fs else lineRaw cx fs

/-- `OutputContext::space` (`/repo/mintyml/src/output/mod.rs:280-296`). -/
def space (cx : OutCx) (s : Space) : Act := fun fs =>
  if !fs then
    (match s with
      | .inline (some slice) => Act.seq (Act.write (slice.asStr cx.src)) (Act.setFs true)
      | .inline none => Act.seq (Act.write [' ']) (Act.setFs true)
      | .lineEnd | .paragraphEnd =>
        if !cx.fmtInline && cx.cfg.indent.isSome then Act.seq (lineRaw cx) (Act.setFs true)
        else Act.seq (Act.write [' ']) (Act.setFs true)) fs
  else Act.skip fs

/-- `OutputContext::indent` (`/repo/mintyml/src/output/mod.rs:298-315`): the context in which the
closure runs. -/
def OutCx.indent (cx : OutCx) (n : Nat) : OutCx :=
  if !cx.fmtInline && cx.cfg.indent.isSome then { cx with indentLevel := cx.indentLevel + n } else cx

/-- `OutputContext::in_content` (`/repo/mintyml/src/output/mod.rs:317-330`): the context in which
the closure runs. -/
def OutCx.inContent (cx : OutCx) (h : EHead) : OutCx :=
  { cx with isRaw := cx.isRaw || h.isRaw, fmtInline := h.fmtInline }

/-- The attribute loop of `write_open_tag` (`/repo/mintyml/src/output/mod.rs:359-370`). -/
def writeAttributes (cx : OutCx) : List (TextSlice × Option TextSlice) → Act
  | [] => Act.skip
  | (name, value) :: rest =>
    Act.seq (Act.write [' ']) <|
    Act.seq (Act.writeR (writeUnescape (name.asStr cx.src))) <|
    Act.seq
      (match value with
        | some v =>
          Act.seq (Act.write "=\"".toList) <|
          Act.seq (Act.writeR (writeEscapeUnescape cx.cfg.isXml true (v.asStr cx.src))) <|
          Act.write ['"']
        | none => if cx.cfg.isXml then Act.write "=\"\"".toList else Act.skip) <|
    writeAttributes cx rest

/-- The class loop of `write_open_tag` (`/repo/mintyml/src/output/mod.rs:351-354`). -/
def writeMoreClasses (cx : OutCx) : List TextSlice → Act
  | [] => Act.skip
  | c :: rest =>
    Act.seq (Act.write [' ']) <|
    Act.seq (Act.writeR (writeEscapeUnescape cx.cfg.isXml true (c.asStr cx.src))) <|
    writeMoreClasses cx rest

/-- `OutputContext::write_open_tag` (`/repo/mintyml/src/output/mod.rs:332-378`). -/
def writeOpenTag (cx : OutCx) (tag : Str) (sel : Selector) (selfClose : Bool) : Act :=
  Act.seq (Act.write ('<' :: tag)) <|
  Act.seq
    (match sel.id with
      | some id =>
        Act.seq (Act.write " id=\"".toList) <|
        Act.seq (Act.writeR (writeEscapeUnescape cx.cfg.isXml true (id.asStr cx.src))) <|
        Act.write ['"']
      | none => Act.skip) <|
  Act.seq
    (match sel.classNames with
      | first :: rest =>
        Act.seq (Act.write " class=\"".toList) <|
        Act.seq (Act.writeR (writeEscapeUnescape cx.cfg.isXml true (first.asStr cx.src))) <|
        Act.seq (writeMoreClasses cx rest) <|
        Act.write ['"']
      | [] => Act.skip) <|
  Act.seq (writeAttributes cx sel.attributes) <|
  Act.seq (if selfClose then Act.write ['/'] else Act.skip) <|
  Act.seq (Act.write ['>']) (Act.setFs false)

/-- `OutputContext::write_close_tag` (`/repo/mintyml/src/output/mod.rs:380-384`). -/
def writeCloseTag (tag : Str) : Act :=
  Act.seq (Act.write ("</".toList ++ tag ++ ['>'])) (Act.setFs false)

/-- `get_valid_tags` in `process_element` (`/repo/mintyml/src/output/mod.rs:387-388`). -/
def validTags (h : EHead) : List (TextSlice × Selector) :=
  h.selectors.filterMap fun s => s.tag.name.map fun n => (n, s)

/-- The opening loop of `process_element` (`/repo/mintyml/src/output/mod.rs:399-407`). -/
def writeOpenTags (cx : OutCx) (selfCloseLast : Bool) : List (TextSlice × Selector) → Act
  | [] => Act.skip
  | (tag, sel) :: rest =>
    Act.seq (writeOpenTag cx (tag.asStr cx.src) sel (rest.isEmpty && selfCloseLast))
      (writeOpenTags cx selfCloseLast rest)

/-- The closing loop of `process_element` (`/repo/mintyml/src/output/mod.rs:417-426`), over the tags
in reverse order. -/
def writeCloseTags (cx : OutCx) (selfCloseLast : Bool) : List (TextSlice × Selector) → Act
  | [] => Act.skip
  | (tag, _) :: rest =>
    let tag := tag.asStr cx.src
    Act.seq
      (if !selfCloseLast && !(getInfo cx.cfg tag).isVoid then writeCloseTag tag else Act.skip)
      (writeCloseTags cx selfCloseLast rest)

/-- The lines of a multiline text, written one after the other with the last line remembered
(`/repo/mintyml/src/output/mod.rs:447-453`). -/
def writeLines (w : Str → Str × Bool) : List Str → Act
  | [] => Act.skip
  | l :: ls => Act.seq (Act.writeR (w l)) (writeLines w ls)

/-- `last_line.ends_with([' ', '\t'])` (`/repo/mintyml/src/output/mod.rs:458`). -/
def endsWithBlank (s : Str) : Bool := s.getLast? == some ' ' || s.getLast? == some '\t'

/-- The closure `write` of `process_node` (`/repo/mintyml/src/output/mod.rs:440-445`). -/
def textWriter (cx : OutCx) (t : Text) (isRaw : Bool) (value : Str) : Str × Bool :=
  match t.unescapeIn, isRaw with
  | true, true => writeUnescape value
  | true, false => writeEscapeUnescape cx.cfg.isXml false value
  | false, true => (value, true)
  | false, false => writeEscape cx.cfg.isXml false value

/-- The text case of `process_node` (`/repo/mintyml/src/output/mod.rs:435-459`). -/
def writeText (cx : OutCx) (t : Text) : Act :=
  if t.slice.isEmpty then Act.skip
  else
    let isRaw := t.raw || (!cx.cfg.isXml && (!t.escapeOut || cx.isRaw))
    let slice := t.slice.asStr cx.src
    let w := textWriter cx t isRaw
    if t.multiline then
      let lines := trimMultiline slice
      Act.seq (writeLines w lines) (Act.setFs (endsWithBlank (lines.getLast?.getD slice)))
    else Act.seq (Act.writeR (w slice)) (Act.setFs (endsWithBlank slice))

/-- The comment case of `process_node` (`/repo/mintyml/src/output/mod.rs:460-467`). -/
def writeComment (cx : OutCx) (s : TextSlice) : Act :=
  Act.seq (Act.write ("<!--".toList ++ writeCommentBody (s.asStr cx.src) ++ "-->".toList))
    (Act.setFs false)

/-- The text-like cases of `process_node` (`/repo/mintyml/src/output/mod.rs:434-472`). -/
def writeTextLike (cx : OutCx) : TextLike → Act
  | .text t => writeText cx t
  | .comment s => writeComment cx s
  | .space s => Act.seq (space cx s) (Act.setFs true)

/-- `process_content` (`/repo/mintyml/src/output/mod.rs:478-490`) on the actions of the nodes, each
with its `is_space()`: leading and trailing spaces are skipped. -/
def contentActs (l : List (Bool × Act)) : Act :=
  Act.all ((((l.dropWhile (·.1)).reverse.dropWhile (·.1)).reverse).map (·.2))

/-- The part of `process_element` (`/repo/mintyml/src/output/mod.rs:386-429`) around the content;
`content cx` is `process_content` run in the context `cx`. -/
def elementAct (cx : OutCx) (h : EHead) (noNodes : Bool) (content : OutCx → Act) : Act :=
  let tags := validTags h
  if tags.isEmpty then content (cx.inContent h)
  else
    let selfCloseLast := noNodes && cx.cfg.isXml
    let lastInfo := (tags.getLast?.map fun (t, _) => getInfo cx.cfg (t.asStr cx.src)).getD {}
    let icx := cx.inContent h
    let bcx := icx.indent (if lastInfo.isRoot then 0 else 1)
    Act.seq (writeOpenTags cx selfCloseLast tags) <|
    Act.seq
      (if !noNodes then
        Act.seq (Act.seq (line bcx) (content bcx)) (line icx)
       else Act.skip) <|
    writeCloseTags icx selfCloseLast (tags.reverse.drop (if selfCloseLast then 1 else 0))

mutual
  /-- `OutputContext::process_node` (`/repo/mintyml/src/output/mod.rs:431-476`). -/
  def processNode : Node → OutCx → Act
    | .text _ t => fun cx => writeTextLike cx t
    | .elem _ h children => fun cx =>
      elementAct cx h children.isEmpty fun cx' => contentActs (nodeActs children cx')
  /-- The nodes of a content with their `is_space()`, as used by `process_content`
  (`/repo/mintyml/src/output/mod.rs:478-490`). -/
  def nodeActs : List Node → OutCx → List (Bool × Act)
    | [] => fun _ => []
    | n :: ns => fun cx => (n.isSpace, processNode n cx) :: nodeActs ns cx
end

/-- `process_content` (`/repo/mintyml/src/output/mod.rs:478-490`). -/
def processContent (nodes : List Node) (cx : OutCx) : Act := contentActs (nodeActs nodes cx)

/-- `output_html_to` (`/repo/mintyml/src/output/mod.rs:507-534`): characters written and success. -/
def outputHtmlTo (src : Str) (doc : Document) (cfg : OutputConfig) : Str × Bool :=
  let cx : OutCx := { cfg, src, indentLevel := 0, fmtInline := false, isRaw := false }
  let r := (Act.seq
    (if cfg.completePage.getD false then Act.write "<!DOCTYPE html>\n".toList else Act.skip)
    (Act.seq (processContent doc.nodes cx) (line cx))) true
  (r.out, r.ok)

end Mty
