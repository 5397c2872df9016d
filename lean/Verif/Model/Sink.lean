import Verif.Model.Convert

/-!
# Writing to any writer (`/repo/mintyml/src/output/mod.rs`)

`Model/Output.lean` models the writer as a `String`, which never fails. Here the same functions write to any implementation of
`fmt::Write`, whose calls can fail and can change its state in any way. Code that does not write (`get_info`, `trim_multiline`,
`unescape_parts`, the choice of tags) is shared with `Model/Output.lean`.
-/

namespace Mty.Sink

/-- An implementation of `fmt::Write` (Rust std; the parameter `out` of `output_html_to`,
`/repo/mintyml/src/output/mod.rs:507-512`) with states `σ`: `write_str` and `write_char`, each with the new state and `Ok`/`Err`. -/
structure Out (σ : Type) where
  str : Str → σ → σ × Bool
  char : Char → σ → σ × Bool

/-- Code that only writes (`fmt::Result`, e.g. `/repo/mintyml/src/output/mod.rs:122,152`): state of the writer afterwards and
`Ok`/`Err`. -/
abbrev W (σ : Type) := σ → σ × Bool

section
variable {σ : Type}

/-- `Ok(())` (e.g. `/repo/mintyml/src/output/mod.rs:141`). -/
def W.ok : W σ := fun st => (st, true)

/-- `Err(..)` (`/repo/mintyml/src/output/mod.rs:153`, `default()`). -/
def W.fail : W σ := fun st => (st, false)

/-- `a?; b` (e.g. `/repo/mintyml/src/output/mod.rs:131-133`). -/
def W.seq (a b : W σ) : W σ := fun st =>
  let r := a st
  if r.2 then b r.1 else r

variable (o : Out σ)

/-- `write_escape` (`/repo/mintyml/src/output/mod.rs:73-78,96-101`). `write!` (Rust std) writes the pieces one after the other. -/
def writeEscapeKind : EscapeKind → W σ
  | .number n => W.seq (o.str "&#".toList) (W.seq (o.str (Nat.toDigits 10 n)) (o.str [';']))
  | .special s => o.str s

/-- `EscapeWriter::write_char` (`/repo/mintyml/src/output/mod.rs:144-149`). -/
def escWriteChar (xml quote : Bool) (ch : Char) : W σ :=
  match getEscape xml quote ch with
  | some esc => writeEscapeKind o esc
  | none => o.char ch

/-- `if !slice.is_empty() { self.inner.write_str(slice)?; }` (`/repo/mintyml/src/output/mod.rs:129-131,138-140`). -/
def writeNonempty (s : Str) : W σ := if s.isEmpty then W.ok else o.str s

/-- The fold in `EscapeWriter::write_str` and what follows it (`/repo/mintyml/src/output/mod.rs:122-142`). `pending` is
the slice `s[last..idx]` that has not been written yet. -/
def escWriteStrLoop (xml quote : Bool) (pending : Str) : Str → W σ
  | [] => writeNonempty o pending
  | ch :: s =>
    match getEscape xml quote ch with
    | some esc => W.seq (writeNonempty o pending) (W.seq (writeEscapeKind o esc) (escWriteStrLoop xml quote [] s))
    | none => escWriteStrLoop xml quote (pending ++ [ch]) s

/-- `EscapeWriter` (`/repo/mintyml/src/output/mod.rs:104-150`) is a writer. -/
def escOut (xml quote : Bool) : Out σ where
  str s := escWriteStrLoop o xml quote [] s
  char c := escWriteChar o xml quote c

/-- `write_unescaped` (`/repo/mintyml/src/output/mod.rs:152-157`) on the items of `unescape_parts`. -/
def writeParts : List (Except Range Part) → W σ
  | [] => W.ok
  | .error _ :: _ => W.fail
  | .ok (.slice s) :: r => W.seq (o.str s) (writeParts r)
  | .ok (.char c) :: r => W.seq (o.char c) (writeParts r)

/-- `OutputContext::write_escape_unescape` (`/repo/mintyml/src/output/mod.rs:179-203`). -/
def writeEscapeUnescape (xml quote : Bool) (s : Str) : W σ := writeParts (escOut o xml quote) (unescapeParts s 0)

/-- `OutputContext::write_escape` (`/repo/mintyml/src/output/mod.rs:204-219`). -/
def writeEscape (xml quote : Bool) (s : Str) : W σ := (escOut o xml quote).str s

/-- `OutputContext::write_unescape` (`/repo/mintyml/src/output/mod.rs:249-251`). -/
def writeUnescape (s : Str) : W σ := writeParts o (unescapeParts s 0)

/-- The `while` loop of `write_comment_body` and what follows it (`/repo/mintyml/src/output/mod.rs:230-246`). The fuel bounds
the number of iterations (each one shortens the slice). -/
def commentLoop : Nat → Str → W σ
  | 0, slice => o.str slice
  | fuel + 1, slice =>
    match splitDashes slice with
    | some (chunk, rest) => W.seq (o.str chunk) (W.seq (o.char ' ') (commentLoop fuel rest))
    | none => W.seq (o.str slice) (if slice.getLast? = some '-' then o.char ' ' else W.ok)

/-- `OutputContext::write_comment_body` (`/repo/mintyml/src/output/mod.rs:222-247`). -/
def writeCommentBody (src : Str) : W σ :=
  W.seq (if ['>'].isPrefixOf src || ['-', '>'].isPrefixOf src then o.char ' ' else W.ok) (commentLoop o (src.length + 1) src)

end

/-- Result of an output action: state of the writer, `follows_space` afterwards (`/repo/mintyml/src/output/mod.rs:42`), `Ok`/`Err`
(`OutputResult`, line 505). -/
structure Emit (σ : Type) where
  st : σ
  fs : Bool
  ok : Bool

/-- An output action: takes the writer and `follows_space` (`/repo/mintyml/src/output/mod.rs:38,42`). -/
abbrev Act (σ : Type) := σ → Bool → Emit σ

section
variable {σ : Type}

namespace Act

/-- `a?; b` on `OutputResult` (e.g. `/repo/mintyml/src/output/mod.rs:332-378`). -/
def seq (a b : Act σ) : Act σ := fun st fs =>
  let r := a st fs
  if r.ok then b r.st r.fs else r

/-- `Ok(())` (e.g. `/repo/mintyml/src/output/mod.rs:377`). -/
def skip : Act σ := fun st fs => ⟨st, fs, true⟩

/-- Code that only writes keeps `follows_space` (e.g. `/repo/mintyml/src/output/mod.rs:338,381`). -/
def write (w : W σ) : Act σ := fun st fs => let r := w st; ⟨r.1, fs, r.2⟩

/-- `self.follows_space = b` (e.g. `/repo/mintyml/src/output/mod.rs:376`). -/
def setFs (b : Bool) : Act σ := fun st _ => ⟨st, b, true⟩

/-- Sequence of actions (`try_for_each`, `/repo/mintyml/src/output/mod.rs:489`). -/
def all : List (Act σ) → Act σ
  | [] => skip
  | a :: as => seq a (all as)

end Act

variable (o : Out σ)

/-- The loop of `_line` (`/repo/mintyml/src/output/mod.rs:263-265`). -/
def writeIndent (indent : Str) : Nat → W σ
  | 0 => W.ok
  | n + 1 => W.seq (o.str indent) (writeIndent indent n)

/-- `OutputContext::_line` (`/repo/mintyml/src/output/mod.rs:260-270`). -/
def lineRaw (cx : OutCx) : Act σ :=
  match cx.cfg.indent with
  | some indent =>
    Act.seq (Act.write (W.seq (o.char '\n') (writeIndent o indent cx.indentLevel))) (Act.setFs true)
  | none => Act.skip

/-- `OutputContext::line` (`/repo/mintyml/src/output/mod.rs:272-278`). -/
def line (cx : OutCx) : Act σ := fun st fs =>
  if fs || cx.fmtInline then Act.skip st fs else lineRaw o cx st fs

/-- `OutputContext::space` (`/repo/mintyml/src/output/mod.rs:280-296`). -/
def space (cx : OutCx) (s : Space) : Act σ := fun st fs =>
  if !fs then
    (match s with
      | .inline (some slice) => Act.seq (Act.write (o.str (slice.asStr cx.src))) (Act.setFs true)
      | .inline none => Act.seq (Act.write (o.str [' '])) (Act.setFs true)
      | .lineEnd | .paragraphEnd =>
        if !cx.fmtInline && cx.cfg.indent.isSome then Act.seq (lineRaw o cx) (Act.setFs true)
        else Act.seq (Act.write (o.str [' '])) (Act.setFs true)) st fs
  else Act.skip st fs

/-- The attribute loop of `write_open_tag` (`/repo/mintyml/src/output/mod.rs:359-370`). -/
def writeAttributes (cx : OutCx) : List (TextSlice × Option TextSlice) → Act σ
  | [] => Act.skip
  | (name, value) :: rest =>
    Act.seq (Act.write (o.char ' ')) <|
    Act.seq (Act.write (writeUnescape o (name.asStr cx.src))) <|
    Act.seq
      (match value with
        | some v =>
          Act.seq (Act.write (o.str "=\"".toList)) <|
          Act.seq (Act.write (writeEscapeUnescape o cx.cfg.isXml true (v.asStr cx.src))) <|
          Act.write (o.char '"')
        | none => if cx.cfg.isXml then Act.write (o.str "=\"\"".toList) else Act.skip) <|
    writeAttributes cx rest

/-- The class loop of `write_open_tag` (`/repo/mintyml/src/output/mod.rs:351-354`). -/
def writeMoreClasses (cx : OutCx) : List TextSlice → Act σ
  | [] => Act.skip
  | c :: rest =>
    Act.seq (Act.write (o.char ' ')) <|
    Act.seq (Act.write (writeEscapeUnescape o cx.cfg.isXml true (c.asStr cx.src))) <|
    writeMoreClasses cx rest

/-- `OutputContext::write_open_tag` (`/repo/mintyml/src/output/mod.rs:332-378`). -/
def writeOpenTag (cx : OutCx) (tag : Str) (sel : Selector) (selfClose : Bool) : Act σ :=
  Act.seq (Act.write (W.seq (o.str ['<']) (o.str tag))) <|
  Act.seq
    (match sel.id with
      | some id =>
        Act.seq (Act.write (o.str " id=\"".toList)) <|
        Act.seq (Act.write (writeEscapeUnescape o cx.cfg.isXml true (id.asStr cx.src))) <|
        Act.write (o.char '"')
      | none => Act.skip) <|
  Act.seq
    (match sel.classNames with
      | first :: rest =>
        Act.seq (Act.write (o.str " class=\"".toList)) <|
        Act.seq (Act.write (writeEscapeUnescape o cx.cfg.isXml true (first.asStr cx.src))) <|
        Act.seq (writeMoreClasses o cx rest) <|
        Act.write (o.char '"')
      | [] => Act.skip) <|
  Act.seq (writeAttributes o cx sel.attributes) <|
  Act.seq (if selfClose then Act.write (o.char '/') else Act.skip) <|
  Act.seq (Act.write (o.char '>')) (Act.setFs false)

/-- `OutputContext::write_close_tag` (`/repo/mintyml/src/output/mod.rs:380-384`). -/
def writeCloseTag (tag : Str) : Act σ :=
  Act.seq (Act.write (W.seq (o.str "</".toList) (W.seq (o.str tag) (o.str ['>'])))) (Act.setFs false)

/-- The opening loop of `process_element` (`/repo/mintyml/src/output/mod.rs:399-407`). -/
def writeOpenTags (cx : OutCx) (selfCloseLast : Bool) : List (TextSlice × Selector) → Act σ
  | [] => Act.skip
  | (tag, sel) :: rest =>
    Act.seq (writeOpenTag o cx (tag.asStr cx.src) sel (rest.isEmpty && selfCloseLast))
      (writeOpenTags cx selfCloseLast rest)

/-- The closing loop of `process_element` (`/repo/mintyml/src/output/mod.rs:417-426`), over the tags in reverse order. -/
def writeCloseTags (cx : OutCx) (selfCloseLast : Bool) : List (TextSlice × Selector) → Act σ
  | [] => Act.skip
  | (tag, _) :: rest =>
    let tag := tag.asStr cx.src
    Act.seq
      (if !selfCloseLast && !(getInfo cx.cfg tag).isVoid then writeCloseTag o tag else Act.skip)
      (writeCloseTags cx selfCloseLast rest)

/-- The lines of a multiline text (`/repo/mintyml/src/output/mod.rs:447-453`). -/
def writeLines (w : Str → W σ) : List Str → Act σ
  | [] => Act.skip
  | l :: ls => Act.seq (Act.write (w l)) (writeLines w ls)

/-- The closure `write` of `process_node` (`/repo/mintyml/src/output/mod.rs:440-445`). -/
def textWriter (cx : OutCx) (t : Text) (isRaw : Bool) (value : Str) : W σ :=
  match t.unescapeIn, isRaw with
  | true, true => writeUnescape o value
  | true, false => writeEscapeUnescape o cx.cfg.isXml false value
  | false, true => o.str value
  | false, false => writeEscape o cx.cfg.isXml false value

/-- The text case of `process_node` (`/repo/mintyml/src/output/mod.rs:435-459`). -/
def writeText (cx : OutCx) (t : Text) : Act σ :=
  if t.slice.isEmpty then Act.skip
  else
    let isRaw := t.raw || (!cx.cfg.isXml && (!t.escapeOut || cx.isRaw))
    let slice := t.slice.asStr cx.src
    let w := textWriter o cx t isRaw
    if t.multiline then
      let lines := trimMultiline slice
      Act.seq (writeLines w lines) (Act.setFs (endsWithBlank (lines.getLast?.getD slice)))
    else Act.seq (Act.write (w slice)) (Act.setFs (endsWithBlank slice))

/-- The comment case of `process_node` (`/repo/mintyml/src/output/mod.rs:460-467`). -/
def writeComment (cx : OutCx) (s : TextSlice) : Act σ :=
  Act.seq (Act.write (W.seq (o.str "<!--".toList) (W.seq (writeCommentBody o (s.asStr cx.src)) (o.str "-->".toList))))
    (Act.setFs false)

/-- The text-like cases of `process_node` (`/repo/mintyml/src/output/mod.rs:434-472`). -/
def writeTextLike (cx : OutCx) : TextLike → Act σ
  | .text t => writeText o cx t
  | .comment s => writeComment o cx s
  | .space s => Act.seq (space o cx s) (Act.setFs true)

/-- `process_content` (`/repo/mintyml/src/output/mod.rs:478-490`) on the actions of the nodes, each with its `is_space()`. -/
def contentActs (l : List (Bool × Act σ)) : Act σ :=
  Act.all ((((l.dropWhile (·.1)).reverse.dropWhile (·.1)).reverse).map (·.2))

/-- The part of `process_element` (`/repo/mintyml/src/output/mod.rs:386-429`) around the content. -/
def elementAct (cx : OutCx) (h : EHead) (noNodes : Bool) (content : OutCx → Act σ) : Act σ :=
  let tags := validTags h
  if tags.isEmpty then content (cx.inContent h)
  else
    let selfCloseLast := noNodes && cx.cfg.isXml
    let lastInfo := (tags.getLast?.map fun (t, _) => getInfo cx.cfg (t.asStr cx.src)).getD {}
    let icx := cx.inContent h
    let bcx := icx.indent (if lastInfo.isRoot then 0 else 1)
    Act.seq (writeOpenTags o cx selfCloseLast tags) <|
    Act.seq
      (if !noNodes then
        Act.seq (Act.seq (line o bcx) (content bcx)) (line o icx)
       else Act.skip) <|
    writeCloseTags o icx selfCloseLast (tags.reverse.drop (if selfCloseLast then 1 else 0))

mutual
  /-- `OutputContext::process_node` (`/repo/mintyml/src/output/mod.rs:431-476`). -/
  def processNode : Node → OutCx → Act σ
    | .text _ t => fun cx => writeTextLike o cx t
    | .elem _ h children => fun cx =>
      elementAct o cx h children.isEmpty fun cx' => contentActs (nodeActs children cx')
  /-- The nodes of a content with their `is_space()`, as used by `process_content`
  (`/repo/mintyml/src/output/mod.rs:478-490`). -/
  def nodeActs : List Node → OutCx → List (Bool × Act σ)
    | [] => fun _ => []
    | n :: ns => fun cx => (n.isSpace, processNode n cx) :: nodeActs ns cx
end

/-- `output_html_to` (`/repo/mintyml/src/output/mod.rs:507-534`): the writer afterwards and success. -/
def outputHtmlTo (src : Str) (doc : Document) (cfg : OutputConfig) (st : σ) : σ × Bool :=
  let cx : OutCx := { cfg, src, indentLevel := 0, fmtInline := false, isRaw := false }
  let r := (Act.seq
    (if cfg.completePage.getD false then Act.write (o.str "<!DOCTYPE html>\n".toList) else Act.skip)
    (Act.seq (contentActs (nodeActs o doc.nodes cx)) (line o cx))) st true
  (r.st, r.ok)

/-- `convert_to_internal` (`/repo/mintyml/src/lib.rs:149-175`): the writer afterwards and the result. -/
def convertToInternal (parse : Parser) (src : Str) (cfg : OutputConfig) (forgive : Bool) (st : σ) :
    σ × Except ConvertError Unit :=
  match Build.parseDocument parse src (Errors.new cfg) with
  | (none, e) => (st, e.toConvertError src)
  | (some doc, e) =>
    let doc := transformDocument doc src cfg
    if e.isEmpty || forgive then
      let (st, ok) := outputHtmlTo o src doc cfg st
      if ok then (st, e.toConvertError src)
      else (st, (BM.unknownErr e).2.toConvertError src)
    else (st, e.toConvertError src)

/-- `convert_to` (`/repo/mintyml/src/lib.rs:141-147`). -/
def convertTo (parse : Parser) (src : Str) (cfg : OutputConfig) (st : σ) : σ × Except ConvertError Unit :=
  convertToInternal o parse src cfg true st

/-- `impl fmt::Write for String` (Rust std; the `String` of `/repo/mintyml/src/lib.rs:72-73,106-107`). -/
def string : Out Str where
  str s st := (st ++ s, true)
  char c st := (st ++ [c], true)

end

end Mty.Sink
