import Verif.Model.Convert

/-! # Parsed documents used by the examples beside the theorems -/

namespace Mty

deriving instance DecidableEq for Except

namespace Ex

/-- A parser that yields the given syntax tree. -/
def parser (d : Ast.Document) : Parser := fun _ => .ok d

/-- A tag selector. -/
def tag (a b : Nat) : Ast.NodeType := .selector ⟨a, .tag (some (.name ⟨a, b⟩)) [], [], b⟩

/-- A text segment. -/
def seg (a b : Nat) : Ast.NodeType := .text (.segment ⟨a, b⟩)

/-- `p> a <(b> c)>` -/
def src1 : Str := "p> a <(b> c)>".toList
def ast1 : Ast.Document := ⟨.mk 0 [.mk 0 [
  .mk none 0 1 (tag 0 1),
  .mk none 1 2 (.line ⟨1, 2⟩),
  .mk (some ⟨2, 3⟩) 3 4 (seg 3 4),
  .mk (some ⟨4, 5⟩) 5 13 (.inline ⟨5, 7⟩ [
    .mk none 7 8 (tag 7 8),
    .mk none 8 9 (.line ⟨8, 9⟩),
    .mk (some ⟨9, 10⟩) 10 11 (seg 10 11)] (some ⟨11, 13⟩))] 13] 13⟩

/-- `ul { a` followed by a line break and `x\q`: unclosed block and an invalid escape. -/
def src2 : Str := "ul { a\nx\\q".toList
def ast2 : Ast.Document := ⟨.mk 0 [.mk 0 [
  .mk none 0 2 (tag 0 2),
  .mk (some ⟨2, 3⟩) 3 10 (.block ⟨3, 4⟩ (.mk 4 [
    .mk 4 [.mk (some ⟨4, 5⟩) 5 6 (seg 5 6)] 6,
    .mk 7 [.mk none 7 10 (seg 7 10)] 10] 10) none)] 10] 10⟩

/-- `p[x=\q]> a`: an invalid escape in an attribute value. -/
def src3 : Str := "p[x=\\q]> a".toList
def ast3 : Ast.Document := ⟨.mk 0 [.mk 0 [
  .mk none 0 7 (.selector ⟨0, .tag (some (.name ⟨0, 1⟩)) [],
    [.attributes ⟨1, ⟨1, 2⟩, [⟨2, ⟨2, 3⟩, some (.unquoted ⟨4, 6⟩), 6⟩], some ⟨6, 7⟩, 7⟩], 7⟩),
  .mk none 7 8 (.line ⟨7, 8⟩),
  .mk (some ⟨8, 9⟩) 9 10 (seg 9 10)] 10] 10⟩

/-- `> { x } y`: text after the block of an element that begins with `>`. -/
def src4 : Str := "> { x } y".toList
def ast4 : Ast.Document := ⟨.mk 0 [.mk 0 [
  .mk none 0 1 (.line ⟨0, 1⟩),
  .mk (some ⟨1, 2⟩) 2 7 (.block ⟨2, 3⟩ (.mk 3 [
    .mk 3 [.mk (some ⟨3, 4⟩) 4 5 (seg 4 5)] 6] 6) (some ⟨6, 7⟩)),
  .mk (some ⟨7, 8⟩) 8 9 (seg 8 9)] 9] 9⟩

/-- `.a.![x] b[c`: an invalid selector part, a selector after a selector and an unclosed bracket. -/
def src5 : Str := ".a.![x] b[c".toList
def ast5 : Ast.Document := ⟨.mk 0 [.mk 0 [
  .mk none 0 7 (.selector ⟨0, .tag none [.cls ⟨0, 1⟩ ⟨1, 2⟩, .invalid ⟨2, 4⟩],
    [.attributes ⟨4, ⟨4, 5⟩, [⟨5, ⟨5, 6⟩, none, 6⟩], some ⟨6, 7⟩, 7⟩], 7⟩),
  .mk (some ⟨7, 8⟩) 8 11 (.selector ⟨8, .tag (some (.name ⟨8, 9⟩)) [],
    [.attributes ⟨9, ⟨9, 10⟩, [⟨10, ⟨10, 11⟩, none, 11⟩], none, 11⟩], 11⟩)] 11] 11⟩

/-- ``p[a="é"]> <[[b]]> <`c`>``: delimited tokens and a character of two bytes. -/
def src6 : Str := "p[a=\"é\"]> <[[b]]> <`c`>".toList
def ast6 : Ast.Document := ⟨.mk 0 [.mk 0 [
  .mk none 0 9 (.selector ⟨0, .tag (some (.name ⟨0, 1⟩)) [],
    [.attributes ⟨1, ⟨1, 2⟩, [⟨2, ⟨2, 3⟩, some (.quoted ⟨4, 8⟩), 8⟩], some ⟨8, 9⟩, 9⟩], 9⟩),
  .mk none 9 10 (.line ⟨9, 10⟩),
  .mk (some ⟨10, 11⟩) 11 18 (.text (.verbatim ⟨11, 13⟩ none (.verbatim0 ⟨13, 18⟩))),
  .mk (some ⟨18, 19⟩) 19 24 (.code ⟨19, 24⟩)] 24] 24⟩

/-- Lines `a`, `b`, a blank line, `p> c`, `d`, `> { e }`. -/
def src7 : Str := "a\nb\n\np> c\nd\n> { e }".toList
def ast7 : Ast.Document := ⟨.mk 0 [
  .mk 0 [.mk none 0 1 (seg 0 1)] 1,
  .mk 2 [.mk none 2 3 (seg 2 3)] 3,
  .mk 4 [] 4,
  .mk 5 [.mk none 5 6 (tag 5 6), .mk none 6 7 (.line ⟨6, 7⟩), .mk (some ⟨7, 8⟩) 8 9 (seg 8 9)] 9,
  .mk 10 [.mk none 10 11 (seg 10 11)] 11,
  .mk 12 [.mk none 12 13 (.line ⟨12, 13⟩),
    .mk (some ⟨13, 14⟩) 14 19 (.block ⟨14, 15⟩ (.mk 15 [
      .mk 15 [.mk (some ⟨15, 16⟩) 16 17 (seg 16 17)] 18] 18) (some ⟨18, 19⟩))] 19] 19⟩

/-- `ul > .x > b > t`: a selector chain. -/
def src8 : Str := "ul > .x > b > t".toList
def ast8 : Ast.Document := ⟨.mk 0 [.mk 0 [
  .mk none 0 2 (tag 0 2),
  .mk (some ⟨2, 3⟩) 3 4 (.line ⟨3, 4⟩),
  .mk (some ⟨4, 5⟩) 5 7 (.selector ⟨5, .tag none [.cls ⟨5, 6⟩ ⟨6, 7⟩], [], 7⟩),
  .mk (some ⟨7, 8⟩) 8 9 (.line ⟨8, 9⟩),
  .mk (some ⟨9, 10⟩) 10 11 (tag 10 11),
  .mk (some ⟨11, 12⟩) 12 13 (.line ⟨12, 13⟩),
  .mk (some ⟨13, 14⟩) 14 15 (seg 14 15)] 15] 15⟩

/-- `table { thead { { > a } }` and on a second line `{ > b } }`: header and data cells. -/
def src9 : Str := "table { thead { { > a } }\n{ > b } }".toList
def ast9 : Ast.Document := ⟨.mk 0 [.mk 0 [
  .mk none 0 5 (tag 0 5),
  .mk (some ⟨5, 6⟩) 6 35 (.block ⟨6, 7⟩ (.mk 7 [
    .mk 7 [
      .mk (some ⟨7, 8⟩) 8 13 (tag 8 13),
      .mk (some ⟨13, 14⟩) 14 25 (.block ⟨14, 15⟩ (.mk 15 [.mk 15 [
        .mk (some ⟨15, 16⟩) 16 23 (.block ⟨16, 17⟩ (.mk 17 [.mk 17 [
          .mk (some ⟨17, 18⟩) 18 19 (.line ⟨18, 19⟩),
          .mk (some ⟨19, 20⟩) 20 21 (seg 20 21)] 22] 22) (some ⟨22, 23⟩))] 24] 24) (some ⟨24, 25⟩))] 25,
    .mk 26 [
      .mk none 26 33 (.block ⟨26, 27⟩ (.mk 27 [.mk 27 [
        .mk (some ⟨27, 28⟩) 28 29 (.line ⟨28, 29⟩),
        .mk (some ⟨29, 30⟩) 30 31 (seg 30 31)] 32] 32) (some ⟨32, 33⟩))] 34] 34) (some ⟨34, 35⟩))] 35] 35⟩

/-- `span { a { > x } }` -/
def src10 : Str := "span { a { > x } }".toList
def ast10 : Ast.Document := ⟨.mk 0 [.mk 0 [
  .mk none 0 4 (tag 0 4),
  .mk (some ⟨4, 5⟩) 5 18 (.block ⟨5, 6⟩ (.mk 6 [.mk 6 [
    .mk (some ⟨6, 7⟩) 7 8 (tag 7 8),
    .mk (some ⟨8, 9⟩) 9 16 (.block ⟨9, 10⟩ (.mk 10 [.mk 10 [
      .mk (some ⟨10, 11⟩) 11 12 (.line ⟨11, 12⟩),
      .mk (some ⟨12, 13⟩) 13 14 (seg 13 14)] 15] 15) (some ⟨15, 16⟩))] 17] 17) (some ⟨17, 18⟩))] 18] 18⟩

/-- `picture { { a } }` -/
def src11 : Str := "picture { { a } }".toList
def ast11 : Ast.Document := ⟨.mk 0 [.mk 0 [
  .mk none 0 7 (tag 0 7),
  .mk (some ⟨7, 8⟩) 8 17 (.block ⟨8, 9⟩ (.mk 9 [.mk 9 [
    .mk (some ⟨9, 10⟩) 10 15 (.block ⟨10, 11⟩ (.mk 11 [.mk 11 [
      .mk (some ⟨11, 12⟩) 12 13 (seg 12 13)] 14] 14) (some ⟨14, 15⟩))] 16] 16) (some ⟨16, 17⟩))] 17] 17⟩

/-- `</a/>` and a code block with the line `c`. -/
def src12 : Str := "</a/>\n```\nc\n```".toList
def ast12 : Ast.Document := ⟨.mk 0 [
  .mk 0 [.mk none 0 5 (.special .emphasis ⟨0, 2⟩ (.mk 2 [.mk 2 [.mk none 2 3 (seg 2 3)] 3] 3) (some ⟨3, 5⟩))] 5,
  .mk 6 [.mk none 6 15 (.multiline .code 9 12)] 15] 15⟩

/-- `x`, `title> T` and `head { link > }` on lines of their own. -/
def src13 : Str := "x\ntitle> T\nhead { link > }".toList
def ast13 : Ast.Document := ⟨.mk 0 [
  .mk 0 [.mk none 0 1 (seg 0 1)] 1,
  .mk 2 [.mk none 2 7 (tag 2 7), .mk none 7 8 (.line ⟨7, 8⟩), .mk (some ⟨8, 9⟩) 9 10 (seg 9 10)] 10,
  .mk 11 [.mk none 11 15 (tag 11 15), .mk (some ⟨15, 16⟩) 16 26 (.block ⟨16, 17⟩ (.mk 17 [
    .mk 17 [.mk (some ⟨17, 18⟩) 18 22 (tag 18 22), .mk (some ⟨22, 23⟩) 23 24 (.line ⟨23, 24⟩)] 25] 25)
      (some ⟨25, 26⟩))] 26] 26⟩

/-- `head > title > T` -/
def src14 : Str := "head > title > T".toList
def ast14 : Ast.Document := ⟨.mk 0 [.mk 0 [
  .mk none 0 4 (tag 0 4),
  .mk (some ⟨4, 5⟩) 5 6 (.line ⟨5, 6⟩),
  .mk (some ⟨6, 7⟩) 7 12 (tag 7 12),
  .mk (some ⟨12, 13⟩) 13 14 (.line ⟨13, 14⟩),
  .mk (some ⟨14, 15⟩) 15 16 (seg 15 16)] 16] 16⟩

/-- `1 \< 2` -/
def src15 : Str := "1 \\< 2".toList
def ast15 : Ast.Document := ⟨.mk 0 [.mk 0 [.mk none 0 6 (seg 0 6)] 6] 6⟩

/-- `p#i.x.y[k="1<2" h]> a & b <!c!> <(em> d)>` -/
def src16 : Str := "p#i.x.y[k=\"1<2\" h]> a & b <!c!> <(em> d)>".toList
def ast16 : Ast.Document := ⟨.mk 0 [.mk 0 [
  .mk none 0 18 (.selector ⟨0, .tag (some (.name ⟨0, 1⟩)) [.id ⟨1, 2⟩ ⟨2, 3⟩, .cls ⟨3, 4⟩ ⟨4, 5⟩, .cls ⟨5, 6⟩ ⟨6, 7⟩],
    [.attributes ⟨7, ⟨7, 8⟩, [⟨8, ⟨8, 9⟩, some (.quoted ⟨10, 15⟩), 15⟩, ⟨16, ⟨16, 17⟩, none, 17⟩], some ⟨17, 18⟩, 18⟩], 18⟩),
  .mk none 18 19 (.line ⟨18, 19⟩),
  .mk (some ⟨19, 20⟩) 20 25 (seg 20 25),
  .mk (some ⟨25, 26⟩) 26 31 (.text (.comment ⟨26, ⟨26, 28⟩, ⟨28, 29⟩, some ⟨29, 31⟩, 31⟩)),
  .mk (some ⟨31, 32⟩) 32 41 (.inline ⟨32, 34⟩ [
    .mk none 34 36 (tag 34 36),
    .mk none 36 37 (.line ⟨36, 37⟩),
    .mk (some ⟨37, 38⟩) 38 39 (seg 38 39)] (some ⟨39, 41⟩))] 41] 41⟩

/-- `p[x\>y]> a`: an attribute name with an escaped `>`. -/
def src17 : Str := "p[x\\>y]> a".toList
def ast17 : Ast.Document := ⟨.mk 0 [.mk 0 [
  .mk none 0 7 (.selector ⟨0, .tag (some (.name ⟨0, 1⟩)) [],
    [.attributes ⟨1, ⟨1, 2⟩, [⟨2, ⟨2, 6⟩, none, 6⟩], some ⟨6, 7⟩, 7⟩], 7⟩),
  .mk none 7 8 (.line ⟨7, 8⟩),
  .mk (some ⟨8, 9⟩) 9 10 (seg 9 10)] 10] 10⟩

/-- `-x> a`: an element name that begins with `-`. -/
def src18 : Str := "-x> a".toList
def ast18 : Ast.Document := ⟨.mk 0 [.mk 0 [
  .mk none 0 2 (tag 0 2),
  .mk none 2 3 (.line ⟨2, 3⟩),
  .mk (some ⟨3, 4⟩) 4 5 (seg 4 5)] 5] 5⟩

/-- `a <(b> c)>` with U+000B in place of the first space. -/
def src19 : Str := "a\x0b<(b> c)>".toList
def ast19 : Ast.Document := ⟨.mk 0 [.mk 0 [
  .mk none 0 1 (seg 0 1),
  .mk (some ⟨1, 2⟩) 2 10 (.inline ⟨2, 4⟩ [
    .mk none 4 5 (tag 4 5),
    .mk none 5 6 (.line ⟨5, 6⟩),
    .mk (some ⟨6, 7⟩) 7 8 (seg 7 8)] (some ⟨8, 10⟩))] 10] 10⟩

/-- `p[a=1 a=2]> x`: an attribute written twice. -/
def src20 : Str := "p[a=1 a=2]> x".toList
def ast20 : Ast.Document := ⟨.mk 0 [.mk 0 [
  .mk none 0 10 (.selector ⟨0, .tag (some (.name ⟨0, 1⟩)) [],
    [.attributes ⟨1, ⟨1, 2⟩, [⟨2, ⟨2, 3⟩, some (.unquoted ⟨4, 5⟩), 5⟩, ⟨6, ⟨6, 7⟩, some (.unquoted ⟨8, 9⟩), 9⟩],
      some ⟨9, 10⟩, 10⟩], 10⟩),
  .mk none 10 11 (.line ⟨10, 11⟩),
  .mk (some ⟨11, 12⟩) 12 13 (seg 12 13)] 13] 13⟩

/-- `br> a <(img> b)>`: void elements with content. -/
def src21 : Str := "br> a <(img> b)>".toList
def ast21 : Ast.Document := ⟨.mk 0 [.mk 0 [
  .mk none 0 2 (tag 0 2),
  .mk none 2 3 (.line ⟨2, 3⟩),
  .mk (some ⟨3, 4⟩) 4 5 (seg 4 5),
  .mk (some ⟨5, 6⟩) 6 16 (.inline ⟨6, 8⟩ [
    .mk none 8 11 (tag 8 11),
    .mk none 11 12 (.line ⟨11, 12⟩),
    .mk (some ⟨12, 13⟩) 13 14 (seg 13 14)] (some ⟨14, 16⟩))] 16] 16⟩

/-- `script> a\<b` -/
def src22 : Str := "script> a\\<b".toList
def ast22 : Ast.Document := ⟨.mk 0 [.mk 0 [
  .mk none 0 6 (tag 0 6),
  .mk none 6 7 (.line ⟨6, 7⟩),
  .mk (some ⟨7, 8⟩) 8 12 (seg 8 12)] 12] 12⟩

/-- `1 {{ a<b }} \<`: an interpolation. -/
def src23 : Str := "1 {{ a<b }} \\<".toList
def ast23 : Ast.Document := ⟨.mk 0 [.mk 0 [
  .mk none 0 1 (seg 0 1),
  .mk (some ⟨1, 2⟩) 2 11 (.text (.interpolation ⟨2, 11⟩)),
  .mk (some ⟨11, 12⟩) 12 14 (seg 12 14)] 14] 14⟩

end Ex
end Mty
