import Verif.Props.RefParser

/-!
# The tests of the repository, run on the model

Not proofs: these examples compare the model with the behaviour that `/repo/mintyml/tests` expects of the code. They are generated from
those files (source, options, expected output). The syntax trees come from the parser of `Model/Parse.lean`.
-/

set_option autoImplicit false
set_option maxRecDepth 100000

namespace Mty.RepoTests

/-- `/repo/mintyml/tests/convert.rs`: `simple_doc` -/
example : convert parser "\n    {\n        foo bar\n        baz\n        img[src=\"./pic.png\"]>\n\n        > <(a.foo[href=www.example.com]> a )>\n        b\n        .foo>\n        .foo#bar.baz> c\n    }\n".toList {} =
    .ok "<div><p>foo bar baz</p> <img src=\"./pic.png\"> <p><a class=\"foo\" href=\"www.example.com\">a</a> b</p> <p class=\"foo\"></p> <p id=\"bar\" class=\"foo baz\">c</p></div>".toList := by decide +kernel

/-- `/repo/mintyml/tests/convert.rs`: `paragraph_infer_inline` -/
example : convert parser "\n        section {\n            foo <(bar)> baz\n        }\n    ".toList {} =
    .ok "<section><p>foo <span>bar</span> baz</p></section>".toList := by decide +kernel

/-- `/repo/mintyml/tests/convert.rs`: `table_infer_inline_row` -/
example : convert parser "table> <(<(foo)> <(bar)>)>".toList {} =
    .ok "<table><tr><td>foo</td> <td>bar</td></tr></table>".toList := by decide +kernel

/-- `/repo/mintyml/tests/convert.rs`: `table_infer_inline_with_star` -/
example : convert parser "\n        table {\n            <(*> foo)> <(*> bar)>\n        }\n    ".toList {} =
    .ok "<table><tr><td>foo</td> <td>bar</td></tr></table>".toList := by decide +kernel

/-- `/repo/mintyml/tests/convert.rs`: `dl_infer` -/
example : convert parser "\n        dl {\n            > term1\n\n            details1\n\n            > term2\n\n            details2\n        }\n    ".toList {} =
    .ok "<dl><dt>term1</dt> <dd>details1</dd> <dt>term2</dt> <dd>details2</dd></dl>".toList := by decide +kernel

/-- `/repo/mintyml/tests/convert.rs`: `multiline_unescaped` -/
example : convert parser "\n        '''\n        foo\n        bar\\nbaz\n\n        qux\n        '''\n    ".toList {} =
    .ok "<p>foo&NewLine;bar\\nbaz&NewLine;&NewLine;qux</p>".toList := by decide +kernel

/-- `/repo/mintyml/tests/convert.rs`: `small_document_with_list` -/
example : convert parser "\n    style> foo\n    article {\n        h1> Title\n\n        paragraph\n\n        ol {\n            a\n\n            b\n        }\n    }\n    ".toList { completePage := some true } =
    .ok "<!DOCTYPE html>\n<html><head><style>foo</style></head> <body><article><h1>Title</h1> <p>paragraph</p> <ol><li>a</li> <li>b</li></ol></article></body></html>".toList := by decide +kernel

/-- `/repo/mintyml/tests/escape.rs`: `u_letters` -/
example : convert parser "\n        \\u{41}\\u{000042}\n    ".toList {} =
    .ok "<p>AB</p>".toList := by decide +kernel

/-- `/repo/mintyml/tests/infer.rs`: `table_nested_in_div` -/
example : convert parser "\n    >table {\n      thead>> <(A)> <(B)>\n\n      <(C)> <(D)>\n    }\n    ".toList {} =
    .ok "<div><table><thead><tr><th>A</th> <th>B</th></tr></thead> <tr><td>C</td> <td>D</td></tr></table></div>".toList := by decide +kernel

/-- `/repo/mintyml/tests/multiline.rs`: `multiline_single_indentation` -/
example : convert parser "\n\n    section {\n        '''\n        Hello\n            there,\n        world!\n        '''\n    }\n\n    ".toList {} =
    .ok "<section><p>Hello&NewLine;    there,&NewLine;world!</p></section>".toList := by decide +kernel

/-- `/repo/mintyml/tests/multiline.rs`: `multiline_double_indentation_pretty` -/
example : convert parser "\n\n    section {\n        \"\"\"\n        Hello\n            there,\n        world!\n        \"\"\"\n    }\n\n    ".toList { indent := some "  ".toList } =
    .ok "<section>\n  <p>Hello&NewLine;    there,&NewLine;world!</p>\n</section>\n".toList := by decide +kernel

/-- `/repo/mintyml/tests/text.rs`: `interpolation_angle_mod` -/
example : convert parser "\n        section { <%foo </bar/>%>baz }\n    ".toList {} =
    .ok "<section><p><%foo </bar/>%>baz</p></section>".toList := by decide +kernel

/-- `/repo/mintyml/tests/text.rs`: `interpolation_curly_double` -/
example : convert parser "\n        section { {{foo </bar/>}}baz }\n    ".toList {} =
    .ok "<section><p>{{foo </bar/>}}baz</p></section>".toList := by decide +kernel

/-- `/repo/mintyml/tests/comment.rs`: `comment_does_not_split_paragraph` -/
example : convert parser "\n    foo\n    <!bar!>\n    baz\n    ".toList {} =
    .ok "<p>foo <!--bar--> baz</p>".toList := by decide +kernel

/-- `/repo/mintyml/tests/comment.rs`: `nested_comment` -/
example : convert parser "\n    A\n    <!B <! C D!> E !>\n    F\n    ".toList {} =
    .ok "<p>A <!--B <! C D!> E --> F</p>".toList := by decide +kernel

/-- `/repo/mintyml/tests/comment.rs`: `comment_separates_opening_right_angle` -/
example : convert parser "\n    A\n    <!> B C !>\n    F\n    ".toList {} =
    .ok "<p>A <!-- > B C --> F</p>".toList := by decide +kernel

/-- `/repo/mintyml/tests/error.rs`: `unclosed_block` -/
example : (match convertForgiving parser "\n        dl {\n            > term1\n            {\n                details1\n\n            > term2\n\n            { details2 }\n        }\n    ".toList {} with
    | .error (out, .syntax es _) => (out, es)
    | _ => (none, [])) =
    (some "<dl><dt>term1</dt> <dd><p>details1</p> <p>term2</p> <div><p>details2</p></div></dd></dl>".toList,
      [⟨⟨12, 13⟩, .unclosed .block⟩]) := by decide +kernel

/-- `/repo/mintyml/tests/error.rs`: `unclosed_inline` -/
example : (match convertForgiving parser "\n        section {\n            foo <(bar baz\n        }\n    ".toList {} with
    | .error (out, .syntax es _) => (out, es)
    | _ => (none, [])) =
    (some "<section><p>foo <span>bar baz</span></p></section>".toList,
      [⟨⟨35, 37⟩, .unclosed .inline⟩]) := by decide +kernel

end Mty.RepoTests
