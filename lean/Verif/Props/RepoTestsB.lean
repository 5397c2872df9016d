import Verif.Props.RefParser

/-!
# The tests of the repository, run on the model

Not proofs: these examples compare the model with the behaviour that `/repo/mintyml/tests` expects of the code. They are generated from
those files (source, options, expected output). The syntax trees come from the parser of `Model/Parse.lean`.
-/

set_option autoImplicit false
set_option maxRecDepth 100000

namespace Mty.RepoTests

/-- `/repo/mintyml/tests/convert.rs`: `simple_doc_xml` -/
example : convert parser "\n    {\n        foo bar\n        baz\n        img[src=\"./pic.png\"]>\n\n        > <(a.foo[href=www.example.com]> a )>\n        b\n        .foo>\n        .foo#bar.baz> c\n    }\n".toList { xml := some true } =
    .ok "<div><p>foo bar baz</p> <img src=\"./pic.png\"/> <p><a class=\"foo\" href=\"www.example.com\">a</a> b</p> <p class=\"foo\"/> <p id=\"bar\" class=\"foo baz\">c</p></div>".toList := by decide +kernel

/-- `/repo/mintyml/tests/convert.rs`: `paragraph_infer_inline_with_attr` -/
example : convert parser "\n        section {\n            foo <([style='color: red']>bar)> baz\n        }\n    ".toList {} =
    .ok "<section><p>foo <span style=\"color: red\">bar</span> baz</p></section>".toList := by decide +kernel

/-- `/repo/mintyml/tests/convert.rs`: `table_infer_inline_all` -/
example : convert parser "section {\n        <(table> <(<(foo)> <(bar)>)> )>\n    }".toList {} =
    .ok "<section><p><table><tr><td>foo</td> <td>bar</td></tr></table></p></section>".toList := by decide +kernel

/-- `/repo/mintyml/tests/convert.rs`: `details_infer_summary` -/
example : convert parser "\n        details> {\n            > foo\n\n            bar\n\n            baz\n        }\n    ".toList {} =
    .ok "<details><summary>foo</summary> bar baz</details>".toList := by decide +kernel

/-- `/repo/mintyml/tests/convert.rs`: `dl_infer_with_blocks` -/
example : convert parser "\n        dl {\n            > term1\n            {\n                details1\n            }\n\n            > term2\n\n            { details2 }\n        }\n    ".toList {} =
    .ok "<dl><dt>term1</dt> <dd><p>details1</p></dd> <dt>term2</dt> <dd><p>details2</p></dd></dl>".toList := by decide +kernel

/-- `/repo/mintyml/tests/convert.rs`: `multiline_code` -/
example : convert parser "\n        ```\n        foo\n        bar\\nbaz\n\n        qux\n        ```\n    ".toList {} =
    .ok "<pre><code>foo&NewLine;bar\\nbaz&NewLine;&NewLine;qux</code></pre>".toList := by decide +kernel

/-- `/repo/mintyml/tests/escape.rs`: `x_letters` -/
example : convert parser "\n        \\x41\\x42\n    ".toList {} =
    .ok "<p>AB</p>".toList := by decide +kernel

/-- `/repo/mintyml/tests/escape.rs`: `u_letters_multiline` -/
example : convert parser "\n        \"\"\"\n        \\u{41}\\u{000042}\n        \"\"\"\n    ".toList {} =
    .ok "<p>AB</p>".toList := by decide +kernel

/-- `/repo/mintyml/tests/multiline.rs`: `multiline_code_indentation` -/
example : convert parser "\n\n    section {\n        ```\n        Hello\n            there,\n        world!\n        ```\n    }\n\n    ".toList {} =
    .ok "<section><pre><code>Hello&NewLine;    there,&NewLine;world!</code></pre></section>".toList := by decide +kernel

/-- `/repo/mintyml/tests/multiline.rs`: `multiline_single_indentation_pretty` -/
example : convert parser "\n\n    section {\n        '''\n        Hello\n            there,\n        world!\n        '''\n    }\n\n    ".toList { indent := some "  ".toList } =
    .ok "<section>\n  <p>Hello&NewLine;    there,&NewLine;world!</p>\n</section>\n".toList := by decide +kernel

/-- `/repo/mintyml/tests/raw.rs`: `infer_style_raw` -/
example : convert parser "\nhead {\n  style>'''\n  .foo {\n    color: red;\n    background: blue;\n  }\n  '''\n}\n".toList { indent := some "  ".toList } =
    .ok "<head>\n  <style>.foo {\n  color: red;\n  background: blue;\n}</style>\n</head>\n".toList := by decide +kernel

/-- `/repo/mintyml/tests/text.rs`: `interpolation_angle_qmark` -/
example : convert parser "\n        section { <?foo </bar/>?>baz }\n    ".toList {} =
    .ok "<section><p><?foo </bar/>?>baz</p></section>".toList := by decide +kernel

/-- `/repo/mintyml/tests/text.rs`: `interpolation_curly_double_follows_single_word` -/
example : convert parser "\n        foo {{ </bar/> }}\n    ".toList {} =
    .ok "<p>foo {{ </bar/> }}</p>".toList := by decide +kernel

/-- `/repo/mintyml/tests/comment.rs`: `comment_does_not_escape_html` -/
example : convert parser "\n    foo\n    <! <>\n    bar\n    !>\n    baz\n    ".toList {} =
    .ok "<p>foo <!-- <>\n    bar\n    --> baz</p>".toList := by decide +kernel

/-- `/repo/mintyml/tests/comment.rs`: `comment_separates_double_dash` -/
example : convert parser "\n    A\n    <! B -- C !>\n    F\n    ".toList {} =
    .ok "<p>A <!-- B - - C --> F</p>".toList := by decide +kernel

/-- `/repo/mintyml/tests/comment.rs`: `comment_separates_opening_right_arrow` -/
example : convert parser "\n    A\n    <!-> B C !>\n    F\n    ".toList {} =
    .ok "<p>A <!-- -> B C --> F</p>".toList := by decide +kernel

/-- `/repo/mintyml/tests/error.rs`: `unclosed_special` -/
example : (match convertForgiving parser "\n        section {\n            Abc </def/><#ghi#>?\n            <_jkl\n\n            mno <~pqr <\"stu\"> vwx~> yz\n\n            An <`inline {code <block>}`>\n        }\n    ".toList {} with
    | .error (out, .syntax es _) => (out, es)
    | _ => (none, [])) =
    (some "<section><p>Abc <em>def</em><strong>ghi</strong>? <u>jkl mno <s>pqr <q>stu</q> vwx</s> yz An <code>inline {code &lt;block&gt;}</code></u></p></section>".toList,
      [⟨⟨63, 65⟩, .unclosed (.specialInline .underline)⟩]) := by decide +kernel

/-- `/repo/mintyml/tests/error.rs`: `unclosed_comment` -/
example : (match convertForgiving parser "\n    foo\n    <!bar\n    baz\n    ".toList {} with
    | .error (out, .syntax es _) => (out, es)
    | _ => (none, [])) =
    (some "<p>foo <!--bar\n    baz\n    --></p>".toList,
      [⟨⟨13, 15⟩, .unclosed .comment⟩]) := by decide +kernel

end Mty.RepoTests
