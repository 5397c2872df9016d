import Verif.Props.RefParser

/-!
# The tests of the repository, run on the model

Not proofs: these examples compare the model with the behaviour that `/repo/mintyml/tests` expects of the code. They are generated from
those files (source, options, expected output). The syntax trees come from the parser of `Model/Parse.lean`.
-/

set_option autoImplicit false
set_option maxRecDepth 100000

namespace Mty.RepoTests

/-- `/repo/mintyml/tests/convert.rs`: `special_tags` -/
example : convert parser "\n        section {\n            Abc </def/><#ghi#>?\n            <_jkl_>\n\n            mno <~pqr <\"stu\"> vwx~> yz\n\n            An <`inline {code <block>}`>\n        }\n    ".toList {} =
    .ok "<section><p>Abc <em>def</em><strong>ghi</strong>? <u>jkl</u></p> <p>mno <s>pqr <q>stu</q> vwx</s> yz</p> <p>An <code>inline {code &lt;block&gt;}</code></p></section>".toList := by decide +kernel

/-- `/repo/mintyml/tests/convert.rs`: `table_infer_inline` -/
example : convert parser "\n        table {\n            <(foo)> <(bar)>\n        }\n    ".toList {} =
    .ok "<table><tr><td>foo</td> <td>bar</td></tr></table>".toList := by decide +kernel

/-- `/repo/mintyml/tests/convert.rs`: `table_infer_inline_with_id` -/
example : convert parser "\n        table {\n            <(#cell1> foo)> <(#cell2> bar)>\n        }\n    ".toList {} =
    .ok "<table><tr><td id=\"cell1\">foo</td> <td id=\"cell2\">bar</td></tr></table>".toList := by decide +kernel

/-- `/repo/mintyml/tests/convert.rs`: `details_infer_summary_with_paragraphs` -/
example : convert parser "\n        details {\n            > foo\n\n            bar\n\n            baz\n        }\n    ".toList {} =
    .ok "<details><summary>foo</summary> <p>bar</p> <p>baz</p></details>".toList := by decide +kernel

/-- `/repo/mintyml/tests/convert.rs`: `multiline_escaped` -/
example : convert parser "\n        \"\"\"\n        foo\n        bar\\nbaz\n\n        qux\n        \"\"\"\n    ".toList {} =
    .ok "<p>foo&NewLine;bar&NewLine;baz&NewLine;&NewLine;qux</p>".toList := by decide +kernel

/-- `/repo/mintyml/tests/convert.rs`: `multiline_code_after_text` -/
example : convert parser "\n        abc\n        ```\n        foo\n        bar\\nbaz\n\n        qux\n        ```\n    ".toList {} =
    .ok "<p>abc</p> <pre><code>foo&NewLine;bar\\nbaz&NewLine;&NewLine;qux</code></pre>".toList := by decide +kernel

/-- `/repo/mintyml/tests/escape.rs`: `x_letters_multiline` -/
example : convert parser "\n        \"\"\"\n        \\x41\\x42\n        \"\"\"\n    ".toList {} =
    .ok "<p>AB</p>".toList := by decide +kernel

/-- `/repo/mintyml/tests/infer.rs`: `list_with_paragraph_items_after_paragraph` -/
example : convert parser "\n    paragraph\n\n    ol {\n        a\n\n        b\n    }\n    ".toList {} =
    .ok "<p>paragraph</p> <ol><li>a</li> <li>b</li></ol>".toList := by decide +kernel

/-- `/repo/mintyml/tests/multiline.rs`: `multiline_code_indentation_pretty` -/
example : convert parser "\n    section {\n        ```\n        Hello\n            there,\n        world!\n        ```\n    }\n\n    ".toList { indent := some "  ".toList } =
    .ok "<section>\n  <pre><code>Hello&NewLine;    there,&NewLine;world!</code></pre>\n</section>\n".toList := by decide +kernel

/-- `/repo/mintyml/tests/multiline.rs`: `multiline_double_indentation` -/
example : convert parser "\n\n    section {\n        \"\"\"\n        Hello\n            there,\n        world!\n        \"\"\"\n    }\n\n    ".toList {} =
    .ok "<section><p>Hello&NewLine;    there,&NewLine;world!</p></section>".toList := by decide +kernel

/-- `/repo/mintyml/tests/raw.rs`: `infer_script_raw` -/
example : convert parser "\nhead {\n  script>'''\n  function foo(a, b) {\n    return a < b\n  }\n  '''\n}\n".toList { indent := some "  ".toList } =
    .ok "<head>\n  <script>function foo(a, b) {\n  return a < b\n}</script>\n</head>\n".toList := by decide +kernel

/-- `/repo/mintyml/tests/text.rs`: `interpolation_curly_mod` -/
example : convert parser "\n        section { {%foo </bar/>%}baz }\n    ".toList {} =
    .ok "<section><p>{%foo </bar/>%}baz</p></section>".toList := by decide +kernel

/-- `/repo/mintyml/tests/comment.rs`: `comment_does_not_create_paragraph` -/
example : convert parser "\n    foo\n\n    <!bar!>\n\n    baz\n    ".toList {} =
    .ok "<p>foo</p> <!--bar--> <p>baz</p>".toList := by decide +kernel

/-- `/repo/mintyml/tests/comment.rs`: `comment_does_not_escape_html` -/
example : convert parser "\n    foo\n    <! <>\n    bar\n    !>\n    baz\n    ".toList { xml := some true } =
    .ok "<p>foo <!-- <>\n    bar\n    --> baz</p>".toList := by decide +kernel

/-- `/repo/mintyml/tests/comment.rs`: `comment_separates_triple_dash` -/
example : convert parser "\n    A\n    <! B --- C !>\n    F\n    ".toList {} =
    .ok "<p>A <!-- B - - - C --> F</p>".toList := by decide +kernel

/-- `/repo/mintyml/tests/comment.rs`: `comment_separates_closing_dash` -/
example : convert parser "\n    A\n    <! B C -!>\n    F\n    ".toList {} =
    .ok "<p>A <!-- B C - --> F</p>".toList := by decide +kernel

/-- `/repo/mintyml/tests/error.rs`: `double_unclosed_special` -/
example : (match convertForgiving parser "\n        section {\n            Abc </def/><#ghi#>?\n            <_jkl\n\n            mno <~pqr <\"stu vwx~> yz\n\n            An <`inline {code <block>}`>\n        }\n    ".toList {} with
    | .error (out, .syntax es _) => (out, es)
    | _ => (none, [])) =
    (some "<section><p>Abc <em>def</em><strong>ghi</strong>? <u>jkl mno <s>pqr <q>stu vwx</q></s> yz An <code>inline {code &lt;block&gt;}</code></u></p></section>".toList,
      [⟨⟨63, 65⟩, .unclosed (.specialInline .underline)⟩, ⟨⟨92, 94⟩, .unclosed (.specialInline .quote)⟩]) := by decide +kernel

end Mty.RepoTests
