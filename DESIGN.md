# Design of the formal model of mintyml

## Layout

* `lean/Verif/Model/*.lean`: the model. Every definition cites the file and lines of `/repo` it models.
* `lean/Verif/Spec/*.lean`: small specifications that do not mention the model (character-reference
  decoder, escape-sequence grammar, comment rules, markup reader, inference table, file search ...).
* `lean/Verif/Proofs/*.lean`: helper lemmas.
* `lean/Verif/Props/*.lean`: the property theorems, each with an `example` that exercises its hypotheses (beside it, or in `Props/Instances.lean`).
* `properties.jsonl` lists the properties, `MANIFEST.json` maps them to theorems, `seeded/LOG.jsonl`
  records the wrong-program experiments.

## Trusted base

* The kernel of Lean 4.33.0. No axiom of our own, no `sorry`, no `native_decide`, no `bv_decide`. The axioms each theorem
  depends on are listed at the end of this file.
* The transcription of the Rust code into `Model/`, done by hand, function by function; every definition cites the lines it
  models and says what it simplifies.
* Rust semantics assumed by the transcription: `String` is a list of Unicode scalar values, byte offsets are sums of UTF-8
  lengths, `Vec` is a list, `usize` arithmetic does not overflow (sources are shorter than 2^63 bytes),
  `u8/u32::from_str_radix` accept one leading `+`, writing to a `String` never fails (other writers: C75).
* The crate `gramma` (the parser generator) is not part of the repository. Its algorithm, in particular which one of several
  possible trees it returns and which errors it reports, is not modelled. The parser is a *parameter*
  `parse : source -> syntax error or tree` of the model. Most theorems hold for every such function. Theorems that speak about
  the source text (`C12_grammar*`, `C49_*`, C51, `C56_*`, `C57_positions`, `C1{4,5,6}_source_partial`, `C45_source_partial`, `C74_written`, C81, C82, `C94_alike`, `C95_source_partial`, `C95_none`) assume that the tree is one of the grammar: `Grammar.Conforms`
  (`Model/Grammar.lean`), which transcribes the rules of `ast.rs` and the tokens of `ast/tokens.rs` (`Model/Lexer.lean`) and
  says for a given source and tree whether the tree is a derivation of the source. Read from the macros of `gramma`: `transform`s
  that ignore white space apply before a token, `discard_before/after` drop the given tokens, `LocationRange::INVALID` has
  start > end, `combine` is (min start, max end), `range.slice(src)` is the byte slice.
* Which tree `gramma` takes is only tested: `Model/Parse.lean` is a recursive-descent parser with ordered choice whose trees are
  proved to be trees of the grammar (`C56_sound`). With it, the model yields the output that the repository's own tests expect:
  all 48 output tests and the 5 error tests of `mintyml/tests` are run on the model by the kernel
  (`Props/RepoTests{A,B,C}.lean`), and so are the 11 tests of `minty-cli/src/tests.rs`, for every schedule
  (`Props/RepoTestsCli.lean`), and the 2 tests of the JavaScript class (`Props/RepoTestsJs.lean`). These are tests of the transcription, not proofs of properties. The model also
  converts the whole of `/repo/README.mty` (1353 lines) to exactly the bytes of `/repo/README.md`, which the project generates from it
  (`tests/readme.sh`). `C59_reference`, `C60_*`,
  `C61_*`, C76 to C80, C86 to C88 and `C90_between` are about parsers that agree with this reference parser.
* Not modelled: `rayon` (conversions may interleave in any way, which covers every schedule), `anyhow`, `clap` (what it makes of
  the arguments is the input of `Model/Cli.lean` and `Model/CliMain.lean`), `serde` and `serde_json` (the text it writes for an error is described in `Model/Json.lean`), the operating system beyond the small state machine of
  `Model/CliRun.lean` (its answers are arbitrary). Of `web-demo`: the look
  of the page; the editor (ACE), the browser (how it parses markup and writes fragments of addresses are parameters) and the queue of
  messages of the worker are external (`Model/Demo.lean` and `Model/View.lean` say what is assumed of them).
  Of `minty-wasm`: what `wasm-bindgen` does to values that do not fit (an `indent` that is not an integer or not in the range of 32 bits is
  reduced to one that is; surrogates that stand alone in a string become U+FFFD); the model has integers and strings of characters.

## What is modelled

| code | model |
|---|---|
| `utils.rs` StrCursor, `escape.rs` | `Model/Str.lean`, `Model/Escape.lean` |
| `output/mod.rs` escape writers, comment writer, `output/utils.rs` | `Model/OutEscape.lean`, `Model/Multiline.lean` |
| `error.rs` Errors, ConvertError, display list | `Model/Errors.lean` |
| `config.rs` | `Model/Config.lean`, the methods that set options: `Model/Builder.lean` |
| `ast.rs`, `ast/*.rs` rule types (tree shape) | `Model/Ast.lean` |
| `ast/tokens.rs` tokens (patterns, `try_lex`) | `Model/Lexer.lean` |
| `ast.rs`, `ast/*.rs` rules (which trees derive which source) | `Model/Grammar.lean` |
| `ast.rs`, `ast/*.rs` a reference parser (ordered choice, greedy) | `Model/Parse.lean` |
| `document/*` types | `Model/Doc.lean` |
| `document/*` builders | `Model/Build.lean` |
| `transform/*` (special tags, page completion, lang, metadata) | `Model/Transform.lean`, `Model/Metadata.lean` |
| `inference/*` (engine and definitions) | `Model/Infer.lean` |
| `output/mod.rs` OutputContext | `Model/Output.lean` |
| `lib.rs` convert, convert_to, convert_forgiving | `Model/Convert.lean` |
| `minty-cli/src/utils.rs`, `convert.rs`: paths, options, search, plan | `Model/Path.lean`, `Model/Cli.lean` |
| `minty-cli/src/reporting.rs` reporter | `Model/Reporter.lean` |
| `minty-cli/src/{main,convert}.rs` reading, converting, writing | `Model/CliRun.lean` |
| `minty-wasm/src/lib.rs` convert | `Model/Wasm.lean` |
| `minty-wasm/src-ts/index.ts` the JavaScript class | `Model/JsClass.lean` |
| `minty-cli/src/key_value.rs`, `args.rs` `--special-tag` | `Model/KeyValue.lean` |
| `web-demo/src/{index,worker}.ts` the demonstration page | `Model/Demo.lean` |
| `web-demo/src/index.ts` the view of the output, links into it; `web-demo/src/collapsible.ts` | `Model/View.lean` |

## Specifications

| file | content |
|---|---|
| `Spec/Escape.lean` | escape sequences of the manual as an inductive grammar, those accepted beyond it |
| `Spec/CharRef.lean` | readers of character references: the strict one, the HTML standard, XML 1.0 |
| `Spec/Multiline.lean` | what a multiline block stands for, by lines |
| `Spec/Syntax.lean` | well-formed syntax trees and the errors of the others |
| `Spec/Leaves.lean` | texts of a syntax tree and of a document |
| `Spec/Ranges.lean` | positions and ranges of a source, tree and document |
| `Spec/Paragraphs.lean` | how lines form paragraphs |
| `Spec/Infer.lean` | trees without positions, contexts and tables of the manual, `inferForest` |
| `Spec/Transform.lean` | configured tags, erasure of metadata |
| `Spec/Markup.lean` | reader of tags, attributes, comments and text; what a document is to be read as |
| `Spec/Pieces.lean` | pieces of the output: spaces, indentation, interpolations, verbatim texts |
| `Spec/PlainText.lean` | documents of words, lines and paragraphs |
| `Spec/Cli.lean`, `Spec/CliRun.lean` | names of output files, search in a directory tree, events and effects of a run |
| `Spec/Plan.lean` | which files the arguments select |
| `Spec/Structure.lean` | which elements the lines of a syntax tree stand for |
| `Spec/Selectors.lean` | selectors of the source that have an element; how they are carried by the start tags of the output |
| `Spec/Usable.lean` | sources whose output can be read as markup: conditions on names, interpolations and raw texts |
| `Spec/Tokens.lean` | the parts of the source a syntax tree accounts for |
| `Spec/Metadata.lean` | metadata elements and their attributes; places of nodes in the source |
| `Spec/Same.lean` | C59: when two syntax trees of two sources say the same |
| `Spec/Writing.lean` | C60, C61: how documents are written and what they stand for (text, elements, short forms, verbatim text, texts and code between fences, comments; not: interpolations, `script` and `style`, text between fences where it would get a name of its own, code blocks if the name of emphasis is configured, see C23); trees of elements |
| `Spec/Demo.lean` | C62 to C66: histories of the demonstration page, when it has come to rest, the events that happen by themselves, the marks of errors |
| `Spec/Page.lean` | C67: the page around an output |
| `Spec/Partial.lean` | C68: where an output breaks off and how the item there begins |
| `Spec/Schedule.lean` | C69: undisturbed runs, conversions that are apart, the outcome in terms of the files before |
| `Spec/Stopped.lean` | C70: what a file contains when a run is stopped; any number of stopped runs |
| `Spec/WrittenPage.lean` | C60: the pieces of a complete page: which go into the head and which into the body (not: documents with `head` or `body` outside of `html`, and documents with nothing for the body; in XML, an empty body is written `<body></body>`) |
| `Spec/Message.lean` | C71: what a message is made of: the complaint, the text shown for a range, labels of sources and positions |
| `Spec/Json.lean` | C73: JSON texts and the values they stand for (RFC 8259), and the value for an error |
| `Spec/Slices.lean` | C74: the ranges of the source that are read, and reading them |
| `Spec/Sink.lean` | C75: calls of a writer, making them up to the first that fails, a buffer of limited size |
| `Spec/Block.lean` | C79: a source in a block, start tags and end tags |
| `Spec/Accepted.lean` | C80: harmless sources, and texts in which five characters are escaped |
| `Spec/ErrorOrder.lean` | C81: errors at places of their own, in order |
| `Spec/View.lean` | C83, C84, C85: the last output of a history, what of the head is shown, ids that are written in addresses as they are, whether a pane is open after a history |
| `Spec/LineEnds.lean` | C86: the source with carriage returns, no line ends in a backslash, no text goes over the end of a line |
| `Spec/Margins.lean` | C87: wider margins, the source without margins; C88: the indented source, blocks whose lines are indented like the closing delimiter |
| `Spec/Outline.lean` | C89: the outline of a document |
| `Spec/BlankLines.lean` | C90: a syntax tree with single blank lines; gaps between texts |
| `Spec/Settings.lean` | C91: options, and the last call about an option |
| `Spec/Trail.lean` | C92: the elements on the way to an element |
| `Spec/Alike.lean` | C94: what markup means, whether it is HTML or XML |
| `Spec/Forms.lean` | C95: the forms with configured tags that a source uses, and when two configurations give the same results |
| `Spec/MetadataText.lean` | C27, C28: an output with attributes inserted into its tags |
| `Spec/Parts.lean` | C76, C77, C78: closed sources, sources that begin with something visible, joined outputs; reported errors, moved errors; white space around a source |
| `Spec/KeyValue.lean` | the text of overrides of special tags |
| `Spec/Js.lean` | meaning of JavaScript options, UTF-16 indices |

## Plan per property

| id | modelled / how proved |
|---|---|
| C01 | escape writer vs. an independent character-reference decoder; induction on the text |
| C02 | composition unescape + escape writer; same decoder |
| C03 | cursor model of `unescape_parts` refines an inductive grammar of escape sequences (both directions). The manual's `\ ` (backslash space) is rejected by the code and a leading `+` is accepted in hex digits: negation witnesses |
| C04 | explicit encoder, induction |
| C05 | invariant of the cursor loop over byte positions |
| C06 | strong induction on the body loop |
| C07, C08 | case analysis of the driver with the parser, builder and writer as modelled |
| C09 | simulation between the fail-fast and the normal run of the builder monad, closed under bind, by induction on the tree |
| C10 | independent predicate on syntax trees; induction on the tree |
| C11 | leaf sequence of tree = leaf sequence of document, by induction; the code drops nodes after `> { }`: negation witness and `_partial` theorem |
| C12 | range-validity invariant by induction on the tree; validity of the positions from the grammar |
| C13 | layout relation on lines; fold of the lines, induction |
| C14, C15, C16, C45 | output refines a token sequence; an independent markup reader inverts the rendering; balance by induction on the tree. Tag and attribute names are assumed to be names (the code writes them unescaped; witnesses for the failure otherwise); the conditions on the document are derived from conditions on the source by the grammar and C55. C45 is also proved without conditions on names (`C45_source`): the selectors of the source are followed through building (induction over the relation of C55), special tags and inference (C18) to the pieces of the output (C34) |
| C17, C18, C19, C20, C21, C22, C46 | engine with three-valued predicates as in the code; the definitions are shown to resolve in one pass; refinement to the tables |
| C23 | induction on the tree; `code_block_container` is ignored by the code: negation witness + `_partial` |
| C24, C25, C26 | list reasoning; attributes and further selectors of `head` are lost: negation witness + `_partial` |
| C27 | list reasoning; in the output, the same simulation of the writer as for C28 |
| C28, C29 | erasure by induction on the tree; in the output, by a simulation of the writer, attributes are inserted into tags and nothing else changes; with metadata elements the raw flag is inverted: negation witness + `_partial` |
| C30, C31 | every piece of the output is attributed to a node; raw flag by induction on the tree |
| C32 | independent line-based specification of the trimming |
| C33 | validity of the whole slice implies validity of every trimmed line; composition with C10 |
| C34, C35 | invariants of the `follows_space` state; simulation between runs with and without indentation |
| C36 | case analysis; the tokens of the output |
| C37, C38 | state machine of conversions over a file system with arbitrary answers; every interleaving of conversions; invariants |
| C39 | paths as strings, against a specification by components |
| C40 | induction on the depth limit and the directory tree |
| C41 | channel as FIFO queue, arbitrary interleavings of senders; induction on the schedule |
| C42 | events of every run; `Unknown` errors print nothing: negation witness + `_partial` |
| C43 | fold over the options |
| C44 | the code omits a space for two items: negation witness + `_partial` |
| C47 | case analysis |
| C48 | readers of the HTML standard and of XML 1.0 over the escape writer, by induction; the sets of recovered texts are exact |
| C49 | tokens of words and lines; inversion of the grammar on plain text; build, inference and output of paragraphs; markup reader |
| C50, C51 | case analysis over the wrapper of C47; messages of errors without a parse location say `undefined`, positions are UTF-8 offsets: negation witnesses + `_partial` |
| C52, C53 | the plan of a run as a function of the arguments and the answers of the file system; paths by components; C40 for the search. Files given with `-d` and paths ending in `.`/`..` misbehave: negation witnesses + `_partial` |
| C55 | an inductive relation between syntax trees and documents, with the positions of elements, contents and texts (`Spec/Structure.lean`); induction over the fuel of the line functions and over the tree |
| C56 | the ranges of the parts of a tree, concatenated; induction over the tree; the reference parser yields trees of the grammar |
| C57 | metadata by induction over documents with single selectors; the places of nodes as a function of the document, kept by inference (as in C20); valid ranges from C12. `mty:raw` of texts is inverted, arrow and block start at the block, continued lines do not extend the content: negation witnesses + `_partial` |
| C58 | the relation `Weaves` of C34 with margins (inline, depth) for every gap, proved to be a function of the items, the pieces and the indentation |
| C59 | a simulation: syntax trees that say the same (`Spec/Same.lean`) give similar documents, which stay similar through the special tags, page completion, inference and `lang`, and similar documents are written alike |
| C60 | induction over the rules by which documents are written (`Spec/Writing.lean`): what the reference parser reads, what `Build` makes of it, what inference names, what is written out and what `readMarkup` reads; for complete pages, the nodes of the document are aligned with its pieces, so that the nodes for the head are the pieces for the head |
| C61 | a source is built for each tree (inline elements, every character as an escape sequence), then C60 |
| C62 | the page as a state machine (`Model/Demo.lean`); an invariant of all reachable states (what is unsent is noticed, what is sent will be answered, what was answered is shown) and a measure that every internal event decreases; the crate behind it by C07 |
| C63 | invariants of single events: what is stored belongs to the current example, the stars agree, writing without loading stores the text. The code loses texts (witnesses) |
| C64 | invariant under the assumption of one download at a time; the code shows the wrong example otherwise (witness) |
| C65 | invariant: a text with the worker has a time of sending |
| C66 | invariant under the assumption that the text is not changed while it is converted; the code marks wrong places otherwise (witnesses) |
| C67 | the items of the page (`Spec/Pieces.lean`) are those of the document with tags around them; margins do not matter without indentation, names not outside `thead`, and the first item of a document is a tag or a comment, so no white space changes |
| C68 | every output action either weaves the pieces of its items or breaks off at one of them; composed over sequences and elements, as for C34 |
| C69 | events of other conversions do not touch a destination or a source, so a file is a fold over the events of one conversion; the serial schedule for existence |
| C70 | the contents of a destination after a beginning of the events of its conversion, by cases on where the beginning ends; stopped runs compose because sources do not change; then C69 |
| C71 | invariant on the errors collected by the builder: range within the source, and the text there is the one the error is about (the positions of delimiters in the tree are those of delimiters in the source, `PositionsOk`, which conforming trees meet) |
| C72 | a conversion ends with an error only for I/O, unless `--fail-fast`; the collected result is a success only if all conversions have ended |
| C73 | the writer of JSON against the grammar of RFC 8259 by structural recursion; unambiguity of the grammar by mutual recursion on derivations |
| C74 | an invariant on the ranges in texts, kept by every step of the transformation; the writer on a document with the characters in place of the ranges, by induction on the tree |
| C75 | output and `convert_to` modelled again over any writer (`Model/Sink.lean`); every function makes calls that pass the characters of the `String` model, by induction on the tree |
| C76 | the reference parser reads a source the same with text before it that ends with a line break (positions moved) and, if it is closed, with a line break and more text after it: two inductions over all rules; then the tree of the whole is that of the parts, and building, inference and output go line by line |
| C77 | a relation between two runs of the building functions, the second of which logs the errors of the first further on; by induction over the tree and the fuel of the line functions; with the tree of the whole from C76 |
| C78 | before: every token pattern gives the same result further on in the source (the shift lemmas of C76, for a prefix that ends with a line break and an indentation), then C59 and the relation of C77; after: the lines of white space are blank (induction over the lines), and blank lines at the end are separators that the output trims |
| C79 | the content is read up to the `}` with the result of the source alone, followed by a blank line (the lemmas of C76 and C78, further on in the source); the structure of the line with the selector (C55), its inference (C20), and the items of its output (as in C67); the errors by the relation of C77 |
| C80 | progress of the reference parser: at every character that is not white space a node can be read (a word is a text or, before `>`, `{`, `[`, a selector, since both patterns take the same characters there), every token ends at the end of an escape sequence, and the fuel of 8 per character is enough; the errors from C71 |
| C81 | the error list of C10 by induction over the tree of a source, with the positions that the grammar gives each part: errors of a part are inside it, parts follow each other |
| C82 | a weight of document trees that bounds what is written (induction over the output actions), that no stage increases by more than a factor, and that is at most 50 times the size of the source for a tree of the grammar (induction over tree and positions) |
| C83 | the view as a state machine (`Model/View.lean`); an invariant of all reachable states |
| C84 | the same state machine; induction over the outputs after the link. Not all: see the deviations |
| C85 | a pane as a state machine; induction over the history |
| C86 | each token and each rule of `Model/Parse.lean` is compared on the two sources, by induction over the fuel; the two trees say the same in the sense of C59. Not all: see the deviations |
| C87 | each token and each rule of `Model/Parse.lean` is compared on a source and the same source with wider margins, by induction over the fuel; both sources are compared with the source without margins. C86 is a case of it. Not all: see the deviations |
| C88 | as C87, with the indentation as the only margin; the bodies of blocks are related line by line, and C59 allows blocks that differ in their indentation. Not all: see the deviations |
| C89 | inference commutes with leaving out comments and white space where they do not take the first or last place in an element in which it counts: induction over the tree with the tables of C20. Not all: see the deviations |
| C90 | a relation between documents that allows to leave out the end of a paragraph after another one is kept by building, special tags, the complete page, inference and `lang`, and the second one writes nothing; together with C59 for everything else. Between texts: the reference parser on blank lines, as in C76 and C78 |
| C91 | each method sets one option, induction over the chain of calls |
| C92 | inference on a tree, followed along a path to an element, is a function of what is seen of the elements on the path: induction over the path with C20 |
| C93 | success is that all selectors with a name can be written (C33); language and metadata attributes add only what can be written, by induction over the document. Not all: see the deviations |
| C94 | the items of the two outputs (C34) are related by induction over the document; the pieces are read one by one, and the white space between them is determined by the items (C58). Success: the same selectors and texts have to be written |
| C95 | by an invariant of all building functions, the document, also one with errors, has only the special elements that the syntax tree has, and nothing else depends on the tags; for trees of the grammar, each of them has its mark in the source. Not all: see the deviations |
| C54 | the parser against the printer of lists of overrides, both directions |

## Where the code deviates

Proved as theorems about concrete inputs (witnesses) or as part of an exact characterisation:

* C03: `+` is accepted before hexadecimal digits (`C03_plus_accepted`); `\ ` of the manual is rejected, `\[` and `\]` are accepted.
* C11: what follows the block of `> { .. }` in a line disappears without an error (`C11_content_lost`).
* C14: element and attribute names are written unescaped (`C14_element_name`, `C14_attribute_name`); attributes may be duplicated
  (`C14_duplicate_attribute`); control characters in white space are copied (`C14_control_character`).
* C21, C46: blocks and paragraphs in `picture` get no name (`C21_picture`); `a` follows its delimiter (`C46_link_in_paragraph`).
* C23: the setting for the container of code blocks is ignored, the one for emphasis is used (`C23_container_ignored`).
* C25: attributes and further selectors of a top-level `head` are lost when a page is completed (`C25_head_lost`).
* C29, C30: with metadata elements, HTML text is written unescaped (`C29_elements_unescaped`).
* C39: `a.mty` and `a.minty` have the same destination (`C39_collision`).
* C40: a search fails at entries that are neither files nor directories (`C40_other_entries`).
* C42: an invalid escape in an attribute fails without any message (`C42_silent`).
* C44: `a orb` for two items (`C44_two_items`).
* C50: messages of errors other than parse errors read `Unexpected 'undefined'` (`C50_undefined`).
* C51: positions given to JavaScript are UTF-8 offsets (`C51_other_characters`).
* C52: with `-d`, outputs of files given as `../x` leave the output directory (`C52_escapes`).
* C53: `convert -d docs a.mty` looks for `a.mty` in the current directory (`C53_dir_and_file`); `convert .` fails and `convert docs/..`
  converts the files of `docs` (`C53_dots`).
* C57: `mty:raw` is `true` for exactly the texts that are escaped (`C57_raw`); `a > { x }` starts at the `{` (`C57_arrow_block`);
  `mty:content-end` of a paragraph or line element that is continued on the next line is the end of its first line (`C57_lines`).
* C58: the indentation does not spare `pre` and `textarea`, where white space is significant (`C58_preformatted`); a block text without
  content counts as white space if its closing line ends with a blank.
* C59: the white space after `>` counts as the first child, so `details> <(> a)>` gets a `p` and `details><(> a)>` a `summary`
  (`C59_space_after_arrow`); `<##>` is not written like `<(strong>)>` in XML (`C59_empty_short`).
* C63: the first text written after an example has been loaded is not stored (`C63_not_stored`: the editor reports the loaded
  text while it is being converted, and `_isLoadingExample` stays set); what is written while the worker is busy is lost when another
  example is chosen (`C63_lost`); an example that was not changed is stored as changed (`C63_unmodified`: the answer for the
  empty editor clears `_isLoadingExample` before the example arrives).
* C64: downloads that finish in another order leave the wrong example in the editor (`C64_wrong_example`).
* C66: marks are placed in the text that happens to be in the editor when the answer arrives (`C66_wrong_place`); choosing
  an example with the text that is already shown removes the notes (`C66_notes_lost`).
* C69: `a.mty` and `a.minty` in one run are both converted to `a.html`; which output remains depends on the schedule (`C69_same_destination`).
* C70: a destination is opened, made empty and then written (`io_helper.rs:79-83,32-34`), not written to another file and renamed: a run stopped in between loses the old output (`C70_not_atomic`).
* C42: with invalid arguments that can be read as an error mode only (`mintyml-cli --error-mode json`), `parse_args` sets the mode of the reporter but drops the error of `clap`: the program fails and prints nothing (`C42_arguments_silent`).
* C76: a comment at the beginning of a text has white space after it (a blank or a line break that the text alone does not have) if a blank line and another text are before it: `C76_visible_needed`. Quotation marks, backticks or braces that do not delimit anything delimit something if their end follows anywhere later: `C76_fences_needed`, `C76_braces_needed`.
* C81: `build_inline` validates a line that `build_line` has already validated, so an error about a
  misplaced item in `<( … )>` is reported twice (`C81_twice`); such errors are reported after the others
  of the line, so they are out of order (`C81_unordered`). All other errors are in order.
* C84: the page removes the fragment of its own address when it is loaded, so an address with a fragment does not lead to the place
  (`C84_on_load`); ids with characters that are percent-encoded in addresses are not found (`C84_other_ids`, for a browser that encodes é).
* C86: texts that go over the end of a line (code blocks, block verbatim texts, quoted values of attributes) keep the carriage return, which
  is written as `&#13;` (`C86_code_block`, `C86_attribute_value`).
* C87: texts that go over the end of a line keep the white space at the beginning and end of their lines (`C87_attribute_value`); in code blocks
  this is meant (`C87_code_block`).
* C88: quoted values of attributes over several lines get the indentation (`C88_attribute_value`), and so do lines of a block that are less
  indented than its closing delimiter (`C88_less_indented`).
* C89: a comment at the beginning of `details`, `fieldset` or `html` takes the first place (`C89_comment_first`); a line break before the `}`
  of `picture` takes the last place, so that the image becomes a `source` (`C89_line_break_last`).
* C93: ids, classes and attributes with invalid escapes are only found when they are written: `head` with such an attribute is converted with
  page completion and not without (`C93_page`), elements without a name depend on the names of special elements (`C93_special`) and on metadata
  elements (`C93_metadata_elements`). The configured language is unescaped as if it were part of the source, so that one with an invalid escape
  makes every conversion fail with the error `Unknown` (`C93_language`).
* C95: the tag of emphasis is also taken for the container of code blocks, so it changes sources without emphasis (`C95_code_block`; the
  defect of C23).
* C48: U+0080 to U+009F are written as references that HTML remaps (`C48_not_all_text`).

Observed while reading, not stated as theorems: `build_inline` validates its line twice (duplicate errors); only the first `#id`
is written; the info string after a code fence is dropped; a selector at the end of a line is dropped (`see array[0]`);
`convert_forgiving` stops the output at the first invalid escape of a text.

## Axioms

<!-- axioms -->
* none (2 theorems): C40_depth, C91_own.
* `propext` (3 theorems): C20_manual, C84_on_load, C91_metadata.
* `Quot.sound`, `propext` (8 theorems): C11_no_bare_arrow, C41_senders, C43_options, C73_unique, C84_later_partial, C84_link_partial, C91_all, C91_last.
* `Classical.choice`, `Quot.sound`, `propext` (296 theorems): C01_escaped_quoted_inert, C01_escaped_text_inert, C01_injective, C01_unescaped_text_inert, C02_attribute_no_breakout, C02_attribute_reads_back, C03_manual_accepted, C03_manual_exact_partial, C03_plus_accepted, C03_unescape_exact, C04_any_text_can_be_escaped, C05_complete, C05_ranges, C05_scan, C06_comment_ends, C06_comment_valid, C07_convert_forgiving, C07_convert_to, C07_partial_nonempty, C08_error_cases, C08_ok_iff, C09_default, C09_fail_fast, C09_no_partial, C10_builds, C10_convert_error_list, C10_error_list, C10_syntax_errors_iff, C11_content_exact, C11_content_kept_partial, C11_content_lost, C11_converted, C12_convert_errors, C12_grammar, C12_grammar_errors, C12_grammar_positions, C12_parse_error, C12_ranges, C12_slice, C13_layout, C13_layout_block, C13_layout_special, C13_no_loose_text, C13_where, C14_attribute_name, C14_balanced_partial, C14_control_character, C14_duplicate_attribute, C14_element_name, C14_source_partial, C15_balanced_partial, C15_source_partial, C16_reads_back_partial, C16_source_partial, C17_nested, C17_single, C18_kept, C19_texts, C20_document, C20_first, C20_inference, C20_stable, C20_written, C21_decided_partial, C21_one_pass, C21_picture, C22_cells, C23_container_ignored, C23_default, C23_special_partial, C24_converted, C24_page, C25_elements_partial, C25_head_lost, C25_texts, C26_idempotent, C27_lang, C27_output, C28_added, C28_erase, C28_output, C29_elements_unescaped, C29_escaping_partial, C30_verbatim_partial, C30_xml, C31_all, C31_interpolations_partial, C32_total, C32_trim, C32_written_unescaped, C32_written_verbatim, C33_no_backslash, C33_text_node, C33_unknown, C34_pieces, C34_tidied, C35_characters, C35_indent, C35_success, C36_doctype, C36_no_page, C37_exit, C37_files, C38_changes, C38_failed, C38_files, C39_collision, C39_differs, C39_directory, C39_named, C40_fails, C40_found, C40_other_entries, C41_main, C41_printed, C41_silent, C41_visible, C42_arguments_silent, C42_failure_partial, C42_printed_partial, C42_program_partial, C42_reported, C42_silent, C42_success, C44_sentence_partial, C44_two, C44_two_items, C45_attributes_partial, C45_source, C45_source_partial, C45_tags, C46_link_in_paragraph, C46_manual_partial, C47_config, C47_config_fails, C47_errors, C47_failure, C47_success, C47_thrown, C48_html_exact_partial, C48_not_all_text, C48_xml_exact_partial, C49_plain_text, C50_forgiving, C50_fulfilled, C50_message_partial, C50_rejected, C50_undefined, C51_other_characters, C51_positions_partial, C52_beside, C52_distinct, C52_escapes, C52_out, C52_streams, C52_within, C53_dir_and_file, C53_dots, C53_sources_partial, C54_special_tags, C55_convert, C55_quoted, C55_structure, C56_characters, C56_covers, C56_sound, C57_arrow_block, C57_elements_partial, C57_lines, C57_places, C57_positions, C57_raw, C58_determined, C58_inline, C58_preformatted, C58_unindented, C59_empty_short, C59_errors, C59_reference, C59_same, C59_space_after_arrow, C60_indented, C60_page, C60_whole, C60_written, C61_expressible, C62_converted, C62_settled, C62_settles, C63_kept, C63_lost, C63_not_stored, C63_own, C63_returns, C63_star, C63_stored_partial, C63_unmodified, C64_shown_partial, C64_wrong_example, C65_one, C66_marks_partial, C66_notes_lost, C66_notes_partial, C66_wrong_place, C67_errors, C67_page, C68_complete, C68_nothing, C68_output, C69_outcome, C69_possible, C69_same_destination, C69_schedule, C70_again, C70_not_atomic, C70_stopped, C70_stopped_runs, C71_display, C71_escape, C71_js, C71_messages, C71_parse_failed, C71_printed, C71_unclosed, C71_unique, C72_all, C73_json, C73_recover, C73_syntax, C74_inference, C74_ranges, C74_valid, C74_written, C75_limited, C75_string, C75_writer, C76_all, C76_braces_needed, C76_closed_needed, C76_fences_needed, C76_parts, C76_visible_needed, C77_all, C77_closed_needed, C77_errors, C78_around, C78_before, C79_block, C79_errors, C80_accepted, C80_errors, C80_guarded, C81_order_partial, C81_twice, C81_unordered, C82_indented, C82_linear, C83_view, C84_other_ids, C85_pane, C86_accepted, C86_attribute_value, C86_code_block, C86_output_partial, C87_accepted, C87_attribute_value, C87_code_block, C87_output_partial, C88_attribute_value, C88_indented_partial, C88_less_indented, C89_comment_first, C89_line_break_last, C89_names_partial, C90_between, C90_errors, C90_one_needed, C90_same, C91_order, C92_around, C92_document, C92_kept, C93_converts_partial, C93_errors_partial, C93_language, C93_metadata_elements, C93_page, C93_special, C94_alike, C94_raw, C94_success, C94_void, C95_code_block, C95_none, C95_source_partial, C95_unused_partial.
<!-- /axioms -->
