{"id": "C01", "title": "Escaped text is inert and decodes back to the original", "statement": "The characters written for text that the converter escapes contain no '<' and no '>' and no '&' other than the start of a character reference, and a reader that resolves character references (&amp; &lt; &gt; &quot; &Tab; &NewLine; &#N;) recovers exactly the original text; consequently two different texts never produce the same output.", "quantifier": "every string of Unicode scalar values, both output syntaxes (HTML, XHTML), text and attribute position", "why_tests_cant": "The input alphabet and length are unbounded; a test fixes finitely many strings.", "anchors": ["mintyml/src/output/mod.rs: HtmlEscape, XmlEscape, EscapeWriter::write_str, EscapeWriter::write_char"]}
{"id": "C02", "title": "Attribute values cannot break out of their quotes", "statement": "The value of id, class and [name=value] attributes as written between double quotes never contains a double quote, '<' or '>', and resolving character references gives the source value with its backslash escapes resolved.", "quantifier": "every attribute value string, both output syntaxes", "why_tests_cant": "Injection safety is a statement about all strings, including ones no test author thought of.", "anchors": ["mintyml/src/output/mod.rs: write_open_tag, write_escape_unescape", "mintyml/src/escape.rs: unescape_parts"]}
{"id": "C03", "title": "Backslash escapes mean what the manual says", "statement": "In text segments, double-quoted blocks, ids, classes and attribute values, the sequences \\n \\r \\t \\xHH (HH<=7F) \\u{H..H} (1-6 hex digits, a Unicode scalar value) and \\ followed by one of < > { } \" ' \\ [ ] are each replaced by the one character they denote; every other character is copied; nothing else is accepted.", "quantifier": "every source slice", "why_tests_cant": "The set of escape sequences and of surrounding contexts is infinite.", "anchors": ["mintyml/src/escape.rs: unescape_parts", "mintyml/src/utils.rs: StrCursor", "README.md: Escape Sequence table"]}
{"id": "C04", "title": "Source text can always be escaped so that it survives", "statement": "For every string there is a source spelling (backslash escapes) whose unescaped value is that string, so any text can be written in a MinTyML document.", "quantifier": "every string of Unicode scalar values", "why_tests_cant": "Universal over strings.", "anchors": ["mintyml/src/escape.rs: unescape_parts"]}
{"id": "C05", "title": "Invalid escapes are located precisely", "statement": "Each invalid escape sequence reported for a slice has a range that starts at a backslash of the slice, is non-empty, ends within the slice, falls on character boundaries, and the ranges are reported in source order without overlap.", "quantifier": "every slice and every offset of the slice in the source", "why_tests_cant": "Depends on all ways escapes can be truncated or malformed, at any position and with any multi-byte characters around.", "anchors": ["mintyml/src/escape.rs: unescape_parts, escape_errors", "mintyml/src/utils.rs: StrCursor"]}
{"id": "C06", "title": "Comments are valid in HTML and XML and keep their text", "statement": "The body written between <!-- and --> for a MinTyML comment never contains \"--\", never starts with '>' or \"->\", never ends with '-', so the comment ends exactly at the written terminator; deleting inserted spaces gives back the source comment text.", "quantifier": "every comment text", "why_tests_cant": "The rewriting loop handles arbitrarily long runs of dashes.", "anchors": ["mintyml/src/output/mod.rs: write_comment_body, process_node"]}
{"id": "C07", "title": "convert, convert_forgiving and convert_to agree", "statement": "For the same source and configuration: convert returns Ok(s) if and only if convert_forgiving returns Ok(s), for the same s; when they fail they fail with the same error; and convert_to into an empty string returns Ok/Err exactly like them and leaves in the buffer exactly what convert_forgiving hands back.", "quantifier": "every source, configuration and parser result", "why_tests_cant": "Three entry points must agree on all inputs including error inputs.", "anchors": ["mintyml/src/lib.rs: convert, convert_forgiving, convert_to, convert_to_internal"]}
{"id": "C08", "title": "Ok means no error was found, Err means at least one", "statement": "convert returns Ok only if parsing, document building, transformation and output found no error at all, and a returned Syntax error carries a non-empty list; the error category is Syntax whenever any syntax error was found, otherwise Unknown.", "quantifier": "every source, configuration and parser result", "why_tests_cant": "Quantifies over all error combinations.", "anchors": ["mintyml/src/lib.rs: convert_to_internal", "mintyml/src/error.rs: Errors, to_convert_error"]}
{"id": "C09", "title": "fail_fast never changes a success and only truncates errors", "statement": "With fail_fast enabled the conversion succeeds exactly when it succeeds with fail_fast disabled, with the same output; if it fails with syntax errors, the reported list is a non-empty initial part of the list reported without fail_fast.", "quantifier": "every source, configuration and parser result", "why_tests_cant": "Relates two executions on every input.", "anchors": ["mintyml/src/error.rs: Errors::syntax, Errors::unknown", "mintyml/src/document/*"]}
{"id": "C10", "title": "Exactly the well-formed documents convert without syntax errors", "statement": "The syntax error list is empty exactly when the parsed document has no unclosed delimiter, no invalid selector part, no misplaced node and no invalid escape sequence in text; every unclosed delimiter and every invalid selector part that is visited produces an error with the range of that delimiter / part.", "quantifier": "every parsed document of any depth", "why_tests_cant": "Completeness of error detection over trees of unbounded depth.", "anchors": ["mintyml/src/document/line.rs", "mintyml/src/document/elements.rs", "mintyml/src/document/selectors.rs", "mintyml/src/document/text.rs"]}
{"id": "C11", "title": "No source content is silently dropped", "statement": "If a document is accepted, every text, verbatim, interpolation, code, multiline and comment node of the parsed source appears in the built document, once and in source order.", "quantifier": "every parsed document", "why_tests_cant": "Conservation over arbitrary trees.", "anchors": ["mintyml/src/document/line.rs: extend_line, post_child_combinator, post_selector, add_line", "mintyml/src/document/mod.rs: build_content"]}
{"id": "C12", "title": "Document ranges stay inside the source", "statement": "If every range produced by the parser is a valid range of the source, every source range stored in the built document, and every range reported in an error, is a valid range of the source (no slicing panic later).", "quantifier": "every source and parsed document", "why_tests_cant": "Panic freedom over all trees; ranges are shifted by constants in several places.", "anchors": ["mintyml/src/document/*", "mintyml/src/error.rs"]}
{"id": "C13", "title": "Paragraph formation", "statement": "In a block (or at top level) a maximal run of consecutive non-blank text lines forms exactly one paragraph, blank lines and block/line elements end it, a line following a line element continues that element, and paragraphs are never nested directly in paragraphs; content of special inline elements and of line-blocks never forms paragraphs.", "quantifier": "every sequence of lines", "why_tests_cant": "Inductive over arbitrarily many lines and histories of preceding lines.", "anchors": ["mintyml/src/document/mod.rs: build_content, append_to_previous_node_if_applicable", "mintyml/src/document/line.rs: add_line"]}
{"id": "C14", "title": "XHTML output is balanced and well nested", "statement": "In XML mode, for a document without raw segments, reading the output as markup yields start tags, end tags, empty-element tags, comments and characters in which every start tag is closed by a matching end tag in proper nesting.", "quantifier": "every document (any depth, any attributes, any text), every indentation", "why_tests_cant": "Well-formedness is a global property of unbounded output.", "anchors": ["mintyml/src/output/mod.rs: process_element, process_content, write_open_tag, write_close_tag"]}
{"id": "C15", "title": "HTML output is balanced apart from void elements", "statement": "In HTML mode, for a document without raw text, reading the output as markup yields tags in which every start tag that is not a void element is closed by a matching end tag in proper nesting and void elements have no end tag.", "quantifier": "every document, every indentation", "why_tests_cant": "As above.", "anchors": ["mintyml/src/output/mod.rs: is_void, get_info, process_element"]}
{"id": "C16", "title": "Output reads back as the document", "statement": "Reading the XML output back gives exactly the document tree: same element names, same attribute names and values in order (id, class, others), same text characters, same comments, in the same order.", "quantifier": "every document without raw segments", "why_tests_cant": "Round trip over all trees.", "anchors": ["mintyml/src/output/mod.rs: output_html_to"]}
{"id": "C17", "title": "Selector chains nest in order", "statement": "An element with selectors s1 > s2 > ... > sn is output as n nested elements with s1 outermost, and after inference no element carries more than one selector.", "quantifier": "every document, any chain length", "why_tests_cant": "Chain length and depth unbounded.", "anchors": ["mintyml/src/document/elements.rs: split_at, split_first", "mintyml/src/inference/engine/mod.rs: inference_level"]}
{"id": "C18", "title": "Explicit tags are never changed by inference", "statement": "An element whose type is written explicitly keeps that type, its classes, ids and attributes through inference, whatever its context.", "quantifier": "every document and context", "why_tests_cant": "Must hold in all contexts at all depths.", "anchors": ["mintyml/src/inference/engine/mod.rs: infer_tag_node"]}
{"id": "C19", "title": "Inference only fills tags: content is preserved", "statement": "Inference keeps the sequence of text, comment and space nodes of the document, in order, and adds no element other than by splitting selector chains.", "quantifier": "every document", "why_tests_cant": "Conservation over arbitrary trees.", "anchors": ["mintyml/src/inference/engine/mod.rs: infer, inference_level"]}
{"id": "C20", "title": "Inferred tag matches the documented context table", "statement": "For each context (section, paragraph, list, table, row, description list, label, select, data list, column group, image map, details, fieldset, picture, html root) an untagged line / block / paragraph node gets the tag given by the manual's table.", "quantifier": "every document, parent element, sibling position", "why_tests_cant": "The table must hold at every depth and for every combination of siblings.", "anchors": ["mintyml/src/inference/definitions/mod.rs", "mintyml/src/inference/definitions/specialty.rs", "mintyml/src/inference/definitions/table.rs", "README.md: Element Inference"]}
{"id": "C21", "title": "Inference terminates and leaves nothing undecided", "statement": "Tag inference of a list of siblings reaches a state where every node is resolved after one pass, and every line, block or paragraph element that had no tag has been given one (or, for a paragraph in paragraph context, was unwrapped).", "quantifier": "every sibling list of any length, every context", "why_tests_cant": "The engine is a fixed-point loop over three-valued predicates.", "anchors": ["mintyml/src/inference/engine/mod.rs: infer_tag_nodes, infer_tag_node", "mintyml/src/inference/engine/when.rs"]}
{"id": "C22", "title": "Header cells exactly inside thead rows", "statement": "An untagged child of a table row becomes th if the row's parent is thead and td otherwise.", "quantifier": "every document", "why_tests_cant": "Depends on the ancestor chain at any depth.", "anchors": ["mintyml/src/inference/definitions/table.rs: RowInfer", "mintyml/src/inference/engine/when.rs: child_of"]}
{"id": "C23", "title": "Special tags follow the configuration", "statement": "Each special inline element is output with the tag configured for its kind (or the documented default), a code block as container>code with the configured container and code tags, and an empty configured tag leaves the content unwrapped.", "quantifier": "every document and special-tag configuration", "why_tests_cant": "All kinds times all overrides at all depths.", "anchors": ["mintyml/src/transform/apply_special_tags.rs: tag_name, transform_element", "mintyml/src/config.rs: SpecialTagConfig"]}
{"id": "C24", "title": "complete_page produces one html root with head and body", "statement": "With complete_page on: a document with a top-level html is unchanged; one with a top-level body is wrapped whole in html; any other becomes html(head, body) where head holds the contents of top-level head elements and the top-level base/link/meta/title/style elements in order, and body holds everything else in order.", "quantifier": "every document", "why_tests_cant": "All arrangements of top-level nodes.", "anchors": ["mintyml/src/transform/complete_page.rs"]}
{"id": "C25", "title": "complete_page loses nothing", "statement": "Completing a page keeps every text, comment and element of the document.", "quantifier": "every document", "why_tests_cant": "Conservation.", "anchors": ["mintyml/src/transform/complete_page.rs"]}
{"id": "C26", "title": "complete_page is idempotent", "statement": "Completing an already completed page changes nothing.", "quantifier": "every document", "why_tests_cant": "Universal over documents.", "anchors": ["mintyml/src/transform/complete_page.rs"]}
{"id": "C27", "title": "lang is assigned to every top-level element", "statement": "With lang set, every top-level element that has a tag carries a lang attribute with that value after conversion, nothing else changes; without lang nothing changes. In the output, for a language of letters, digits and hyphens, only attributes lang are inserted into tags, every other character is the same, and the errors are the same.", "quantifier": "every document and language string", "why_tests_cant": "All top-level shapes.", "anchors": ["mintyml/src/transform/mod.rs: apply_lang"]}
{"id": "C28", "title": "Attribute metadata is erasable", "statement": "With metadata (elements disabled), the result differs from the result without metadata only by added attributes whose names start with mty: or are xmlns:mty; erasing them gives back the same document, and text is unchanged. In the output they stand in tags, and every other character is the same; the errors are the same.", "quantifier": "every document", "why_tests_cant": "Relates two runs on all documents.", "anchors": ["mintyml/src/transform/metadata.rs"]}
{"id": "C29", "title": "Metadata never changes what is escaped", "statement": "Turning metadata on (with or without metadata elements) never turns escaped text into raw markup.", "quantifier": "every document", "why_tests_cant": "Security-relevant, over all texts.", "anchors": ["mintyml/src/transform/metadata.rs: process_node"]}
{"id": "C30", "title": "Raw output only where documented", "statement": "In HTML mode text is written without escaping only for interpolations, <[raw[...]]> segments and content of script/style elements; in XML mode only for interpolations.", "quantifier": "every document and depth of nesting", "why_tests_cant": "Raw flag is inherited through arbitrary nesting.", "anchors": ["mintyml/src/output/mod.rs: process_node, in_content", "mintyml/src/inference/definitions/mod.rs: RawInfer"]}
{"id": "C31", "title": "Interpolations are copied byte for byte", "statement": "The text of a template interpolation appears unchanged in the output.", "quantifier": "every document", "why_tests_cant": "All strings and contexts.", "anchors": ["mintyml/src/document/text.rs: build_inline_text", "mintyml/src/output/mod.rs: process_node"]}
{"id": "C32", "title": "Multiline blocks lose exactly their opening line, closing line and common indentation", "statement": "A multiline text block is output as its lines without the first and last line, with the whitespace prefix of the closing line removed from each line that has it, and other lines unchanged, joined by newlines with none after the last line.", "quantifier": "every block text", "why_tests_cant": "All line structures.", "anchors": ["mintyml/src/output/utils.rs: trim_multiline"]}
{"id": "C33", "title": "Validated text never makes the output fail", "statement": "If no syntax error was reported for the document, writing text nodes (including the trimmed lines of double-quoted blocks) never fails, so Unknown errors can only come from ids, classes and attributes.", "quantifier": "every document and configuration", "why_tests_cant": "Relates the validation phase and the output phase on all inputs.", "anchors": ["mintyml/src/document/mod.rs: escapable_slice", "mintyml/src/output/mod.rs: process_node, write_unescaped", "mintyml/src/output/utils.rs: trim_multiline"]}
{"id": "C34", "title": "Whitespace is collapsed and trimmed", "statement": "Space at the start and at the end of any element content is not output and consecutive space nodes output at most one separator.", "quantifier": "every document", "why_tests_cant": "All sequences of nodes.", "anchors": ["mintyml/src/output/mod.rs: process_content, space, process_node"]}
{"id": "C35", "title": "Indentation only affects whitespace between nodes", "statement": "Enabling indentation changes the output only by whitespace outside of tags, text, and inline elements: the sequence of tags, comments and non-space text is the same as without indentation.", "quantifier": "every document and every whitespace indent string", "why_tests_cant": "Relates two runs on all documents.", "anchors": ["mintyml/src/output/mod.rs: line, _line, indent, space"]}
{"id": "C36", "title": "Without complete_page, lang and metadata the structure is kept", "statement": "With complete_page off no DOCTYPE and no html/head/body is introduced.", "quantifier": "every document", "why_tests_cant": "Universal over documents.", "anchors": ["mintyml/src/transform/mod.rs: transform_document", "mintyml/src/output/mod.rs: output_html_to"]}
{"id": "C37", "title": "CLI exit status reflects all conversions", "statement": "The command exits with success only if every requested source was read, converted without error and written.", "quantifier": "every set of files, every parallel schedule", "why_tests_cant": "Files are converted in parallel; the reduction order is not fixed.", "anchors": ["minty-cli/src/convert.rs: convert, convert_multiple", "minty-cli/src/main.rs"]}
{"id": "C38", "title": "CLI: a failed conversion leaves its destination untouched", "statement": "Unless --forgiving is given, a source that has errors never creates, truncates or modifies any file.", "quantifier": "every file system state and source", "why_tests_cant": "Quantifies over file system states.", "anchors": ["minty-cli/src/convert.rs: convert", "minty-cli/src/io_helper.rs: write"]}
{"id": "C39", "title": "CLI: destination naming", "statement": "The output path is the source path with a .mty/.minty extension (any case) removed and .html (.xhtml with --xml) appended, it always differs from the source path, and its parent directory is unchanged.", "quantifier": "every path", "why_tests_cant": "All path strings.", "anchors": ["minty-cli/src/convert.rs: change_extension, has_minty_extension, convert_multiple"]}
{"id": "C40", "title": "CLI: directory search finds exactly the MinTyML files within the depth limit", "statement": "Searching a directory with recursion limit d returns exactly the files with a mty/minty extension at most d directory levels below it, each once.", "quantifier": "every directory tree and depth limit", "why_tests_cant": "Trees of unbounded depth.", "anchors": ["minty-cli/src/convert.rs: search_dir_inner, get_recursion"]}
{"id": "C41", "title": "CLI: every reported error is printed once, in order, in the chosen mode", "statement": "All error events sent before the reporter is dropped are printed exactly once, per sender in sending order, using the mode in effect (errors sent before the first mode selection are printed in the mode first selected, or the default mode at close); hidden errors and silent mode print nothing.", "quantifier": "every interleaving of sending threads and every sequence of events", "why_tests_cant": "Schedules cannot be enumerated by tests.", "anchors": ["minty-cli/src/error_reporter.rs: ErrorReporter::initialize, Drop, write_error"]}
{"id": "C42", "title": "CLI: no conversion failure is silent", "statement": "If a conversion fails, at least one error is reported to the reporter for display.", "quantifier": "every conversion result", "why_tests_cant": "Over all error values.", "anchors": ["minty-cli/src/error_reporter.rs: conversion_error", "minty-cli/src/convert.rs: convert"]}
{"id": "C43", "title": "CLI options map to the configuration", "statement": "The configuration built from command line options enables XML iff --xml, complete page iff not --fragment (or as given by --complete-page), indentation iff --pretty with the given number of spaces, each special tag as last given, metadata iff requested, fail fast iff requested.", "quantifier": "every option combination and list of overrides", "why_tests_cant": "Lists of overrides are unbounded.", "anchors": ["minty-cli/src/convert.rs: as_config"]}
{"id": "C44", "title": "Error lists read naturally", "statement": "The message for an error naming several items separates them by commas and a conjunction with a space on both sides.", "quantifier": "every item list", "why_tests_cant": "All list lengths.", "anchors": ["mintyml/src/error.rs: display_conjunction_list"]}
{"id": "C45", "title": "Ids, classes and attributes are emitted as written", "statement": "A start tag carries the first id, all classes in order in one class attribute, and all attributes in source order; none is lost when the element has a tag.", "quantifier": "every selector", "why_tests_cant": "Unbounded item lists.", "anchors": ["mintyml/src/output/mod.rs: write_open_tag", "mintyml/src/document/selectors.rs: id, class_names, attributes"]}
{"id": "C46", "title": "Parent context matches the element", "statement": "The inference context used for the children of an element is determined by its (explicit or inferred) tag as documented: headings, p, span and other phrasing elements give paragraph context, sectioning elements give section context, ul/ol/menu list, table/thead/tbody/tfoot table, tr row and so on; a and custom elements inherit by position and delimiter.", "quantifier": "every document", "why_tests_cant": "Every depth and combination.", "anchors": ["mintyml/src/inference/definitions/mod.rs: common_methods, StandardInfer, PhrasingInfer"]}
{"id": "C47", "title": "Wasm wrapper reports success exactly when conversion succeeds", "statement": "The JS-facing convert returns success=true with the output and no error exactly when convert succeeds with the corresponding configuration, and otherwise success=false with an error and the best-effort output if non-empty; a negative indent means no indentation.", "quantifier": "every source and option values", "why_tests_cant": "All inputs.", "anchors": ["minty-wasm/src/lib.rs: convert, convert_inner"]}
{"id": "C48", "title": "Escaped text survives a standard parser", "statement": "A parser that follows the HTML standard (in XML mode: XML 1.0) reads the characters written for escaped text, in text and in attribute values, back as exactly the original text, for every text that such documents can represent.", "quantifier": "every string, both output syntaxes", "why_tests_cant": "Depends on every code point: parsers remap or reject some numeric character references.", "anchors": ["mintyml/src/output/mod.rs: HtmlEscape::get_escape, XmlEscape::get_escape, write_escape"]}
{"id": "C49", "title": "Plain text is converted faithfully", "statement": "A source of words in lines and paragraphs, in which the characters with a meaning in the language are written as escapes, always converts without errors. The output consists of one p element for each paragraph, in order, and the text of each is the text of its lines joined by single blanks with the escapes resolved.", "quantifier": "every source of words, lines and paragraphs, every syntax tree of the grammar for it, every configuration without indentation, page completion, lang and metadata", "why_tests_cant": "All texts, from the characters of the source through tokens, grammar, building, inference and escaping to the markup that is read back.", "anchors": ["mintyml/src/ast/text.rs: TextSegment", "mintyml/src/ast/tokens.rs: NewLine, Space", "mintyml/src/ast.rs: Line, Content", "mintyml/src/document/mod.rs: build_content", "mintyml/src/document/line.rs: add_line", "mintyml/src/output/mod.rs: process_node"]}
{"id": "C50", "title": "The JavaScript class reports what the conversion did", "statement": "convert of the JavaScript class returns a promise that is fulfilled with exactly the output of the conversion with the options given, or rejected with an error whose syntaxErrors are those of the conversion; it never does both or neither. convertForgiving returns the same error together with the best output. The message has one line for each error.", "quantifier": "every source, every combination of options", "why_tests_cant": "All inputs and option values.", "anchors": ["minty-wasm/src-ts/index.ts: MintymlConverter, convert, convertForgiving"]}
{"id": "C51", "title": "Positions in JavaScript errors are usable as string indices", "statement": "The start and end of every syntax error reported by the JavaScript class select the offending text from the source string (which JavaScript indexes by UTF-16 units).", "quantifier": "every source", "why_tests_cant": "All sources and characters.", "anchors": ["minty-wasm/src-ts/index.ts: MintymlSyntaxError", "minty-wasm/src/lib.rs: SyntaxError"]}
{"id": "C52", "title": "Where the command line writes", "statement": "With --stdout there is one conversion and it writes to the standard output. Without --out every output is beside its source. With --out it is exactly that file, or a file at the same relative path below that directory; outputs of the files found in a directory never leave the output directory, and two of them have the same destination only if their names differ only in the extension.", "quantifier": "every file system, every arguments", "why_tests_cant": "All directory trees and paths.", "anchors": ["minty-cli/src/convert.rs: conversion_dest_type, convert_src_to_dest, convert_multiple"]}
{"id": "C53", "title": "Which files the command line reads", "statement": "The sources of a run are exactly the files named on the command line and those found (up to the recursion depth) in the directories named with --dir or on the command line.", "quantifier": "every file system, every arguments", "why_tests_cant": "All directory trees and paths.", "anchors": ["minty-cli/src/convert.rs: conversion_src_type, get_search_parts, search_dir, convert_src_to_dest"]}
{"id": "C54", "title": "Overrides of special tags on the command line", "statement": "--special-tag accepts exactly lists name=tag,name=tag,.. of the documented names, in one or several occurrences, and the overrides are those written, in order.", "quantifier": "every list of argument texts", "why_tests_cant": "All texts.", "anchors": ["minty-cli/src/key_value.rs: KeyValueParser::parse_ref", "minty-cli/src/args.rs: special_tag, SpecialTag"]}
{"id": "C55", "title": "The document has the structure of the source", "statement": "If a source has no syntax errors, the document that is written out consists of exactly the elements written in it: each chain of selectors a > b > .. is one element within the other with exactly the names, ids, classes and attributes written, in order; its content is the block, or the rest of the line, that follows; special elements, inline elements, code and multiline blocks stand where they are written; each element, content and text has the positions in the source it is written at; nothing is added, dropped, duplicated or moved, except a selector at the end of a line and what follows the block of an element that begins with a bare >.", "quantifier": "every syntax tree without errors (any depth and length)", "why_tests_cant": "All nestings of selectors, combinators, blocks, lines and inline elements.", "anchors": ["mintyml/src/document/line.rs: extend_line, post_selector, post_child_combinator", "mintyml/src/document/mod.rs: from_ast, build_content", "mintyml/src/document/selectors.rs: build_selector", "mintyml/src/document/elements.rs: build_inline, build_inline_special"]}
{"id": "C56", "title": "Nothing of the source is skipped", "statement": "Apart from white space, every character of a source that is accepted belongs to exactly one part of the syntax tree (a text, a delimiter, a name, a value, a fence ..) and the parts are in the order of the source: nothing at the end, between lines or within a selector is ignored.", "quantifier": "every source and every syntax tree of the grammar for it", "why_tests_cant": "The places in which something could be skipped are all positions in all sources.", "anchors": ["mintyml/src/ast.rs: Document, Content, Line, Node", "mintyml/src/ast/selectors.rs: Selector, AttributeSelector, ClassSelector", "mintyml/src/ast/tokens.rs"]}
{"id": "C57", "title": "Metadata says where everything is in the source", "statement": "With metadata, every element has the documented attributes: the namespace at top level, the byte positions of the element and of its content in the source (left out if there are none) and whether its text is not escaped. With metadata elements, moreover, every text is in mty:text, comments are mty:comment, elements without name are mty:element, with their positions and mty:verbatim, mty:multiline and mty:raw. The positions are those of the source: inference, special tags, page completion and lang move nothing, and every position is one of a character of the source or its end.", "quantifier": "every document, source and configuration", "why_tests_cant": "Positions come from all nestings of elements, chains of selectors and lines, for sources of any length.", "anchors": ["mintyml/src/transform/metadata.rs: add_metadata, handle_element, process_node", "mintyml/src/document/elements.rs: split_at", "docs/general/metadata.md"]}
{"id": "C58", "title": "The white space of the output is determined", "statement": "Given how the tags, texts and comments are written, the white space between them is determined by the structure of the document and the indentation: a space is written once as it is in the source (one blank for the end of a line), nothing is written at the beginning and end of contents; with an indentation, line breaks are followed by one indentation per enclosing element that is not written inline and not html, and contents of such elements begin and end with a line break, the end tag being at the level of the start tag, unless white space has just been written. Inside of inline elements no indentation is added.", "quantifier": "every document, source, indentation and configuration", "why_tests_cant": "Depth and white space depend on all nestings of elements and everything that was written before.", "anchors": ["mintyml/src/output/mod.rs: line, _line, space, indent, in_content, process_element, process_node"]}
{"id": "C59", "title": "The output depends only on what the source says", "statement": "Two sources that agree in their texts, comments, selectors and blocks, in the order and nesting of these and in the white space between texts have the same output, or both are rejected for the same kind of reason. It does not matter where things are in the source, how lines are indented, how much white space is before '>' and '{' in an element, whether the id, the classes or the attributes of a selector come first, which quotation marks are used, how verbatim texts are delimited, whether a missing name is written as '*', and whether inline formatting is written in its short form (<# x #>) or as an inline element (<(strong> x)>).", "quantifier": "every pair of sources whose syntax trees say the same, every configuration without metadata", "why_tests_cant": "There is no bound on the sources, and the positions reach every stage of the conversion: a stage could look at them instead of the text.", "anchors": ["mintyml/src/document/mod.rs", "mintyml/src/document/line.rs", "mintyml/src/transform/mod.rs", "mintyml/src/inference/engine", "mintyml/src/output/mod.rs", "README.md: inline formatting"]}
{"id": "C60", "title": "What is written is what is shown", "statement": "A document of paragraphs, lines of text, elements (selector> .., selector { .. }, selector> { .. }, chains of these), inline elements and formatting (<(..)>, </../>, <#..#>, <_.._>, <~..~>, <\"..\">, <`..`>), verbatim text (<[[..]]> and with #), texts and code of several lines between fences, and comments, with names, classes, ids, attributes and escapes, written according to the rules of the manual, is converted without errors, and its output, read as markup, consists of exactly the elements, attributes, texts and white space that the rules say, in HTML and in XML. Names that are not written are those of the inference tables. With an indentation, only white space differs: where there was some, directly after start tags, directly before end tags and at the end. As a complete page, a document without html, head and body is a doctype and an html element with lang: a head with the title, meta, link, base and style elements of the document, in their order, then a body with everything else, in its order; a document with an html element gets a doctype only.", "quantifier": "every document written according to the rules (any length, any nesting), every test for letters and digits that is right for ASCII, every indentation and every configuration of special tags, without metadata; with page completion, lang and a document that has an html element or something for the body; without it, no lang", "why_tests_cant": "The statement joins all stages, from the characters of the source to the tokens of the output; documents are unbounded and nest in all ways.", "anchors": ["mintyml/src/ast.rs", "mintyml/src/ast/elements.rs", "mintyml/src/document/line.rs", "mintyml/src/document/mod.rs", "mintyml/src/transform/mod.rs", "mintyml/src/inference/engine", "mintyml/src/output/mod.rs", "README.md"]}
{"id": "C61", "title": "Everything can be written", "statement": "For every tree of elements whose names, ids, classes and attribute names are words (ASCII letters, digits and -), with arbitrary texts (any characters) and arbitrary attribute values, nested to any depth, there is a source whose conversion, read as markup, is exactly this tree, in HTML and in XML. Content of script and style, and content of void elements, is excepted.", "quantifier": "every tree of elements", "why_tests_cant": "A limit of what can be expressed shows only for some tree, text or value, of which there are infinitely many.", "anchors": ["mintyml/src/ast/elements.rs: Inline", "mintyml/src/ast/selectors.rs: Selector, Attribute", "mintyml/src/escape.rs: unescape_parts", "mintyml/src/output/mod.rs"]}
{"id": "C62", "title": "The demonstration page shows the output of the text in its editor", "statement": "However the user writes, and in whatever order answers of the worker, timers, downloads and events of the editor arrive: the page comes to rest after boundedly many steps, and then the output pane holds the conversion of the text now in the editor (two spaces of indentation, complete page), with no error marked if it succeeds and one mark for each syntax error if it fails.", "quantifier": "every history of the page: every sequence of edits, events, answers, timers, downloads, choices of examples and resets, and every clock", "why_tests_cant": "The interleavings of edits, debouncing, answers and timers are unbounded; an update could be dropped in one of them.", "anchors": ["web-demo/src/index.ts: Demo._update, Demo.init, worker.onmessage", "web-demo/src/worker.ts"]}
{"id": "C63", "title": "The demonstration page stores what the user writes", "statement": "A text the user has written for an example is stored for that example, and only texts written for it are; it is shown again when the example is chosen again, and is removed only by a reset. The selection box marks exactly the examples with a stored text.", "quantifier": "every history of the page", "why_tests_cant": "Whether something is lost depends on when answers, timers and downloads arrive.", "anchors": ["web-demo/src/index.ts: Demo._storeModified, _clearModified, _loadExample, _onResetClick, _isLoadingExample"]}
{"id": "C64", "title": "The demonstration page shows the example chosen last", "statement": "Once no download is pending, the example shown is the one named in the URL and in the selection box.", "quantifier": "every history of the page", "why_tests_cant": "Downloads can finish in any order and can fail.", "anchors": ["web-demo/src/index.ts: Demo._loadExample, _onExampleSelect"]}
{"id": "C65", "title": "The demonstration page converts one text at a time", "statement": "As long as the converter answers within three seconds, the worker never has more than one text.", "quantifier": "every history of the page in which answers take less than three seconds", "why_tests_cant": "All interleavings of edits, answers and timers.", "anchors": ["web-demo/src/index.ts: Demo._update, POST_SEND_DELAY"]}
{"id": "C66", "title": "The demonstration page marks errors where they are", "statement": "Once the page has come to rest, the marks and notes in the editor are those of the errors of the text in it, at their places in this text.", "quantifier": "every history of the page", "why_tests_cant": "All interleavings of edits and answers.", "anchors": ["web-demo/src/index.ts: worker.onmessage, _markers, Demo._loadExample"]}
{"id": "C67", "title": "Completing a page puts the output into a page, unchanged", "statement": "If page completion is enabled for a document without page elements (html, head, body, or metadata such as title) at top level, without indentation and range metadata, the result is the output without page completion, character by character, in the body of a page with the doctype, an empty head and the configured language; the conversion fails exactly when it fails without page completion, with the same errors. Syntax errors do not depend on any option but fail_fast.", "quantifier": "every source, every parser, every document without page elements at top level, all other options", "why_tests_cant": "Context-dependent inference, white space at the beginning of the output and the indentation depth could all change inside of a body; the property relates two conversions of every source.", "anchors": ["mintyml/src/transform/complete_page.rs: complete_page", "mintyml/src/transform/mod.rs: apply_lang", "mintyml/src/output/mod.rs: output_html_to", "mintyml/src/lib.rs: convert"]}
{"id": "C68", "title": "The partial output of a failed conversion", "statement": "If convert_forgiving fails on a source that can be parsed, the output it hands back consists of the pieces of the converted document in order up to the first text or start tag with an invalid escape sequence, and of the valid beginning of that item; nothing else is lost, added or reordered. If no invalid escape sequence is involved, the output is complete although errors are reported. Without a syntax tree, or with fail_fast and a syntax error, nothing is handed back.", "quantifier": "every source, every parser, every option, every kind and number of errors", "why_tests_cant": "Where the output breaks off depends on the position of the first invalid escape in the whole converted document, in text, multiline blocks, ids, classes or attributes; tests see a few positions.", "anchors": ["mintyml/src/lib.rs: convert_forgiving", "mintyml/src/output/mod.rs: output_html_to, write_open_tag, process_node", "mintyml/src/escape.rs: unescape_parts"]}
{"id": "C69", "title": "Parallel conversions do not depend on scheduling", "statement": "When the command line converts several files, with every source a file, no destination being a source and no two conversions having the same destination, the files afterwards, the exit status and the errors reported are determined by the files before and the arguments: each destination contains the output for its source if there is one, every other file is unchanged, the exit status is success exactly if no source has an error, and each error is reported once. The order in which the parallel conversions read and write and the pieces in which outputs are written do not matter. If two sources have the same destination (a.mty and a.minty) the contents depend on the order.", "quantifier": "every set of arguments, file system, contents, every interleaving of the conversions, every division of the writes, as long as the operating system lets each conversion read its source and write its output", "why_tests_cant": "The conversions run on a thread pool; a test sees one schedule.", "anchors": ["minty-cli/src/convert.rs: convert_multiple, convert", "minty-cli/src/io_helper.rs: read, write, open_write_path"]}
{"id": "C70", "title": "A stopped run can be repeated", "statement": "If a run of the command line is stopped at any moment (killed, power failure, failing reads and writes), with every source a file, no destination being a source and no two conversions having the same destination, then every file is as before, or it is the destination for a source that has an output and contains a beginning of that output; no source has changed. Repeating the command after any number of such stops, undisturbed, gives the files, exit status and errors that an undisturbed first run would have given. Not guaranteed: that a destination has either its old or its complete new contents; it is made empty before it is written.", "quantifier": "every set of arguments, contents, interleaving of the conversions, division of the writes, every moment at which the run stops, every number of stopped runs", "why_tests_cant": "A test does not kill the program between two system calls of two threads.", "anchors": ["minty-cli/src/convert.rs: convert_multiple, convert", "minty-cli/src/io_helper.rs: write, open_write_path"]}
{"id": "C71", "title": "What the error messages say", "statement": "The message of every syntax error says what is wrong and quotes the text of the source at the position of the error (or says that the end of the file was reached): an unclosed delimiter is quoted as the delimiter that opens what is left unclosed; an invalid escape is quoted with its backslash and is not an escape; a parse error says what was found and lists all that was expected. What is shown for a failed conversion lists the messages of all errors in order; the command line prints each one on a line that names the source and the position; the JavaScript error carries position and message of each. There is only one message an error may have.", "quantifier": "every source, parser whose positions are right, configuration, error", "why_tests_cant": "The messages are put together from a position and the source; a test looks at a few errors, not at every position an error can have.", "anchors": ["mintyml/src/error.rs: SyntaxError::display_with_src, SyntaxErrorKind, ConvertError", "mintyml/src/utils.rs: join_display", "minty-cli/src/error_reporter.rs: ErrorEntry, write_error", "minty-wasm/src/lib.rs: to_js_error"]}
{"id": "C72", "title": "An error in one source does not keep the others from being converted", "statement": "Unless --fail-fast is given (and also with --fail-fast=file), every source of a run of the command line is read, and if there is an output for it the output is written completely, whatever errors other sources have; the only exception is that the operating system does not let a conversion read or write, and then the exit status is failure and the last line printed names the source of that conversion with the reason.", "quantifier": "every set of arguments, contents, interleaving of the conversions, answers of the operating system", "why_tests_cant": "The conversions run in parallel and the first error could stop the others at any moment.", "anchors": ["minty-cli/src/convert.rs: convert_multiple, convert", "minty-cli/src/main.rs: main"]}
{"id": "C73", "title": "Errors printed as JSON can be read back", "statement": "With JSON as the error mode, the command line prints one line per reported error, in order, and each line is JSON (RFC 8259) for an object with the category, the source (file or standard input), the position, what was expected (if the source could not be parsed) and the message; no line break occurs within a line whatever the names and messages contain; a text is JSON for one value only, so the errors can be recovered from what is printed.", "quantifier": "every set of errors, file name and message (any characters), every run", "why_tests_cant": "Messages quote arbitrary source text and file names are arbitrary: quotation marks, backslashes, line breaks and control characters can occur anywhere.", "anchors": ["minty-cli/src/error_reporter.rs: ErrorEntry, ErrorLocation, StreamName, ErrorCategory, SerializeDisplay, should_skip_iter, write_error"]}
{"id": "C74", "title": "The source is only read where it can be read", "statement": "Converting reads the source only at ranges of the built document, which are valid ranges of the source (within it, at character boundaries): completing a page, special elements, inference, language and metadata add no range. So reading never panics, and the text written is determined by the characters at these ranges.", "quantifier": "every source with a tree of the grammar (any mix of multi-byte characters), every configuration", "why_tests_cant": "A range that is off by one byte panics only for sources with a multi-byte character or the end of the source at that place.", "anchors": ["mintyml/src/document/text.rs: TextSlice::as_str", "mintyml/src/transform/mod.rs: transform_document", "mintyml/src/inference/engine/mod.rs: infer", "mintyml/src/output/mod.rs: output_html_to"]}
{"id": "C75", "title": "Writers that fail", "statement": "`convert_to` with any writer: the calls it makes of the writer are determined by source and configuration, together they pass exactly the output, and they are made in order up to the first that fails; no call follows a failed one. If none fails the result is the one of writing to a `String`; if one fails the result is an error (the errors in the source if there are any, else unknown), so a truncated output is never reported as a success.", "quantifier": "every parser result and source, every configuration, every writer (any state, any pattern of failures)", "why_tests_cant": "A dropped result of one write shows only with a writer that fails exactly there; tests write to a String, which never fails.", "anchors": ["mintyml/src/lib.rs: convert_to, convert_to_internal", "mintyml/src/output/mod.rs: output_html_to", "mintyml/src/output/mod.rs: HtmlEscape"]}
{"id": "C76", "title": "Parts separated by a blank line", "statement": "If a source is a text, a blank line and another text, and the first text closes whatever it opens (comments, blocks, inline elements, formatting, brackets, and has no text that begins like a multi-line text or block that begins like an interpolation) and does not end with a backslash, and the second text begins with something visible, then the output is the output for the first text, white space, and the output for the second text; it is an error iff one of the two texts has one. So a document can be split at blank lines, and what is appended to a document does not change what is there.", "quantifier": "all pairs of sources that the grammar accepts, all configurations without a complete page and metadata", "why_tests_cant": "Whether what comes later changes how earlier text is read depends on every construct that looks ahead; tests try single documents.", "anchors": ["mintyml/src/ast.rs: parse, Content, Line", "mintyml/src/document/mod.rs: build_content", "mintyml/src/transform/mod.rs: transform_document", "mintyml/src/output/mod.rs", "mintyml/src/lib.rs: convert"]}
{"id": "C77", "title": "Errors of parts separated by a blank line", "statement": "If a source is a text, a blank line and another text, the first text closes whatever it opens and does not end with a backslash, and the second text does not begin with white space, then the syntax errors reported for the source are those of the first text followed by those of the second text, of the same kinds and with positions moved by the length of what is before the second text. With fail-fast, the first error reported is the first one of these. So errors do not hide, repeat or displace each other across paragraphs.", "quantifier": "all pairs (and lists) of sources that the grammar accepts, all configurations", "why_tests_cant": "An error in one paragraph could change the state in which the next one is read; tests look at single errors.", "anchors": ["mintyml/src/document/mod.rs: build_content, escapable_slice, unclosed, invalid, misplaced", "mintyml/src/document/line.rs", "mintyml/src/document/elements.rs", "mintyml/src/error.rs: Errors", "mintyml/src/lib.rs: convert"]}
{"id": "C78", "title": "White space around a source", "statement": "Blank lines before a source and an indentation of its first line by spaces and tabs change neither whether it is accepted nor the output, and the errors are the same, with positions moved by the length of what is before. The same goes for a line break and any white space after a source that closes whatever it opens and does not end with a backslash. So an editor that adds or removes a final line break, or a template that adds blank lines, does not change the page.", "quantifier": "all sources that the grammar accepts (for white space after it: those that close what they open), all white space of these forms, all configurations without metadata (for the output)", "why_tests_cant": "There are infinitely many sources and amounts of white space, and each construct has its own rule for what it reads before and after.", "anchors": ["mintyml/src/ast.rs: Content, Line, parse", "mintyml/src/ast/tokens.rs: NewLine, Space", "mintyml/src/ast/text.rs", "mintyml/src/document/mod.rs: build_content", "mintyml/src/output/mod.rs: process_content", "mintyml/src/lib.rs: convert"]}
{"id": "C79", "title": "A source in a block", "statement": "A source that closes whatever it opens and does not end with a backslash can be put into a block: `selector {`, the source, `}`. It is accepted there; the output (without indentation, metadata, language and complete page) is exactly the output of the source between the start tag for the selector and the end tag, for elements that contain sections and paragraphs; and the errors are those of the source alone, with positions moved by the length of what is before it. So a fragment that has been checked on its own can be wrapped by a template without a change of its meaning.", "quantifier": "all sources that the grammar accepts and that close what they open, all selectors with names, classes, ids and attributes, all configurations (for the output: without indentation, metadata, language and complete page)", "why_tests_cant": "There are infinitely many sources and selectors. Contents of blocks are read and built by the same functions as whole documents, but with another end, another context for inference and another state of the writer.", "anchors": ["mintyml/src/ast.rs: Content, Line", "mintyml/src/ast/elements.rs: Block", "mintyml/src/document/elements.rs: build_block", "mintyml/src/document/line.rs: post_selector", "mintyml/src/inference/engine/mod.rs: infer", "mintyml/src/output/mod.rs: process_element, process_content", "mintyml/src/lib.rs: convert"]}
{"id": "C80", "title": "What can keep a source from being read", "statement": "Only five characters can make a source be rejected by the grammar. A source in which `<`, `}` and `]` occur only in escape sequences, `>` only in one, at the beginning or after white space, and each backslash begins an escape sequence is always accepted, whatever else is in it (braces and brackets that are not closed, quotes, fences, selectors, control characters). The errors of its conversion are then those that the library reports in detail (an invalid escape sequence, a delimiter without its end, an invalid or misplaced item), never a failure of the parser at some position. In particular every text is accepted once these five characters are written with a backslash.", "quantifier": "all sources of any length with these restrictions, all texts, all configurations, any test for letters and digits that is false for white space and the seven marks of the language", "why_tests_cant": "There are infinitely many sources; a parser with many alternatives and lookahead can get stuck on combinations that no test tries, e.g. a selector that is begun and not finished inside a block.", "anchors": ["mintyml/src/ast.rs: parse, Content, Line, NodeType", "mintyml/src/ast/text.rs: text_word, TextSegment, Multiline", "mintyml/src/ast/selectors.rs: selector_chain, post_selector_chain, AttributeSelector", "mintyml/src/ast/elements.rs: Block, Element", "mintyml/src/ast/tokens.rs: escape", "mintyml/src/lib.rs: convert"]}
{"id": "C81", "title": "Errors are reported once, in the order of the source", "statement": "The errors that a conversion reports are at places of their own, none of which overlaps another, in the order in which they are in the source; so a tool that shows them one below the other, or underlines them, shows each once and from top to bottom.", "quantifier": "all sources of any length that the grammar accepts, all syntax trees it allows, all configurations, with and without fail_fast", "why_tests_cant": "The errors are collected by a recursive descent in which several functions add errors, some of them for a whole line after its parts; which places come together depends on the nesting of the source, which has no bound.", "anchors": ["mintyml/src/document/line.rs: build_line, validate_line, extend_line", "mintyml/src/document/elements.rs: build_inline, build_block, build_inline_special", "mintyml/src/document/selectors.rs: build_selector", "mintyml/src/document/text.rs: build_text_node", "mintyml/src/error.rs: Errors"]}
{"id": "C82", "title": "The output is not much larger than the source", "statement": "What a conversion writes, for a right or a wrong source, is at most K times as large as the source where K depends on the configuration only; with indentation it is at most K times the square of the size of the source. No source makes the converter write without bound or exponentially much.", "quantifier": "all sources of any length and nesting, all syntax trees the grammar allows for them, all configurations without metadata (with and without indentation, complete page, language, special tags), both convert and convert_to", "why_tests_cant": "A blow-up shows only for inputs that repeat or nest a construct many times, and each of the stages (building, special tags, complete page, inference, splitting of selectors, output) could multiply; tests try a few small sources.", "anchors": ["mintyml/src/lib.rs: convert, convert_to", "mintyml/src/document/*.rs: Document::from_ast", "mintyml/src/transform/mod.rs: transform_document, apply_lang", "mintyml/src/transform/complete_page.rs: complete_page", "mintyml/src/inference/engine/mod.rs: infer", "mintyml/src/output/mod.rs: output_html_to"]}
{"id": "C83", "title": "The view shows the last output and nothing of earlier ones", "statement": "In the demonstration page the view of the output shows the body of the last output, and its head holds the titles, links and styles of this output, in order, and of no earlier one; the style, the theme and the base of the page itself are kept, once each.", "quantifier": "all histories of outputs, followed links and loaded examples, of any length, any parser of markup in the browser", "why_tests_cant": "Left-overs of earlier outputs (a style that is never removed, a base that is lost) show only after particular sequences of outputs; the page has no tests.", "anchors": ["web-demo/src/index.ts: _updateDoc"]}
{"id": "C84", "title": "A link to a place in the output shows this place", "statement": "When a link with a fragment is followed, the view scrolls to the element with this id: at once if the output has it, otherwise as soon as an output has it; it scrolls only once, so that later outputs do not move the view.", "quantifier": "all states of the page, all ids that are written in addresses as they are, all histories of outputs with and without the id", "why_tests_cant": "The order of the fragment, the outputs and the flag that remembers that scrolling is still to be done matters; tests would try one order.", "anchors": ["web-demo/src/index.ts: _showElementInHash, _updateDoc, _loadExample, updateURL"]}
{"id": "C85", "title": "A pane shows its content exactly when it is open", "statement": "After every history of clicks on its button and of changes of its attribute by the page, a pane of the demonstration page hides its content exactly if it is closed, and what the button tells to assistive technology is the same; a click opens a closed pane and closes an open one.", "quantifier": "all panes, initially open or closed, all histories of clicks and changes from outside of any length", "why_tests_cant": "That state, attribute and what assistive technology is told stay together has to hold after every sequence of changes.", "anchors": ["web-demo/src/collapsible.ts: Collapsible", "web-demo/src/index.ts: removeAttribute"]}
{"id": "C86", "title": "The kind of line ends does not matter", "statement": "A source whose lines end in a line feed and the same source with a carriage return and a line feed at the end of each line have the same output; if one of them is rejected then the other one is, for the same kind of reason.", "quantifier": "all sources, all configurations without metadata, all parsers that agree with the reference parser on sources that it accepts", "why_tests_cant": "A carriage return is white space in some places and a character of a text in others; every token and every rule of the grammar can be the one that treats it wrongly, and the files of tests have only line feeds.", "anchors": ["mintyml/src/ast/tokens.rs: NewLine, Space, Whitespace, QuotedString", "mintyml/src/ast.rs: Line, Content, Node", "mintyml/src/output/utils.rs: trim_multiline"]}
{"id": "C87", "title": "The margins of lines do not matter", "statement": "Two sources that have the same lines up to spaces, tabs and carriage returns at the beginning and the end of lines have the same output; if one of them is rejected then the other one is, for the same kind of reason. So the indentation of a document is free, and spaces at the ends of lines are ignored.", "quantifier": "all pairs of sources, all configurations without metadata, all parsers that agree with the reference parser on sources that it accepts", "why_tests_cant": "White space is a separator, an indentation or part of a text depending on the rule that reads it, at any depth of nesting; a test compares a few layouts of a few documents.", "anchors": ["mintyml/src/ast/tokens.rs: NewLine, Space", "mintyml/src/ast/text.rs: TextSegment", "mintyml/src/ast.rs: Line, Content, Node", "mintyml/src/output/utils.rs: trim_multiline"]}
{"id": "C88", "title": "A source can be indented as a whole", "statement": "A source and the same source with every line further in by the same spaces and tabs have the same output, blocks of code and text included: the lines of a block lose the indentation of its closing delimiter. If one of the two is rejected then the other one is, for the same kind of reason.", "quantifier": "all sources, all indentations, all configurations without metadata, all parsers that agree with the reference parser on sources that it accepts", "why_tests_cant": "The indentation of a block is removed by the output, the other indentations are skipped by the rules of the grammar; the two must agree for every nesting and every content of blocks.", "anchors": ["mintyml/src/output/utils.rs: trim_multiline", "mintyml/src/ast/text.rs: Multiline", "mintyml/src/ast/tokens.rs: NewLine, Space"]}
{"id": "C89", "title": "Comments and white space do not change what an element is", "statement": "What an element without a name becomes depends on the elements around it, not on comments, blank lines and line breaks between them: two sources with the same elements, written in the same way, have the same elements with the same names in their output.", "quantifier": "all pairs of sources, all configurations", "why_tests_cant": "Inference looks at the places of nodes, and comments and white space are nodes too; the claim is about all ways to put them between elements at any depth.", "anchors": ["mintyml/src/inference/engine/when.rs: first, last", "mintyml/src/inference/engine/mod.rs: Inferrer", "mintyml/src/inference/definitions/specialty.rs"]}
{"id": "C90", "title": "The number of blank lines does not matter", "statement": "Where there is a blank line, there can be any number of them: sources that say the same apart from the number of blank lines in a row, at the top and within elements at any depth, have the same output and are rejected for the same kind of reason. Between a text in which everything is closed and what follows, also the white space on the blank lines and the indentation of what follows make no difference.", "quantifier": "all pairs of sources that differ in repeated blank lines only, all gaps of blank lines, all configurations without metadata", "why_tests_cant": "Each blank line is a node of its own that takes a place among its siblings, so that it could end a paragraph twice, hide the first or last place from inference or write white space twice; the claim is about any number of blank lines at any depth.", "anchors": ["mintyml/src/document/mod.rs: build_content", "mintyml/src/output/mod.rs: space, process_content", "mintyml/src/inference/engine/mod.rs: Inferrer"]}
{"id": "C91", "title": "The configuration is what the calls ask for", "statement": "A configuration that is built by a chain of calls has for every option the value of the last call about this option, and none without such a call; the order of calls about different options makes no difference to any conversion; a call changes no other option; and every configuration can be built this way.", "quantifier": "all chains of calls of the methods of OutputConfig, of any length and in any order, all sources", "why_tests_cant": "There are infinitely many chains of calls; a method that sets the wrong option or resets another one shows only in some of them.", "anchors": ["mintyml/src/config.rs: OutputConfig::new, update, indent, xml, emphasis_tag, strong_tag, underline_tag, strike_tag, quote_tag, code_tag, code_block_container_tag, complete_page, lang, metadata, fail_fast", "mintyml/src/config.rs: MetadataConfig::new, elements"]}
{"id": "C92", "title": "What an element is depends only on the elements around it", "statement": "The name that an element without one gets depends on how it and the elements it is in are written and called and whether they are first or last in their content. What is in it or beside it, classes, ids, attributes, texts and the configuration do not count, so an edit inside an element never changes an element outside it.", "quantifier": "all pairs of sources, all pairs of configurations, all pairs of elements in them", "why_tests_cant": "The claim is about all documents that agree along one path and differ arbitrarily elsewhere, at any depth.", "anchors": ["mintyml/src/inference/engine/mod.rs: Inferrer", "mintyml/src/inference/engine/when.rs", "mintyml/src/inference/definitions/specialty.rs"]}
{"id": "C93", "title": "Whether a source can be converted does not depend on the configuration", "statement": "A source that can be converted with one configuration can be converted with every other one, and otherwise the errors are the same: XML, indentation, language, metadata, special tags and page completion change the output but not whether there is one.", "quantifier": "all sources, all parsers, all pairs of configurations", "why_tests_cant": "Errors in ids, classes and attributes are found when they are written, after transformations that depend on the configuration; the claim is about all documents and all pairs of configurations.", "anchors": ["mintyml/src/output/mod.rs: write_open_tag, write_escape_unescape", "mintyml/src/transform/mod.rs: transform_document, apply_lang", "mintyml/src/transform/complete_page.rs", "mintyml/src/transform/metadata.rs"]}
{"id": "C94", "title": "The HTML output and the XML output say the same", "statement": "A source is converted to HTML exactly if it is converted to XML, and the errors are the same. If it contains no interpolations, raw texts, script and style, and its names can be used in markup, the HTML output read as HTML and the XML output read as XML are the same elements with the same attributes, texts, comments and white space in the same order and nesting; they differ only in how elements without content, void elements, attributes without value and escaped characters are written. If a void element has content, they are the same up to white space.", "quantifier": "all sources, all parsers, all configurations, both kinds of output; for the second part all sources with usable names", "why_tests_cant": "The two kinds of output take different branches for every tag, attribute and character; that no combination of nesting, void elements, indentation and page completion makes the documents differ is a claim about all sources.", "anchors": ["mintyml/src/output/mod.rs: OutputContext::process_element, write_open_tag, process_node, get_escape", "mintyml/src/config.rs: OutputConfig::xml"]}
{"id": "C95", "title": "The tags of forms that are not used make no difference", "statement": "Configuring the tag of a short form (emphasis, strong, underline, strike, quote, code, the container of code blocks) changes nothing for a source that does not use this form: the output, the errors and the output beside errors are the same. In particular, a source in which the mark of the form does not occur is not affected, and a source without '<' and '`' is not affected by any of them.", "quantifier": "all sources, all parsers (for the second part those that return trees of the grammar), all configurations, all pairs of special tags", "why_tests_cant": "The tags enter before inference and page completion, which look at names; that they reach nothing else is a claim about all sources and configurations.", "anchors": ["mintyml/src/transform/apply_special_tags.rs: tag_name, transform_element", "mintyml/src/config.rs: SpecialTagConfig", "mintyml/src/ast/elements.rs: InlineSpecial"]}
