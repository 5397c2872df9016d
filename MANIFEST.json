{
 "claims": [
  {
   "property": "C01",
   "status": "proved",
   "theorems": [
    "Mty.C01_escaped_text_inert",
    "Mty.C01_escaped_quoted_inert",
    "Mty.C01_injective",
    "Mty.C01_unescaped_text_inert"
   ],
   "note": "text and attribute position, HTML and XML, against an independent character-reference reader; injectivity."
  },
  {
   "property": "C02",
   "status": "proved",
   "theorems": [
    "Mty.C02_attribute_no_breakout",
    "Mty.C02_attribute_reads_back"
   ],
   "note": "no quote or angle bracket ever written; reads back as the resolved value iff the escapes are valid."
  },
  {
   "property": "C03",
   "status": "partial",
   "theorems": [
    "Mty.C03_unescape_exact",
    "Mty.C03_manual_accepted",
    "Mty.C03_manual_exact_partial",
    "Mty.C03_plus_accepted"
   ],
   "note": "exact grammar of accepted escapes proved (C03_unescape_exact); equal to the manual's table for slices without '+'. The code also accepts a '+' sign before hex digits (C03_plus_accepted)."
  },
  {
   "property": "C04",
   "status": "proved",
   "theorems": [
    "Mty.C04_any_text_can_be_escaped"
   ],
   "note": "explicit encoder."
  },
  {
   "property": "C05",
   "status": "proved",
   "theorems": [
    "Mty.C05_scan",
    "Mty.C05_ranges",
    "Mty.C05_complete"
   ],
   "note": "ranges, order, boundaries and completeness."
  },
  {
   "property": "C06",
   "status": "proved",
   "theorems": [
    "Mty.C06_comment_valid",
    "Mty.C06_comment_ends"
   ],
   "note": "written comment valid for HTML and XML, text kept up to inserted spaces, unchanged if already valid."
  },
  {
   "property": "C07",
   "status": "proved",
   "theorems": [
    "Mty.C07_convert_forgiving",
    "Mty.C07_convert_to",
    "Mty.C07_partial_nonempty"
   ],
   "note": "all three entry points, any parser, source, configuration and initial buffer."
  },
  {
   "property": "C08",
   "status": "proved",
   "theorems": [
    "Mty.C08_ok_iff",
    "Mty.C08_error_cases"
   ],
   "note": "exact characterisation of success and the three ways to fail."
  },
  {
   "property": "C09",
   "status": "proved",
   "theorems": [
    "Mty.C09_fail_fast",
    "Mty.C09_default",
    "Mty.C09_no_partial"
   ],
   "note": "success, output, Unknown unchanged; error list is a non-empty initial part."
  },
  {
   "property": "C10",
   "status": "proved",
   "theorems": [
    "Mty.C10_syntax_errors_iff",
    "Mty.C10_builds",
    "Mty.C10_error_list",
    "Mty.C10_convert_error_list"
   ],
   "note": "errors iff the syntax tree violates the grammar of Spec/Syntax.lean; exact list of all non-misplaced errors in order."
  },
  {
   "property": "C11",
   "status": "partial",
   "theorems": [
    "Mty.C11_content_exact",
    "Mty.C11_content_kept_partial",
    "Mty.C11_no_bare_arrow",
    "Mty.C11_content_lost",
    "Mty.C11_converted"
   ],
   "note": "exact description of what is kept (C11_content_exact); kept entirely if no line has an ignored end. False in general for the code: C11_content_lost shows accepted input whose text disappears."
  },
  {
   "property": "C12",
   "status": "proved",
   "theorems": [
    "Mty.C12_grammar_positions",
    "Mty.C12_grammar",
    "Mty.C12_grammar_errors",
    "Mty.C12_ranges",
    "Mty.C12_convert_errors",
    "Mty.C12_parse_error",
    "Mty.C12_slice"
   ],
   "note": "every range of the built document and of every reported error is a range of the source, for every tree whose positions are valid (C12_ranges) and so for every tree of the grammar (C12_grammar)."
  },
  {
   "property": "C13",
   "status": "proved",
   "theorems": [
    "Mty.C13_layout",
    "Mty.C13_layout_block",
    "Mty.C13_layout_special",
    "Mty.C13_where",
    "Mty.C13_no_loose_text"
   ],
   "note": "layout relation on lines for top level, blocks and special elements; where paragraphs occur; no loose text in divided content."
  },
  {
   "property": "C14",
   "status": "partial",
   "theorems": [
    "Mty.C14_balanced_partial",
    "Mty.C14_attribute_name",
    "Mty.C14_element_name",
    "Mty.C14_control_character",
    "Mty.C14_duplicate_attribute",
    "Mty.C14_source_partial"
   ],
   "note": "Balanced and properly nested for every document without interpolations whose element and attribute names are usable in markup; C14_source_partial states this for sources: every tree of the grammar whose names begin with a letter and have no escapes, <, & or control characters. The code writes names unescaped, so it fails otherwise (C14_attribute_name, C14_element_name); duplicate attributes and control characters are copied, so balanced output need not be well-formed XML (C14_duplicate_attribute, C14_control_character)."
  },
  {
   "property": "C15",
   "status": "partial",
   "theorems": [
    "Mty.C15_balanced_partial",
    "Mty.C15_source_partial"
   ],
   "note": "Balanced apart from void elements for every document without interpolations, <[raw[ and text in script/style, metadata elements off, names usable in markup (C15_source_partial: stated for sources). Fails otherwise as for C14."
  },
  {
   "property": "C16",
   "status": "partial",
   "theorems": [
    "Mty.C16_reads_back_partial",
    "Mty.C16_source_partial"
   ],
   "note": "An independent strict reader gives back exactly the transformed document, XML and HTML, with or without indentation; same hypotheses as C14/C15 (C16_source_partial: stated for sources, together with C55)."
  },
  {
   "property": "C17",
   "status": "proved",
   "theorems": [
    "Mty.C17_single",
    "Mty.C17_nested"
   ],
   "note": "no element with more than one selector after the whole transformation; chains are nested elements, outermost first."
  },
  {
   "property": "C18",
   "status": "proved",
   "theorems": [
    "Mty.C18_kept"
   ],
   "note": "named elements keep name, classes, ids and attributes; pointwise over the tree, any configuration."
  },
  {
   "property": "C19",
   "status": "proved",
   "theorems": [
    "Mty.C19_texts"
   ],
   "note": "same text, comment and space nodes in order; no element added (C18_kept gives the same shape)."
  },
  {
   "property": "C20",
   "status": "proved",
   "theorems": [
    "Mty.C20_inference",
    "Mty.C20_document",
    "Mty.C20_manual",
    "Mty.C20_first",
    "Mty.C20_stable",
    "Mty.C20_written"
   ],
   "note": "refinement of the engine to the context tables, which contain the tables of the manual; stable under writing names explicitly."
  },
  {
   "property": "C21",
   "status": "partial",
   "theorems": [
    "Mty.C21_decided_partial",
    "Mty.C21_one_pass",
    "Mty.C21_picture"
   ],
   "note": "one pass resolves every sibling; every line, block and paragraph is named except plain paragraphs in paragraph context and blocks and paragraphs in picture, which the code leaves unnamed (C21_picture)."
  },
  {
   "property": "C22",
   "status": "proved",
   "theorems": [
    "Mty.C22_cells"
   ],
   "note": "th exactly under thead > tr, td otherwise."
  },
  {
   "property": "C23",
   "status": "partial",
   "theorems": [
    "Mty.C23_special_partial",
    "Mty.C23_default",
    "Mty.C23_container_ignored"
   ],
   "note": "every built document: configured tags or defaults, empty tags do not wrap, nothing else changes. The container of code blocks ignores its own setting and follows emphasis (C23_container_ignored)."
  },
  {
   "property": "C24",
   "status": "proved",
   "theorems": [
    "Mty.C24_page",
    "Mty.C24_converted"
   ],
   "note": "three cases as in the statement, for every document; C24_converted for the written document."
  },
  {
   "property": "C25",
   "status": "partial",
   "theorems": [
    "Mty.C25_texts",
    "Mty.C25_elements_partial",
    "Mty.C25_head_lost"
   ],
   "note": "texts, comments and spaces always kept (permutation); elements kept unless a top-level head has attributes or further selectors (C25_head_lost)."
  },
  {
   "property": "C26",
   "status": "proved",
   "theorems": [
    "Mty.C26_idempotent"
   ],
   "note": "for every document: completing twice is completing once."
  },
  {
   "property": "C27",
   "status": "proved",
   "theorems": [
    "Mty.C27_output",
    "Mty.C27_lang"
   ],
   "note": "result with lang = result without + the attribute on named top-level elements; C27_output says of the text written, for every parser, source and configuration and every language of letters, digits and hyphens, that only attributes lang are inserted into tags and that the errors are the same."
  },
  {
   "property": "C28",
   "status": "proved",
   "theorems": [
    "Mty.C28_output",
    "Mty.C28_erase",
    "Mty.C28_added"
   ],
   "note": "erasing the added attributes gives the document without metadata; C28_added says exactly what is added; C28_output says the same of the text written, for every parser, source and configuration, also beside errors."
  },
  {
   "property": "C29",
   "status": "partial",
   "theorems": [
    "Mty.C29_escaping_partial",
    "Mty.C29_elements_unescaped"
   ],
   "note": "holds without metadata elements and, for XML, with them; with metadata elements HTML text is not escaped (C29_elements_unescaped)."
  },
  {
   "property": "C30",
   "status": "partial",
   "theorems": [
    "Mty.C30_verbatim_partial",
    "Mty.C30_xml"
   ],
   "note": "Proved for all documents and configurations without metadata elements in HTML, and in XML without restriction: the verbatim texts are exactly interpolations, raw segments and script/style content, all others are read back from their escaped form. With metadata elements in HTML it is false (C29_elements_unescaped)."
  },
  {
   "property": "C31",
   "status": "partial",
   "theorems": [
    "Mty.C31_interpolations_partial",
    "Mty.C31_all"
   ],
   "note": "Interpolations of everything that is looked at in the syntax tree are found unchanged, in order, without overlap. Those in the ignored end of a line (C11_content_lost) are not written; C31_all covers documents without ignored ends."
  },
  {
   "property": "C32",
   "status": "proved",
   "theorems": [
    "Mty.C32_trim",
    "Mty.C32_total",
    "Mty.C32_written_verbatim",
    "Mty.C32_written_unescaped"
   ],
   "note": "trimming against a line-based specification, and what is written for such nodes."
  },
  {
   "property": "C33",
   "status": "proved",
   "theorems": [
    "Mty.C33_text_node",
    "Mty.C33_unknown",
    "Mty.C33_no_backslash"
   ],
   "note": "Conversion of a well-formed document succeeds or gives Unknown; it succeeds iff ids, classes and attributes have valid escapes."
  },
  {
   "property": "C34",
   "status": "proved",
   "theorems": [
    "Mty.C34_pieces",
    "Mty.C34_tidied"
   ],
   "note": "every space of the output, for all documents and configurations."
  },
  {
   "property": "C35",
   "status": "proved",
   "theorems": [
    "Mty.C35_success",
    "Mty.C35_indent",
    "Mty.C35_characters"
   ],
   "note": "the outputs with and without indentation differ only in white space between pieces."
  },
  {
   "property": "C36",
   "status": "proved",
   "theorems": [
    "Mty.C36_doctype",
    "Mty.C36_no_page"
   ],
   "note": "C36_no_page: no html, head or body introduced, all documents; C36_doctype: DOCTYPE iff pages are completed, for documents that can be read back."
  },
  {
   "property": "C37",
   "status": "proved",
   "theorems": [
    "Mty.C37_exit",
    "Mty.C37_files"
   ],
   "note": "Success if and only if every requested source was read, converted without error and completely written, for every interleaving and all answers of the operating system; then each destination file contains exactly the output (unless two destinations are the same file)."
  },
  {
   "property": "C38",
   "status": "proved",
   "theorems": [
    "Mty.C38_failed",
    "Mty.C38_changes",
    "Mty.C38_files"
   ],
   "note": "Without --forgiving a conversion whose source has an error does nothing but read and report; every change of a file belongs to a conversion that had read its source and converted it."
  },
  {
   "property": "C39",
   "status": "proved",
   "theorems": [
    "Mty.C39_named",
    "Mty.C39_differs",
    "Mty.C39_directory",
    "Mty.C39_collision"
   ],
   "note": "The name of every output file follows the rule on its last component and the directory part stays; output never overwrites its own source. Witness C39_collision: two sources that differ only in the MinTyML extension have the same destination."
  },
  {
   "property": "C40",
   "status": "proved",
   "theorems": [
    "Mty.C40_found",
    "Mty.C40_fails",
    "Mty.C40_depth",
    "Mty.C40_other_entries"
   ],
   "note": "Exactly the MinTyML files at most the given number of directories below are found, each once, and the search fails if and only if some directory on the way cannot be read. Witness C40_other_entries: an entry that is neither file nor directory (symbolic link) makes the search fail."
  },
  {
   "property": "C41",
   "status": "proved",
   "theorems": [
    "Mty.C41_printed",
    "Mty.C41_senders",
    "Mty.C41_silent",
    "Mty.C41_visible",
    "Mty.C41_main"
   ],
   "note": "For every sequence of events and every interleaving of senders."
  },
  {
   "property": "C42",
   "status": "partial",
   "theorems": [
    "Mty.C42_reported",
    "Mty.C42_printed_partial",
    "Mty.C42_failure_partial",
    "Mty.C42_success",
    "Mty.C42_silent",
    "Mty.C42_program_partial",
    "Mty.C42_arguments_silent"
   ],
   "note": "Every error of a conversion is sent to the reporter; every error except Unknown is printed (unless silent) with the name of its source, and failure prints something, for the whole program (C42_program_partial). Missing: for ConvertError::Unknown the event carries no error, so that nothing is printed (witness C42_silent); for invalid arguments with an error mode nothing is printed (witness C42_arguments_silent)."
  },
  {
   "property": "C43",
   "status": "proved",
   "theorems": [
    "Mty.C43_options"
   ],
   "note": "Each option against the last value given; --metadata-elements alone (even =false) requests metadata."
  },
  {
   "property": "C44",
   "status": "partial",
   "theorems": [
    "Mty.C44_sentence_partial",
    "Mty.C44_two_items",
    "Mty.C44_two"
   ],
   "note": "Proved for all lists with one or at least three items. Missing: with two items the space before the conjunction is missing in the code (C44_two, witness C44_two_items); an empty list is printed as <none>."
  },
  {
   "property": "C45",
   "status": "proved",
   "theorems": [
    "Mty.C45_attributes_partial",
    "Mty.C45_tags",
    "Mty.C45_source",
    "Mty.C45_source_partial"
   ],
   "note": "C45_source: from the selectors of the source to the start tags of the output, nothing assumed about names (C45_tags: the same for completed pages, lang and metadata, in terms of the transformed document). The _partial theorems add that a markup reader finds these start tags, for sources whose names are names."
  },
  {
   "property": "C46",
   "status": "partial",
   "theorems": [
    "Mty.C46_manual_partial",
    "Mty.C46_link_in_paragraph"
   ],
   "note": "context inside every element given by name and form (C20_inference), equal to the manual's lists. Deviation: a and custom elements follow their delimiter, not the context they are used in (C46_link_in_paragraph)."
  },
  {
   "property": "C47",
   "status": "proved",
   "theorems": [
    "Mty.C47_config",
    "Mty.C47_config_fails",
    "Mty.C47_success",
    "Mty.C47_failure",
    "Mty.C47_thrown",
    "Mty.C47_errors"
   ],
   "note": "Success iff convert succeeds with the configuration of the arguments; otherwise error and best-effort output; exceptions of getters are returned as the error."
  },
  {
   "property": "C48",
   "status": "partial",
   "theorems": [
    "Mty.C48_html_exact_partial",
    "Mty.C48_xml_exact_partial",
    "Mty.C48_not_all_text"
   ],
   "note": "exact characterisation: recovered iff no NUL and none of the 27 C1 controls that HTML remaps (HTML), iff all characters are XML 1.0 Chars (XML). U+0080 could be represented in HTML but is written as &#128; = euro sign: C48_not_all_text."
  },
  {
   "property": "C49",
   "status": "proved",
   "theorems": [
    "Mty.C49_plain_text"
   ],
   "note": "For every source that Spec/PlainText.lean describes and every tree of the grammar for it. Assumes only that the tree the parser returns is one of the grammar."
  },
  {
   "property": "C50",
   "status": "partial",
   "theorems": [
    "Mty.C50_fulfilled",
    "Mty.C50_rejected",
    "Mty.C50_forgiving",
    "Mty.C50_message_partial",
    "Mty.C50_undefined"
   ],
   "note": "the message of errors without a parse location contains 'undefined' (C50_undefined); everything else is proved"
  },
  {
   "property": "C51",
   "status": "partial",
   "theorems": [
    "Mty.C51_positions_partial",
    "Mty.C51_other_characters"
   ],
   "note": "proved for ASCII sources; fails for others (C51_other_characters)"
  },
  {
   "property": "C52",
   "status": "proved",
   "theorems": [
    "Mty.C52_streams",
    "Mty.C52_beside",
    "Mty.C52_out",
    "Mty.C52_within",
    "Mty.C52_distinct",
    "Mty.C52_escapes"
   ],
   "note": "C52_escapes shows that the last part does not extend to files given by name"
  },
  {
   "property": "C53",
   "status": "partial",
   "theorems": [
    "Mty.C53_sources_partial",
    "Mty.C53_dir_and_file",
    "Mty.C53_dots"
   ],
   "note": "fails for files given together with -d (C53_dir_and_file) and paths without a name (C53_dots)"
  },
  {
   "property": "C54",
   "status": "proved",
   "theorems": [
    "Mty.C54_special_tags"
   ],
   "note": ""
  },
  {
   "property": "C55",
   "status": "proved",
   "theorems": [
    "Mty.C55_structure",
    "Mty.C55_convert",
    "Mty.C55_quoted"
   ],
   "note": "C55_structure for every syntax tree, C55_convert for convert with every parser; C55_quoted: quoted values are the text between the quotation marks."
  },
  {
   "property": "C56",
   "status": "proved",
   "theorems": [
    "Mty.C56_covers",
    "Mty.C56_characters",
    "Mty.C56_sound"
   ],
   "note": ""
  },
  {
   "property": "C57",
   "status": "partial",
   "theorems": [
    "Mty.C57_elements_partial",
    "Mty.C57_places",
    "Mty.C57_positions",
    "Mty.C57_raw",
    "Mty.C57_arrow_block",
    "Mty.C57_lines"
   ],
   "note": "Elements, attributes and positions are proved for every document and configuration. Missing because the code deviates (witnesses): mty:raw of texts is inverted (C57_raw), an element with arrow and block starts at the block (C57_arrow_block), the content of continued lines ends with the first line (C57_lines). C28_added has the attributes of elements without metadata elements."
  },
  {
   "property": "C58",
   "status": "proved",
   "theorems": [
    "Mty.C58_determined",
    "Mty.C58_unindented",
    "Mty.C58_inline",
    "Mty.C58_preformatted"
   ],
   "note": "C58_determined: the output is the only string that consists of the pieces with the specified white space. C58_unindented, C58_inline: what this means without indentation and inside of inline elements. C58_preformatted: an observation about pre and textarea."
  },
  {
   "property": "C59",
   "status": "proved",
   "theorems": [
    "Mty.C59_same",
    "Mty.C59_errors",
    "Mty.C59_reference",
    "Mty.C59_space_after_arrow",
    "Mty.C59_empty_short"
   ],
   "note": "For configurations without metadata (metadata contains positions). The relation asks for the same white space after '>', and compares short forms with long forms only if they have content and their tag is one of phrasing content: C59_space_after_arrow and C59_empty_short show why."
  },
  {
   "property": "C60",
   "status": "proved",
   "theorems": [
    "Mty.C60_written",
    "Mty.C60_indented",
    "Mty.C60_page",
    "Mty.C60_whole"
   ],
   "note": "for the rules of Spec/Writing.lean and the reference parser (ordered choice); tests for letters and digits right for ASCII; code blocks only if emphasis and code_block_container have the same setting (see C23); complete pages: documents with html at top level (C60_whole), or without html, head and body (C60_page)"
  },
  {
   "property": "C61",
   "status": "proved",
   "theorems": [
    "Mty.C61_expressible"
   ],
   "note": "for element trees with word names; reference parser"
  },
  {
   "property": "C62",
   "status": "proved",
   "theorems": [
    "Mty.C62_settled",
    "Mty.C62_settles",
    "Mty.C62_converted"
   ],
   "note": "for every history of the page; C62_converted is for the worker's converter with any parser"
  },
  {
   "property": "C63",
   "status": "partial",
   "theorems": [
    "Mty.C63_star",
    "Mty.C63_own",
    "Mty.C63_kept",
    "Mty.C63_stored_partial",
    "Mty.C63_returns",
    "Mty.C63_not_stored",
    "Mty.C63_lost",
    "Mty.C63_unmodified"
   ],
   "note": "stars, ownership, persistence and return are proved; storing only when the page has finished loading and the user only writes. The code loses texts otherwise: C63_not_stored, C63_lost, C63_unmodified"
  },
  {
   "property": "C64",
   "status": "partial",
   "theorems": [
    "Mty.C64_shown_partial",
    "Mty.C64_wrong_example"
   ],
   "note": "only when examples are chosen with no download pending and no download fails; otherwise false: C64_wrong_example"
  },
  {
   "property": "C65",
   "status": "proved",
   "theorems": [
    "Mty.C65_one"
   ],
   "note": ""
  },
  {
   "property": "C66",
   "status": "partial",
   "theorems": [
    "Mty.C66_marks_partial",
    "Mty.C66_notes_partial",
    "Mty.C66_wrong_place",
    "Mty.C66_notes_lost"
   ],
   "note": "only if the text is not changed while it is converted (and for the notes, no example is chosen); otherwise false: C66_wrong_place, C66_notes_lost"
  },
  {
   "property": "C67",
   "status": "proved",
   "theorems": [
    "Mty.C67_page",
    "Mty.C67_errors"
   ],
   "note": "Two conversions of the same source compared, for any parser; elements of a page at top level are C24, indentation is C35 and C60."
  },
  {
   "property": "C68",
   "status": "proved",
   "theorems": [
    "Mty.C68_output",
    "Mty.C68_complete",
    "Mty.C68_nothing"
   ],
   "note": "C68_output for every failed conversion of a parsed source, C68_complete without invalid escapes, C68_nothing without a tree or with fail_fast"
  },
  {
   "property": "C69",
   "status": "proved",
   "theorems": [
    "Mty.C69_outcome",
    "Mty.C69_schedule",
    "Mty.C69_possible",
    "Mty.C69_same_destination"
   ],
   "note": "For runs in which the operating system lets every conversion finish and the conversions are apart; existence of such runs included. C69_same_destination: with equal destinations the order matters. The tests of the command line follow as examples (Props/RepoTestsCli.lean)."
  },
  {
   "property": "C70",
   "status": "proved",
   "theorems": [
    "Mty.C70_stopped",
    "Mty.C70_stopped_runs",
    "Mty.C70_again",
    "Mty.C70_not_atomic"
   ],
   "note": "C70_stopped, C70_stopped_runs: files at a stop; C70_again: repeating the command. C70_not_atomic: the old output may be lost (witness)."
  },
  {
   "property": "C71",
   "status": "proved",
   "theorems": [
    "Mty.C71_messages",
    "Mty.C71_parse_failed",
    "Mty.C71_unclosed",
    "Mty.C71_escape",
    "Mty.C71_display",
    "Mty.C71_printed",
    "Mty.C71_js",
    "Mty.C71_unique"
   ],
   "note": "for every parser whose positions are right (PositionsOk, which conforming trees have); Debug formatting of strings is a parameter"
  },
  {
   "property": "C72",
   "status": "proved",
   "theorems": [
    "Mty.C72_all"
   ],
   "note": "printed line: default error mode"
  },
  {
   "property": "C73",
   "status": "proved",
   "theorems": [
    "Mty.C73_json",
    "Mty.C73_syntax",
    "Mty.C73_unique",
    "Mty.C73_recover"
   ],
   "note": "file names are strings (for a path that is not UTF-8 serde fails and the reporter panics); the output of serde_json is modelled from its documentation"
  },
  {
   "property": "C74",
   "status": "proved",
   "theorems": [
    "Mty.C74_ranges",
    "Mty.C74_inference",
    "Mty.C74_valid",
    "Mty.C74_written"
   ],
   "note": "ranges read are those of the built document and valid; the written text depends on their characters only"
  },
  {
   "property": "C75",
   "status": "proved",
   "theorems": [
    "Mty.C75_writer",
    "Mty.C75_string",
    "Mty.C75_limited"
   ],
   "note": "Model/Sink.lean transcribes output and convert_to over an arbitrary fmt::Write; write!(..) makes one call per literal piece and argument (core::fmt); a panicking writer is not modelled."
  },
  {
   "property": "C76",
   "status": "proved",
   "theorems": [
    "Mty.C76_parts",
    "Mty.C76_all",
    "Mty.C76_fences_needed",
    "Mty.C76_braces_needed",
    "Mty.C76_visible_needed",
    "Mty.C76_closed_needed"
   ],
   "note": "C76_parts, for all pairs of sources the reference parser accepts; the C76_*_needed theorems show what happens without the conditions."
  },
  {
   "property": "C77",
   "status": "proved",
   "theorems": [
    "Mty.C77_errors",
    "Mty.C77_all",
    "Mty.C77_closed_needed"
   ],
   "note": "reported errors of texts separated by blank lines, two and any number; fail-fast: the first error; C77_closed_needed: unclosed delimiters"
  },
  {
   "property": "C78",
   "status": "proved",
   "theorems": [
    "Mty.C78_before",
    "Mty.C78_around"
   ],
   "note": "C78_before has no condition on the source; C78_around (white space after the source) for sources that close what they open, without a complete page and metadata"
  },
  {
   "property": "C79",
   "status": "proved",
   "theorems": [
    "Mty.C79_block",
    "Mty.C79_errors"
   ],
   "note": "C79_block: output, for blocks whose content is in section context; C79_errors: errors, for any element."
  },
  {
   "property": "C80",
   "status": "proved",
   "theorems": [
    "Mty.C80_accepted",
    "Mty.C80_errors",
    "Mty.C80_guarded"
   ],
   "note": "For the reference parser (ordered choice) of the model, any test for letters and digits, and any parser that agrees with it."
  },
  {
   "property": "C81",
   "status": "partial",
   "theorems": [
    "Mty.C81_order_partial",
    "Mty.C81_twice",
    "Mty.C81_unordered"
   ],
   "note": "Proved for all errors other than those about misplaced items. The code reports the latter after the others of their line, and twice in an inline element (C81_twice, C81_unordered), so the full statement is false."
  },
  {
   "property": "C82",
   "status": "proved",
   "theorems": [
    "Mty.C82_linear",
    "Mty.C82_indented"
   ],
   "note": "For configurations without metadata: metadata writes positions, so its size has a logarithmic factor. The factor K is not given as a number."
  },
  {
   "property": "C83",
   "status": "proved",
   "theorems": [
    "Mty.C83_view"
   ],
   "note": "the browser's parser of markup is a parameter"
  },
  {
   "property": "C84",
   "status": "partial",
   "theorems": [
    "Mty.C84_link_partial",
    "Mty.C84_later_partial",
    "Mty.C84_on_load",
    "Mty.C84_other_ids"
   ],
   "note": "the page removes the fragment of its address on load (C84_on_load), and ids that are percent-encoded in addresses are not found (C84_other_ids)"
  },
  {
   "property": "C85",
   "status": "proved",
   "theorems": [
    "Mty.C85_pane"
   ],
   "note": ""
  },
  {
   "property": "C86",
   "status": "partial",
   "theorems": [
    "Mty.C86_accepted",
    "Mty.C86_output_partial",
    "Mty.C86_code_block",
    "Mty.C86_attribute_value"
   ],
   "note": "Proved for all sources without texts that go over the end of a line and without a backslash at the end of a line. False for code blocks, block verbatim texts and quoted values that go over the end of a line, which keep the carriage return (C86_code_block, C86_attribute_value)."
  },
  {
   "property": "C87",
   "status": "partial",
   "theorems": [
    "Mty.C87_accepted",
    "Mty.C87_output_partial",
    "Mty.C87_attribute_value",
    "Mty.C87_code_block"
   ],
   "note": "proved for sources in which no text, comment, name or value goes over the end of a line and no line ends in a backslash (acceptance by the grammar: for all sources without a backslash at the end of a line); false for values of attributes over several lines"
  },
  {
   "property": "C88",
   "status": "partial",
   "theorems": [
    "Mty.C88_indented_partial",
    "Mty.C88_attribute_value",
    "Mty.C88_less_indented"
   ],
   "note": "proved for sources in which no text other than a block of text goes over the end of a line, the lines of blocks are indented at least like the closing delimiter and their last line is not empty, and no line ends in a backslash; false for values of attributes over several lines and for less indented lines of blocks"
  },
  {
   "property": "C89",
   "status": "partial",
   "theorems": [
    "Mty.C89_names_partial",
    "Mty.C89_comment_first",
    "Mty.C89_line_break_last"
   ],
   "note": "Proved for all documents in which comments and white space do not take the first place of details, fieldset or html from an element, nor the last place of picture. False otherwise: C89_comment_first, C89_line_break_last."
  },
  {
   "property": "C90",
   "status": "proved",
   "theorems": [
    "Mty.C90_same",
    "Mty.C90_errors",
    "Mty.C90_between",
    "Mty.C90_one_needed"
   ],
   "note": "Sources are compared by their syntax trees with single blank lines (C90_same, C90_errors); C90_between is about the text of the sources, with the reference parser."
  },
  {
   "property": "C91",
   "status": "proved",
   "theorems": [
    "Mty.C91_last",
    "Mty.C91_order",
    "Mty.C91_own",
    "Mty.C91_all",
    "Mty.C91_metadata"
   ],
   "note": ""
  },
  {
   "property": "C92",
   "status": "proved",
   "theorems": [
    "Mty.C92_around",
    "Mty.C92_document",
    "Mty.C92_kept"
   ],
   "note": "for the documents before and after inference; C92_document for the written document with any language and any metadata except metadata elements"
  },
  {
   "property": "C93",
   "status": "partial",
   "theorems": [
    "Mty.C93_converts_partial",
    "Mty.C93_errors_partial",
    "Mty.C93_page",
    "Mty.C93_special",
    "Mty.C93_metadata_elements",
    "Mty.C93_language"
   ],
   "note": "proved for configurations that agree in special tags and page completion, without metadata elements and with a language whose escapes are valid; false otherwise (C93_page, C93_special, C93_metadata_elements, C93_language)"
  },
  {
   "property": "C94",
   "status": "proved",
   "theorems": [
    "Mty.C94_success",
    "Mty.C94_alike",
    "Mty.C94_void",
    "Mty.C94_raw"
   ],
   "note": "for sources without interpolations, raw texts, script and style, and with names usable in markup; C94_void and C94_raw show why these are excepted"
  },
  {
   "property": "C95",
   "status": "partial",
   "theorems": [
    "Mty.C95_unused_partial",
    "Mty.C95_source_partial",
    "Mty.C95_none",
    "Mty.C95_code_block"
   ],
   "note": "Proved for every parser, source and configuration, for convert, convert_forgiving and convert_to, also for sources with errors, in terms of the tree and of the marks in the source. The code takes the tag of emphasis for the container of code blocks, so for sources with code blocks the emphasis must be the same too; C95_code_block is the witness."
  }
 ]
}