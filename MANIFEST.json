{
 "claims": [
  {
   "property": "C01",
   "status": "proved",
   "theorems": [
    "CM.C01_parse_terminates"
   ],
   "note": "Every loop of the model carries a budget whose exhaustion is the result hang; it is unreachable for every text, option and parser state."
  },
  {
   "property": "C02",
   "status": "partial",
   "theorems": [
    "CM.C02_no_other_exception_partial",
    "CM.C02_no_semicolon_partial",
    "CM.C02_no_ampersand_partial",
    "CM.C02_counterexample"
   ],
   "note": "IndexError is the only possible exception and only if a line ends with a numeric reference to a control character or non-character; violated there (counterexample proved)."
  },
  {
   "property": "C03",
   "status": "proved",
   "theorems": [
    "CM.C03_containment"
   ],
   "note": "For every text."
  },
  {
   "property": "C04",
   "status": "proved",
   "theorems": [
    "CM.C04_all_closed"
   ],
   "note": "For every text and parser state."
  },
  {
   "property": "C05",
   "status": "proved",
   "theorems": [
    "CM.C05_levels_and_numbers"
   ],
   "note": "For every text."
  },
  {
   "property": "C06",
   "status": "proved",
   "theorems": [
    "CM.C06_no_nul",
    "CM.C06_html"
   ],
   "note": "All strings of all nodes, and the HTML rendering with any options whose softbreak text has no NUL."
  },
  {
   "property": "C07",
   "status": "partial",
   "theorems": [
    "CM.C07_nested",
    "CM.C07_raw_html_counterexample",
    "CM.C07_parsed_safe",
    "CM.C07_parsed_no_raw"
   ],
   "note": "For the safe-mode HTML of every text, for parsed documents without raw HTML, and for every tree without custom nodes; raw HTML without safe mode violates it (counterexample proved)."
  },
  {
   "property": "C08",
   "status": "proved",
   "theorems": [
    "CM.C08_allowed",
    "CM.C08_parsed_safe"
   ],
   "note": "For the safe-mode HTML of every text, and for every tree without custom nodes."
  },
  {
   "property": "C09",
   "status": "partial",
   "theorems": [
    "CM.C09_urls",
    "CM.C09_potentiallyUnsafe",
    "CM.C09_dangerous_dropped",
    "CM.C09_kept",
    "CM.C09_overblocking_counterexample",
    "CM.C09_nonascii_counterexample",
    "CM.C09_parsed_safe"
   ],
   "note": "For the safe-mode HTML of every text: no dangerous URL survives, exact description of what is dropped; the converse is violated (counterexample proved)."
  },
  {
   "property": "C10",
   "status": "proved",
   "theorems": [
    "CM.C10_escapeXml_append",
    "CM.C10_xmlDecode_escapeXml",
    "CM.C10_escapeXml_injective",
    "CM.C10_escapeXml_no_special",
    "CM.C10_escapeXml_amp",
    "CM.C10_escapeXml_eq_self_iff",
    "CM.C10_escapeXml_none"
   ],
   "note": "All clauses for every text."
  },
  {
   "property": "C11",
   "status": "proved",
   "theorems": [
    "CM.C11_normalizeUri_alphabet",
    "CM.C11_normalizeUri_no_special"
   ],
   "note": "Alphabet listed in Spec.uriAlphabet."
  },
  {
   "property": "C12",
   "status": "proved",
   "theorems": [
    "CM.C12_normalizeUri_eq_self_iff",
    "CM.C12_normalizeUri_idempotent"
   ],
   "note": "Idempotence, and an exact description of the fixed points."
  },
  {
   "property": "C13",
   "status": "proved",
   "theorems": [
    "CM.C13_percentDecode_normalizeUri",
    "CM.C13_percentDecode_no_percent",
    "CM.C13_normalizeUri_injective",
    "CM.C13_not_injective_with_percent"
   ],
   "note": "For all texts up to percent-decoding; bytes and injectivity for texts without %."
  },
  {
   "property": "C14",
   "status": "partial",
   "theorems": [
    "CM.C14_lines_terminated",
    "CM.C14_lines_unterminated",
    "CM.C14_crlf",
    "CM.C14_cr_partial",
    "CM.C14_final_cr_counterexample"
   ],
   "note": "CRLF proved for every text and parser state; bare CR proved unless the text ends with it, where the code disagrees (counterexample proved)."
  },
  {
   "property": "C15",
   "status": "proved",
   "theorems": [
    "CM.C15_final_newline"
   ],
   "note": "For every text and parser state."
  },
  {
   "property": "C16",
   "status": "proved",
   "theorems": [
    "CM.C16_reuse",
    "CM.C16_second_parse"
   ],
   "note": "For every pair of parser states."
  },
  {
   "property": "C17",
   "status": "partial",
   "theorems": [
    "CM.C17_reuse",
    "CM.C17_defaults",
    "CM.C17_separate",
    "CM.C17_given_options",
    "CM.C17_shared_default_counterexample"
   ],
   "note": "Reuse after any history of successful renderings, and independence of the default options from every other dictionary; writing to a default-constructed renderer violates it (counterexample proved)."
  },
  {
   "property": "C18",
   "status": "proved",
   "theorems": [
    "CM.C18_walker",
    "CM.C18_once",
    "CM.C18_each",
    "CM.C18_events"
   ],
   "note": "For every linked heap and every finite tree in it: event sequence, multiplicities, and what renderers see along the walk."
  },
  {
   "property": "C19",
   "status": "proved",
   "theorems": [
    "CM.C19_append",
    "CM.C19_prepend",
    "CM.C19_unlink",
    "CM.C19_insert_after",
    "CM.C19_insert_before",
    "CM.C19_history",
    "CM.C19_unique",
    "CM.C19_insert_after_orphan",
    "CM.C19_insert_after_self"
   ],
   "note": "Each operation and every history of legal calls from new nodes; the illegal calls (parentless or same node) are shown to raise or to break the links."
  },
  {
   "property": "C20",
   "status": "proved",
   "theorems": [
    "CM.C20_normalize",
    "CM.C20_effect",
    "CM.C20_idempotent"
   ],
   "note": "Termination, the exact result, absence of adjacent text nodes, preservation of text and idempotence, for every tree whose text nodes have a literal."
  },
  {
   "property": "C21",
   "status": "proved",
   "theorems": [
    "CM.C21_first_definition_wins"
   ],
   "note": "Bindings after any prefix of the lines persist to the end of the block phase; C23 shows that references use that final map."
  },
  {
   "property": "C22",
   "status": "proved",
   "theorems": [
    "CM.C22_key",
    "CM.C22_key_exists",
    "CM.C22_iff",
    "CM.C22_idempotent",
    "CM.C22_ascii_case",
    "CM.C22_table"
   ],
   "note": "The key of every label against a declarative description of trimming, collapsing and folding; idempotence; the folding table is checked against the raw table of the source."
  },
  {
   "property": "C23",
   "status": "proved",
   "theorems": [
    "CM.C23_whole_document"
   ],
   "note": "Every paragraph and heading is read with the final map."
  },
  {
   "property": "C24",
   "status": "proved",
   "theorems": [
    "CM.C24_escapes_inverted",
    "CM.C24_all_escaped",
    "CM.C24_plain",
    "CM.C24_other_backslash"
   ],
   "note": "For every text and every choice of escaped punctuation."
  },
  {
   "property": "C25",
   "status": "proved",
   "theorems": [
    "CM.C25_escaped_line",
    "CM.C25_escaped_nodes"
   ],
   "note": "Every single line (U+0000 is read as U+FFFD): HTML and nodes."
  },
  {
   "property": "C26",
   "status": "partial",
   "theorems": [
    "CM.C26_in_text_partial",
    "CM.C26_numeric_partial",
    "CM.C26_no_character",
    "CM.C26_refused_vanish",
    "CM.C26_windows1252",
    "CM.C26_known_name",
    "CM.C26_unknown_name_partial",
    "CM.C26_counterexample"
   ],
   "note": "unescape_string, and references in a paragraph, on every numeric reference, every known name and every name with no known prefix; a name with a known legacy prefix and code points refused by HTML violate it (counterexamples proved)."
  },
  {
   "property": "C27",
   "status": "proved",
   "theorems": [
    "CM.C27_code_span",
    "CM.C27_unmatched"
   ],
   "note": "In a paragraph, after ordinary characters and before any text that Spec.Reads describes; C52 has the other positions."
  },
  {
   "property": "C28",
   "status": "proved",
   "theorems": [
    "CM.C28_conserves"
   ],
   "note": "For every delimiter stack and sibling list that fit together (StackFor). That the pairs are from runs that may open and close, and that nothing else changes, is also part of C53 for whole documents."
  },
  {
   "property": "C29",
   "status": "partial",
   "theorems": [
    "CM.C29_links_partial",
    "CM.C29_no_angle_partial",
    "CM.C29_counterexample"
   ],
   "note": "The literal claim is false (autolink in link text, C29_counterexample). Proved: links in links are made from autolinks; without < in the text there are none."
  },
  {
   "property": "C30",
   "status": "partial",
   "theorems": [
    "CM.C30_counterexample",
    "CM.C30_nothing_skipped_partial"
   ],
   "note": "False as stated (C30_counterexample: position not rewound after a failed inline link). Proved for paragraphs and headings without ]( ; what can be skipped otherwise is Spec.Skipped in C53."
  },
  {
   "property": "C31",
   "status": "partial",
   "theorems": [
    "CM.C31_titles_partial",
    "CM.C31_counterexample",
    "CM.C31_counterexample_empty"
   ],
   "note": "False as stated: a title candidate that begins the next line and does not end it is kept as the title (C31_counterexample), and if it is empty there is no definition (C31_counterexample_empty). Proved: every other title of a definition is as the specification says, for all texts."
  },
  {
   "property": "C32",
   "status": "proved",
   "theorems": [
    "CM.C32_closed",
    "CM.C32_unclosed",
    "CM.C32_html",
    "CM.C32_html_class"
   ],
   "note": "Texts that consist of one fenced code block at the left margin, closed or not: tree, positions and HTML, for every list of lines. Fences inside containers are not covered."
  },
  {
   "property": "C33",
   "status": "proved",
   "theorems": [
    "CM.C33_literal",
    "CM.C33_html"
   ],
   "note": "Texts that consist of one indented code block, with empty lines inside it: tree, positions and HTML."
  },
  {
   "property": "C34",
   "status": "proved",
   "theorems": [
    "CM.C34_thematic_break",
    "CM.C34_atx_heading",
    "CM.C34_setext_underline",
    "CM.C34_code_fence",
    "CM.C34_code_fence_run",
    "CM.C34_closing_fence",
    "CM.C34_document",
    "CM.C34_document_raw"
   ],
   "note": "Each classifier against a declarative description of the line, for every line; and in every document the text at the first position of each block is of that kind (C34_document; C34_document_raw for HTML blocks and indented code)."
  },
  {
   "property": "C35",
   "status": "proved",
   "theorems": [
    "CM.C35_find",
    "CM.C35_advance_columns",
    "CM.C35_advance_characters",
    "CM.C35_matching",
    "CM.C35_starting",
    "CM.C35_line_start",
    "CM.C35_added_text"
   ],
   "note": "Search, both ways of advancing, the whole analysis of a line with any open blocks, and the width of the text that is added."
  },
  {
   "property": "C36",
   "status": "proved",
   "theorems": [
    "CM.C36_smartDashes",
    "CM.C36_rule_unique",
    "CM.C36_parseString"
   ],
   "note": "The rule for every run length, its uniqueness, and the text node made from any stretch of ordinary text."
  },
  {
   "property": "C37",
   "status": "proved",
   "theorems": [
    "CM.C37_scanDelims",
    "CM.C37_ascii_punctuation"
   ],
   "note": "For every run and its neighbours; the punctuation class is checked against the specification on ASCII (astral punctuation is not recognised by the code)."
  },
  {
   "property": "C38",
   "status": "proved",
   "theorems": [
    "CM.C38_flatten",
    "CM.C38_toplevel"
   ],
   "note": "Never fails on any tree; flattened and top-level sequences are exactly the walk."
  },
  {
   "property": "C39",
   "status": "partial",
   "theorems": [
    "CM.C39_counterexample",
    "CM.C39_headings_partial",
    "CM.C39_otherwise_raises",
    "CM.C39_no_headings"
   ],
   "note": "Exactly the documents whose headings all begin with text, code or raw HTML are rendered, with the indentation restored; the others raise (counterexamples proved)."
  },
  {
   "property": "C40",
   "status": "proved",
   "theorems": [
    "CM.C40_positions"
   ],
   "note": "Lines of all blocks.  Columns: only that the first column is at least 1; end columns can be those of the previous line (DESIGN.md)."
  },
  {
   "property": "C41",
   "status": "proved",
   "theorems": [
    "CM.C41_tight",
    "CM.C41_loose"
   ],
   "note": "For every paragraph in every position of any tree."
  },
  {
   "property": "C42",
   "status": "proved",
   "theorems": [
    "CM.C42_html",
    "CM.C42_rst",
    "CM.C42_json",
    "CM.C42_ast",
    "CM.C42_unknown_format",
    "CM.C42_formats",
    "CM.C42_cmark",
    "CM.C42_cmark_ast",
    "CM.C42_cmark_json"
   ],
   "note": "All four formats, rejection of others, and the command line tool (texts not ending in bare CR)."
  },
  {
   "property": "C43",
   "status": "proved",
   "theorems": [
    "CM.C43_concat",
    "CM.C43_append",
    "CM.C43_parsed"
   ],
   "note": "For every document whose children are of block kind (every parsed document: C03), including failure behaviour."
  },
  {
   "property": "C44",
   "status": "proved",
   "theorems": [
    "CM.C44_plain_lines",
    "CM.C44_no_punctuation"
   ],
   "note": "Any number of lines of ordinary characters that start no block; single lines without ASCII punctuation without further condition."
  },
  {
   "property": "C45",
   "status": "partial",
   "theorems": [
    "CM.C45_counterexample_definition",
    "CM.C45_counterexample_space",
    "CM.C45_blank_partial",
    "CM.C45_nonempty_partial"
   ],
   "note": "False as stated (two counterexamples). Proved: a paragraph without inlines has only white space as text; none in texts without [ and without white space other than space, tab and line endings."
  },
  {
   "property": "C46",
   "status": "partial",
   "theorems": [
    "CM.C46_ascii_digits_partial",
    "CM.C46_counterexample"
   ],
   "note": "For every text whose only decimal digits are 0-9, every list and item of the document stands on such a marker, and its number is the value of the digits; violated for other Unicode digits (counterexample proved)."
  },
  {
   "property": "C47",
   "status": "proved",
   "theorems": [
    "CM.C47_items_agree"
   ],
   "note": "For every text."
  },
  {
   "property": "C48",
   "status": "proved",
   "theorems": [
    "CM.C48_noninterference"
   ],
   "note": "For any two trees that agree after forgetting the text of raw HTML nodes."
  },
  {
   "property": "C49",
   "status": "proved",
   "theorems": [
    "CM.C49_uri",
    "CM.C49_email"
   ],
   "note": "In a paragraph, after ordinary characters and before any text that Spec.Reads describes; C52 has the other positions."
  },
  {
   "property": "C50",
   "status": "proved",
   "theorems": [
    "CM.C50_quote",
    "CM.C50_quote_error",
    "CM.C50_html"
   ],
   "note": "A simulation between the two block phases: the open blocks of one parser are those of the other with the quote in place of the document, the cursor is shifted by the marker. Columns of source positions are left out of the comparison (they differ by the width of the marker); lines are compared. Lines with tabs need a marker of width 4, because the width of a tab depends on its column; an example shows that the claim is false without this."
  },
  {
   "property": "C51",
   "status": "proved",
   "theorems": [
    "CM.C51_render_total"
   ],
   "note": "For every text and all options."
  },
  {
   "property": "C52",
   "status": "proved",
   "theorems": [
    "CM.C52_reads",
    "CM.C52_html"
   ],
   "note": "The relation Spec.Reads describes the text without reference to how it is parsed. Smart mode, emphasis, bracketed links and raw HTML are outside it."
  },
  {
   "property": "C53",
   "status": "proved",
   "theorems": [
    "CM.C53_source",
    "CM.C53_source_parse",
    "CM.C53_nonempty"
   ],
   "note": "Spec.Source describes the nodes without reference to how they are found. It does not say that delimiters and brackets left as text could not have been used (see C28, C52), nor the direction of smart quotation marks."
  },
  {
   "property": "C54",
   "status": "proved",
   "theorems": [
    "CM.C54_from_text",
    "CM.C54_links",
    "CM.C54_none_left",
    "CM.C54_defined"
   ],
   "note": "Definitions are described by Spec.Definition without reference to the parser; Definition false has the one exception of C31. C54_defined is about lines that form one paragraph at the beginning of a line (StartsNoBlock); C54_none_left covers all paragraphs."
  },
  {
   "property": "C55",
   "status": "proved",
   "theorems": [
    "CM.C55_concat",
    "CM.C55_concat_error",
    "CM.C55_html"
   ],
   "note": "The same simulation as for C50, started in the state after the empty line: that line closes the blocks of the first text as the end of the text would. Flags lastLineBlank of top-level nodes of the first text and columns of the second are left out of the comparison. Examples show that the conditions on the last block and on definitions are needed."
  },
  {
   "property": "C56",
   "status": "proved",
   "theorems": [
    "CM.C56_item",
    "CM.C56_item_error",
    "CM.C56_html",
    "CM.C56_html_paragraph"
   ],
   "note": "The simulation of C50 with the list and item in place of the document. The remaining differences are columns and the lastLineChecked mark of the tightness check. Examples show that the conditions on the first line and on lines of spaces are needed."
  },
  {
   "property": "C57",
   "status": "proved",
   "theorems": [
    "CM.C57_document",
    "CM.C57_blank_lines",
    "CM.C57_bullets"
   ],
   "note": "Spec.Doc is a grammar of lines with the HTML of every block; it does not mention the parser. Setext headings, info strings and the seven kinds of HTML blocks are in it. Outside it: reference definitions, lazy continuation lines, leading empty lines, empty items, smart mode. Follows says which block can come after which; conditions are those under which the specification begins a new block."
  },
  {
   "property": "C58",
   "status": "proved",
   "theorems": [
    "CM.C58_nodes",
    "CM.C58_html",
    "CM.C58_references",
    "CM.C58_document",
    "CM.C58_nested_emphasis"
   ],
   "note": "Spec.Phrase is a grammar of inline text with its content; it does not mention the parser. Outside it: runs of delimiters that are split between several emphases, brackets that are not paired, and with smart punctuation single quotation marks that stand alone or in one another. Raw HTML, autolinks and plain less-than signs are told apart exactly (a less-than sign is text if and only if no autolink or raw HTML starts there; an autolink wins over raw HTML). C58_document puts such text into the documents of C57; C58_references lets the links refer to definitions before the text."
  },
  {
   "property": "C59",
   "status": "proved",
   "theorems": [
    "CM.C59_first_block",
    "CM.C59_otherwise_paragraph",
    "CM.C59_blank_document",
    "CM.C59_html_block_iff"
   ],
   "note": "Spec.Starts is put together from the line kinds of the specification. The conditions leave out only lines that begin with a link reference definition, where the first block is that of a later line. HtmlOpen lists the tag names of the code, which knows h1 but not h2 to h6 (see DESIGN.md)."
  },
  {
   "property": "C60",
   "status": "partial",
   "theorems": [
    "CM.C60_smart_changes_structure",
    "CM.C60_smart_only_text_partial",
    "CM.C60_smart_html_partial"
   ],
   "note": "The literal claim is false: a quotation mark walked over in the search for an opener resets odd_match (C60_smart_changes_structure). Proved for texts without quotation marks, with only single * and _, and where no run of * or _ can both open and close (OneSidedMarks, almost all prose). The relation allows each change of punctuation but does not force it; C11, C12 and C53 say what becomes of dashes, dots and quotation marks."
  },
  {
   "property": "C61",
   "status": "proved",
   "theorems": [
    "CM.C61_html_is_tree",
    "CM.C61_parsed",
    "CM.C61_but_newlines"
   ],
   "note": "Spec.htmlPieces is a recursive function on the tree, without walker, buffer or state; Spec.Written says where newlines may stand. Which addresses safe mode leaves out is given by potentially_unsafe, whose meaning is C09."
  },
  {
   "property": "C62",
   "status": "proved",
   "theorems": [
    "CM.C62_json_text",
    "CM.C62_json_entries",
    "CM.C62_values"
   ],
   "note": "Spec.readJson is a reader of JSON written for this purpose (natural numbers only). json.dumps is modelled (Model/Dump.lean), so the theorem is also about that model of the standard library."
  },
  {
   "property": "C63",
   "status": "proved",
   "theorems": [
    "CM.C63_lazy",
    "CM.C63_error",
    "CM.C63_html"
   ],
   "note": "Columns of source positions are not compared. The text of the line must start no block both in a paragraph and outside of one; lines that start a block in one place only are shown by an example."
  },
  {
   "property": "C64",
   "status": "proved",
   "theorems": [
    "CM.C64_spaces",
    "CM.C64_spaces_html",
    "CM.C64_number",
    "CM.C64_number_html",
    "CM.C64_leading",
    "CM.C64_leading_html",
    "CM.C64_trailing",
    "CM.C64_trailing_html"
   ],
   "note": "Columns of source positions are not compared. C64_trailing compares up to book-keeping (source positions, marks of blank lines). Examples show that the conditions on the last block are needed; the one on empty items holds of the code because an item that starts with a blank line ends at the next one."
  },
  {
   "property": "C65",
   "status": "proved",
   "theorems": [
    "CM.C65_rst_is_tree",
    "CM.C65_parsed",
    "CM.C65_flat"
   ],
   "note": "Spec.rstPieces is a recursive function on the tree and Spec.layout puts the indentations in; neither mentions the walker or the state of the renderer. Text is written as it is: the renderer does not escape characters that reStructuredText gives a meaning."
  },
  {
   "property": "C66",
   "status": "partial",
   "theorems": [
    "CM.C66_counterexample",
    "CM.C66_paragraphs_partial",
    "CM.C66_code_partial",
    "CM.C66_heading_partial"
   ],
   "note": "The literal claim is false (C66_counterexample): the paragraphs of a list item are written without anything between them (- a, blank line, b has the same output as - ab), only the first line of a code block gets the indentation of the containers, and the underline of a heading is as long as the first inline of the title. Proved for paragraphs and code blocks at the top of the document and for headings whose title is one text."
  },
  {
   "property": "C67",
   "status": "proved",
   "theorems": [
    "CM.C67_tabs",
    "CM.C67_tabs_html",
    "CM.C67_document",
    "CM.C67_document_html"
   ],
   "note": "Columns of source positions are not compared. The line must not belong to a code block or an HTML block, there is more than white space after a list marker, and if markers follow the white space it must not be so wide that it begins indented code; examples show that tabs in text and code are kept."
  },
  {
   "property": "C68",
   "status": "proved",
   "theorems": [
    "CM.C68_nodes",
    "CM.C68_depth",
    "CM.C68_events",
    "CM.C68_inlines"
   ],
   "note": "Examples show that n + 2 is reached, by one letter and by markers that nest at every character. The length of the texts in the nodes is not bounded here: a destination of a definition is copied to every link that uses it."
  },
  {
   "property": "C69",
   "status": "proved",
   "theorems": [
    "CM.C69_line",
    "CM.C69_line_html",
    "CM.C69_document",
    "CM.C69_document_html"
   ],
   "note": "Includes the other ways to write white space of C67. A thematic break of - without spaces between them may be written otherwise only in the first line or after a blank line; an example shows that after a line with reference definitions only, it leaves an empty paragraph (the defect of C45). Columns of source positions are not compared. Titles with white space at their end and no closing sequence are left out, because the tree keeps this white space."
  },
  {
   "property": "C70",
   "status": "partial",
   "theorems": [
    "CM.C70_html",
    "CM.C70_success",
    "CM.C70_rst_history",
    "CM.C70_rst_partial",
    "CM.C70_counterexample"
   ],
   "note": "False for reStructuredText: a heading that cannot be written (C39) in a block quote, list item or image raises and leaves the indentation of its place behind (C70_counterexample; B26). C70_rst_history says exactly what remains after any series of parsed documents, and C70_rst_partial that nothing remains if those headings are not indented. Proved in full for HTML and parsed documents (C70_html), and for all trees after calls that did not raise (C70_success)."
  },
  {
   "property": "C71",
   "status": "partial",
   "theorems": [
    "CM.C71_starts",
    "CM.C71_ends_partial",
    "CM.C71_counterexample"
   ],
   "note": "False for fenced code blocks and HTML blocks of kinds 1 to 5 that their end mark closes: the last column is then the length of the line before the last (C71_counterexample; B27). C71_ends_partial proves it for all other blocks, and that there is no other way to be wrong; C71_starts is proved in full."
  },
  {
   "property": "C72",
   "status": "proved",
   "theorems": [
    "CM.C72_document_before",
    "CM.C72_document_after",
    "CM.C72_refs",
    "CM.C72_first",
    "CM.C72_second",
    "CM.C72_swap",
    "CM.C72_swap_html",
    "CM.C72_definitions",
    "CM.C72_twice"
   ],
   "note": "As in C55, the text before the empty line must end with a block that an empty line ends. Blocks are compared without positions (for those see C55). C72_document_before and C72_document_after are about documents of the grammar of C57 and C58, with definitions."
  },
  {
   "property": "C73",
   "status": "proved",
   "theorems": [
    "CM.C73_written",
    "CM.C73_paragraph"
   ],
   "note": "The writer and the HTML of a document are in Spec/Write.lean; the conditions are WordOk, ParaOk and BlockOk: emphasis begins and ends with a character that is not punctuation, a paragraph does not begin with a link (code in its text could make it a link reference definition), nor does any of its lines, the name of a language has no backtick, backslash or ampersand, a block of raw HTML begins in one of the seven ways of the specification and ends with the first line that ends it (Spec.RawOk), lists in items of tight lists have bullets or begin with 1, and source positions are not asked for. With smart punctuation too: the writer escapes all ASCII punctuation."
  },
  {
   "property": "C74",
   "status": "proved",
   "theorems": [
    "CM.C74_text",
    "CM.C74_document",
    "CM.C74_nested",
    "CM.C74_closed"
   ],
   "note": "C74_text is for one line of ordinary characters and quotation marks, with the rule as a function of the text (Spec.curlyText); C74_document for any document of Spec.Doc whose texts are of the grammar Spec.Prose (code spans, autolinks, raw HTML, escapes, references and line breaks too; no emphasis, links or images: for these see C58, where single marks are paired if they stand around a text without other single marks). C74_nested: single quotation marks do not nest (B28). C74_closed: an opening single mark has a closing one after it."
  },
  {
   "property": "C75",
   "status": "proved",
   "theorems": [
    "CM.C75_text",
    "CM.C75_document",
    "CM.C75_definitions",
    "CM.C75_threes",
    "CM.C75_unclosed"
   ],
   "note": "C75_text is for one line of ordinary characters, * and _, with everything computed from the text (Spec.chunksOf, Spec.emphasised); C75_document for any document of Spec.Doc whose texts are of the grammar Spec.Chunks: runs, anything of the grammar Spec.Phrase between them, and links, images and other brackets with any runs in their text; C75_definitions for such documents after reference definitions. The condition (Spec.NoThrees, or Spec.OneKind: runs of one character that can open or close, for which the rule about multiples of three is part of the procedure) is needed: C75_threes has texts for which the lower bound for the search is set although an opener is left that only the rule about multiples of three kept from matching (B22). C75_unclosed: without closers all runs are text."
  },
  {
   "property": "C76",
   "status": "proved",
   "theorems": [
    "CM.C76_shows",
    "CM.C76_kinds",
    "CM.C76_literal",
    "CM.C76_level",
    "CM.C76_nesting"
   ],
   "note": "C76_shows is the equivalence; C76_kinds gives the lines with the kinds of the nodes in order, C76_literal the lines with texts. What a user might expect and does not hold: the level of headings (C76_level: #  a and ## a) and the nesting (C76_nesting) are not shown. A print call is one line of the model, so a text with line endings is one line here."
  },
  {
   "property": "C77",
   "status": "proved",
   "theorems": [
    "CM.C77_positions",
    "CM.C77_parsed",
    "CM.C77_none"
   ],
   "note": "C77_positions is for all trees, C77_parsed for all texts, C77_none: without positions the option has no effect. Spec.posTags lists the tags by recursion on the tree."
  },
  {
   "property": "C78",
   "status": "proved",
   "theorems": [
    "CM.C78_safe",
    "CM.C78_parsed",
    "CM.C78_same"
   ],
   "note": "C78_safe is for trees (no raw HTML in a line is a single newline: then the newline that follows would be left out), C78_parsed for all texts, C78_same for texts with nothing to leave out. Spec.treeLeft lists what is left out by recursion on the tree; which addresses are potentially unsafe is given by potentially_unsafe, whose meaning is C09."
  },
  {
   "property": "C79",
   "status": "proved",
   "theorems": [
    "CM.C79_resume",
    "CM.C79_skip",
    "CM.C79_remove",
    "CM.C79_insert_after",
    "CM.C79_insert_before",
    "CM.C79_replace",
    "CM.C79_too_early"
   ],
   "note": "C79_resume, C79_skip and C79_remove; the loop is Spec.sweep. C79_insert_after, C79_insert_before and C79_replace are for one step of the loop and give the tree after it, so they can be used one after the other. That removing at the first event loses events is C79_too_early. As in C18 the tree is given by the lists of children that the pointers describe (Spec.Linked, Spec.TreeOf); C79_remove asks that only nodes of container kinds have children."
  },
  {
   "property": "C80",
   "status": "proved",
   "theorems": [
    "CM.C80_blocks",
    "CM.C80_outline",
    "CM.C80_html"
   ],
   "note": "The flag last_line_blank of the blocks is not compared (Spec.unblank), it says whether an empty line follows. C80_outline has no condition on definitions and compares blocks without the inlines in paragraphs and headings (Spec.blocksOf). Both texts are assumed to be parsed without an exception (see C02)."
  },
  {
   "property": "C81",
   "status": "proved",
   "theorems": [
    "CM.C81_blocks",
    "CM.C81_html",
    "CM.C81_unused_after",
    "CM.C81_unused_before",
    "CM.C81_plain_first",
    "CM.C81_plain_second",
    "CM.C81_stream",
    "CM.C81_stream_html"
   ],
   "note": "C81_blocks and C81_html are for two texts, C81_stream for lines that follow; C81_unused_after and C81_unused_before are for a text that has only definitions after or before another one, C81_plain_first and C81_plain_second for one text without brackets (a condition on its lines alone). Spec.Uses says that a label stands in brackets in a text: some part of it from [ to ], other brackets allowed in between, is normalised to the label; Spec.UsesL looks for it in the content (string_content) of the paragraphs and headings of the tree. The texts are assumed to be parsed without an exception (see C02)."
  },
  {
   "property": "C82",
   "status": "proved",
   "theorems": [
    "CM.C82_parts",
    "CM.C82_exact",
    "CM.C82_custom",
    "CM.C82_custom_text",
    "CM.C82_text",
    "CM.C82_text_exact"
   ],
   "note": "C82_parts and C82_text are for all trees and texts: parts that do not depend on the option, one soft line break after each but the last, Spec.softText what stands for it. C82_exact and C82_text_exact: nothing but the text of the option, if an inline that begins with a text or tag, or a closing tag, follows every soft line break (Spec.SoftInside). The parts of these theorems are not said to be anything in particular, so a constant text around every soft line break would not break them; C82_custom excludes that: the HTML is that of the tree with a custom inline with the text of the option for every soft line break, and C82_custom_text says what such an inline writes in a paragraph. An empty value means a newline to the constructor (html.py:24), so the option is never empty in the renderer; the theorems hold for that value as well."
  }
 ]
}