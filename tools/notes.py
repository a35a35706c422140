note('C10', 'proved', 'All clauses for every text.')
note('C11', 'proved', 'Alphabet listed in Spec.uriAlphabet.')
note('C12', 'proved', 'Idempotence, and an exact description of the fixed points.')
note('C13', 'proved', 'For all texts up to percent-decoding; bytes and injectivity for texts without %.')
note('C14', 'partial', 'CRLF proved for every text and parser state; bare CR proved unless the text ends with it, where the code disagrees (counterexample proved).')
note('C15', 'proved', 'For every text and parser state.')
note('C42', 'proved', 'All four formats, rejection of others, and the command line tool (texts not ending in bare CR).')
note('C36', 'proved', 'The rule for every run length, its uniqueness, and the text node made from any stretch of ordinary text.')
note('C37', 'proved', 'For every run and its neighbours; the punctuation class is checked against the specification on ASCII (astral punctuation is not recognised by the code).')
note('C17', 'partial', 'Reuse after any history of successful renderings, and independence of the default options from every other dictionary; writing to a default-constructed renderer violates it (counterexample proved).')
note('C38', 'proved', 'Never fails on any tree; flattened and top-level sequences are exactly the walk.')
note('C41', 'proved', 'For every paragraph in every position of any tree.')
note('C43', 'proved', 'For every document whose children are of block kind (every parsed document: C03), including failure behaviour.')
note('C48', 'proved', 'For any two trees that agree after forgetting the text of raw HTML nodes.')
note('C07', 'partial', 'For the safe-mode HTML of every text, for parsed documents without raw HTML, and for every tree without custom nodes; raw HTML without safe mode violates it (counterexample proved).')
note('C08', 'proved', 'For the safe-mode HTML of every text, and for every tree without custom nodes.')
note('C09', 'partial', 'For the safe-mode HTML of every text: no dangerous URL survives, exact description of what is dropped; the converse is violated (counterexample proved).')
note('C18', 'proved', 'For every linked heap and every finite tree in it: event sequence, multiplicities, and what renderers see along the walk.')
note('C19', 'proved', 'Each operation and every history of legal calls from new nodes; the illegal calls (parentless or same node) are shown to raise or to break the links.')
note('C20', 'proved', 'Termination, the exact result, absence of adjacent text nodes, preservation of text and idempotence, for every tree whose text nodes have a literal.')
note('C01', 'proved', 'Every loop of the model carries a budget whose exhaustion is the result hang; it is unreachable for every text, option and parser state.')
note('C02', 'partial', 'IndexError is the only possible exception and only if a line ends with a numeric reference to a control character or non-character; violated there (counterexample proved).')
note('C03', 'proved', 'For every text.')
note('C04', 'proved', 'For every text and parser state.')
note('C05', 'proved', 'For every text.')
note('C06', 'proved', 'All strings of all nodes, and the HTML rendering with any options whose softbreak text has no NUL.')
note('C16', 'proved', 'For every pair of parser states.')
note('C21', 'proved', 'Bindings after any prefix of the lines persist to the end of the block phase; C23 shows that references use that final map.')
note('C23', 'proved', 'Every paragraph and heading is read with the final map.')
note('C40', 'proved', 'Lines of all blocks.  Columns: only that the first column is at least 1; end columns can be those of the previous line (DESIGN.md).')
note('C47', 'proved', 'For every text.')
note('C51', 'proved', 'For every text and all options.')
note('C24', 'proved', 'For every text and every choice of escaped punctuation.')
note('C26', 'partial', 'unescape_string, and references in a paragraph, on every numeric reference, every known name and every name with no known prefix; a name with a known legacy prefix and code points refused by HTML violate it (counterexamples proved).')
note('C34', 'proved', 'Each classifier against a declarative description of the line, for every line; and in every document the text at the first position of each block is of that kind (C34_document; C34_document_raw for HTML blocks and indented code).')
note('C35', 'proved', 'Search, both ways of advancing, the whole analysis of a line with any open blocks, and the width of the text that is added.')
note('C32', 'proved', 'Texts that consist of one fenced code block at the left margin, closed or not: tree, positions and HTML, for every list of lines. Fences inside containers are not covered.')
note('C33', 'proved', 'Texts that consist of one indented code block, with empty lines inside it: tree, positions and HTML.')
note('C22', 'proved', 'The key of every label against a declarative description of trimming, collapsing and folding; idempotence; the folding table is checked against the raw table of the source.')
note('C46', 'partial', 'For every text whose only decimal digits are 0-9, every list and item of the document stands on such a marker, and its number is the value of the digits; violated for other Unicode digits (counterexample proved).')
note('C39', 'partial', 'Exactly the documents whose headings all begin with text, code or raw HTML are rendered, with the indentation restored; the others raise (counterexamples proved).')
note('C25', 'proved', 'Every single line (U+0000 is read as U+FFFD): HTML and nodes.')
note('C44', 'proved', 'Any number of lines of ordinary characters that start no block; single lines without ASCII punctuation without further condition.')
note('C27', 'proved', 'In a paragraph, after ordinary characters and before any text that Spec.Reads describes; C52 has the other positions.')
note('C49', 'proved', 'In a paragraph, after ordinary characters and before any text that Spec.Reads describes; C52 has the other positions.')
note('C28', 'proved', 'For every delimiter stack and sibling list that fit together (StackFor). That the pairs are from runs that may open and close, and that nothing else changes, is also part of C53 for whole documents.')
note('C29', 'partial', 'The literal claim is false (autolink in link text, C29_counterexample). Proved: links in links are made from autolinks; without < in the text there are none.')
note('C30', 'partial', 'False as stated (C30_counterexample: position not rewound after a failed inline link). Proved for paragraphs and headings without ]( ; what can be skipped otherwise is Spec.Skipped in C53.')
note('C45', 'partial', 'False as stated (two counterexamples). Proved: a paragraph without inlines has only white space as text; none in texts without [ and without white space other than space, tab and line endings.')
note('C53', 'proved', 'Spec.Source describes the nodes without reference to how they are found. It does not say that delimiters and brackets left as text could not have been used (see C28, C52), nor the direction of smart quotation marks.')
note('C52', 'proved', 'The relation Spec.Reads describes the text without reference to how it is parsed. Smart mode, emphasis, bracketed links and raw HTML are outside it.')
note('C31', 'partial', 'False as stated: a title candidate that begins the next line and does not end it is kept as the title (C31_counterexample), and if it is empty there is no definition (C31_counterexample_empty). Proved: every other title of a definition is as the specification says, for all texts.')
note('C50','proved','A simulation between the two block phases: the open blocks of one parser are those of the other with the quote in place of the document, the cursor is shifted by the marker. Columns of source positions are left out of the comparison (they differ by the width of the marker); lines are compared. Lines with tabs need a marker of width 4, because the width of a tab depends on its column; an example shows that the claim is false without this.')
note('C54', 'proved', 'Definitions are described by Spec.Definition without reference to the parser; Definition false has the one exception of C31. C54_defined is about lines that form one paragraph at the beginning of a line (StartsNoBlock); C54_none_left covers all paragraphs.')
note('C55','proved','The same simulation as for C50, started in the state after the empty line: that line closes the blocks of the first text as the end of the text would. Flags lastLineBlank of top-level nodes of the first text and columns of the second are left out of the comparison. Examples show that the conditions on the last block and on definitions are needed.')
note('C56','proved','The simulation of C50 with the list and item in place of the document. The remaining differences are columns and the lastLineChecked mark of the tightness check. Examples show that the conditions on the first line and on lines of spaces are needed.')
note('C57','proved','Spec.Doc is a grammar of lines with the HTML of every block; it does not mention the parser. Setext headings, info strings and the seven kinds of HTML blocks are in it. Outside it: reference definitions, lazy continuation lines, leading empty lines, empty items, smart mode. Follows says which block can come after which; conditions are those under which the specification begins a new block.')
note('C59','proved','Spec.Starts is put together from the line kinds of the specification. The conditions leave out only lines that begin with a link reference definition, where the first block is that of a later line. HtmlOpen lists the tag names of the code, which knows h1 but not h2 to h6 (see DESIGN.md).')
note('C58','proved','Spec.Phrase is a grammar of inline text with its content; it does not mention the parser. Outside it: runs of delimiters that are split between several emphases, brackets that are not paired, and with smart punctuation single quotation marks that stand alone or in one another. Raw HTML, autolinks and plain less-than signs are told apart exactly (a less-than sign is text if and only if no autolink or raw HTML starts there; an autolink wins over raw HTML). C58_document puts such text into the documents of C57; C58_references lets the links refer to definitions before the text.')
note('C60','partial','The literal claim is false: a quotation mark walked over in the search for an opener resets odd_match (C60_smart_changes_structure). Proved for texts without quotation marks, with only single * and _, and where no run of * or _ can both open and close (OneSidedMarks, almost all prose). The relation allows each change of punctuation but does not force it; C11, C12 and C53 say what becomes of dashes, dots and quotation marks.')
note('C61','proved','Spec.htmlPieces is a recursive function on the tree, without walker, buffer or state; Spec.Written says where newlines may stand. Which addresses safe mode leaves out is given by potentially_unsafe, whose meaning is C09.')
note('C62','proved','Spec.readJson is a reader of JSON written for this purpose (natural numbers only). json.dumps is modelled (Model/Dump.lean), so the theorem is also about that model of the standard library.')
note('C63','proved','Columns of source positions are not compared. The text of the line must start no block both in a paragraph and outside of one; lines that start a block in one place only are shown by an example.')
note('C64','proved','Columns of source positions are not compared. C64_trailing compares up to book-keeping (source positions, marks of blank lines). Examples show that the conditions on the last block are needed; the one on empty items holds of the code because an item that starts with a blank line ends at the next one.')
note('C65','proved','Spec.rstPieces is a recursive function on the tree and Spec.layout puts the indentations in; neither mentions the walker or the state of the renderer. Text is written as it is: the renderer does not escape characters that reStructuredText gives a meaning.')
note('C66','partial','The literal claim is false (C66_counterexample): the paragraphs of a list item are written without anything between them (- a, blank line, b has the same output as - ab), only the first line of a code block gets the indentation of the containers, and the underline of a heading is as long as the first inline of the title. Proved for paragraphs and code blocks at the top of the document and for headings whose title is one text.')
note('C67','proved','Columns of source positions are not compared. The line must not belong to a code block or an HTML block, there is more than white space after a list marker, and if markers follow the white space it must not be so wide that it begins indented code; examples show that tabs in text and code are kept.')
note('C68','proved','Examples show that n + 2 is reached, by one letter and by markers that nest at every character. The length of the texts in the nodes is not bounded here: a destination of a definition is copied to every link that uses it.')
note('C69','proved','Includes the other ways to write white space of C67. A thematic break of - without spaces between them may be written otherwise only in the first line or after a blank line; an example shows that after a line with reference definitions only, it leaves an empty paragraph (the defect of C45). Columns of source positions are not compared. Titles with white space at their end and no closing sequence are left out, because the tree keeps this white space.')
note('C70','partial','False for reStructuredText: a heading that cannot be written (C39) in a block quote, list item or image raises and leaves the indentation of its place behind (C70_counterexample; B26). C70_rst_history says exactly what remains after any series of parsed documents, and C70_rst_partial that nothing remains if those headings are not indented. Proved in full for HTML and parsed documents (C70_html), and for all trees after calls that did not raise (C70_success).')
note('C71','partial','False for fenced code blocks and HTML blocks of kinds 1 to 5 that their end mark closes: the last column is then the length of the line before the last (C71_counterexample; B27). C71_ends_partial proves it for all other blocks, and that there is no other way to be wrong; C71_starts is proved in full.')
note('C72','proved','As in C55, the text before the empty line must end with a block that an empty line ends. Blocks are compared without positions (for those see C55). C72_document_before and C72_document_after are about documents of the grammar of C57 and C58, with definitions.')
note('C73','proved','The writer and the HTML of a document are in Spec/Write.lean; the conditions are WordOk, ParaOk and BlockOk: emphasis begins and ends with a character that is not punctuation, a paragraph does not begin with a link (code in its text could make it a link reference definition), nor does any of its lines, the name of a language has no backtick, backslash or ampersand, a block of raw HTML begins in one of the seven ways of the specification and ends with the first line that ends it (Spec.RawOk), lists in items of tight lists have bullets or begin with 1, and source positions are not asked for. With smart punctuation too: the writer escapes all ASCII punctuation.')
note('C74','proved','C74_text is for one line of ordinary characters and quotation marks, with the rule as a function of the text (Spec.curlyText); C74_document for any document of Spec.Doc whose texts are of the grammar Spec.Prose (code spans, autolinks, raw HTML, escapes, references and line breaks too; no emphasis, links or images: for these see C58, where single marks are paired if they stand around a text without other single marks). C74_nested: single quotation marks do not nest (B28). C74_closed: an opening single mark has a closing one after it.')
note('C75','proved','C75_text is for one line of ordinary characters, * and _, with everything computed from the text (Spec.chunksOf, Spec.emphasised); C75_document for any document of Spec.Doc whose texts are of the grammar Spec.Chunks: runs, anything of the grammar Spec.Phrase between them, and links, images and other brackets with any runs in their text; C75_definitions for such documents after reference definitions. The condition (Spec.NoThrees, or Spec.OneKind: runs of one character that can open or close, for which the rule about multiples of three is part of the procedure) is needed: C75_threes has texts for which the lower bound for the search is set although an opener is left that only the rule about multiples of three kept from matching (B22). C75_unclosed: without closers all runs are text.')
note('C76','proved','C76_shows is the equivalence; C76_kinds gives the lines with the kinds of the nodes in order, C76_literal the lines with texts. What a user might expect and does not hold: the level of headings (C76_level: #  a and ## a) and the nesting (C76_nesting) are not shown. A print call is one line of the model, so a text with line endings is one line here.')
note('C77','proved','C77_positions is for all trees, C77_parsed for all texts, C77_none: without positions the option has no effect. Spec.posTags lists the tags by recursion on the tree.')
note('C78','proved','C78_safe is for trees (no raw HTML in a line is a single newline: then the newline that follows would be left out), C78_parsed for all texts, C78_same for texts with nothing to leave out. Spec.treeLeft lists what is left out by recursion on the tree; which addresses are potentially unsafe is given by potentially_unsafe, whose meaning is C09.')
note('C79','proved','C79_resume, C79_skip and C79_remove; the loop is Spec.sweep. C79_insert_after, C79_insert_before and C79_replace are for one step of the loop and give the tree after it, so they can be used one after the other. That removing at the first event loses events is C79_too_early. As in C18 the tree is given by the lists of children that the pointers describe (Spec.Linked, Spec.TreeOf); C79_remove asks that only nodes of container kinds have children.')
note('C80','proved','The flag last_line_blank of the blocks is not compared (Spec.unblank), it says whether an empty line follows. C80_outline has no condition on definitions and compares blocks without the inlines in paragraphs and headings (Spec.blocksOf). Both texts are assumed to be parsed without an exception (see C02).')
note('C81','proved','C81_blocks and C81_html are for two texts, C81_stream for lines that follow; C81_unused_after and C81_unused_before are for a text that has only definitions after or before another one, C81_plain_first and C81_plain_second for one text without brackets (a condition on its lines alone). Spec.Uses says that a label stands in brackets in a text: some part of it from [ to ], other brackets allowed in between, is normalised to the label; Spec.UsesL looks for it in the content (string_content) of the paragraphs and headings of the tree. The texts are assumed to be parsed without an exception (see C02).')
note('C82','proved','C82_parts and C82_text are for all trees and texts: parts that do not depend on the option, one soft line break after each but the last, Spec.softText what stands for it. C82_exact and C82_text_exact: nothing but the text of the option, if an inline that begins with a text or tag, or a closing tag, follows every soft line break (Spec.SoftInside). The parts of these theorems are not said to be anything in particular, so a constant text around every soft line break would not break them; C82_custom excludes that: the HTML is that of the tree with a custom inline with the text of the option for every soft line break, and C82_custom_text says what such an inline writes in a paragraph. An empty value means a newline to the constructor (html.py:24), so the option is never empty in the renderer; the theorems hold for that value as well.')
