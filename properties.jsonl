{"id": "C01", "title": "Parsing always terminates", "statement": "Parser.parse(text) never loops forever: every loop of the block phase (continuation scan, block-start scan, closing of unmatched blocks, link-reference extraction) and of the inline phase (inline scan, code-span search, delimiter processing) reaches its exit condition.", "quantifier": "every input text and every setting of the 'smart' option", "why_tests_cant": "Tests only observe finitely many inputs; a non-terminating input is by definition not observed by a passing suite.", "anchors": ["commonmark/blocks.py: Parser.parse, incorporate_line, Paragraph.finalize, setext_heading", "commonmark/inlines.py: InlineParser.parseInlines, processEmphasis, parseBackticks"]}
{"id": "C02", "title": "Parsing never raises", "statement": "Parser.parse(text) returns a document for every str; it raises no exception. (The unmodified code violates this: an entity that decodes to the empty string directly before a line ending raises IndexError. What holds: no other exception is possible, and none at all on text in which no line ends with ';'.)", "quantifier": "every input text (Unicode scalar values) and every setting of 'smart'", "why_tests_cant": "The property-based test in the repo samples random text and never generates the crashing family; only a proof covers all texts.", "anchors": ["commonmark/blocks.py: Parser.parse", "commonmark/inlines.py: InlineParser.parseNewline, parseEntity", "commonmark/common.py: HTMLunescape"]}
{"id": "C03", "title": "Block containment is well formed", "statement": "In the document returned by parse: the root is a document; list nodes contain only items and items occur only in lists; every list is non-empty; headings, paragraphs, code blocks, html blocks and thematic breaks contain no block nodes; the document, block quotes and items contain no inline nodes.", "quantifier": "every input text", "why_tests_cant": "The containment relation depends on the whole history of lines; tests check fixed documents only.", "anchors": ["commonmark/blocks.py: Parser.add_child, can_contain, BlockStarts", "commonmark/node.py: Node.append_child"]}
{"id": "C04", "title": "Every block is closed", "statement": "After parse returns, no block node of the document is still marked open and the parser's current-block pointer has been popped past the document.", "quantifier": "every input text", "why_tests_cant": "Depends on every interleaving of block starts, closings and lazy continuations.", "anchors": ["commonmark/blocks.py: Parser.finalize, close_unmatched_blocks, parse"]}
{"id": "C05", "title": "Heading levels and list numbers are in range", "statement": "Every heading in a parsed document has level 1..6; every ordered list has 0 <= start <= 999999999 and delimiter '.' or ')'; every bullet list has bullet '*', '+' or '-' and no start.", "quantifier": "every input text", "why_tests_cant": "Quantifies over all inputs; ranges come from regular expressions applied to arbitrary lines.", "anchors": ["commonmark/blocks.py: parse_list_marker, BlockStarts.atx_heading, setext_heading"]}
{"id": "C06", "title": "NUL never reaches the output", "statement": "U+0000 never occurs in any string of the parsed document nor in the HTML rendering of it, even when the input contains U+0000 or references such as &#0;.", "quantifier": "every input text, every renderer option set whose softbreak string is NUL-free", "why_tests_cant": "A security property over all inputs.", "anchors": ["commonmark/blocks.py: Parser.incorporate_line", "commonmark/common.py: unescape_char", "commonmark/entitytrans.py: _replace_charref"]}
{"id": "C07", "title": "HTML output is well nested", "statement": "With safe=True, HtmlRenderer.render produces output that a simple HTML tokenizer reads as a sequence of text, comments, void tags and properly nested open/close tags. Without safe mode the same holds for every document containing no raw HTML. (It is false without safe mode for raw HTML, including raw HTML inside an image description.)", "quantifier": "every document tree built from the standard node types (not only parser output), every option set with a plain softbreak", "why_tests_cant": "Nesting must hold for trees of every shape and depth and every text content.", "anchors": ["commonmark/render/html.py: HtmlRenderer", "commonmark/render/renderer.py: Renderer.render"]}
{"id": "C08", "title": "Safe mode emits only renderer-made tags", "statement": "With safe=True every tag in the output of HtmlRenderer.render has a name from the renderer's fixed list and attributes from a fixed list; no byte of document text is interpreted as a tag.", "quantifier": "every document tree of standard nodes", "why_tests_cant": "XSS safety is a for-all statement over hostile input.", "anchors": ["commonmark/render/html.py: tag, text, code, html_inline, html_block, image", "commonmark/common.py: escape_xml"]}
{"id": "C09", "title": "Safe mode drops dangerous URLs", "statement": "With safe=True no href or src emitted by HtmlRenderer starts (in any letter case) with javascript:, vbscript: or file:, or with data: unless it is a png/gif/jpeg/webp image data URL. Conversely a destination is dropped only if one of those words occurs in it. (Violated converse: harmless http URLs that contain e.g. 'file:' later on are dropped too.)", "quantifier": "every link or image destination", "why_tests_cant": "A security property over all destinations.", "anchors": ["commonmark/render/html.py: potentially_unsafe, reUnsafeProtocol, reSafeDataProtocol, link, image"]}
{"id": "C10", "title": "escape_xml is complete and lossless", "statement": "The result of escape_xml contains no '<', '>' or '\"' and '&' only as the start of one of the four entities it emits; distinct texts have distinct escapes; replacing the four entities back gives the original text; escaping distributes over concatenation.", "quantifier": "every string", "why_tests_cant": "Round-trip law for all strings.", "anchors": ["commonmark/common.py: escape_xml, replace_unsafe_char, UNSAFE_MAP"]}
{"id": "C11", "title": "normalize_uri output alphabet", "statement": "normalize_uri returns a string of ASCII letters, digits and the characters _.-~;/@:+?=&()%#*, only; in particular link destinations never contain spaces, quotes, angle brackets, control or non-ASCII characters.", "quantifier": "every string of Unicode scalar values", "why_tests_cant": "All strings.", "anchors": ["commonmark/common.py: normalize_uri"]}
{"id": "C12", "title": "normalize_uri is idempotent", "statement": "normalize_uri(normalize_uri(u)) == normalize_uri(u), so re-parsing an emitted destination does not double-encode it.", "quantifier": "every string of Unicode scalar values", "why_tests_cant": "All strings.", "anchors": ["commonmark/common.py: normalize_uri"]}
{"id": "C13", "title": "normalize_uri is lossless up to percent-decoding", "statement": "Percent-decoding normalize_uri(u) gives the UTF-8 bytes of u for every u without '%', so normalize_uri is injective on such strings.", "quantifier": "every string without '%'", "why_tests_cant": "Round-trip law for all strings.", "anchors": ["commonmark/common.py: normalize_uri"]}
{"id": "C14", "title": "Line endings are interchangeable", "statement": "Replacing every LF line ending by CRLF gives the same parsed document (and so the same renderings). (For bare CR this fails when the text ends with CR, because only a final LF is recognised as a terminator.)", "quantifier": "every text", "why_tests_cant": "All texts.", "anchors": ["commonmark/blocks.py: Parser.parse, reLineEnding"]}
{"id": "C15", "title": "A final newline is optional", "statement": "Appending one LF to a text that does not end with a line-ending character changes nothing in the parsed document.", "quantifier": "every text", "why_tests_cant": "All texts.", "anchors": ["commonmark/blocks.py: Parser.parse"]}
{"id": "C16", "title": "A Parser can be reused", "statement": "parse on a Parser that has already parsed other texts returns the same document as parse on a fresh Parser with the same options.", "quantifier": "every finite history of earlier parse calls, every text", "why_tests_cant": "Quantifies over all histories.", "anchors": ["commonmark/blocks.py: Parser.__init__, Parser.parse", "commonmark/inlines.py: InlineParser.parseInlines"]}
{"id": "C17", "title": "A renderer can be reused", "statement": "render on a renderer that has already rendered other documents gives the same string as a fresh renderer; constructing and using renderers (with or without options) never changes what a later default-constructed HtmlRenderer produces. (Violated when a caller writes to .options of a default-constructed renderer: the default dict is shared.)", "quantifier": "every finite history of constructions and renders", "why_tests_cant": "Quantifies over all histories; tests construct each renderer once.", "anchors": ["commonmark/render/html.py: HtmlRenderer.__init__", "commonmark/render/renderer.py: Renderer.render"]}
{"id": "C18", "title": "The walker visits every node in document order", "statement": "Iterating node.walker() yields, in document order, exactly one entering and one leaving event for every container node below the root and exactly one event for every leaf node, and then stops.", "quantifier": "every tree of nodes", "why_tests_cant": "All tree shapes and depths.", "anchors": ["commonmark/node.py: NodeWalker.__next__, NodeWalker.nxt"]}
{"id": "C19", "title": "Node operations keep the tree linked", "statement": "append_child, prepend_child, insert_after, insert_before and unlink keep the five pointers of all nodes consistent (parent, first/last child and sibling links describe one list of children per node) and change those lists exactly as named: the moved node leaves its old place and appears at the new one, everything else is untouched.", "quantifier": "every finite sequence of operations on any number of nodes", "why_tests_cant": "Quantifies over all histories of pointer mutations.", "anchors": ["commonmark/node.py: Node.append_child, prepend_child, unlink, insert_after, insert_before"]}
{"id": "C20", "title": "normalize() merges text nodes and nothing else", "statement": "After node.normalize() no two adjacent siblings are text nodes, the concatenated text between any two non-text events is unchanged, and calling it again changes nothing.", "quantifier": "every tree", "why_tests_cant": "All trees.", "anchors": ["commonmark/node.py: Node.normalize"]}
{"id": "C21", "title": "First link reference definition wins", "statement": "When the same label is defined more than once, every reference resolves to the first definition in document order, and later ones never change destination or title.", "quantifier": "every sequence of definitions", "why_tests_cant": "All histories of definitions.", "anchors": ["commonmark/inlines.py: InlineParser.parseReference"]}
{"id": "C22", "title": "Labels match up to case and white space", "statement": "Two reference labels are looked up as equal iff they are equal after trimming, collapsing runs of space/tab/CR/LF and Unicode case folding; normalising an already normalised label changes nothing.", "quantifier": "every pair of labels", "why_tests_cant": "All labels.", "anchors": ["commonmark/normalize_reference.py: normalize_reference, XLAT, SPACE_RE"]}
{"id": "C23", "title": "Reference definitions apply to the whole document", "statement": "All link reference definitions are collected before any inline parsing, so a reference resolves in the same way whether it precedes or follows the definition.", "quantifier": "every document", "why_tests_cant": "All documents.", "anchors": ["commonmark/blocks.py: Parser.parse, Parser.process_inlines"]}
{"id": "C24", "title": "Backslash-escaping is inverted by unescape_string", "statement": "If every ASCII punctuation character of a text is preceded by a backslash, unescape_string returns the original text; text without backslash and ampersand is returned unchanged.", "quantifier": "every string", "why_tests_cant": "All strings.", "anchors": ["commonmark/common.py: unescape_string, unescape_char"]}
{"id": "C25", "title": "A fully escaped line is rendered literally", "statement": "A paragraph line in which every ASCII punctuation character is backslash-escaped is rendered as exactly that text (HTML-escaped) inside one paragraph.", "quantifier": "every single-line text that starts and ends with a non-space character", "why_tests_cant": "All texts; needs the interaction of block and inline phase.", "anchors": ["commonmark/inlines.py: parseBackslash, parseInline", "commonmark/blocks.py: incorporate_line"]}
{"id": "C26", "title": "Character references decode to the referenced character", "statement": "A numeric reference to a valid code point decodes to that code point, NUL, surrogates and out-of-range numbers decode to U+FFFD, and a reference whose name is not a known entity is left verbatim. (Violated: an unknown name with a known legacy prefix such as &copyfoo; is partly decoded, and some valid-range control characters decode to the empty string.)", "quantifier": "every reference", "why_tests_cant": "All code points and names.", "anchors": ["commonmark/common.py: ENTITY, HTMLunescape", "commonmark/entitytrans.py: _replace_charref, _html5"]}
{"id": "C27", "title": "Code spans are literal", "statement": "A backtick run followed by text that contains no backtick run of the same length and a closing run of that length yields a code node with exactly that text (newlines turned into spaces, one surrounding space pair stripped), and no markup inside it is interpreted; without a matching closing run the backticks are literal text.", "quantifier": "every backtick length and every content", "why_tests_cant": "All contents.", "anchors": ["commonmark/inlines.py: InlineParser.parseBackticks"]}
{"id": "C28", "title": "Emphasis processing conserves text", "statement": "Resolving emphasis only wraps existing sibling nodes and removes delimiter characters in matched pairs: the sequence of non-delimiter leaf nodes is unchanged and in the same order, and the number of delimiter characters removed from openers equals the number removed from closers.", "quantifier": "every delimiter stack and sibling list", "why_tests_cant": "All delimiter configurations.", "anchors": ["commonmark/inlines.py: InlineParser.processEmphasis, removeDelimiter, removeDelimitersBetween"]}
{"id": "C29", "title": "Links do not contain links", "statement": "No link made from bracket syntax contains another link made from bracket syntax, at any depth. (Violated by autolinks: an autolink inside link text gives a link inside a link.)", "quantifier": "every input text", "why_tests_cant": "All nestings of brackets.", "anchors": ["commonmark/inlines.py: parseCloseBracket, addBracket, parseAutolink"]}
{"id": "C30", "title": "A failed inline link consumes nothing", "statement": "When the text after ']' is not a complete inline link '(...)', parsing continues right after ']' (or after a reference label that directly follows it); no input text disappears. (Violated: with a valid destination but no ')', the position is not rewound and a later [label] is taken as the reference, dropping the text in between.)", "quantifier": "every bracketed text", "why_tests_cant": "All inputs.", "anchors": ["commonmark/inlines.py: InlineParser.parseCloseBracket"]}
{"id": "C31", "title": "An unusable reference title is discarded", "statement": "When a link reference definition is followed on the next line by a title candidate that is not alone on its line, the definition gets the empty title. (Violated: 'title == \"\"' is a comparison, the candidate title is kept.)", "quantifier": "every such definition", "why_tests_cant": "All titles and destinations.", "anchors": ["commonmark/inlines.py: InlineParser.parseReference"]}
{"id": "C32", "title": "Fenced code is verbatim", "statement": "Lines between an opening fence and a matching closing fence appear unchanged (one LF after each) as the literal of one code block, whatever they contain; without a closing fence the rest of the document is the literal.", "quantifier": "every list of content lines without a closing fence, every fence length >= 3 and both fence characters", "why_tests_cant": "All contents.", "anchors": ["commonmark/blocks.py: BlockStarts.fenced_code_block, CodeBlock"]}
{"id": "C33", "title": "Indented code is verbatim", "statement": "Non-blank lines indented by four spaces form one code block whose literal is the lines with the four spaces removed.", "quantifier": "every list of lines", "why_tests_cant": "All contents.", "anchors": ["commonmark/blocks.py: BlockStarts.indented_code_block, CodeBlock"]}
{"id": "C34", "title": "Line classifiers mean what the specification says", "statement": "A line is recognised as thematic break iff (after at most three columns of indentation) it consists of three or more of one of * _ - with only spaces and tabs in between; as ATX heading iff it starts with 1..6 # followed by space, tab or end; as setext underline iff it is a run of = or of - followed by spaces/tabs; as code fence iff it starts with three or more backticks (and no later backtick) or tildes.", "quantifier": "every line", "why_tests_cant": "All lines.", "anchors": ["commonmark/blocks.py: reThematicBreak, reATXHeadingMarker, reSetextHeadingLine, reCodeFence, reClosingCodeFence"]}
{"id": "C35", "title": "Tab stops are exact", "statement": "Skipping white space and advancing by columns treats a tab as advancing to the next multiple of four columns: the recorded column is always the visual column of the recorded offset, advancing by n columns over white space moves exactly min(n, available) columns, and a tab is partially consumed only while the offset rests on it.", "quantifier": "every line, every offset and every count", "why_tests_cant": "All mixes of tabs and spaces.", "anchors": ["commonmark/blocks.py: Parser.find_next_nonspace, advance_offset, advance_next_nonspace"]}
{"id": "C36", "title": "Smart dashes conserve hyphens", "statement": "With smart punctuation a run of n >= 2 hyphens becomes em dashes followed by en dashes whose widths (3 and 2) add up to n, using as few en dashes as the documented rule demands.", "quantifier": "every n >= 2", "why_tests_cant": "All n.", "anchors": ["commonmark/inlines.py: smart_dashes"]}
{"id": "C37", "title": "Delimiter runs are classified by the flanking rules", "statement": "A run of * can open (close) emphasis iff it is left- (right-) flanking as defined by the specification, and a run of _ additionally only if it is not right- (left-) flanking or is preceded (followed) by punctuation.", "quantifier": "every subject and position", "why_tests_cant": "All neighbours.", "anchors": ["commonmark/inlines.py: InlineParser.scanDelims"]}
{"id": "C38", "title": "dumpJSON lists every event once, in document order", "statement": "The list returned by dumpJSON, flattened, is the sequence of walker events of the tree (entering events and leaving events of containers), in order, with the node's own fields. (It does not nest: children of inner containers are attached to the preceding top-level entry.)", "quantifier": "every tree", "why_tests_cant": "All trees.", "anchors": ["commonmark/dump.py: prepare, dumpJSON"]}
{"id": "C39", "title": "The reStructuredText renderer accepts every document", "statement": "ReStructuredTextRenderer.render never raises on a parsed document and its indentation is back to zero afterwards. (Violated: a heading that is empty or starts with a non-text inline raises; everything else is fine.)", "quantifier": "every parsed document", "why_tests_cant": "All documents.", "anchors": ["commonmark/render/rst.py: heading, item, block_quote, image, lit"]}
{"id": "C40", "title": "Source positions are ordered and in range", "statement": "Every block node of a parsed document has a start line >= 1, its end line is not before its start line and not after the last line, and blocks lie within the line range of their parent and after their preceding sibling.", "quantifier": "every input text", "why_tests_cant": "All documents.", "anchors": ["commonmark/blocks.py: Parser.add_child, finalize"]}
{"id": "C41", "title": "Tight lists have no paragraph tags", "statement": "In the HTML output a paragraph directly inside an item is wrapped in <p> iff the item's list is not tight, and no other paragraph ever loses its tags.", "quantifier": "every tree", "why_tests_cant": "All trees.", "anchors": ["commonmark/render/html.py: HtmlRenderer.paragraph"]}
{"id": "C42", "title": "commonmark() is parse followed by render", "statement": "commonmark(text) equals HtmlRenderer().render(Parser().parse(text)), format='rst' equals the reStructuredText rendering, format='json' the JSON dump, and any other format name is rejected with ValueError; the command line tool writes the same HTML for the same text.", "quantifier": "every text and every format string", "why_tests_cant": "All texts and names.", "anchors": ["commonmark/main.py: commonmark", "commonmark/cmark.py: main"]}
{"id": "C43", "title": "HTML rendering is compositional", "statement": "The HTML of a document is the concatenation of the HTML of its top-level blocks, each rendered on its own; so appending a block never changes the rendering of earlier blocks.", "quantifier": "every list of parsed top-level blocks", "why_tests_cant": "All documents.", "anchors": ["commonmark/render/html.py", "commonmark/render/renderer.py"]}
{"id": "C44", "title": "Plain text is passed through", "statement": "A line of text without any character that is special in CommonMark is rendered as that text, HTML-escaped, in one paragraph.", "quantifier": "every such line", "why_tests_cant": "All texts.", "anchors": ["commonmark/blocks.py: incorporate_line", "commonmark/inlines.py: parseString"]}
{"id": "C45", "title": "No empty paragraphs", "statement": "A parsed document contains no paragraph without inline content. (Violated: a definition followed by '---', and lines of only non-ASCII or form-feed white space.)", "quantifier": "every input text", "why_tests_cant": "All documents.", "anchors": ["commonmark/blocks.py: BlockStarts.setext_heading, Paragraph.finalize", "commonmark/inlines.py: parseInlines"]}
{"id": "C46", "title": "Ordered list markers use ASCII digits", "statement": "A list item is numbered only by 1-9 ASCII digits followed by '.' or ')'. (Violated: \\d also accepts other Unicode decimal digits after a first ASCII digit.)", "quantifier": "every line", "why_tests_cant": "All lines.", "anchors": ["commonmark/blocks.py: reOrderedListMarker, parse_list_marker"]}
{"id": "C47", "title": "Items of one list agree", "statement": "All items of one list have the type, bullet character and delimiter of the list, so changing the marker starts a new list.", "quantifier": "every input text", "why_tests_cant": "All documents.", "anchors": ["commonmark/blocks.py: lists_match, BlockStarts.list_item"]}
{"id": "C48", "title": "Safe rendering ignores the content of raw HTML", "statement": "With safe=True the output does not depend on the text of html_inline and html_block nodes: replacing it changes nothing (non-interference).", "quantifier": "every pair of trees differing only in raw HTML text", "why_tests_cant": "A two-run property over all trees.", "anchors": ["commonmark/render/html.py: html_inline, html_block"]}
{"id": "C49", "title": "Autolinks keep their text and encode their target", "statement": "<scheme:rest> yields a link whose text is exactly scheme:rest and whose destination is its normalised form, and <addr> for an e-mail address yields mailto: plus the address; nothing inside is interpreted.", "quantifier": "every autolink", "why_tests_cant": "All URIs.", "anchors": ["commonmark/inlines.py: parseAutolink, reAutolink, reEmailAutolink"]}
{"id": "C50", "title": "Block quotes add structure only", "statement": "Prefixing every line of a text with '> ' (or '>' before a line that does not begin with a space or tab, after up to three spaces; lines with tabs with a prefix of four columns, so that tab stops are kept) yields a document consisting of one block quote whose children are the blocks of the original text, the same in everything but the columns of source positions; its HTML is the HTML of the text between <blockquote> and </blockquote>.", "quantifier": "every text without tabs, every choice of marker for each line, smart or not, all renderer options without source positions", "why_tests_cant": "All documents.", "anchors": ["commonmark/blocks.py: BlockQuote, BlockStarts.block_quote"]}
{"id": "C51", "title": "Rendering a parsed document to HTML never raises", "statement": "HtmlRenderer(options).render(Parser().parse(text)) returns a string for every text that parses and all options: no missing attribute, index or type error on any parsed document.", "quantifier": "every input text and all renderer options", "why_tests_cant": "All documents, all combinations of nodes.", "anchors": ["commonmark/render/html.py: HtmlRenderer", "commonmark/blocks.py: Parser.parse"]}
{"id": "C52", "title": "Text without emphasis and bracketed links reads as the specification says", "statement": "A paragraph made of ordinary characters, backslash escapes, character references, code spans, autolinks, unclosed backticks, unmatched brackets, delimiter runs that cannot match, and soft and hard line breaks is parsed into exactly the pieces that the specification describes, in order, and its HTML is the HTML of the pieces.", "quantifier": "every such paragraph, of any number of lines", "why_tests_cant": "All combinations of constructs.", "anchors": ["commonmark/inlines.py: InlineParser.parse, parseInline", "commonmark/blocks.py: Parser.parse", "commonmark/render/html.py: HtmlRenderer"]}
{"id": "C53", "title": "Every inline node comes from its own stretch of text", "statement": "The inline nodes of a paragraph or heading stand for its text from beginning to end: plain text, escapes, character references, code spans, autolinks, raw HTML, emphasis between two delimiter runs that may open and close it, inline and reference links and images with the destination and title given in the text or by a definition, line breaks. The stretches follow one another without overlap, every node takes up at least one character, and the only text not kept is markup.", "quantifier": "every input text, both values of smart", "why_tests_cant": "All nestings and orders of constructs.", "anchors": ["commonmark/inlines.py: InlineParser.parse, parseInline and all functions called from there"]}
{"id": "C54", "title": "Reference definitions are the ones in the text, and the first one counts", "statement": "Every reference definition a document has is a text of the document of the prescribed form (label, colon, destination, optional title, end of line) at the beginning of a paragraph or after other definitions there; reference links and images have the destination and title of such a definition. No paragraph is left that begins with a definition. In lines that form one paragraph, every label gets its first definition and the definitions disappear from the text.", "quantifier": "every input text, every parser state", "why_tests_cant": "All documents.", "anchors": ["commonmark/inlines.py: InlineParser.parseReference", "commonmark/blocks.py: Paragraph.finalize, Parser.parse"]}
{"id": "C55", "title": "Texts separated by an empty line do not affect each other", "statement": "If a text that ends with a paragraph, heading, thematic break or block quote is followed by an empty line and a second text, and neither defines references, the document has the blocks of the first text followed by those of the second, with lines moved; its HTML is the HTML of the first text followed by the HTML of the second. An exception from the second text is raised for both.", "quantifier": "all pairs of texts, both values of smart, all options without source positions", "why_tests_cant": "All pairs of texts.", "anchors": ["commonmark/blocks.py: Parser.incorporate_line, Parser.finalize, Parser.parse"]}
{"id": "C56", "title": "List items add structure only", "statement": "Putting a text into a list item (the first line after a bullet or number with up to three spaces before it and one to four after it, the other lines indented by the same width, empty lines with any number of spaces) yields a document consisting of one list with one item whose children are the blocks of the text, the same in everything but the columns of source positions. The list has the type, start number and delimiter of the marker. Its HTML is the HTML of the text between the list and item tags, without the paragraph tags if the text is one paragraph. An exception from the text is raised for the list as well.", "quantifier": "every text whose first line does not begin with a space, tab or '[' and makes no thematic break with the marker, and whose other lines are empty or contain a non-space character (lines with tabs with an indentation that is a multiple of four columns), every marker, smart or not, all renderer options without source positions", "why_tests_cant": "All texts, markers and indentations.", "anchors": ["commonmark/blocks.py: Item, List, BlockStarts.list_item, parse_list_marker", "commonmark/render/html.py: HtmlRenderer.list, item, paragraph"]}
{"id": "C57", "title": "Documents are read as their blocks", "statement": "A text made of paragraphs, ATX and setext headings, thematic breaks, fenced code with or without info strings, indented code, HTML blocks, block quotes and lists, one after the other with or without empty lines between them and nested to any depth, gives the HTML of exactly these blocks, in order: quotes and items contain the blocks of the text inside them, a list is loose if and only if empty lines are between its items or between blocks of an item, the first number of an ordered list is its start number. The number of empty lines between blocks and at the end does not matter.", "quantifier": "every such text (each block begins in a way that can follow the block before it; the text of paragraphs and headings is as in C52), all renderer options without source positions", "why_tests_cant": "All nestings and sequences of blocks.", "anchors": ["commonmark/blocks.py: Parser.incorporate_line, Parser.finalize, Parser.parse, block_starts, List.finalize, Item", "commonmark/render/html.py: HtmlRenderer"]}
{"id": "C58", "title": "Emphasis, links and images nest as written", "statement": "A text made of ordinary text, code spans, autolinks, raw HTML, line breaks, escapes, character references, emphasis between equally long runs of delimiters, links and images (with a destination in parentheses or by reference), nested to any depth, is read as exactly this content: the innermost brackets make the link, a link text contains no link, an image has the plain text of its description as alternative text, and brackets, delimiters and less-than signs that make nothing stay text. The HTML is the HTML of this content, in paragraphs, headings, quotes and lists; in safe mode, raw HTML and dangerous addresses are left out of it and nothing else.", "quantifier": "every such text (see Spec.Phrase), with or without smart punctuation, all renderer options without source positions", "why_tests_cant": "All nestings of inline content.", "anchors": ["commonmark/inlines.py: InlineParser.parseInlines, handleDelim, processEmphasis, parseOpenBracket, parseBang, parseCloseBracket, parseLinkDestination, parseLinkTitle", "commonmark/render/html.py: HtmlRenderer.link, image, emph, strong"]}
{"id": "C59", "title": "The first line decides the kind of the first block", "statement": "After any number of blank lines, the first line that is not blank decides of which kind the first block is, whatever the following lines are: indented code from four columns of indentation on, and otherwise a block quote, ATX heading, fenced code block, HTML block (of one of the seven kinds), thematic break or list according to its first characters, or a paragraph (a heading if it is underlined) if it begins none of them and no link reference definition. A text of blank lines has no blocks. In particular, the first block is an HTML block exactly if the line begins in one of the seven ways of the specification.", "quantifier": "all texts, smart or not", "why_tests_cant": "All texts, all continuations of the first line.", "anchors": ["commonmark/blocks.py: BlockStarts, Parser.incorporate_line, reHtmlBlockOpen, parse_list_marker"]}
{"id": "C60", "title": "Smart punctuation changes only quotes, dashes and dots", "statement": "The document parsed with the option smart is the document parsed without it, except that in text every ... may be an ellipsis, a run of hyphens dashes, and ' and \" curly quotation marks: emphasis, links, code and blocks are the same, and one parse raises an exception if and only if the other does. The same holds for the HTML.", "quantifier": "all texts, all renderer options (true without quotation marks, with only single * and _, or if no run of * or _ can both open and close; false in general)", "why_tests_cant": "All texts: quotation marks are entries of the delimiter stack of emphasis, so the claim is about every arrangement of them.", "anchors": ["commonmark/inlines.py: InlineParser.handleDelim, processEmphasis, parseString, smart_dashes", "commonmark/render/html.py: HtmlRenderer"]}
{"id": "C61", "title": "The HTML is the document tree", "statement": "The HTML of a tree is the sequence of the tags and escaped texts of its nodes in document order: each kind of node has its element, attributes and text, paragraphs directly in items of tight lists have no tags, the description of an image is the text of its content without tags, raw HTML is passed through or replaced by the comment of safe mode. Nothing else is written except newlines where a line ends (before and after block tags and after a hard line break), and a line end is always a newline unless the output is empty or ends in one.", "quantifier": "all trees (not only parsed ones), all renderer options, whenever rendering does not raise", "why_tests_cant": "All trees of any depth and all options.", "anchors": ["commonmark/render/html.py: HtmlRenderer", "commonmark/render/renderer.py: Renderer.render, lit, cr", "commonmark/node.py: NodeWalker"]}
{"id": "C62", "title": "dumpJSON writes JSON that says what is in the tree", "statement": "dumpJSON returns an ASCII text that is valid JSON. Read as JSON it is an array of objects which, each followed by its children, describe the nodes of the walk in order: type, literal, string_content, title, info, destination and list_data are those of the node, with all characters (quotation marks, backslashes, control characters, characters outside the BMP) unchanged, and children is there exactly for containers.", "quantifier": "all trees", "why_tests_cant": "All trees and all strings in them.", "anchors": ["commonmark/dump.py: dumpJSON, prepare"]}
{"id": "C63", "title": "A paragraph goes on with or without the markers of its containers", "statement": "If a text ends in a paragraph, at any depth in block quotes and list items, and the next line goes on with this paragraph (its text starts no block), it does not matter which of the markers > and of the indentations of the items the line repeats (all, the outer ones or none), nor by how many spaces or tabs it is indented: the blocks of the document and the HTML are the same, whatever lines follow.", "quantifier": "all texts, all nestings, all lines that go on with the paragraph, all following lines", "why_tests_cant": "All nestings of containers and all texts before and after the line.", "anchors": ["commonmark/blocks.py: Parser.incorporate_line, BlockQuote.continue_, Item.continue_, Paragraph"]}
{"id": "C64", "title": "Blank lines: neither their number nor their spaces matter", "statement": "After a text whose last block is no code block and no HTML block, a blank line may contain any spaces and tabs; any number of blank lines (one or more) has the same effect as one, unless the last block is an empty list item; blank lines before the first line of a text or after its last one have no effect: in all these cases the blocks and the HTML are the same, and blocks that follow are further down by the number of added lines.", "quantifier": "all texts before and after the blank lines, all nestings, smart or not, all renderer options without source positions", "why_tests_cant": "All texts before and after the lines; a blank line closes blocks and decides whether lists are loose.", "anchors": ["commonmark/blocks.py: Parser.incorporate_line, List.finalize, ends_with_blank_line, Item.continue_, Parser.parse"]}
{"id": "C65", "title": "The reStructuredText is the document tree", "statement": "The output of the reStructuredText renderer for any tree that it accepts is the sequence of the texts of the nodes in document order, each node with its markup (emphasis, literals, links, image and code directives, bullets, underlines) around its content and nothing else; at the beginning of a line, and only there, a text comes after the indentation of its place: four characters for a block quote or image around it, the width of the bullet for a list item.", "quantifier": "all trees, all indentation characters but a newline, all documents whose headings begin with text", "why_tests_cant": "All trees of any depth; the renderer keeps its indentation and its last output in state that every node changes.", "anchors": ["commonmark/render/rst.py: ReStructuredTextRenderer", "commonmark/render/renderer.py: Renderer.render", "commonmark/node.py: NodeWalker"]}
{"id": "C66", "title": "In the reStructuredText the blocks stay apart", "statement": "In the reStructuredText of a document two paragraphs that follow each other are separated by an empty line, every line of a code block is indented under its directive, and the underline of a heading is as long as its title.", "quantifier": "all documents", "why_tests_cant": "All documents and nestings.", "anchors": ["commonmark/render/rst.py: paragraph, code_block, heading, indent_lines, lit"]}
{"id": "C67", "title": "Tabs stand for the spaces up to the next tab stop", "statement": "At the beginning of a line, and after the markers of block quotes and list items with which it begins, it does not matter whether the white space is written with tabs or with spaces, as long as what follows stands at the same column (a tab goes on to the next multiple of four): the blocks of the document and the HTML are the same, whatever lines come before and after. In text, in code blocks and in HTML blocks tabs are kept as they are.", "quantifier": "all texts, all nestings of markers, all ways to write the white space, all following lines, smart or not", "why_tests_cant": "All columns at which a tab can stand, after any number of markers, and all texts before and after; containers take part of a tab.", "anchors": ["commonmark/blocks.py: Parser.advance_offset, Parser.find_next_nonspace, parse_list_marker, BlockStarts.block_quote, BlockQuote.continue_, Item.continue_"]}
{"id": "C68", "title": "The document tree is not larger than the text", "statement": "The tree of a text of n characters has at most n + 2 nodes, hence at most n + 2 levels, and a walk over it has at most 2n + 4 events; the inline nodes of a paragraph or heading are at most as many as the characters of its text. (Lists in block quotes in lists, unmatched brackets and delimiters, entities and definitions included: no input makes the tree blow up.)", "quantifier": "all texts, smart or not", "why_tests_cant": "All texts; every way in which a line can open several blocks at once and every way in which inline text is cut into nodes.", "anchors": ["commonmark/blocks.py: Parser.parse, Parser.incorporate_line", "commonmark/inlines.py: InlineParser.parse", "commonmark/node.py: NodeWalker"]}
{"id": "C69", "title": "Two ways to write the same line", "statement": "It does not matter which thematic break is written (*, _ or -, three or more characters, any spaces and tabs between them), as long as it cannot be read as the underline of a paragraph, nor how an ATX heading is written (white space before the title, a closing sequence of number signs, white space around it): also behind the markers of block quotes and list items the blocks of the document and the HTML are the same, whatever lines come before and after.", "quantifier": "all texts, all nestings of markers, all thematic breaks and headings, all following lines, smart or not", "why_tests_cant": "All texts before and after the line and all ways to write it; the block starts are tried one after the other, and a thematic break can also look like a list item or an underline.", "anchors": ["commonmark/blocks.py: BlockStarts.thematic_break, BlockStarts.atx_heading, BlockStarts.setext_heading, BlockStarts.list_item, reThematicBreak, reATXHeadingMarker"]}
{"id": "C70", "title": "A renderer can be used again after an exception", "statement": "A renderer object that has rendered other documents before, or tried to, gives for a document what a new renderer with the same options gives: nothing of the earlier calls of render is left over, also if one of them raised.", "quantifier": "all series of documents, HTML and reStructuredText, all options", "why_tests_cant": "All histories of an object, including calls that were cut off by an exception anywhere in the tree; the indentation and the suppression of tags are counters that outlive the call.", "anchors": ["commonmark/render/renderer.py: Renderer.render", "commonmark/render/rst.py: ReStructuredTextRenderer.indent_length, heading, block_quote, item, image", "commonmark/render/html.py: HtmlRenderer.disable_tags, image"]}
{"id": "C71", "title": "A block ends where its last line ends", "statement": "The first position of a block is the position of a character of the text, and its last position is the end of its last line: the last column is the length of that line, whatever the block is in and whatever follows.", "quantifier": "all texts, all blocks of their documents, smart or not", "why_tests_cant": "All texts; a block is closed by a later line that does not continue it, by the end of the text, or by its own end mark, at any depth and together with any other blocks.", "anchors": ["commonmark/blocks.py: Parser.finalize, Parser.incorporate_line, Parser.last_line_length, CodeBlock.continue_, BlockStarts"]}
{"id": "C72", "title": "Definitions reach the whole text, the first one counts", "statement": "For two texts with an empty line between them the parser has the definitions of both, and for a label that both define that of the first. A text keeps its blocks (and HTML) whatever follows it, if no definitions follow, and whatever precedes it, if no definitions precede it. Two texts that do not define the same label can be exchanged: their blocks and HTML are exchanged. So definitions can be written before or after the text that uses them. A text written twice gives its HTML twice. (The text before the empty line ends with a paragraph, heading, thematic break or block quote, or has no blocks at all, like a text of definitions.)", "quantifier": "all pairs of texts with definitions anywhere in them, smart or not", "why_tests_cant": "All pairs of texts and all definitions in them, in any container; the definitions are collected while blocks are closed, in a map that the whole document shares, and used afterwards.", "anchors": ["commonmark/blocks.py: Parser.parse, Parser.refmap, Paragraph.finalize, BlockStarts.setext_heading", "commonmark/inlines.py: InlineParser.parseReference, InlineParser.parseCloseBracket"]}
{"id": "C73", "title": "Everything can be written", "statement": "There is a simple way to write any document so that the HTML is exactly that of the document: every ASCII punctuation character of text gets a backslash, code spans and code blocks get more backticks than their text has, destinations stand between < and >, titles between quotes, a backslash ends a line with a hard line break (other lines of a paragraph end with a soft one, for which the softbreak option is written), the language of code follows its fence, blocks of raw HTML stand as they are, lists that follow each other have different markers, the lines of items are indented by the width of the marker, those of quotes begin with '> ', and blocks have an empty line between them. No text, nesting, list number, link destination or code is changed, lost, merged or split; in safe mode and with smart punctuation too.", "quantifier": "all documents: any nesting of quotes, loose and tight lists, headings, paragraphs of one or more lines, thematic breaks, code with or without a language and blocks of raw HTML; text of words of any characters (without white space, with single spaces between them), code spans, emphasis, links and images, nested to any depth", "why_tests_cant": "Whatever a program that generates CommonMark puts into the document, no character sequence may be taken for markup, and no block may end, begin or change its kind because of what stands in or around it. Examples only show that some contents survive.", "anchors": ["commonmark/blocks.py:Parser.parse", "commonmark/inlines.py:InlineParser.parse", "commonmark/render/html.py:HtmlRenderer", "commonmark/main.py:commonmark"]}
{"id": "C74", "title": "Which way quotation marks turn", "statement": "With smart punctuation, every straight double quotation mark that is right-flanking becomes a closing one, any other an opening one. A straight single one becomes an opening one exactly if it opens (it is left-flanking and not right-flanking) and the next single one that opens or closes, closes; any other becomes an apostrophe. So an opening single one is always closed, and quotations in single marks inside of others in single marks leave the outer ones unpaired. Nothing else of the text changes but dashes and ellipses.", "quantifier": "all lines of ordinary characters and quotation marks, and all documents whose texts are made of these, code spans, autolinks, raw HTML, escapes, character references and line breaks", "why_tests_cant": "What a mark becomes depends on marks any distance after it, and on what has been left on the stack by marks before; all sequences of marks that open, close or do neither.", "anchors": ["commonmark/inlines.py: InlineParser.scanDelims, InlineParser.handleDelim, InlineParser.processEmphasis"]}
{"id": "C75", "title": "Emphasis is what the procedure of the specification gives", "statement": "Whatever runs of * and _ a text has, of whatever lengths, matched or not, the emphasis in it is what the procedure of the CommonMark specification gives, without its shortcut (the lower bound for the search): a run that can close takes the nearest run of its character before it that can open (and that the rule about multiples of three allows), two characters for strong emphasis if both have two and else one, as long as there is such a run; runs between the two become text; what is left of a run that can open may open emphasis later, what is left of others is text. This is for texts whose runs are all of one character and can all open or close, and for texts in which the rule about multiples of three keeps no run that can open and run that can close from matching; for others the shortcut is wrong (a run of the other character before changes what is found).", "quantifier": "all lines of ordinary characters, * and _, and all documents whose texts are made of any runs and anything else: code spans, complete links and images, raw HTML, escapes, references, line breaks; smart or not", "why_tests_cant": "All sequences of runs of all lengths that open, close, do both or neither: what a run matches depends on what all runs before it left on the stack and on the lower bounds that they set.", "anchors": ["commonmark/inlines.py: InlineParser.processEmphasis, InlineParser.scanDelims, InlineParser.handleDelim, InlineParser.removeDelimitersBetween"]}
{"id": "C76", "title": "What the printed tree shows", "statement": "The printed form of a document (option --ast, format 'ast') has one block of lines for the root and one for every node of the walk. Two trees have the same printed form exactly if these nodes agree one by one in kind, title, info string, destination, literal text, string content, position, list data (but not whether the list is tight), and in whether they are open or ended with a blank line: all of this can be read from it, whatever characters the texts have, and nothing else can. The level of a heading is not shown, and not where a node with children begins and where it ends: it is printed twice, with the same indentation at every depth.", "quantifier": "all trees, of parsed documents or built by hand", "why_tests_cant": "All trees and all texts in them: a text may look like the label of another field, and fields that are empty are left out.", "anchors": ["commonmark/dump.py: dumpAST", "commonmark/main.py: commonmark", "commonmark/cmark.py: main"]}
{"id": "C77", "title": "Source positions only add attributes", "statement": "Rendering with the option 'sourcepos' gives the same HTML as without it, except that a data-sourcepos attribute stands directly after the names of some tags: one for every paragraph that has a tag (those directly in items of tight lists have none), heading, thematic break, code block (on its code tag), block quote, list, item and link that has a position, with that position, in the order of the document, none inside the description of an image. If one of the two renderings raises an exception, so does the other.", "quantifier": "all trees, of parsed documents or built by hand, and all other options", "why_tests_cant": "All trees of any depth: what the renderer writes next depends on what it wrote last and on how many images it is in, and both might depend on the option.", "anchors": ["commonmark/render/html.py: HtmlRenderer.attrs, HtmlRenderer.tag, HtmlRenderer.paragraph, HtmlRenderer.link, HtmlRenderer.list, HtmlRenderer.code_block"]}
{"id": "C78", "title": "Safe mode only leaves things out", "statement": "Rendering in safe mode gives the same HTML as otherwise, except that the comment <!-- raw HTML omitted --> stands for every piece of raw HTML, and that links and images with potentially unsafe addresses have no address: no href attribute, an empty src attribute. Everything else, every other attribute, tag, text and newline, is the same. A document without raw HTML and potentially unsafe addresses has the same HTML in both modes.", "quantifier": "all trees that can be rendered, all texts, all other options", "why_tests_cant": "All trees of any depth: what the renderer writes next depends on what it wrote last, and this differs between the modes.", "anchors": ["commonmark/render/html.py: HtmlRenderer.link, HtmlRenderer.image, HtmlRenderer.html_inline, HtmlRenderer.html_block, potentially_unsafe", "commonmark/render/renderer.py: Renderer.cr, Renderer.lit"]}
{"id": "C79", "title": "A walk can be resumed, and goes on when nodes are removed, added or replaced", "statement": "A walker that is put at one of the events of its tree with resume_at(node, entering) gives that event and then all that follow it, whatever it has given before; resume_at(node, False) when a node is entered skips exactly what is below it. The body of a loop along a walk can unlink any nodes below the root, each one at its last event (when it is left, or at its only event if it can have no children): the loop still sees every event of the original tree in document order, and afterwards exactly those nodes are missing among the children of all nodes. Nodes that do not belong to the tree can be put after the current one at its last event (insert_after), before it when it is entered (insert_before), or in its place at its last event (insert_after and unlink): they are then in the tree at that place, the walk does not come to them, and it goes on with the events that were to come. (A node that is unlinked when it is entered ends the walk too early.)", "quantifier": "all linked trees, all events in them, all sets of nodes to remove, all other trees to put in", "why_tests_cant": "All shapes of trees and all sets of nodes: the walker holds a pointer into a structure that changes under it, and every unlink changes the pointers of the neighbours.", "anchors": ["commonmark/node.py: NodeWalker.__next__, NodeWalker.resume_at, NodeWalker.nxt, Node.unlink, Node.insert_after, Node.insert_before, Node.walker"]}
{"id": "C80", "title": "Lines that follow change only the last block", "statement": "The document of a text begins with the blocks of the document of any beginning of the text that ends with a line, but for the last block: the same nodes with the same positions, content and descendants, and the HTML of these blocks is the beginning of the HTML of the text. So a text that is still being written, or comes in piece by piece, can be shown from the last block on. Neither part has reference definitions (no line has ]:); with them the blocks stay as well, down to paragraphs and headings, but the links in these can change.", "quantifier": "all texts without ]: (for the blocks without what is inside paragraphs and headings: all texts), all their beginnings up to a line end, all options", "why_tests_cant": "All texts and all ways in which they go on: open blocks can go on, turn into others or take earlier blocks with them, and lines that follow write to nodes that are already there (whether a blank line follows).", "anchors": ["commonmark/blocks.py: Parser.parse, Parser.incorporate_line, Parser.finalize, Parser.close_unmatched_blocks"]}
{"id": "C81", "title": "Definitions matter only where their labels stand in brackets", "statement": "A reference definition has an effect only on paragraphs and headings that have its label in brackets. Two texts with an empty line between them, each with any definitions, give the blocks and the HTML of the first and then those of the second, if the labels in brackets in the first text that it does not define are not defined in the second, and the labels in brackets in the second are not defined, or are defined alike, in the first. So unused definitions can be added, and texts with their own labels put together, without changing any link. In the same way, lines that follow change only the last block (C80) as long as they define no label that stands in brackets before it.", "quantifier": "all texts with all definitions, all texts after them, the first ending with a paragraph, heading, thematic break or block quote; HTML without source positions", "why_tests_cant": "All texts, labels and definitions: one table of definitions is shared by the whole document, and a bracket anywhere in it can ask for any label, with labels compared after normalisation.", "anchors": ["commonmark/inlines.py: InlineParser.parseCloseBracket, InlineParser.parseLinkLabel, InlineParser.parseReference", "commonmark/blocks.py: Parser.parse, Parser.processInlines", "commonmark/normalize_reference.py: normalize_reference"]}
{"id": "C82", "title": "The option softbreak is written for soft line breaks and changes nothing else", "statement": "Rendering with different values of the option 'softbreak' gives the same HTML except that for every soft line break of the document the given text stands in it, unescaped and exactly once, also in the descriptions of images. No other newline depends on the option, except that after a soft line break written as a newline a newline that has to follow directly is not written again (this happens only if something without a text or tag of its own follows, such as a hard line break in the description of an image). Whether an exception is raised does not depend on the option.", "quantifier": "all trees, of parsed documents or built by hand, all texts, all values of the option, all other options", "why_tests_cant": "All trees of any depth and all values: what the renderer writes next depends on what it wrote last, which is the value of the option.", "anchors": ["commonmark/render/html.py: HtmlRenderer.__init__, HtmlRenderer.softbreak, HtmlRenderer.linebreak", "commonmark/render/renderer.py: Renderer.lit, Renderer.cr"]}
