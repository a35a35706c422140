# Formal model of rtfd/CommonMark-py

## Layout

| Path | Contents |
|---|---|
| `properties.jsonl` | the properties, generated by `tools/gen_properties.py` |
| `lean/Verif/Model/*.lean` | the model, one file per Python file |
| `lean/Verif/Spec/*.lean` | small specifications used in theorem statements; the part of the model they use is listed below |
| `lean/Verif/Proofs/*.lean` | lemmas |
| `lean/Verif/Props/*.lean` | the property theorems and their non-vacuity examples |
| `tools/gen_tables.py` | generates the three table modules from the text of /repo |
| `lean/Verif/Check/` | the project's own test examples, evaluated on the model by the kernel (tests of the model) |
| `seeded/LOG.jsonl` | wrong programs tried against the theorems |

What the specifications take from the model, besides its data types. Each is part of what a theorem that
mentions it says, so a reader has to read these definitions too:

* `normalizeReference`, `normalizeUri`, `unescapeString`, `escapeXml`: functions of the package's `common` and `normalize_reference` modules. C10–C13, C22
  and C24 say what they do.
* `isPySpace`, `isPyDigit`, `isPunct`: the character classes of Python's `\s` and `\d` and of `rePunctuation`.
* `isContainer` and `Kind.name`: the table of container types and the names of the types.
* `parse`, in `Spec/Tabs.lean` and `Spec/Spelling.lean` only: whether the block open at a line is code or HTML is
  asked of the parser. The properties stated with these two files are relative to it.
* `Heap` operations, `Walker.next` and the renderer constructors of `Spec/Nodes.lean`, `Spec/Walks.lean` and
  `Spec/Render.lean`: the API calls of which a history consists.

## Trusted base

* Lean 4.33.0's kernel. Every theorem depends at most on `propext`, `Classical.choice` and `Quot.sound`.
  No own axioms, no `sorry`, no `native_decide`, no `bv_decide`.
* The reading of /repo that the model comments cite line by line. The code is not run. As a plausibility
  check the kernel evaluates the model on the 649 examples of /repo/spec.txt, the 13 of rst_tests.py and
  6 of unit_tests.py (`Verif/Check/`, generated by `tools/gen_examples.py`): all outputs agree with the
  expected ones. These are tests of the transcription, not part of any proof.
* Python behaviour that the model encodes: CPython >= 3.8; `str` as a sequence of Unicode scalar values
  (lone surrogates are out of scope); the backtracking semantics of `re` for the patterns used
  (`Model/Regex.lean`); `str.strip`, `split`, `splitlines`, `lstrip`; `urllib.parse.quote`;
  `html.unescape` (modelled from the copy in entitytrans.py, which is the standard library function);
  insertion-ordered dict comparison (the delimiter dicts are compared with `!=`; the comparison is
  decided by the `node` entry, so it is identity); `json.dumps(indent=4, sort_keys=True)`.
* The generated tables: `EntityTable` (entitytrans.py), `FoldTable` (normalize_reference.py), `UniTable`
  (rePunctuation of inlines.py, and the `Nd` ranges of Unicode 14 for `\d`).

## What is modelled

common.py, blocks.py, inlines.py, normalize_reference.py (the `translate` branch), node.py (pointers,
walker, normalize), render/renderer.py, render/html.py, render/rst.py, dump.py, main.py, cmark.py (after
argument parsing). Loops without an obvious bound take fuel; running out of fuel is the error `hang`, and
C01 shows it is unreachable. Python exceptions are values of `PyErr`.

## What is not modelled

Python 2 and Python < 3.8 branches (common.py:71-89, entitytrans as fallback, the UCS-2 punctuation
ranges are kept but can never match a single character); recursion depth and memory limits; performance;
argparse and file I/O of cmark.py; `Node.pretty` and `__repr__`; the test suite and setup.py.

## Simplifications (also stated at each definition)

* Block phase: the open nodes are the rightmost chain of the tree; it is kept as a list (`spine`).
  `is_open` of nodes is still recorded, and C04 proves that no closed child is open.
* Inline phase: delimiter and bracket stacks are lists; nodes referred to from the stacks carry an id.
* `list_data` aliasing between a list and its first item is modelled at the one place that writes it.
* `resume_at`'s `entering is True` test is modelled for booleans.

## Plan per property

| Id | Modelled by | Proof |
|---|---|---|
| C01 | all fuelled loops | measure argument per loop; top theorem `parse ≠ error hang` |
| C02 | `parse` | invariant of parser states and inline states; counterexample by evaluation; sufficient condition |
| C03 | `blockPhase`, `processInlines` | invariant over `incorporateLine` on spine and closed trees |
| C04 | same | same invariant |
| C05 | same | same invariant |
| C06 | `parse`, `renderHtml` | invariant "strings of the state are NUL-free" |
| C07 | `renderHtml` | independent tokenizer and stack checker; induction over trees |
| C08 | `renderHtml` | same, with a whitelist of names and attributes |
| C09 | `potentiallyUnsafe` | characterisation of the two patterns; counterexample for the converse |
| C10 | `escapeXml` | induction; independent decoder |
| C11-C13 | `normalizeUri` | induction; independent percent-decoder |
| C14, C15 | `inputLines` | induction on the text |
| C16 | `parseWith` | two-run simulation on the fields that are not reset |
| C17 | `renderWith`, `World` | state after a successful render; invariant on the default dictionary |
| C18 | `Walker` on `Heap` | simulation against the recursive event list |
| C19 | `Heap` operations | representation invariant: one list of children per node |
| C20 | `normalizeHeap` | simulation against the list-level merge |
| C21-C23 | `parseReference`, `RefMap`, `parse` | refinement to a first-write-wins map |
| C24-C27 | inline functions | regex characterisation lemmas, then induction |
| C28 | `processEmphasis` | invariant on items and stack |
| C29 | `closeLink`, brackets | invariant on brackets and items; counterexample for autolinks |
| C30, C31 | `inlineLink`, `parseReference` | counterexamples; partial theorems for the branches that rewind |
| C32, C33 | block phase | induction over lines from a characterised state |
| C34 | block patterns, block phase | regex characterisation lemmas for every line; C34_document and C34_document_raw: an invariant of the block phase (`Origin`: every node stands at a position of the text whose line is of its kind), carried through all steps, then through the inline phase (`Every`: a property of all nodes of a tree that later steps keep) |
| C35 | `advanceOffset`, `findNextNonspace` | induction |
| C36, C37 | `smartDashes`, `scanDelims` | arithmetic; case analysis against the written rule |
| C38 | `prepare` | induction over the event list |
| C39 | `renderRst` | counterexamples; induction for other trees |
| C40 | block phase | invariant on line numbers |
| C41, C43 | `renderHtml` | induction over trees |
| C42 | `commonmark`, `cmarkMain` | unfolding against the composition |
| C44, C25 | whole pipeline | evaluation of the block phase on one line, then C24-style inline lemma |
| C45, C46 | `parse` | counterexamples; partial theorems |
| C47 | block phase | invariant |
| C48 | `renderHtml` | two-run induction |
| C49 | `parseAutolink` | regex characterisation |
| C50, C55 | block phase | two-run simulation: one run of the block phase inside a container of the other, or after other blocks (`Proofs/Nest.lean`: relation on open blocks, cursor and line numbers); then `processInlines` and the renderer commute with forgetting positions (`Proofs/Alike.lean`) |
| C56 | block phase, list rendering | the simulation of C50 for a document inside `list > item` (`Proofs/Item.lean` steps, `ItemOpen.lean` the first line and its marker, `ItemDoc.lean` end of input, tightness, rendering) |
| C57 | block phase, inline phase, HTML | induction over the grammar `Spec.Doc` (`Proofs/RunDoc.lean`); each case is a statement `Runs`: from the start of a document the lines lead to a state in which closing the open blocks leaves exactly the blocks that render to the given HTML, for every number of blank lines after them. Leaves are run directly (`RunLeaf*.lean`, `RunIndented.lean`, `RunSetext.lean`, `RunHtml.lean`); quotes and items by the simulations of C50 and C56 (`RunQuote.lean`, `ItemNext.lean`, `RunList.lean`); a following block by the simulation of C55 (`Runs.lean`) |
| C58 | inline phase, HTML | induction over the grammar `Spec.Phrase` (`Proofs/PhraseRun.lean`): each text appends items and delimiters whose meaning (`Stretch`, `Proofs/EmphReach.lean`) is stable under everything that emphasis processing does outside of it; closing a bracket and the end of the text turn a stretch into its nodes (`processEmphasis_stretch`); the HTML by induction over the content, in safe mode or not (`Proofs/PhraseHtml.lean`); raw HTML has only one possible end (`tagEnd`, `htmlTag_unique` in `Proofs/HtmlEnd.lean`), so what the regular expression finds is what the grammar says. With smart punctuation, quotation marks are delimiters that stay on the stack; a stretch may leave them there, with nodes that do not change any more (`QuoteDone`) |
| C59 | block phase | every block start at the first line either returns nothing and its condition (Spec/LineKinds, Spec/HtmlBlock) is false, or opens a block of its kind and the condition is true (`Proofs/First.lean`, `starts_first`); an invariant over the steps of the block phase (`First`): the first child of the document, closed or open, keeps its kind, except that a paragraph can become a heading |
| C60 | inline phase, HTML | a simulation between the smart and the plain run: same position, items equal up to smart punctuation and the numbering of nodes, the plain delimiter stack is the smart one without quotation marks (`Proofs/SmartSim.lean`, `SmartRun.lean`); the emphasis algorithm on the two stacks does the same if no pair of runs is an odd match (`Proofs/SmartEmph.lean`, `emphSim_free`) or there are no quotation marks; the parser never stands inside a run (`Proofs/SmartPos.lean`), so the condition on the text is a condition on the runs (`SmartDoc.lean`) |
| C61 | HTML renderer | the state of the renderer after the events of a subtree is the state before with the pieces of the subtree written (`Proofs/HtmlTree.lean`: `Writes`, one lemma `around_*` per kind of container), by recursion on the tree; invariant `Settled`: the last thing written is a newline only if the output is empty or ends in one |
| C62 | dump.py, json.dumps | a reader of JSON (`Spec/JsonRead.lean`) reads back every dumped value, by recursion on the value (`Proofs/JsonRead.lean`); strings through UTF-16 code units |
| C63 | incorporate_line, continuations | two lines of text that lead to the same open blocks can be exchanged (`Proofs/Swap.lean`); a line that goes on with the paragraph adds its text to the open paragraph whatever markers it repeats (`Proofs/LazyLine.lean`: `goes_on`), using that no open block is flagged as ending in a blank line while a paragraph is open (`Proofs/FlagInv.lean`); the containers of the parsed tree are those of the parser state, since closed paragraphs end before the current line (`Proofs/LastPath.lean`) |
| C64 | incorporate_line, list tightness, end of the text | what a blank line does to the open blocks, exactly (`Proofs/Blank.lean`: `onblank_line`), hence a second blank line does nothing more; the rest of the text by the simulation of C50 with line numbers pushed down from a given line on; for blank lines at the end, trees that differ in the book-keeping of the nodes on their right edge (`Proofs/Trailing.lean`: `LastAlike`), at which the tightness of lists does not look |
| C65 | rst.py, renderer.py, walker | `Spec/RstTree.lean`: the pieces of a tree with the indentation of their place, and how they are laid out; a run of the renderer over the events of a tree writes the pieces and restores the indentation (induction over the tree, `Proofs/RstTree.lean`) |
| C66 | rst.py | from C65; three counterexamples (B23, B24, B25) and theorems for blocks at the top of the document |
| C67 | blocks.py | simulation of the two runs of one line with a relation between cursors (same column, remaining text differs in white space); it ends in the same state, then C64's swap of lines; Spec.TabAlike, Spec.TabTexts |
| C68 | blocks.py, inlines.py, node.py | `Spec/Size.lean` counts nodes; weight of the open blocks: nodes plus the text that inline parsing will cut (at most one node per character, from C53's relation of items and text); a line adds at most its length plus one to the weight (`Proofs/Size.lean`: one lemma per block start), and closing a block does not add |
| C69 | blocks.py | `Spec/Spelling.lean`: headings as an inductive relation of level, title and line, thematic breaks as in C59. The simulation of C67 with a more general relation between the rests of the two lines: in `tryStarts_tab` both lines take the same block start; `Proofs/AtxText.lean` computes the title that the code cuts out; `blank_tip`: after a blank line no paragraph is open |
| C70 | renderer.py, rst.py, html.py | `Model/Reuse.lean`: renderer objects between calls; the loop of `render` stops at the first event that raises and keeps the counters it has then. `Spec/Reuse.lean`: how far the first heading that cannot be written is indented. Simultaneous induction on trees and lists of trees (`rst_stops`), then induction on the series of calls; counterexample B26 |
| C71 | blocks.py | `Spec/Ends.lean`: last columns, lengths of lines, blocks with an end mark. The steps of the block phase carry the length of the line before; a property of a block that holds whenever one is closed holds of all blocks of the tree (`Proofs/Closed.lean`: `WhenClosed`, with a relation between line numbers and lengths that is kept line by line). First positions: `Sound` of `Proofs/Every.lean`; that indented code begins inside its line needs that going forward by columns stays within the white space (`advanceLoop_le`). Counterexample B27 |
| C72 | blocks.py, inlines.py | As for C55, but the two runs that are compared (`Proofs/Nest.lean`: `Sim`) may have different reference maps: `Sim.ref` maps the definitions of the second text to those of both, and `RefKeeps` says that reading a definition commutes with it (`Proofs/Concat.lean`: `mergeRefs_keeps`). The inline phase depends on the map only by what it gives for each label (`Proofs/Merge.lean`: `inlinesList_refs`). Documents of the grammar `Spec.Doc` with definitions before or after them: the lemmas about runs for C57 hold for any reference map (`Reading`), see `Proofs/DocRefs.lean`. |
| C73 | blocks.py, inlines.py, render/html.py, main.py | A writer of CommonMark and the HTML of documents are defined without the parser (`Spec/Write.lean`). By induction on the document, what is written is a document of the grammar of C57 (`Proofs/WriteBlocks.lean`) whose texts are phrases of the grammar of C58 (`Proofs/WriteInline.lean`, `Proofs/WritePara.lean`), with the HTML it stands for. |
| C74 | inlines.py | `Spec/Quotes.lean`: the rule on lists of marks (`settle`) and on texts (`curlyText`). The siblings and delimiters of a text are a function of its marks (`prose_run`); then an induction over the marks that are left, with an invariant of the stack (`Pairing`: the search for an opener always gets to the nearest one, since a matched opener stays on the stack and the bottom is only moved when there is none), gives what becomes of the nearest opener (`pairs_run`). Counterexample B28 |
| C75 | inlines.py | `Spec/Delims.lean`: the specification's procedure on a list of runs and content (`emphasised`), a stack of openers with the content after each, no nodes, no bounds. `Proofs/Delims.lean`: the invariant `Stack` relates the delimiters and siblings of `processEmphasis` to it (the openers among the delimiters are those of the procedure, in order; the siblings are their content, `Lay`; the search always gets to every opener, `reach`: a bound is only set when there is none of that character: with `NoThrees` because the search compared all, with `OneKind` because the lowest delimiter can always open, so that `odd_match` is only false when nothing was compared, `lowest`); one lemma for a use of a closer, for a closer (`Stack.close`), for what is left (`Stack.leave`), for a stretch of `Phrase`, for a link (`closeLink_segs`: the runs in its text are for themselves, those before it see one node); then induction over the text (`chunks_run`). C75_definitions: the same after reference definitions. Witness C75_threes for B22 without smart punctuation |
| C76 | dump.py | `Model/Dump.lean`: the lines of `dumpAST`. `Spec/Dump.lean`: the walk as a list (`visits`) and the fields that are shown. The lines of a node are labels and values (`fieldsOf`); no label is the beginning of another (`keys_differ`, decided over the table of labels), so the values of a label can be read back (`valuesOf_labelled`), and a node ends at its line `Children:` (`dumpNode_split`). Witnesses C76_level, C76_nesting (B29: `dumpAST` prints containers twice and shows neither depth nor heading level) |
| C77 | HTML renderer | `Spec/Positions.lean`: HTML as a list of parts that are written with or without the attribute, and the tags with positions by recursion on the tree. Two renderers go through the same events (`Proofs/Positions.lean`): the relation `Coupled` says that they have written the same parts, the same last output and are in as many images |
| C78 | HTML renderer | as C77, with the relation `SafePair`: the last output is a newline in both modes or in none (`Proofs/SafeParts.lean`); that no raw HTML of a parsed document is a single newline comes from C53 (`source_raw`) |
| C79 | node.py | The state of the walker before an event is determined by the event, so C18 gives the rest of the walk from there (`gives_at` in `Proofs/Walks.lean`). Unlinking a node at its last event leaves the events after it (`unlink_docOrder`); induction on the remaining events with the heap, the lists of children and the tree as invariant (`sweep_from`). For nodes that are put in, a tree in which one node is replaced by a list of trees (`Shape.subst` in `Proofs/WalkEdits.lean`) has these in its document order, and the pointers describe it (`insert_tree`). |
| C80 | blocks.py | No step of the block phase changes the closed blocks of the document, other than by adding one or by setting the flag of the last one (`based_step`, `based_lines` in `Proofs/Stream.lean`), and at the end of the input at most one more is closed (`ended_closing`). The inlines of a block depend only on its content and on the definitions; rendering as in C55. |
| C81 | inlines.py, blocks.py | The only place where definitions are looked up, `referenceLink`, asks for a label that stands in brackets in the text: what `parseLinkLabel` matched, or what is between the opening bracket on the stack and the closing one (the stack invariant `SInv` of C46 says that its entries point at brackets). So two tables that agree on those labels give the same inlines (`parseInlines_uses`, `inlinesList_uses` in `Proofs/Uses.lean`); the blocks as in C72 and C80. |
| C82 | html.py, renderer.py | The renderers for all values of the option run together, event by event: their states are given by one record of what they have written, with the soft line breaks marked (`SoftRun.at` in `Proofs/Soft.lean`). Anything that all writing operations keep is kept by all events but soft line breaks (`KeptBy`, `event_keeps`); used once for the number of parts and once for the marks, the second time along the tree (`tree_calm`). What is written for a soft line break is pinned by comparison with custom inlines (`customSofts`), event by event. |
| C51 | `renderHtml` | every tree of `parse` has the attributes the renderer reads; induction over events |
| C52 | inline functions, one-paragraph documents | independent grammar of text (`Spec/Reads.lean`), forward evaluation of the inline parser along it |
| C53 | inline functions | relation between items and stretches of text (`Spec/Source.lean`), kept as an invariant of the inline parser |
| C54 | `parseReference`, `Paragraph.finalize` | independent grammar of definitions (`Spec/Refs.lean`), both directions |

## Tests of the theorems with wrong programs

`tools/mutate.py` takes a list of edits of the model. For each it edits a scratch copy, rebuilds, replaces each lemma that fails by
`sorry` in the scratch copy so that the build goes on, and then reports which property theorems fail or depend on a failed lemma.
`seeded/LOG.jsonl` has one line per edit. An edit that no theorem noticed led to a new or stronger theorem, named under `tightened`.
The second kind of failure can overstate (a lemma may only need another proof), so for edits whose claim was not among the theorems
that failed themselves the statement was also read against the edited program.
The last batches (the entries for C76, C77, C78 and C82 at the end of the log) were built with `--props`: theorems in other modules
were not tried against them. Reading C82 in this way showed two edits of which its statements stay true although their proofs broke;
`C82_custom` was added for them.

## Disagreements between code and property (recorded, proved as counterexamples)

B1 `&#1;` before a newline raises IndexError (C02). B2 failed inline link is not rewound (C30).
B3 `title == ''` (C31). B4 `&copyfoo;` (C26). B5 rst heading crashes (C39). B6 empty paragraphs (C45).
B7 Unicode digits in list markers (C46). B9 text ending in a bare CR (C14). B10 autolink in link (C29).
B11 raw HTML in image descriptions (C07). B12 dumpJSON does not nest (C38). B13 shared default options
(C17). B16 unanchored alternatives of reUnsafeProtocol (C09).
B23 the paragraphs of a list item run together in the
reStructuredText, B24 only the first line of a code block gets the indentation of its containers there, B25 the
underline of a heading is as long as its first inline (C66).
B22 in `processEmphasis` (inlines.py:384-396) `odd_match` is computed for every delimiter that is walked
over, whatever its character, and the last value decides whether `openers_bottom` is set: an unrelated
earlier delimiter, a quotation mark in smart mode for example, changes which emphasis is found (C60, C75: `b *c**d e*` has
emphasis, `__b *c**d e*` has none).
B29 `dumpAST` prints every node with children twice, all nodes but the root with the same indentation, and no heading levels (C76).
B26 a reStructuredText renderer that raised at a heading inside a block quote, list item or image indents all
later documents (`indent_length` is only reset by the constructor) (C70); B27 a fenced code block or HTML block that
its end mark closes has the length of the line before as its last column (`finalize` uses `last_line_length` before it is
set) (C71); B28 with smart punctuation, single quotation marks inside of others are paired, but the outer ones are not:
`'a 'b' c'` gives `’a ‘b’ c’`, since a matched opener stays on the stack of delimiters (inlines.py:450-460, C74).

Disagreements between the code and the specification of CommonMark that were found on the way; the
properties concerned are stated so that they describe the code (with its rule visible in the statement):
B14 punctuation outside the basic plane is not punctuation for flanking (reading of the pattern of
`rePunctuation`, inlines.py:36). B15 `strip()` removes any white space, such as U+00A0, from the ends of paragraphs
and headings (C52, C53 and C57 are about `strip` of the lines). B17 `[a](foo(bar ))`: a destination with
unbalanced parentheses is taken up to the space. B18 `[foo]: /url` followed by `"" ok` is no definition
(C31). B19 a line of spaces in a list item loses spaces that belong to fenced code (C56 leaves such lines
out). B20 a definition before blank lines changes the tightness of the item that contains it. B21 the
tag names of HTML blocks of type 6 contain `h1` only (`reHtmlBlockOpen`, C59).
