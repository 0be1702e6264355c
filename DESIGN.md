# Design: a Lean 4 model of asciidocr

Reading order: `properties.jsonl` (the properties), `MANIFEST.json` (status, theorem names and what is missing, per
property), `lean/Verif/Spec` and the `Spec` sections at the top of `lean/Verif/Props/*.lean` (the vocabulary of the
theorems), `lean/Verif/Props` (the theorems), `lean/Verif/Model` (the model), `lean/Verif/Proof` (lemmas).

## Trusted base

* Lean 4.33.0's kernel and the axioms `propext`, `Classical.choice`, `Quot.sound`. The appendix lists the axioms of
  every theorem named in `MANIFEST.json`, as `#print axioms` reports them. No axioms are added. No `sorry`, `admit`,
  `native_decide` or `bv_decide`. `decide +kernel` is used for concrete witnesses and examples; the kernel evaluates
  these.
* The reading of the Rust source that the model makes. The source was read as text, never compiled or run here.
  Every definition cites the file and lines it follows.
* The specifications, that is the definitions that appear in the statements of the theorems.

## Shape of the model

Source text is `List UInt8`: the Rust code indexes bytes, and `is_char_boundary` is the byte test that the standard
library uses. Strings in tokens and in the graph are `List UInt8` as well.

Outcomes are data: `M α = Except Fail α`. A Rust panic (`todo!()`, `unreachable!()` and the like, `unwrap` of nothing,
slice or index out of range, slice off a character boundary, arithmetic overflow as in a debug build, division by
zero), a loop that never ends, `process::exit` and an `Err` value are separate constructors of `Fail`, so that
"returns" and "does not panic" are statements about values. In a release build arithmetic overflow wraps instead of
panicking; the theorems that mention an overflow panic (C18, C26, C42) are about the debug build.

A function that changes `self` returns the new value. A loop is structural recursion or recursion on fuel; where fuel
could matter, running out is `Fail.hang`, and theorems are stated for every amount of fuel or show that it suffices.

| Model | Rust source | Coverage |
|---|---|---|
| `Model/Basic` | `str`, `slice`, `parse::<i32>`, `trim`, `HashMap` as used | bytes; association lists for maps |
| `Model/Token` | `src/scanner/tokens.rs` | all non-test code |
| `Model/Scanner` | `src/scanner/mod.rs` | all non-test code |
| `Model/Location` | `Location` in `src/graph/nodes.rs` | all |
| `Model/Metadata` | `src/graph/metadata.rs`, `src/utils.rs`, `AttributeType` | all; regular expressions as functions on bytes |
| `Model/Inline` | `src/graph/inlines.rs` | all but constant fields and variants that are never built |
| `Model/Block` | `src/graph/blocks.rs`, `src/graph/lists.rs` | all but constant fields and variants that are never built |
| `Model/Asg` | `src/graph/asg.rs`, `Header` in `src/graph/nodes.rs` | all |
| `Model/Parser` | `src/parser.rs` | all non-test code; the file system is a parameter (`World`) |
| `Model/Render` | table rows and text runs in `src/backends/docx/document.rs`; row logic of `templates/htmlbook/tables.html.tera` | these parts only |
| `Model/Html` | `src/backends/htmls.rs`, all of `templates/htmlbook/*.tera` | translated by hand to functions on the graph, byte for byte; `Props/Tera` proves that the translation agrees with running the texts |
| `Model/Tera` | Tera 1.20 | the part of the language that the templates use, after its documentation: reading texts, running programs |
| `Model/Templates` | `templates/htmlbook/*.tera`, `src/backends/htmls.rs` | the texts byte for byte, the values given to the engine |
| `Model/Docx` | `src/backends/docx/{mod,document,styles}.rs`, `CHARREF_MAP` in `src/graph/substitutions.rs` | which paragraphs, tables, pictures, runs, styles and numberings are handed to docx_rs |
| `Model/Cli` | `src/bin/asciidocr/cli.rs`, `main.rs` | choice of the destination only |
| `Model/Message` | `src/errors.rs`; `src/bin/asciidocr/main.rs:28-31, 56-71` | messages; texts that some errors carry are an argument, characters outside of ASCII are not escaped |
| `Model/Run` | `src/bin/asciidocr/main.rs`, `cli.rs`, `backends/docx/mod.rs:18` | a whole run: input, parsing, counting, output, exit status; the log (it goes to standard output, before the rest) and argument parsing by `clap` are left out |

Simplifications, also stated at the definitions:

* the regex class `\w` is taken on bytes: ASCII letters, digits, `_` and all bytes from 0x80;
* `HashMap` is an association list; the code iterates over maps only to merge them;
* `Header::document_id` lower-cases ASCII letters only and keeps bytes from 0x80;
* `token.line as i32` is exact (fewer than 2^31 lines), and `usize` does not overflow;
* scanner reads at positions after an ASCII byte use a total version of `peeks_ahead` (`Proof/Utf8` proves that such
  positions are character boundaries in UTF-8 text); the loops that can start off a boundary keep the panic;
* `World.resolve` stands for `resolve_target` (origin directory, parents of the including files, `canonicalize`) and
  `World.read` for `fs::read_to_string`: two functions, so the file system does not change during a run;
* the headers of `Model/Html` and `Model/Tera` list what is taken for granted of Tera (no escaping for names that end in `.tera`,
  white space control, false values, scopes, `nth`, `int`, errors); `cols | int` takes decimal digits only in `Model/Html`;
* in the docx model a style definition has its id and the ids it refers to, without fonts and measures; an image that can be
  read is a picture of its target, without size; the run model of `Model/Render` (C40) leaves out text replacements, which
  `Model/Docx` has.

* `Model/Json` gives the derived serde implementations (field order, `skip`, `rename`, `untagged`) and `to_string_pretty` after
  their documentation; the order of a `HashMap` is a parameter.

Not modelled: the code of the Tera engine, docx_rs,
measures of pictures in docx, styles and defaults that the docx library adds by itself, the space after attributions, page set-up, the zip file, `log` output, clap's argument parsing, reading and writing
files, memory limits.

## Check of the model against the project's fixtures

`tools/validate.py` runs the *model* (not the Rust code) on the 100 cases of `tests/{block,inline,document,offset}_tests.rs`
and compares the JSON output with the expected JSON in `/repo/tests/data`; all agree. It also compares the pages of the HTML model, by
the translation and by running the templates, with the 27 expected HTML pages there, without white space, and the texts of the
templates in the model with the files; all agree. This is a test of the reading, not a
proof.

## How each property is proved

| Id | How |
|---|---|
| C01 | every step's lexeme is the slice it consumed; induction over the trace of the scanner |
| C02, C03 | case analysis of `next`; every branch ends with the cursor past its start; fuel suffices |
| C04, C05 | invariants on the line and column counters over the trace |
| C06 | the cursor stays on character boundaries; slices between boundaries are encodings |
| C07 | false: witnesses; `C07_returns_partial` for texts whose constructs are closed |
| C08 | simulation between the scan of a suffix and the scan of the whole; witness for tags |
| C09, C10, C11 | case analysis of the dispatch, both directions; loop lemma for runs of `=` |
| C77 | `Spec/Places`: places of a text; `Proof/Places`, `Proof/PlacesParser`: an invariant over all parser handlers; `C77_tokens` for the scanner |
| C78 | every way to add a block consolidates it; `parse_rel` gives the ways in which the graph arises |
| C79 | `feed_image`, `feed_missing` in `Proof/RichBox`; `parse_missing` in `Proof/RichDoc` |
| C80 | `Proof/RichTable`: text is read the same way after any token (`past_dispatch`) and from any place (`feed_moved`), so the tokens of a cell are read as those of a paragraph; `RowsAt`: on which line each cell is (from `Lined` of `Proof/RichScan`); `table_info`: the columns and the header; `feed_table` |
| C81 | `Proof/RichDlist`: `feed_entry` for the first entry, `another_entry` for a term after a description (the text after the newline is taken back from the description: `bareL_split`), `feed_entries`, `feed_dlist`; the parser keeps newlines as texts of their own after a description list (`Flow.kept`), so text of several lines is not allowed after one |
| C82 | `Proof/RichInclude`: `Reads` and `ReadsAll` say what it means that a part or parts of a file are read; `reads_block`, `reads_file` (the tokens of the file come from `run_signs` with the stack of files, `include_step` is the directive, `Left` is the parser after it) and `reads_all`, put together by induction on the depth in `feed_parts`; `Ended` in `Proof/RichSteps` says what happens at the end of a file |
| C83, C84 | `Proof/RichCode`: `InCode` is the parser inside a listing; `code_tokens`, `code_callout` and `code_file` are what each part does to it, `code_parts` puts them together, `feed_code` adds the delimiters; `feed_colist` is the callout list |
| C85, C86 | `Proof/RichOut`: what is read and written of a graph depends on its listed blocks one by one and not on locations; `Proof/RichPage`: what there is to read in the meaning of a block is the text of its source (`Spec/RichPage`); `page_of_contents` puts C23, C60, C62, C64, C65 and C66 together |
| C87 | `Spec/Dom` reads the bytes of a page as elements with attributes and says what the tree of a graph is; a predicate on pieces of output is closed under concatenation and wrapping, then structural induction on the graph (`Proof/Dom`). `Spec/RichDom` unrolls a document of the class block by block; `Proof/RichDom`: the tree of a graph depends on its listed blocks and the number of sections around each |
| C88 | `Spec/Ink` gives every byte of a paragraph the spans around it and says what these ask for; the runs of inlines carry them (induction on inlines, `Proof/Ink`), and the steps of the writer (as for C54) give the paragraphs, cells and pictures in order. From the source: what is asked for does not depend on locations and can be told block by block (`Proof/RichInk`); the same for page breaks, styles and numbers (C86) |
| C98 | error lemmas for every handler of the parser (`Er`), an induction over includes and cells for the place of the token, and a pass over the scanner for what stands at it |
| C99 | `Proof/Cont`, `Proof/ContFeed`: the flag for an open continuation makes no difference for the blocks in an attached box (a simulation, function by function); `Proof/RichAttach`: items, the line with the plus sign, the delimiters and the end of a list with attached boxes |
| C100 | `Model/Message`; bytes of a quoted target are a prefix code (checked for all pairs of bytes), numbers end at the colon |
| C101 | the state after a document of the class is known, with its blocks in the graph except for the section that is still open; whatever is fed then only adds to the graph (`Steps` of `Proof/ParserInv`, `Kept` in `Proof/RichBefore`); signs of a line do not depend on later lines (`Proof/RichExtend`) |
| C102 | the handlers look at the graph only to put something into it: one pass over all of them (`Proof/Frame`) shows that they do the same with another graph, if putting blocks into it commutes with the change; the state after a document of the class is the same for all documents, but for the graph (`doc_state` in `Proof/RichAfter`); the tokens of what follows are the same by C08 |
| C103 | C07 for the scanner, C49 for the form of its tokens: where marks are absent or harmless, all of them are tame (C42), so that parsing returns and asks for no file; by C67 the graph has no tables and images, so that C58 and C65 give the output |
| C104 | the invariant of C67, which also says that no attribute is in a map twice |
| C105 | an invariant over the steps of C52–C59: every definition is one that the writer generates and every paragraph has a style of the writer; `Spec/Looks` finds the look along the definitions |
| C106 | C62 and C54 with the same text in between, where the two specifications of what there is to read agree |
| C107 | C23 and C82, and that neither writer looks at locations (Proof/Unplaced) |
| C108 | C23, and that a page is put together from the pages of its blocks (Proof/Edit) and that no step of the Word writer looks at what is already written (Proof/EditWord) |
| C109 | the steps of the Word writer (Proof/DocxOps): none of them looks at a text to choose a style |
| C110 | induction over blocks (Proof/Weave): every template part is fixed text around rendered texts |
| C97 | C85, C87, C88 and C90 for the graph, C94 for `-x` and the room for inclusions, and the cases of a run |
| C96 | one pass over the handlers (`Proof/Shape`), with what the scanner says about the text of each token (`Proof/ShapeScan`) |
| C95 | cases of the model of a run (`Model/Run`) |
| C94 | one pass over the handlers (`Proof/Wider`): they commute with setting the flag; worlds and fuel are compared where they are used |
| C93 | the tokens of the text with references and of the text without them are fed to two parsers side by side; the states stay the same up to locations and up to how the last text is split (`Proof/FilledSteps`, `Proof/Filled`) |
| C92 | invariant of the stack (each block may stand on the one below it, `Stands`) and of all blocks (`Deep`) over all handlers (`Proof/KindsBlock`, `Proof/Kinds`); the markers of items and the absence of continuations from the scanner (`Proof/KindsScan`) |
| C91 | the texts of the templates are read to programs by evaluation (`Proof/TeraProgs`); each macro is run on the JSON value of a node (`Proof/TeraInline`, `TeraBlock`, `TeraTable`), calls by induction on their depth (`Proof/Tera`) |
| C89, C90 | `Spec/JsonRead` reads values by names; on the value of a graph every lookup gives the member it asks for (`look`, induction on blocks, fuel by depth, `Proof/JsonRead`); with C72 from the text. From the source: what is shown of a block does not depend on locations and commutes with listing (`listedL_shown`), then as C23 and C84 |
| C12, C13 | order theory and sorting lemmas on `cmp` and `reconcile` |
| C14, C17, C23, C24, C44, C48 | symbolic execution of scanner and parser over arbitrary plain lines, induction on lines, groups and headings; `Spec/Plain` and `Spec/Outline` are the specifications |
| C15, C16, C22, C28, C32 | invariants over all parser handlers, induction on tokens and include depth |
| C18, C19, C46, C47 | decision logic and list lemmas |
| C20, C21 | induction on the enclosed tokens; frame properties |
| C25, C26, C27 | refinement of set-based specifications |
| C29, C30 | decision logic on metadata and attribute lists |
| C31, C33, C34, C35, C36 | structural induction on blocks and inlines |
| C37, C38, C39 | list lemmas on cells and rows |
| C40 | structural induction on inlines |
| C41 | decision logic |
| C42 | invariant between tokens (`Proof/NoPanic`): every handler returns and keeps it |
| C43 | symbolic execution for all contents around a marker |
| C45 | induction on the stream |
| C49, C50, C51 | a grammar of all token types over the text before and after (`Spec/Lexical`); every arm of the dispatch is sound and complete for it; lemmas on each cursor loop |
| C52–C59 | the writer is a run of elementary steps (`Proof/DocxOps`); an invariant for each property over the steps, and structural induction on blocks for the list of steps; `Spec/Word` says what a document shows without the writer's state |
| C60–C66 | `Spec/Markup` reads HTML bytes without the writer; a predicate on pieces of output (whole tags, nested, text, ids) is closed under concatenation and wrapping in an element, then structural induction on the graph; the same with the allowed parents for C66 |
| C67, C68 | `Spec/Origin` says for every kind of node where its text comes from and which markup it needs, for an arbitrary set of available bytes; every token has it (`Proof/OriginScan`), every handler of the parser keeps it (`Proof/OriginParser`), induction on tokens and include depth; `Proof/OriginUse` derives the hypotheses of the theorems on output from source text |
| C69–C71, C76 | `Spec/Rich`, `Spec/RichDoc` describe documents by their header, blocks, metadata lines and inline elements, how they are written as signs of the lexical grammar and what they mean; `Proof/RichScan`: the scanner reads legible signs as tokens; a text is a sequence of pieces without special characters (`Run`), of pieces that begin with a character that may begin markup but does not here (`Stray`) and of brackets with blanks in them (`Spaced`); `Proof/RichClosed`: every UTF-8 text whose constructs are closed is a sequence of legible signs; `Proof/RichParse`: what the parser does with each token of a text; `Proof/RichGraph`, `RichSteps`: where a block is put; `Proof/RichFeed`: one lemma per kind of block from a state where a block can begin to the next such state; `Proof/RichFrame`: text in a header or below metadata is read as elsewhere; `Proof/RichTag`: metadata lines; `Proof/RichBox`: boxes, their title lines and the blocks in them; `Proof/RichTable`: tables; `Proof/RichDlist`: description lists; `Proof/RichCode`: listings and callout lists; `Proof/RichRemark`: newlines and comments between blocks; `Spec/Book`, `Proof/RichInclude`: documents of several files; `Proof/RichDoc`: the header, induction on the blocks, and cross references (`parse_rich`); `Proof/RichCheck` decides the hypothesis for the sample document |
| C72–C75 | `Model/Json` gives the value of a graph and its text; `Spec/Json` has a reader for JSON texts, what is shown of a graph and what a node is; `Proof/Json`: the reader inverts the writer; `Proof/JsonGraph`: values determine graphs, by induction on blocks and inlines |

## Where a property is false of the code

Each line is a theorem that evaluates the model on a concrete input. They are disagreements between the property (what
a user would expect) and the code as read; the `_partial` theorems say what remains true.

* C07: an unterminated `image:`, `include::`, `[.` or a last line `:name: value` without newline loops for ever; a lone `{a`,
  `&a`, `:a`, `<<a`, `[[a]]` or `tag::a` at the end of the text, a heading marker at the very end, and non-ASCII characters in
  links, cells, cross references and after heading markers index or slice out of range (`C07_hangs`, `C07_panics`).
* C08: the column of a closing include tag is an absolute offset (`C08_closing_tag_column_is_absolute`).
* C17: of two headings on adjacent lines the first title moves to the second section; the title of a heading that ends the
  text becomes a paragraph of its section (`C17_adjacent`, `C17_end`).
* C18: `leveloffset` with a plus sign sets the offset instead of adding (`C18_plus`); large values wrap (`C18_wraps`) or
  overflow (`C18_overflow`, `C18_heading_overflow`).
* C19: an attribute value with a colon loses what precedes the last colon (`C19_colon`); a value equal to the name becomes
  empty (`C19_same`); a reference in link text is not replaced (`C19_in_link`).
* C20, C23: text directly before or after a verbatim block becomes part of it; adjacent listings come out reversed
  (`C20_text_before`, `C20_text_after`, `C23_false`).
* C21, C24: text directly before a comment block is lost; paragraphs after a block title are lost; a comment block takes
  pending metadata with it (`C21_text_before`, `C21_metadata`, `C21_newline`, `C21_block_newline`, `C21_before_title`: a title after a comment is an error; `C24_false`, `C24_comment`).
* C25: an empty `lines` value selects every line (`C25_empty_selects_all`), `lines=0..` none (`C25_from_zero`). C26: `a..` before other entries is dropped; the
  bound 2147483647 overflows (`C26_open_not_last`, `C26_overflow`). C27: nested selected regions (`C27_nested`,
  `C27_nested_scan`).
* C29: merging metadata loses the newer roles and takes options as roles (`C29_roles_lost`). C30: positions shift, an entry
  is invented, two panics (`C30_position_shift`, `C30_invented`, `C30_panics`, `C30_quote_panics`);
  quoted entries are read first, so that in `a=x,a="y"` the earlier entry wins (`C30_order`);
  and `[source,ruby,alt="p"]` neither declares a listing nor sets its language (`C30_language_lost`).
* C31: cross references inside spans stay unresolved (`C31_nested`). C33, C34: footnote numbers restart in sections, breaks
  panic, nested footnotes are not extracted (`C33_sections_restart`, `C33_break_panics`, `C34_nested`).
* C35, C36: words of adjacent blocks run together; description list terms and the titles of parent blocks are not in
  the text (`C35_adjacent`,
  `C36_terms_missing`).
* C37: the header test looks at the line of the first row, not for a blank line; two cells on two lines end the process
  (`C37_header_without_blank`, `C37_exit`). C38: the last row is missing from docx tables, no columns divide by zero
  (`C38_last_row_lost`, `C38_no_columns`). C39: one-column HTML tables without a header put two cells in
  the first row (`C39_one_column`).
* C40: formatting leaks to later text and superscripts drop it (`C40_leak`, `C40_super_drops`).
* C42: eight ways to panic or exit (`C42_*_panics`, `C42_table_exits`). C43: after a blank line an unclosed marker is gone;
  an unclosed `+` comes out as a backtick (`C43_blank_line`, `C43_plus`). C44: in a one-item list at the end of a text after
  a blank line the principal text becomes a paragraph of the item (`C44_last_item`);
  items of another kind are mixed up with what is around them (`C44_nested`). C47: `n*` with two digits is left as it is, a two-byte character panics (`C47_two_digits`,
  `C47_panics`).
* C49, C50: not false, but surprising rules: a marker after a letter outside ASCII opens, admonition labels and `'''` count inside
  lines, URLs end at `-` and run over line ends; a cross reference with a character outside ASCII panics
  (`C49_marker_after_letter_outside_ascii`, `C49_block_markers_inside_lines`, `C49_url_extent`,
  `C50_reference_outside_ascii_panics`).
* C107: a comment before the title, a blank line between the items of a description list, and a comment block without a blank line
  after it change the outputs.
* C108: a link in place of a paragraph moves what follows it out of the section; in Word a listing in place of a paragraph
  changes the style of the next one.
* C106: labels of admonitions, thematic breaks, references without a text, attributions, titles of quotations and text between
  angle brackets are not the same in HTML and Word.
* C52, C105: thematic breaks use a style that is not defined, so they are neither centred nor bold. C53: pictures and tables do not start a new page; the paragraph after
  them does. C54: captions, titles of tables and quotations and terms of attached description lists are not written. C55:
  styles leak to later paragraphs. C56: numberings of ordered lists and of later unordered lists are not defined. C57: `&ndash;`
  gives an em dash, `&nbsp;` a space, `&sect;` is left. C58: no columns divide by zero. C59: lines of code are joined
  (`C52_thematic_break`, `C53_picture`, `C53_table`, `C54_*_lost`, `C55_after_*`, `C56_*_undefined`, `C57_wrong_character`,
  `C57_section_sign`, `C58_no_columns`, `C59_lines_joined`).
* C60, C61: text and attribute values are not escaped. C62: titles of tables and texts for inline images are lost. C63: all headings
  have rank 1. C64: ids of paragraphs, lists and boxes are lost. C65: tables with one cell or none, and column counts that are no
  positive number, panic. C66: lists directly in admonitions lose their wrapper, header cells are in no row (`C60_text`,
  `C60_attribute`, `C61_*`, `C62_*_lost`, `C63_same_rank`, `C64_paragraph`, `C64_box`, `C64_image_in_admonition`, `C65_one_cell`,
  `C65_no_cells`, `C65_columns`, `C65_zero`, `C65_short_header`, `C66_admonition_list`, `C66_header_cells`).
* C68: a paragraph directly before a delimiter becomes a quotation if metadata follows; every word that begins with `http` is a link and
  takes the rest of the paragraph as its text (`C68_quotation`, `C68_http`).
* C69: a link or cross reference ends the section around it, or the next one (parser.rs 906, 943, 976, acted on at 478-481), and a
  heading after a sidebar or an admonition becomes part of it (asg.rs 90, blocks.rs 75 and 140-155) (`C69_link_ends_section`,
  `C69_link_before_heading`, `C69_section_in_sidebar`, `C69_section_in_admonition`).
* C70: adjacent spans, spans on consecutive lines, spans three levels deep, links in spans, references at the beginning of a
  line and URLs without brackets (`C70_second_line`, `C70_adjacent`, `C70_three_levels`, `C70_link_in_span`,
  `C70_newline_reference`, `C70_bare_url`). A span after or around a footnote in the same text stops the program
  (`C70_span_after_footnote`), a newline before a footnote goes into it (`C70_newline_footnote`), a link in a footnote ends it
  (`C70_link_in_footnote`), and a newline before an image goes behind it (`C70_newline_image`).
* C77: the end of an attribute reference is computed from the length of its value (parser.rs 964), so it may lie
  behind the end of the line or before the beginning; a hyperlink over a line end does not count the line
  (`C77_attribute_reference`, `C77_empty_attribute`, `C77_spanning_token`).
* C78: blocks in other blocks are closed without consolidating their inlines, so the locations of sections and documents may end
  in the middle of a line; after a block continuation the text of the next item is outside the list (`C78_in_section`, `C78_not_last`).
* C79: a role before an image with attributes of its own is lost (metadata.rs 170 adds the options of the other metadata to the roles, not the roles); images in boxes and
  directly after paragraphs come before them; cross references in the titles of images are not resolved; inline images are accepted without a file
  (`C79_role_lost`, `C79_order`, `C79_reference_in_title`, `C79_inline`).
* C80: a cell with a character that is not ASCII makes the program panic; without metadata, the program exits if the first two cells are on lines of their own; text on the line
  after a cell and bars in spans are joined to the cell; a paragraph directly before a table goes into its first cell; text directly after a table, a heading after it, lists in cells,
  column spans and tables in sidebars are errors (`C80_panic`, `C80_exit`, `C80_next_line`, `C80_bar_in_span`, `C80_text_before`, `C80_errors`).
* C81: a term that ends with `end` or `tag` (such as `legend:: a`) makes the program panic, and `include:: a` and `image:: a` make it run forever; if a term after the first begins with
  markup, the description before it becomes part of it; with a title line before the list, all descriptions are lost; the second line of a description becomes part of the next term; lists in
  descriptions are nested wrongly; a blank line between entries makes two lists; an anchor directly before the list puts a newline into the first term; paragraphs after the list are split at
  their newlines; cross references in terms do not show titles (`C81_panic`, `C81_hang`, `C81_markup`, `C81_title`, `C81_second_line`, `C81_list`, `C81_blank_line`, `C81_anchor`, `C81_metadata`,
  `C81_paragraph_after`).
* C83: an arrow in a file that is included in a listing becomes a character reference, which is shown as such; tag lines in the file are shown partly and without newlines; a callout with the
  attribute `icons` set to true panics; of two callouts on a line only the last is one; callouts are also numbers in paragraphs (`C83_arrow`, `C83_tag_lines`, `C83_icons`, `C83_two_callouts`,
  `C83_paragraph`). C84: a callout list on the line after a list or a paragraph takes it in, a blank line between the items makes two lists and moves text, a list in an item takes its text
  (`C84_after_list`, `C84_after_line`, `C84_blank_line`, `C84_list`).
* C85: text in angle brackets and titles of tables cannot be read on the page (`C85_angle_brackets`, `C85_table_title`).
* C87: a `<` in a text or a quotation mark in a role changes the elements of the page (`C87_angle_bracket`, `C87_quotation_mark`).
* C88: formatting goes on after a span inside a span, and a script inside a span loses the formatting of the span (`C88_leak`, `C88_script`).
* C82: text on the line after an include directive gets a newline before it; a section that begins in a file ends with the file if no section was open before; the text of a list with one item at
  the end of a file (without a blank line) is put below the item; cells that are included in a table come before the table; a listing that is not closed in a file takes all the text after the
  directive; a file with a document title cannot be included, not even at the beginning; a file that includes itself is read without end (`C82_next_line`, `C82_heading`, `C82_item`, `C82_cells`,
  `C82_unclosed`, `C82_title`, `C82_itself`).
* C76: an anchor leaves a newline for the paragraph after it (parser.rs 463-489); pending metadata goes to the next span or
  paragraph that is made, or to the block on the stack (parser.rs 856-860, 1401-1410, 1464-1467); a second list below a style and
  a fourth entry of a quotation reach a `todo!` (metadata.rs 218-223) (`C76_anchor_paragraph`, `C76_role_to_span`,
  `C76_role_to_paragraph`, `C76_role_to_section`, `C76_two_styles`).
* C71: blocks in blocks are turned inside out, and breaks are moved out of a block (`C71_nested`, `C71_order`, `C71_break`); the text of an item directly before the last delimiter is outside of the item (`C71_list_at_end`); delimited admonitions in each other come out in the wrong order (`C71_admonitions`). C70: styled text in the last item of a text makes a paragraph of it (`C70_styled_item`).
* C30: a hyphen ends the name of a quoted entry, `x-y="a"` is read as an entry `y` and an unnamed entry `x-` (`C30_hyphen`).
* C96: a comment block that is never closed is not dropped but shown as a listing (`C96_comment_not`); a quotation written as a paragraph has the
  empty delimiter (`C96_quotation_not`); any bracket line that begins with N, T, I, C or W is read as an admonition (`C96_bracket`).
* C95: with the Word backend the output file is created before the document is made; if a picture cannot be read or a table is malformed, the program panics and
  leaves an empty file in place of an earlier output (`C95_word_not`). With `-c` and JSON on standard output, the output is not JSON (`C95_count_json`).
* C93: references and quotes in the texts of links stay as they are written, in the title of a document they end the title, and references in verses stay as they are written
  (`C93_link_not`, `C93_title_not`, `C93_verse_not`); a reference to an attribute without a value leaves a text without characters (`C93_empty_value`).
* C41: if the input is called `x.html` (or `x.json` with the JSON backend) and no output is named, the input is written over (`C41_overwrites`).
* C92: with block continuations lists and items come to stand in lists of another kind, and lists in description lists (`C92_continuation_not`); the last term in a delimited block, a cell outside
  of table delimiters and an item after a heading that ends with a URL stand outside of lists and tables (`C92_outside`, `C92_open_sample`).
* C74: attributes are kept in a `HashMap`, whose order differs between runs (`C74_two_attributes`).
* C98: a heading that is too deep in a cell is reported for line 1; a name in brackets before a thematic break, a `leveloffset`
  that is not a number and a cell that does not begin with a bar are errors without a line; an error in an included file does
  not name the file; a verse block with only an empty line is an error (`C98_cell_line`, `C98_nowhere`, `C98_included`,
  `C98_empty_verse`).
* C75: `TableCell.node_type` is not renamed to `type` (blocks.rs 1269-1277) (`C75_table`).

Found by reading and not stated as theorems: a level offset set inside an include stays in force after it; a file that
includes itself recurses without bound.
* C99: an attached paragraph becomes a part of the text of the item, the next item loses its text, or the conversion fails
  (`C99_paragraph`, `C99_paragraph_end`, `C99_description_list`); in attached blocks newlines are lost (`C99_lines`); a block
  attached to the first item of a list after a paragraph and a blank line before the plus sign are errors (`C99_first_item`,
  `C99_blank_line`); attached listings reach a `todo!` (`C99_listing`); after an attached break, and in boxes in attached boxes,
  blocks come to stand outside of the list (`C99_break`, `C99_inner_box`).
* C95: the log is written by `simple_logger` without its feature `stderr`, that is to standard output; with `-o -` a warning, for
  example for a missing attribute, comes before the page or the JSON text (`C95_warning`). This rests on the documentation of
  `simple_logger`; its source is not in the repository.
* C100: messages do not name the file (`C100_file`); errors without a line can have the same message (`C100_same_message`).
* C101: in a section, text after a continuation and a cell is added to the title of the section (`C101_title`); what comes after a
  delimited block that is not closed is put before the section (`C101_unclosed`). C71: a verse ends at a blank line
  (`C71_verse_blank`).
* C102: a description list changes how line ends in all later paragraphs are read (`C102_dlist`), so that a later text may panic
  (`C102_panics`); after a cross reference before the first heading, the next section ends after one block (`C102_ref`); a section
  after a delimited block is put into it (`C102_box`).
* C103: eighteen short texts that crash the program, one for each condition of the positive theorem (`C103_needed`).
* Smaller ones, seen when documents were run through the model: `* a` and then `** b` reads `**` as a marker of strong text, so there are no
  nested lists of this sort; `[verse]` before a plain paragraph leaves it a paragraph; `----`, `a image:b`, `----` hangs although the text is in a listing; a
  link in a listing goes on over the ends of lines; `----`, `a << b`, `----`, a blank line and `c >> d` are all one listing, because the reference
  is read across the delimiter; in `== a: b` right before `====` and `. c` the heading's text goes to the list item.

## Mutation tests

`seeded/LOG.jsonl` has one line per fault seeded in a scratch copy of the model. `failed` lists the declarations that no
longer compile; modules behind a failed one are not rebuilt, so a list naming only a lemma means that the proofs stop at
that lemma, not that the property theorems were tried.

## Appendix: axioms of each theorem

Names are in the namespace `Adoc.Props`.

No axioms:

`C13_files_not_distinguished`, `C36_terms_missing`, `C38_one_column_short`, `C40_leak`, `C100_same_message`

propext:

`C04_spanning_token_shifts_lines`, `C07_panics`, `C07_hangs`, `C08_closing_tag_column_is_absolute`,
`C10_swallows_following_character`, `C17_adjacent`, `C17_end`, `C18_wraps`, `C18_overflow`, `C19_define_partial`,
`C19_colon`, `C19_same`, `C19_in_link`, `C20_text_before`, `C20_text_after`, `C21_before_title`, `C21_block_newline`,
`C21_inner_partial`, `C21_line_partial`, `C21_newline`, `C21_text_before`, `C21_metadata`, `C23_false`, `C24_false`,
`C24_comment`, `C25_everything`, `C25_empty_selects_all`, `C25_from_zero`, `C26_overflow`, `C27_nested`,
`C27_nested_scan`, `C29_options_partial`, `C29_roles_partial`, `C29_roles_lost`, `C29_token_keeps_partial`,
`C30_language_lost`, `C30_order`, `C30_hyphen`, `C30_position_shift`, `C30_invented`, `C30_panics`,
`C30_quote_panics`, `C31_resolved_partial`, `C31_nested`, `C33_sections_restart`, `C33_break_panics`,
`C34_extracted_partial`, `C34_nested`, `C35_empty`, `C35_adjacent`, `C36_text_partial`, `C37_header_without_blank`,
`C37_exit`, `C38_no_columns`, `C39_each_once`, `C40_runs_partial`, `C40_super_drops`, `C42_span_panics`,
`C42_footnote_panics`, `C42_attached_listing_panics`, `C42_anchor_panics`, `C42_offset_panics`,
`C42_attribute_panics`, `C42_callout_panics`, `C42_table_exits`, `C43_blank_line`, `C43_plus`, `C44_last_item`,
`C44_nested`, `C46_link_partial`, `C47_panics`, `C48_place`, `C48_demoted`, `C52_thematic_break`, `C53_picture`,
`C53_table`, `C54_caption_lost`, `C54_table_title_lost`, `C54_quote_title_lost`, `C54_attached_terms_lost`,
`C55_after_leaf`, `C55_after_block`, `C55_after_attached`, `C55_after_inner_box`, `C56_ordered_undefined`,
`C56_second_undefined`, `C57_wrong_character`, `C57_section_sign`, `C57_source`, `C58_no_columns`, `C59_listing`,
`C60_text`, `C60_attribute`, `C61_sample`, `C61_verbatim`, `C61_script`, `C61_listing`, `C62_table_title_lost`,
`C62_table_title`, `C62_inline_image_text_lost`, `C63_level_partial`, `C63_same_rank`, `C64_paragraph`, `C64_box`,
`C64_image_in_admonition`, `C65_one_cell`, `C65_no_cells`, `C65_columns`, `C65_zero`, `C65_short_header`,
`C66_admonition_list`, `C66_header_cells`, `C67_added_needed`, `C68_quotation`, `C68_http`, `C69_link_ends_section`,
`C69_link_before_heading`, `C69_section_in_sidebar`, `C69_section_in_admonition`, `C70_second_line`, `C70_adjacent`,
`C70_bare_url`, `C70_three_levels`, `C70_newline_reference`, `C70_link_in_span`, `C70_title_line`,
`C70_span_after_footnote`, `C70_newline_footnote`, `C70_link_in_footnote`, `C70_newline_image`, `C70_styled_item`,
`C71_verse_blank`, `C71_nested`, `C71_order`, `C71_break`, `C71_list_at_end`, `C71_admonitions`, `C71_url`,
`C71_unclosed`, `C74_two_attributes`, `C75_table`, `C76_anchor_paragraph`, `C76_role_to_span`,
`C76_role_to_paragraph`, `C76_role_to_section`, `C76_two_styles`, `C77_end_of_input`, `C77_attribute_reference`,
`C77_empty_attribute`, `C77_spanning_token`, `C78_in_section`, `C78_not_last`, `C79_role_lost`, `C79_order`,
`C79_reference_in_title`, `C79_inline`, `C80_panic`, `C80_exit`, `C80_next_line`, `C80_bar_in_span`,
`C80_text_before`, `C80_errors`, `C81_panic`, `C81_hang`, `C81_markup`, `C81_title`, `C81_second_line`, `C81_list`,
`C81_blank_line`, `C81_anchor`, `C81_paragraph_after`, `C81_metadata`, `C82_next_line`, `C82_heading`, `C82_item`,
`C82_cells`, `C82_unclosed`, `C82_title`, `C83_arrow`, `C83_tag_lines`, `C83_icons`, `C83_two_callouts`,
`C83_literal`, `C83_paragraph`, `C84_after_list`, `C84_after_line`, `C84_blank_line`, `C84_list`,
`C85_angle_brackets`, `C85_table_title`, `C87_angle_bracket`, `C87_quotation_mark`, `C88_leak`, `C88_script`,
`C91_empty_head`, `C92_open_sample`, `C92_continuation_not`, `C92_outside`, `C93_link_not`, `C93_verse_not`,
`C93_title_not`, `C93_empty_value`, `C93_verse`, `C94_sample`, `C95_warning`, `C95_success`, `C95_failure_partial`,
`C95_only_destination`, `C95_count`, `C95_sample`, `C95_failure_sample`, `C95_word_not`, `C95_count_json`,
`C95_input_lost`, `C96_sample`, `C96_comment_not`, `C96_quotation_not`, `C96_bracket`, `C96_images_not`, `C98_cell`,
`C98_cell_line`, `C98_nowhere`, `C98_empty_verse`, `C98_included`, `C99_paragraph`, `C99_paragraph_end`, `C99_lines`,
`C99_first_item`, `C99_listing`, `C99_break`, `C99_inner_box`, `C99_blank_line`, `C99_description_list`,
`C100_sample`, `C100_file`, `C101_title`, `C101_unclosed`, `C102_dlist`, `C102_panics`, `C102_ref`, `C102_box`,
`C103_needed`, `C105_witness`, `C106_labels`, `C106_references`, `C106_attribution`, `C106_lost`, `C107_seen`,
`C108_title`, `C108_word_text`, `C108_link`, `C108_word`, `C109_layout`

propext, Classical.choice, Quot.sound:

`C01_lossless`, `C02_one_eof_last`, `C03_items_bounded`, `C03_scan_is_whole_iteration`, `C05_adjacent`,
`C06_lexeme_chars`, `C07_returns_partial`, `C08_local_partial`, `C09_sound`, `C09_complete`, `C10_heading`,
`C10_too_deep`, `C10_sound`, `C11_text`, `C12_reconcile`, `C12_bounds`, `C13_order`, `C13_equal_iff`, `C13_assoc`,
`C13_idempotent`, `C13_comm`, `C13_covers`, `C14_paragraphs`, `C15_levels`, `C16_deeper`, `C17_outline_partial`,
`C17_paths_partial`, `C18_absolute_partial`, `C18_minus_partial`, `C18_plus`, `C19_header_partial`,
`C21_documents_partial`, `C22_token`, `C22_prefix`, `C22_finish`, `C23_outline_partial`, `C23_order_partial`,
`C23_rich_partial`, `C24_text_partial`, `C25_file_open_partial`, `C26_ranges_partial`, `C26_open_not_last`,
`C28_files`, `C28_parse`, `C30_unquoted_partial`, `C31_titles_partial`, `C32_parse`, `C33_ids_differ`,
`C35_words_partial`, `C35_sum_partial`, `C35_blank_end`, `C38_rows_partial`, `C38_last_row_lost`, `C39_rows_partial`,
`C39_one_column`, `C41_every_path`, `C42_tame_partial`, `C44_flat`, `C47_two_digits`, `C48_title`, `C48_alone`,
`C48_header_partial`, `C49_sound`, `C49_marker_after_letter_outside_ascii`, `C49_block_markers_inside_lines`,
`C49_url_extent`, `C50_complete`, `C50_blank`, `C50_reference_outside_ascii_panics`, `C51_text_last`,
`C51_unambiguous`, `C58_source_partial`, `C60_source_partial`, `C61_source_partial`, `C62_source_partial`,
`C64_source_partial`, `C65_returns_partial`, `C65_source_partial`, `C66_source_partial`, `C67_graph`, `C67_texts`,
`C67_all_text`, `C67_metadata`, `C67_attributes`, `C68_blocks`, `C68_inlines`, `C68_metadata`, `C68_title`,
`C68_plain`, `C68_tables`, `C69_sections_partial`, `C70_inlines_partial`, `C71_verbatim_partial`, `C71_boxes_partial`,
`C71_text_partial`, `C72_read`, `C73_same_text`, `C74_same_value`, `C74_text_partial`, `C75_nodes_partial`,
`C75_source_partial`, `C76_metadata_partial`, `C77_tokens`, `C77_locations_partial`, `C78_consolidate`,
`C78_consolidateL`, `C78_blocks`, `C78_document`, `C79_images_partial`, `C79_missing_partial`, `C80_tables_partial`,
`C81_dlists_partial`, `C82_missing_partial`, `C82_missing_sample`, `C82_books_partial`, `C82_whole_partial`,
`C82_itself`, `C83_missing_partial`, `C83_missing_sample`, `C83_listings_partial`, `C83_file_partial`,
`C84_colists_partial`, `C85_page_partial`, `C85_book_partial`, `C86_paragraphs_partial`, `C86_book_partial`,
`C86_word_partial`, `C87_source_partial`, `C87_book_partial`, `C88_source_partial`, `C88_book_partial`, `C89_graph`,
`C90_source_partial`, `C90_book_partial`, `C91_templates_partial`, `C91_kinds`, `C91_source_partial`, `C91_no_tables`,
`C91_test`, `C93_filled_partial`, `C93_sample`, `C96_shapes_partial`, `C96_unchecked_partial`, `C96_paragraphs`,
`C96_images`, `C97_html_partial`, `C97_json_partial`, `C97_word_partial`, `C97_sample`, `C97_json_sample`,
`C97_word_sample`, `C98_fault`, `C98_line_partial`, `C99_attached_partial`, `C100_told_apart`, `C100_cause_partial`,
`C100_runs`, `C101_before_partial`, `C101_any_partial`, `C102_after_partial`, `C103_run_partial`,
`C103_files_partial`, `C104_once`, `C104_run`, `C104_lookup`, `C105_looks_partial`, `C105_all_partial`,
`C105_thematic_break`, `C105_kinds_partial`, `C105_kinds_title_partial`, `C105_source_partial`, `C105_book_partial`,
`C106_source_partial`, `C106_book_partial`, `C107_layout_partial`, `C107_comments_partial`, `C107_files_partial`,
`C107_split_partial`, `C107_runs_partial`, `C108_cell`, `C108_source_partial`, `C108_book_partial`,
`C108_delete_partial`, `C108_word_partial`, `C109_book_partial`, `C110_book_partial`

propext, Quot.sound:

`C01_prefix`, `C02_fused`, `C03_progress`, `C04_line`, `C04_monotone`, `C05_first`, `C18_heading_partial`,
`C18_heading_overflow`, `C19_last_partial`, `C19_reference_partial`, `C20_verbatim_partial`, `C20_graph_partial`,
`C21_block_partial`, `C25_lines`, `C25_open`, `C25_directive_partial`, `C25_directive_open_partial`, `C26_unreadable`,
`C27_regions_partial`, `C27_directive_partial`, `C29_attributes_partial`, `C29_first_id_partial`, `C30_mixed_partial`,
`C30_mixed_sample`, `C30_named_partial`, `C30_named_sample`, `C30_roles_partial`, `C30_quoted_partial`,
`C31_title_partial`, `C32_complete`, `C32_sound`, `C33_flat_partial`, `C33_document_id`, `C34_document_partial`,
`C37_derived_partial`, `C37_explicit_partial`, `C38_one_column`, `C39_one_column_rows`, `C40_covers`,
`C40_props_partial`, `C41_replaces_extension`, `C41_appends_extension`, `C41_trailing`, `C41_no_name`,
`C41_overwrites`, `C41_text_formats`, `C41_docx`, `C43_unclosed_partial`, `C45_first_error`, `C45_earlier_failure`,
`C46_target_partial`, `C47_list_partial`, `C47_star_partial`, `C52_defined`, `C52_style_references`, `C52_exactly`,
`C53_page_breaks`, `C54_order`, `C54_content_partial`, `C55_roles_partial`, `C55_roles_title_partial`, `C56_numbers`,
`C56_definitions`, `C57_replaced_partial`, `C58_returns`, `C59_lines_joined`, `C60_nested_partial`,
`C61_text_partial`, `C62_text_partial`, `C64_anchors_partial`, `C66_placed_partial`, `C66_cells_partial`,
`C80_header`, `C87_tree_partial`, `C88_covers`, `C88_looks_partial`, `C92_lists_partial`, `C92_tables`,
`C94_unchecked`, `C94_files`, `C94_keeps`, `C94_one_graph`, `C94_files_sample`, `C103_sample`, `C103_outcomes`,
`C106_alike_partial`, `C107_outputs`, `C107_words`, `C108_page`, `C108_delete`, `C110_page`, `C110_same`, `C110_size`
