{"id": "C01", "title": "Tokenizing loses no source text", "statement": "If iterating a Scanner over a source finishes without an error item and without include-tag tokens, then the lexemes of the returned tokens, concatenated in order, are exactly the source text.", "quantifier": "for every source string (any bytes of any valid or invalid length and content)", "why_tests_cant": "There are infinitely many sources and the scanner has ~60 branches with hand-moved cursors; a test only sees the sources someone thought of, while one branch that forgets to reset its cursor loses or duplicates text.", "anchors": ["src/scanner/mod.rs: Scanner::next, scan_token, add_token, add_text_until_next_markup"]}
{"id": "C02", "title": "Exactly one end-of-input token, and it is last", "statement": "A completed iteration of a Scanner returns exactly one token of the end-of-input type, it is the final item, and every further call to next() returns None.", "quantifier": "for every source string and every number of extra next() calls", "why_tests_cant": "Tests compare finite token lists; they cannot show that no branch emits a premature or a second end-of-input item.", "anchors": ["src/scanner/mod.rs: Iterator for Scanner::next, is_at_end", "src/scanner/tokens.rs: Token::new_default / TokenType::Eof"]}
{"id": "C03", "title": "The scanner always advances", "statement": "Every next() call that returns before the end of input moves the scanner strictly forward, so a source of n bytes gives at most n items before the end-of-input item.", "quantifier": "for every source string and every scanner state reachable from it", "why_tests_cant": "A scanner that stalls loops forever; no finite set of samples rules a stall out.", "anchors": ["src/scanner/mod.rs: next, scan_token"]}
{"id": "C04", "title": "Token line numbers", "statement": "The line number of a token is 1 plus the number of newline characters before it in the source, provided no single token spans a newline and no include tags occur; in general line numbers never decrease.", "quantifier": "for every source string and every token returned", "why_tests_cant": "Location drift depends on arbitrary token interleavings before the token; tests check short prefixes.", "anchors": ["src/scanner/mod.rs: add_token, add_tag, next", "src/scanner/tokens.rs: Token"]}
{"id": "C05", "title": "Token columns tile each line", "statement": "Within a scan without include tags, the first token on a line starts at column 1, each token's end column is its start column plus its byte length minus 1, and the next token on the same line starts one column later.", "quantifier": "for every source string and every pair of adjacent tokens", "why_tests_cant": "Column arithmetic is done by a mutable counter over the full history of the line; samples cannot cover all histories.", "anchors": ["src/scanner/mod.rs: add_token, startcol handling"]}
{"id": "C06", "title": "Lexemes never split a character", "statement": "If the source is valid UTF-8, every lexeme returned is valid UTF-8: it is the encoding of a contiguous run of the source's characters.", "quantifier": "for every sequence of Unicode characters used as source", "why_tests_cant": "The scanner moves by bytes; ASCII tests never reach the middle of a multi-byte character.", "anchors": ["src/scanner/mod.rs: peek, peeks_ahead, add_token, add_link, add_table_cell"]}
{"id": "C07", "title": "Scanning returns for every input", "statement": "Iterating a Scanner returns (with tokens or error values) for every source: it neither panics nor loops forever.", "quantifier": "for every valid UTF-8 source string", "why_tests_cant": "Unterminated constructs at the end of input are an unbounded family; each needs its own guard and tests exercise only well-formed markup.", "anchors": ["src/scanner/mod.rs: starts_attr, starts_attribute_reference, starts_charref, add_heading, add_cross_reference, add_block_anchor, add_block_image, add_inline_image, add_include, add_inline_style, add_link, add_table_cell, add_tag"]}
{"id": "C08", "title": "Scanning is local to the line start", "statement": "From a point just after a newline (and not inside a tagged region) the remaining tokens are the tokens of the remaining text scanned as a document of its own, with line numbers shifted.", "quantifier": "for every split of every source at a token boundary that follows a newline", "why_tests_cant": "It relates two scans of unboundedly long texts with arbitrary preceding context.", "anchors": ["src/scanner/mod.rs: starts_new_line, peek_back, scan_token"]}
{"id": "C09", "title": "Block delimiters are exactly the four-character lines", "statement": "A line-initial delimiter token (sidebar, listing, literal, passthrough, comment, quote, example) is emitted exactly when the line consists of four copies of its delimiter character and a newline.", "quantifier": "for every source and every position in it", "why_tests_cant": "The 'only if' half quantifies over all other lines in all contexts.", "anchors": ["src/scanner/mod.rs: scan_token, starts_repeated_char_line", "src/scanner/tokens.rs: TokenType::block_from_char"]}
{"id": "C10", "title": "Heading markers map to heading levels", "statement": "At a line start, n equals signs followed by a character that is not an equals sign (and not an example delimiter) produce the heading token of level n for n up to 5, and a heading-level error for more; the lexeme is the marker plus one following character.", "quantifier": "for every n and every following text", "why_tests_cant": "Infinitely many n and contexts; the error arm is reached only by n>=6.", "anchors": ["src/scanner/mod.rs: add_heading, scan_token"]}
{"id": "C11", "title": "Token text is the source text except for documented substitutions", "statement": "Token::text() of any scanned token is the lexeme, except typographic quotes and named/numeric character references, which map to the replacement of the substitution table.", "quantifier": "for every source and every token", "why_tests_cant": "The literal/lexeme split is decided per branch of the scanner; a wrong flag in one branch is invisible until that token is rendered.", "anchors": ["src/scanner/tokens.rs: Token::text, Token::validate", "src/scanner/mod.rs: add_token", "src/graph/substitutions.rs: CHARREF_MAP"]}
{"id": "C12", "title": "Merged locations are the first and last of all locations", "statement": "Location::reconcile(a,b) with b non-empty returns the earliest and the latest of all the locations given, in source order (file depth, then line, then column), or the single one there is.", "quantifier": "for all lists of locations of any length", "why_tests_cant": "Min/max over arbitrary lists; tests use two hand-picked pairs.", "anchors": ["src/graph/nodes.rs: Location::cmp, Location::reconcile"]}
{"id": "C13", "title": "Merging locations is stable and never shrinks", "statement": "Reconciling is idempotent, insensitive (up to equal positions) to the order of its arguments, and the result spans every input location; the comparison is a total preorder.", "quantifier": "for all locations and all lists of locations", "why_tests_cant": "An algebraic law over all inputs.", "anchors": ["src/graph/nodes.rs: Ord for Location, Location::reconcile"]}
{"id": "C14", "title": "Plain text parses to its paragraphs", "statement": "A document made of plain text lines, grouped by blank lines, parses successfully to exactly one paragraph per group, in order, each with one text node whose value is the group's lines joined by newlines and whose location is the group's first and last position.", "quantifier": "for every list of groups of markup-free lines (any number, any length, any characters outside the markup alphabet)", "why_tests_cant": "An end-to-end statement over infinitely many documents through scanner and parser.", "anchors": ["src/scanner/mod.rs: Scanner", "src/parser.rs: Parser::parse, parse_text, parse_new_line_char, add_inlines_to_block_stack"]}
{"id": "C15", "title": "Section levels stay in 1..4", "statement": "Every section anywhere in a successfully parsed graph has a level between 1 and 4.", "quantifier": "for every token stream, attribute setting and included file content", "why_tests_cant": "Level offsets, includes and nesting combine without bound.", "anchors": ["src/parser.rs: get_heading_level, parse_section_headings, parse_title"]}
{"id": "C16", "title": "Nested sections are strictly deeper", "statement": "In a successfully parsed graph a section that is a direct child of another section has a strictly greater level.", "quantifier": "for every token stream", "why_tests_cant": "Invariant of a stack machine over unbounded histories; tests cover three shapes.", "anchors": ["src/graph/blocks.rs: Block::push_block, takes_block_of_type", "src/graph/asg.rs: Asg::push_block", "src/parser.rs: parse_section_headings, add_last_block_to_graph"]}
{"id": "C17", "title": "The section tree is the outline of the headings", "statement": "For a document of section headings, the sections of the graph in preorder are the headings in document order, and each section's parent is the closest earlier heading with a smaller level (or the document).", "quantifier": "for every finite sequence of heading levels and plain titles", "why_tests_cant": "Infinitely many outlines; needs induction over the sequence.", "anchors": ["src/parser.rs: parse_section_headings", "src/graph/asg.rs: Asg::push_block", "src/graph/blocks.rs: Block::push_block"]}
{"id": "C18", "title": "Level offsets", "statement": "A leveloffset without sign sets the offset, one with a plus or minus sign is relative to the current offset; headings are shifted by exactly the offset in force and out-of-range results are reported as errors.", "quantifier": "for every attribute value and every current offset", "why_tests_cant": "Value strings and offset histories are unbounded, and the signed form only shows up when offsets compose.", "anchors": ["src/parser.rs: parse_level_offset, get_heading_level"]}
{"id": "C19", "title": "Document attributes", "statement": "After an attribute line `:name: value`, a reference `{name}` yields exactly the text after the name's closing colon (trimmed); the last definition before the reference wins; other names are unaffected.", "quantifier": "for every name, value and sequence of definitions", "why_tests_cant": "Values with colons, values equal to names and redefinition sequences form unbounded families.", "anchors": ["src/parser.rs: parse_attribute, parse_attribute_reference"]}
{"id": "C20", "title": "Verbatim blocks keep their text", "statement": "Between the two delimiter lines of a listing, literal or passthrough block, the text of the single resulting block is the concatenation of the enclosed token lexemes, whatever markup they contain.", "quantifier": "for every sequence of enclosed tokens other than the delimiter itself, callouts and includes", "why_tests_cant": "All token types can occur inside; tests use a few lines of code.", "anchors": ["src/parser.rs: token_into, pass_text_through, parse_delimited_leaf_block"]}
{"id": "C21", "title": "Comments leave no trace", "statement": "Line comments change no block, inline or attribute, and a comment block contributes nothing to the graph; text around the comment is unaffected.", "quantifier": "for every comment content and every surrounding parser state", "why_tests_cant": "The surrounding state is arbitrary.", "anchors": ["src/parser.rs: token_into, parse_comment, parse_delimited_leaf_block"]}
{"id": "C22", "title": "The graph only grows at its end", "statement": "Processing a further token never removes or changes a block of the graph other than by adding to the last one.", "quantifier": "for every token stream and every prefix of it", "why_tests_cant": "A safety property of all transitions.", "anchors": ["src/graph/asg.rs: Asg::push_block", "src/parser.rs: token_into and all handlers"]}
{"id": "C23", "title": "Blocks appear in document order", "statement": "The blocks of the parsed graph are in the order in which their first tokens occur in the document.", "quantifier": "for every document", "why_tests_cant": "Order inversions need particular stack shapes that samples miss.", "anchors": ["src/parser.rs: add_last_block_to_graph, add_last_to_block_stack_or_graph, push_block_to_stack"]}
{"id": "C24", "title": "No text is lost in parsing", "statement": "Text outside comments, markup and include tags occurs in the parsed graph (title, header, captions or block content).", "quantifier": "for every document", "why_tests_cant": "Every handler moves text between stacks; loss needs a specific handler sequence.", "anchors": ["src/parser.rs: parse_new_line_char, parse_title, add_inlines_to_block_stack, add_last_list_item_to_list"]}
{"id": "C25", "title": "Include line selection", "statement": "With a `lines` selection an include contributes exactly the tokens on the selected lines; an open-ended selection contributes all lines from the last bound on.", "quantifier": "for every included file and every selection", "why_tests_cant": "The product of all files and all range lists.", "anchors": ["src/parser.rs: parse_include", "src/utils.rs: extract_page_ranges"]}
{"id": "C26", "title": "Line range syntax", "statement": "A list of numbers and a..b ranges separated by commas or semicolons expands to exactly the numbers they denote, in order; `a..` and `a..-1` mark an open end.", "quantifier": "for every list of non-negative numbers and ranges", "why_tests_cant": "Infinitely many lists; boundary arithmetic (inclusive ends) is easy to get wrong off the sampled values.", "anchors": ["src/utils.rs: extract_page_ranges"]}
{"id": "C27", "title": "Include tag selection", "statement": "With a `tag`/`tags` selection an include contributes exactly the tokens between the start and end tags named in it.", "quantifier": "for every token stream of an included file and every tag set", "why_tests_cant": "Interleavings of tags are unbounded.", "anchors": ["src/parser.rs: parse_include", "src/scanner/tokens.rs: Token::tag"]}
{"id": "C28", "title": "Includes leave the include stack balanced", "statement": "After processing any token, including an include directive with nested includes, the stack of open files reported in locations is what it was before.", "quantifier": "for every token, file system and nesting depth", "why_tests_cant": "Nesting depth is unbounded.", "anchors": ["src/parser.rs: parse_include, file_stack"]}
{"id": "C29", "title": "Metadata merging", "statement": "When metadata is merged into a block, the first id wins on the same line source, the newer set overrides id and attributes, and roles and options of both are kept.", "quantifier": "for every two metadata values", "why_tests_cant": "All combinations of present/absent fields.", "anchors": ["src/graph/metadata.rs: add_metadata_from_other, add_metadata_from_token"]}
{"id": "C30", "title": "Attribute lists", "statement": "A bracketed attribute list of named values yields exactly those names with those values (quotes removed); unnamed entries keep their position.", "quantifier": "for every list of names and values free of the delimiter characters", "why_tests_cant": "Unbounded lists with order-dependent positional handling.", "anchors": ["src/graph/metadata.rs: process_attributes, process_attribute", "src/utils.rs: key_values_from_named_attribute"]}
{"id": "C31", "title": "Cross references are resolved", "statement": "After parsing, a cross reference whose target id occurs in the document carries the title of a block with that id; one whose target does not occur is left as written.", "quantifier": "for every graph and every id", "why_tests_cant": "Depends on every id registered anywhere in the document.", "anchors": ["src/graph/asg.rs: consolidate_xrefs", "src/graph/inlines.rs: attempt_xref_standardization", "src/graph/blocks.rs: id_hashes, inlines_mut"]}
{"id": "C32", "title": "The id index is complete", "statement": "Every id of every block reachable in the graph is a key of the document's id index, and every key is the id of some block that was added.", "quantifier": "for every sequence of blocks pushed to the graph", "why_tests_cant": "Arbitrary nesting and orders of insertion.", "anchors": ["src/graph/asg.rs: Asg::push_block", "src/graph/blocks.rs: Block::id_hashes"]}
{"id": "C33", "title": "Footnote numbers are unique", "statement": "standardize_footnotes numbers the footnotes of the document 1,2,3,... in document order, so ids of references and definitions are unique.", "quantifier": "for every graph", "why_tests_cant": "Depends on nesting depth and the distribution of footnotes over containers.", "anchors": ["src/graph/asg.rs: standardize_footnotes", "src/graph/blocks.rs: extract_footnote_definitions", "src/graph/lists.rs: extract_footnotes"]}
{"id": "C34", "title": "Footnote extraction keeps the rest of the text", "statement": "standardize_footnotes replaces each footnote in place by one reference, leaves every other inline as it was, moves the footnote's own content unchanged to its definition, and the ids of reference and definition match.", "quantifier": "for every list of inlines", "why_tests_cant": "Remove/insert by index while iterating; all positions and adjacencies matter.", "anchors": ["src/graph/blocks.rs: extract_footnote_definitions", "src/graph/inlines.rs: deconstruct_footnote"]}
{"id": "C35", "title": "Word count", "statement": "Asg::word_count is the number of whitespace-separated words of the document's text: the sum over its blocks.", "quantifier": "for every document", "why_tests_cant": "Additivity over arbitrary block sequences.", "anchors": ["src/graph/asg.rs: word_count, all_text", "src/graph/blocks.rs: block_text"]}
{"id": "C36", "title": "Extracted text", "statement": "all_text contains the text of every inline of every content block in document order.", "quantifier": "for every graph", "why_tests_cant": "Recursive over arbitrarily deep graphs.", "anchors": ["src/graph/asg.rs: all_text", "src/graph/blocks.rs: block_text", "src/graph/inlines.rs: extract_values_to_string"]}
{"id": "C37", "title": "Table layout metadata", "statement": "After a table is closed its column count is the explicit cols value or the number of cells on the first row, and a header option is set exactly when the first row is followed by a blank line or was requested.", "quantifier": "for every list of cells and attributes", "why_tests_cant": "All cell/line layouts.", "anchors": ["src/graph/blocks.rs: consolidate_table_info", "src/graph/metadata.rs: simplify_cols"]}
{"id": "C38", "title": "Docx tables contain every cell", "statement": "The docx table built from a table block contains every cell exactly once, in rows of the declared number of columns.", "quantifier": "for every number of cells and columns", "why_tests_cant": "Arithmetic over all sizes.", "anchors": ["src/backends/docx/document.rs: add_table"]}
{"id": "C39", "title": "HTML tables put the declared number of cells in a row", "statement": "The HTML rendering of a table puts each cell in exactly one row, each full row having the declared number of columns.", "quantifier": "for every number of cells and columns", "why_tests_cant": "Arithmetic over all sizes.", "anchors": ["templates/htmlbook/tables.html.tera: render_table"]}
{"id": "C40", "title": "Docx runs carry exactly the formatting of their enclosing spans", "statement": "Every run of text produced for docx is formatted with the spans that enclose it and no others.", "quantifier": "for every inline tree", "why_tests_cant": "Arbitrary nesting and siblings.", "anchors": ["src/backends/docx/document.rs: runs_from_inline, runs_from_inline_with_variant"]}
{"id": "C41", "title": "Output destination", "statement": "The CLI writes to stdout for '-', to the named file when one is given, and otherwise to the input's name with the extension of the output format; standard input without an output name goes to stdout.", "quantifier": "for every combination of arguments", "why_tests_cant": "Decision table over all path strings.", "anchors": ["src/bin/asciidocr/cli.rs: read_output", "src/bin/asciidocr/main.rs: run"]}
{"id": "C42", "title": "Parsing returns for every token stream", "statement": "Parser::parse returns Ok or Err for every token stream: it does not panic.", "quantifier": "for every finite token stream and file system", "why_tests_cant": "Panics sit behind rare token sequences.", "anchors": ["src/parser.rs: handle_dangling_spans, parse_inline_span", "src/graph/inlines.rs: produce_literal_from_self", "src/graph/metadata.rs: process_attribute"]}
{"id": "C43", "title": "Unmatched span markers are text", "statement": "An inline span marker that is never closed in its block appears as literal text and no text around it is lost.", "quantifier": "for every paragraph of text tokens and one marker", "why_tests_cant": "All positions and contents.", "anchors": ["src/parser.rs: handle_dangling_spans, parse_inline_span", "src/graph/inlines.rs: InlineSpan::extract_span_inlines"]}
{"id": "C44", "title": "Flat lists keep their items", "statement": "A run of list-item lines with plain text parses to one list whose items are the lines in order, each with its text as principal.", "quantifier": "for every non-empty sequence of items", "why_tests_cant": "Unbounded number of items.", "anchors": ["src/parser.rs: parse_unordered_list_item, parse_ordered_list_item, add_last_list_item_to_list"]}
{"id": "C45", "title": "First error wins", "statement": "parse returns Err with the first scanner error of the stream if no earlier token failed, regardless of what follows.", "quantifier": "for every token stream", "why_tests_cant": "Quantifies over all suffixes.", "anchors": ["src/parser.rs: Parser::parse"]}
{"id": "C46", "title": "Standardized image and link targets", "statement": "For a macro `name:target[attrs]` the reported target is exactly the text between the macro name and the opening bracket, and the attributes are parsed from the text between the brackets.", "quantifier": "for every target without brackets and every attribute text", "why_tests_cant": "All target strings.", "anchors": ["src/utils.rs: target_and_attrs_from_token", "src/parser.rs: parse_block_image, parse_inline_image_macro"]}
{"id": "C47", "title": "Column shorthand", "statement": "The cols shorthand `n*` means n columns and a comma list means as many columns as it has entries.", "quantifier": "for every n and every list", "why_tests_cant": "All list lengths.", "anchors": ["src/graph/metadata.rs: simplify_cols"]}
{"id": "C48", "title": "Header handling", "statement": "A document title is accepted only as the very first thing of the outermost file; anywhere else it is an error unless an offset demotes it, and it becomes the graph's header with all its text.", "quantifier": "for every token stream", "why_tests_cant": "Positions and include stacks are unbounded.", "anchors": ["src/parser.rs: parse_title, check_and_move_header"]}
{"id": "C49", "title": "Every token is written as the lexical grammar says", "statement": "In a source without include tags, every token before the end of input stands on text that the rule for its type allows, given the text before it and after it (line starts, markers that open or close, block lines, macros, references, links, quotes). The rules are a written grammar that does not mention the scanner.", "quantifier": "for every sequence of Unicode characters used as source and every token returned", "why_tests_cant": "The rule must hold in every surrounding context; tests fix a few.", "anchors": ["src/scanner/mod.rs: scan_token and all its helpers", "src/scanner/tokens.rs: Token::validate"]}
{"id": "C50", "title": "Wherever a rule matches, its token is returned", "statement": "If at a token boundary the text ahead has the form a grammar rule demands, the next token returned has the type of that rule and covers exactly that text.", "quantifier": "for every source, every token boundary in it and every rule", "why_tests_cant": "About 60 rules in unboundedly many contexts; an order of tests in the scanner that hides one rule behind another shows only in particular contexts.", "anchors": ["src/scanner/mod.rs: scan_token and all its helpers"]}
{"id": "C51", "title": "Text is what is left, and there is one reading", "statement": "A plain-text token is returned only where no other rule of the grammar matches, and at every position at most one rule matches, in one way.", "quantifier": "for every source, every position and every pair of rules", "why_tests_cant": "Quantifies over pairs of rules at all positions of all texts.", "anchors": ["src/scanner/mod.rs: scan_token, add_text_until_next_markup"]}
{"id": "C52", "title": "Word paragraphs refer to defined styles", "statement": "Every paragraph style that a written Word document refers to, from paragraphs, table cells and other style definitions, is defined in the document, and no style is defined twice.", "quantifier": "for every graph that is written", "why_tests_cant": "Styles are added on demand in the order of the blocks; whether a reference is defined depends on the whole history.", "anchors": ["src/backends/docx/document.rs: add_style, set_style, add_block", "src/backends/docx/styles.rs: DocumentStyles::style_id, generate"]}
{"id": "C53", "title": "Page breaks move what follows them", "statement": "In the Word document, the item that follows a page break starts on a new page, and no other item does.", "quantifier": "for every graph that is written and every position in it", "why_tests_cant": "The break is carried in a flag over arbitrarily many blocks of any kind.", "anchors": ["src/backends/docx/document.rs: add_block, add_paragraph, page_break_before handling"]}
{"id": "C54", "title": "Word output keeps the text in order", "statement": "The paragraphs of the Word document contain, in document order, exactly the text of the graph: titles, labels, block text, attributions, up to white space and character references.", "quantifier": "for every graph that is written", "why_tests_cant": "Text can be lost in any nesting of blocks; tests compare a handful of documents by eye.", "anchors": ["src/backends/docx/document.rs: render_docx, add_block, add_table, add_image, inlines handling"]}
{"id": "C55", "title": "A Word paragraph's style shows its role", "statement": "Each paragraph has the style for what it is: body text, heading of its level, list item, definition, verse, listing, title or text of a box, and so on, whatever comes before it.", "quantifier": "for every graph and every paragraph in it", "why_tests_cant": "The style is a variable that earlier blocks set and should reset; leaks need particular sequences of blocks.", "anchors": ["src/backends/docx/document.rs: set_style, reset_style, add_block"]}
{"id": "C56", "title": "List numbering in Word", "statement": "All items of one list share one numbering, different lists have different numberings, and every numbering used is defined in the document.", "quantifier": "for every graph with any number of lists, nested or not", "why_tests_cant": "Counters over the whole history of the document.", "anchors": ["src/backends/docx/document.rs: add_block (lists), numbering ids"]}
{"id": "C57", "title": "Character references in Word", "statement": "A character reference in the source stands for its character in the Word document.", "quantifier": "for every named or numeric reference", "why_tests_cant": "The table has dozens of entries written by hand; an error in one shows only when it is used.", "anchors": ["src/graph/substitutions.rs: CHARREF_MAP", "src/backends/docx/document.rs: run text"]}
{"id": "C58", "title": "Writing Word returns", "statement": "Writing a Word document returns a document for every graph whose images can be read.", "quantifier": "for every graph and every file system", "why_tests_cant": "Panics hide in particular combinations of cells and attributes.", "anchors": ["src/backends/docx/document.rs: add_block, add_table, add_image", "src/backends/docx/mod.rs: render_docx"]}
{"id": "C59", "title": "Lines of verbatim text in Word", "statement": "The lines of listings, literal blocks and verses are lines in the Word document.", "quantifier": "for every text of any number of lines", "why_tests_cant": "The newline handling is by a regular expression applied to every literal; it is right for paragraphs and wrong for code.", "anchors": ["src/backends/docx/document.rs: run text"]}
{"id": "C60", "title": "HTML pages are well nested", "statement": "Every tag of a written HTML page ends, and every element is closed, in the order opposite to opening.", "quantifier": "for every graph that is written", "why_tests_cant": "Tags are opened and closed in different templates and conditions; text from the document gets between them.", "anchors": ["src/backends/htmls.rs: render_htmlbook", "templates/htmlbook/block.html.tera: process_block", "templates/htmlbook/inline.html.tera: process_inline", "templates/htmlbook/tables.html.tera: process_table"]}
{"id": "C61", "title": "HTML pages show text as text", "statement": "Text of the document with angle brackets, ampersands or quotes is shown as text on the HTML page and never taken for markup.", "quantifier": "for every text", "why_tests_cant": "Escaping depends on the name under which a template is registered, which no test looks at.", "anchors": ["src/backends/htmls.rs: render_htmlbook", "src/backends/htmls.rs: gather_htmlbook_templates", "templates/htmlbook/inline.html.tera: process_inline"]}
{"id": "C62", "title": "HTML output keeps the text in order", "statement": "A reader of the HTML page sees, in document order, exactly the text of the graph: document title, titles, terms, block text, captions, cells and attributions, up to white space.", "quantifier": "for every graph that is written", "why_tests_cant": "Text can be lost in any nesting of blocks; fixtures compare a handful of pages.", "anchors": ["src/backends/htmls.rs: render_htmlbook", "templates/htmlbook/block.html.tera: process_block", "templates/htmlbook/inline.html.tera: process_inline", "templates/htmlbook/tables.html.tera: process_table", "templates/htmlbook/leafblocks.html.tera: process_leaf_block"]}
{"id": "C63", "title": "HTML headings show the level of a section", "statement": "The rank of the heading element of a section on the HTML page grows with the level of the section.", "quantifier": "for every section and level", "why_tests_cant": "Fixtures have few levels and record what the template gives.", "anchors": ["templates/htmlbook/block.html.tera: process_block"]}
{"id": "C64", "title": "References lead somewhere", "statement": "A block with an id is an element with that id on the HTML page, so that references to it lead there.", "quantifier": "for every graph that is written and every block in it", "why_tests_cant": "Depends on the kind of block and on where it stands.", "anchors": ["templates/htmlbook/block.html.tera: process_block", "templates/htmlbook/leafblocks.html.tera: process_leaf_block", "templates/htmlbook/tables.html.tera: process_table"]}
{"id": "C65", "title": "Writing HTML returns", "statement": "Writing an HTML page returns a page for every graph that the parser makes.", "quantifier": "for every graph", "why_tests_cant": "Missing variables and division by zero in a template show only at run time, with particular tables.", "anchors": ["src/backends/htmls.rs: render_htmlbook", "templates/htmlbook/tables.html.tera: process_table"]}
{"id": "C66", "title": "HTML elements stand where they may", "statement": "On a written HTML page list items stand in lists, terms and descriptions in description lists, cells in rows, rows in tables.", "quantifier": "for every graph that is written", "why_tests_cant": "Wrappers are left out in some nestings only.", "anchors": ["templates/htmlbook/block.html.tera: process_block, skip_tag", "templates/htmlbook/tables.html.tera: process_table"]}
{"id": "C67", "title": "Nothing in a graph is made up", "statement": "Every character of a text, target, list marker, attribute value or role in the graph stands in the source or in an included file, except for a fixed set of characters that stand for typographic quotes, character references and callout numbers.", "quantifier": "for every source text, all readable files and all graphs that the parser returns", "why_tests_cant": "Text passes through scanner tokens, metadata, span and block construction, includes and reference resolution; samples show single paths only.", "anchors": ["src/parser.rs: Parser::parse", "src/graph/inlines.rs: Inline", "src/graph/blocks.rs: Block", "src/graph/metadata.rs: ElementMetadata"]}
{"id": "C68", "title": "No construct without its markup", "statement": "A block, inline or metadata of a kind occurs in the graph only if the markup for that kind is written in the source or in an included file; a text without markup characters gives only paragraphs.", "quantifier": "for every source text, all readable files and all nodes of the graph", "why_tests_cant": "A negative statement about all sources; tests only show what markup does, not that nothing else does it.", "anchors": ["src/parser.rs: Parser::parse", "src/scanner/mod.rs: Scanner::scan_token", "src/graph/blocks.rs: Block", "src/graph/inlines.rs: Inline"]}
{"id": "C69", "title": "A section holds what follows its heading", "statement": "In the graph, the sections around a block are the nearest heading before it of a smaller level, the nearest heading before that one of a smaller level, and so on; a section ends only at the next heading of the same or a higher level.", "quantifier": "for every source text with section headings and every block in it", "why_tests_cant": "Which sections are around a block depends on everything between its heading and the block, of any length and in any order; samples fix one order.", "anchors": ["src/parser.rs: Parser::parse", "src/graph/asg.rs: Asg::push_block", "src/graph/blocks.rs: Block"]}
{"id": "C70", "title": "Inline markup means what is written", "statement": "The inlines of a paragraph, title, list item or admonition are exactly the texts, spans, links, cross references, symbols, footnotes, images and hard line breaks that are written there, in the same order and nested in the same way, with nothing lost, added or moved.", "quantifier": "for every text with inline markup, in every block of every document", "why_tests_cant": "Markup of any number of elements can be combined in any order; a sample shows one combination, and most wrong results come from combinations.", "anchors": ["src/parser.rs: Parser::parse", "src/graph/inlines.rs: Inline", "src/scanner/mod.rs: Scanner::scan_token"]}
{"id": "C71", "title": "A delimited block contains what is between its delimiters", "statement": "A delimited block of the graph contains exactly the blocks or the text between its two delimiters, and the blocks before and after it are outside of it and in the same order.", "quantifier": "for every source text with delimited blocks", "why_tests_cant": "The contents and the surroundings are arbitrary; the end of a block depends on all delimiters before.", "anchors": ["src/parser.rs: Parser::parse", "src/graph/blocks.rs: Block", "src/graph/asg.rs: Asg::push_block"]}
{"id": "C72", "title": "JSON output is valid JSON", "statement": "The text written for the JSON backend is a JSON document, whatever characters the source contains, and a JSON reader gets exactly the value of the graph from it.", "quantifier": "for every graph and every order in which attribute maps are iterated", "why_tests_cant": "Strings with any bytes are embedded in any nesting; a sample only shows that its own characters are escaped.", "anchors": ["src/bin/asciidocr/main.rs: main", "src/graph/asg.rs: Asg", "src/graph/nodes.rs: Location"]}
{"id": "C73", "title": "JSON output shows the whole graph", "statement": "Two graphs with the same JSON text are the same graph: every block, inline, title, level, marker, text, target, role, option, attribute and location can be read off the output.", "quantifier": "for every pair of graphs", "why_tests_cant": "Needs all pairs of graphs; fields that are left out or renamed could make two different graphs look alike.", "anchors": ["src/bin/asciidocr/main.rs: main", "src/graph/asg.rs: Asg", "src/graph/blocks.rs: Block", "src/graph/inlines.rs: Inline", "src/graph/lists.rs: List"]}
{"id": "C74", "title": "The same document gives the same JSON", "statement": "Converting the same document twice gives the same JSON text.", "quantifier": "for every graph and all orders in which a run may iterate its maps", "why_tests_cant": "The order is random per run, so a test may pass by chance.", "anchors": ["src/bin/asciidocr/main.rs: main", "src/graph/metadata.rs: ElementMetadata", "src/graph/asg.rs: Asg"]}
{"id": "C75", "title": "Every node of the JSON output has a name, a type and a location", "statement": "In the JSON output, every block and every inline, at any depth, is an object with a name, a type (block, inline or string) and a list of positions with line and column.", "quantifier": "for every graph and every node in it", "why_tests_cant": "Nodes of all kinds occur at any depth in any combination.", "anchors": ["src/bin/asciidocr/main.rs: main", "src/graph/blocks.rs: Block", "src/graph/inlines.rs: Inline", "src/graph/lists.rs: List"]}
{"id": "C76", "title": "Metadata lines only describe the block that follows", "statement": "Anchors and attribute lists on lines before a block give exactly this block the id, roles, named and positional attributes that are written, and change nothing else: its text and contents and all other blocks are the same as without these lines.", "quantifier": "for every document, every block in it and all metadata lines before it", "why_tests_cant": "Lists of any length can stand before any block, in any number; what they reach depends on the blocks and inlines that follow.", "anchors": ["src/parser.rs: Parser::parse", "src/graph/metadata.rs: ElementMetadata", "src/graph/blocks.rs: Block"]}
{"id": "C77", "title": "Locations are places of the source", "statement": "Every location in a parsed document, of blocks and inlines at any depth, begins and ends at the line and column of a byte of the source text (or at its end), and begins not after it ends.", "quantifier": "for every source text and everything in its graph", "why_tests_cant": "Locations pass through joining, splitting and consolidating of nodes of all kinds at any depth; tests compare them in a few documents.", "anchors": ["src/parser.rs: Parser::parse", "src/graph/nodes.rs: Location::reconcile", "src/scanner/mod.rs: Scanner", "src/scanner/tokens.rs: Token"]}
{"id": "C78", "title": "Locations cover what they contain", "statement": "The location of a document covers its blocks or, without any, its header; the location of a block covers the blocks and inlines in it.", "quantifier": "for every sequence of tokens and every block of its graph", "why_tests_cant": "Locations are computed from the last child only, at the moment when a block is closed; which children have been added then depends on all that follows.", "anchors": ["src/graph/asg.rs: Asg::push_block, Asg::consolidate", "src/graph/blocks.rs: Block::consolidate_locations", "src/parser.rs: Parser::parse"]}
{"id": "C79", "title": "Images show the file, title and attributes that are written", "statement": "A block image line becomes an image with exactly the file, the title line before it and the attributes written; if the file cannot be found, parsing fails with an error that names the file and the line of the image.", "quantifier": "for every document with block images among other blocks, and every set of existing files", "why_tests_cant": "Which title and which metadata an image gets depends on everything before it, and the error on the whole file system; tests have a few images in one directory.", "anchors": ["src/parser.rs: Parser::parse_block_image, Parser::check_target", "src/utils.rs: target_and_attrs_from_token", "src/graph/blocks.rs: BlockMacro", "src/parser.rs: Parser::parse"]}
{"id": "C80", "title": "Tables contain the cells that are written", "statement": "A table becomes a block with exactly the cells written, in order, each with all its text and inline markup, with the title and metadata lines before it; its number of columns is that of the column list or of the cells on the first line, and the cells on the line directly after the delimiter are the header if there is more than one.", "quantifier": "for every document with tables among other blocks", "why_tests_cant": "The text of a cell is scanned and parsed again by itself, and the columns and the header depend on line numbers recorded earlier; tests have a few tables with two or three cells.", "anchors": ["src/parser.rs: Parser::parse_table_cell, Parser::parse_delimited_parent_block", "src/graph/blocks.rs: Block::consolidate_table_info", "src/graph/metadata.rs: ElementMetadata::simplify_cols", "src/parser.rs: Parser::parse"]}
{"id": "C81", "title": "Description lists contain the entries that are written", "statement": "Terms with descriptions on lines that follow each other become one description list with exactly these entries, in order: each entry has its own term and its own description, with all their text and inline markup; the list has the metadata lines before it, and the blocks after it are outside.", "quantifier": "for every document with description lists among other blocks", "why_tests_cant": "A term is only recognised at its end, after its text has already been taken for a continuation of the description before it, so the parser has to take it back from there; tests have one or two entries with a word each.", "anchors": ["src/parser.rs: Parser::parse_description_list_term, Parser::add_last_list_item_to_list", "src/scanner/mod.rs: Scanner::scan_token", "src/parser.rs: Parser::parse"]}
{"id": "C82", "title": "Including a file is like writing its blocks in its place", "statement": "A document that includes AsciiDoc files, which may include further files, is parsed to a graph that contains the blocks of all these files, each exactly once, in reading order and below the headings that come before it, in whatever file these are written; cross references go from file to file. The graph is that of the document in which the blocks of the files are written in place of the directives, up to locations.", "quantifier": "for every document of blocks and include directives, with any contents of the files and any depth of inclusion", "why_tests_cant": "Tests include one small file once; a file can end within a block, a section or a list, with or without a newline, and what is open at the end of one file decides where the next blocks go.", "anchors": ["src/parser.rs: Parser::parse_include", "src/scanner/mod.rs: Scanner::new_with_stack", "src/parser.rs: Parser::parse"]}
{"id": "C83", "title": "Listings show the code that is written or included", "statement": "A delimited listing becomes one block with its delimiter and metadata lines. What is to be read in it is exactly the text between the delimiters, whatever markup it looks like, with what is in the files in place of the include directives. A callout at the end of a line becomes a number in parentheses with the role conum, and nothing else in it is markup.", "quantifier": "for every document with listings among other blocks, with any text, callouts and included code files in them", "why_tests_cant": "Code is scanned as AsciiDoc first, so every character sequence that is markup elsewhere reaches the parser as markup; tests have a few lines of harmless code.", "anchors": ["src/parser.rs: Parser::parse_delimited_leaf_block, Parser::parse_code_callout, Parser::parse_include, Parser::token_into", "src/parser.rs: Parser::parse"]}
{"id": "C84", "title": "Callout lists contain the items that are written", "statement": "Lines that begin with numbers in angle brackets become one ordered list with exactly these items, in order, each with its own text and inline markup and its number as marker; the list has the metadata lines before it or else the role colist, and the blocks after it are outside.", "quantifier": "for every document with callout lists among other blocks", "why_tests_cant": "Tests have one callout list with two short items after a listing.", "anchors": ["src/parser.rs: Parser::parse_code_callout_list_item, Parser::parse_list_item, Parser::add_list_item", "src/parser.rs: Parser::parse"]}
{"id": "C85", "title": "From the source to the page", "statement": "Parsing a document and writing it as HTML succeed, and what can be read on the page is the document title and then the text of every block of the source, in the order of the source, with nothing lost, added or repeated: titles, paragraphs with the text of spans, links and footnotes, list items, cells, terms and descriptions, boxes, listings with their callouts, included files in place of the directives, attributions; a cross reference shows the title of the block it refers to. The elements of the page are nested, stand where they may, and the ids of headings and images are ids on the page.", "quantifier": "for every document and every content of the files it includes", "why_tests_cant": "Tests compare the HTML of a few small documents with expected output; that no text is lost on the way through scanner, parser and writer, wherever it stands, is a claim about all documents.", "anchors": ["src/parser.rs: Parser::parse", "src/backends/htmls.rs: render_htmlbook", "src/scanner/mod.rs: Scanner::new"]}
{"id": "C86", "title": "From the source to the Word document", "statement": "Parsing a document and writing it as a Word document succeed if the pictures can be read, and the paragraphs of its body have the document title and then the text of every block of the source, in the order of the source, with nothing lost, added or repeated up to white space.", "quantifier": "for every document", "why_tests_cant": "Tests only check that rendering one document does not fail; what is in the Word document is not looked at.", "anchors": ["src/parser.rs: Parser::parse", "src/backends/docx/mod.rs: render_docx", "src/backends/docx/document.rs: add_block_to_doc"]}
{"id": "C87", "title": "The page is the tree of the document", "statement": "Reading the bytes of a page gives a tree of elements with their attributes and of text that is the tree of the graph: sections with level, classes and id, headings, paragraphs, lists and items of their kind, terms and descriptions, boxes and admonitions of their kind, figures with target, alternative text and caption, tables with head, rows and cells, listings with their language; in texts strong, emphasised, code, marked, raised and lowered spans and footnotes, links and cross references with their target, inline images and line breaks; nothing else is on the page. From the source: a heading ends the open sections of its level and of deeper levels and begins a section, and every block is written with what is given for it in the source.", "quantifier": "for every graph, and for every document and every content of the files it includes", "why_tests_cant": "Tests compare the HTML of a few small documents with expected output; that every element stands where the structure of the document puts it, for any nesting of sections, lists and spans, is a claim about all documents.", "anchors": ["src/backends/htmls.rs: render_htmlbook", "templates/htmlbook/block.html.tera: process_block", "templates/htmlbook/inline.html.tera: process_inline", "templates/htmlbook/tables.html.tera: process_table", "src/parser.rs: Parser::parse"]}
{"id": "C88", "title": "The text of a Word document looks as the source asks", "statement": "The body of the Word document has, in order, a paragraph for each title, paragraph, list item, term, description, label and attribution, a table for each table and a picture of the right file for each image. In each paragraph and cell, every character is bold, italic, in typewriter type, highlighted in the right colour, raised or lowered exactly as the spans around it ask, and the line breaks are where they are asked for.", "quantifier": "for every graph, and for every document and every content of the files it includes", "why_tests_cant": "Any nesting and sequence of spans, line breaks and links may occur in any block; tests look at single runs of small documents.", "anchors": ["src/backends/docx/document.rs: runs_from_inline, runs_from_inline_with_variant, add_inlines_to_para, add_table, add_block_macro", "src/backends/docx/mod.rs: render_docx", "src/parser.rs: Parser::parse"]}
{"id": "C89", "title": "The JSON output, read by the names of its schema, gives back the document", "statement": "A reader that knows only the names of the members and kinds of the schema, and looks members up by name in whatever order they come, reads from the JSON output of a document exactly its attributes, title, blocks and inlines, with all levels, markers, delimiters, texts, targets, roles, options, attributes and locations.", "quantifier": "for every graph and every order in which maps are iterated", "why_tests_cant": "A member that is missing, renamed or of another kind for one variant of a block is found only if a test has this variant with this member; the graphs are unbounded.", "anchors": ["src/bin/asciidocr/main.rs: main", "src/graph/asg.rs: Asg", "src/graph/blocks.rs: Block", "src/graph/inlines.rs: Inline", "src/graph/lists.rs: List", "src/graph/metadata.rs: ElementMetadata"]}
{"id": "C90", "title": "The JSON output says what the source says", "statement": "Reading the JSON output of a source text by the names of its schema gives the blocks of the source in order, each with its text, formatting, roles, ids, options and attributes and with the headings of the sections around it, the document title and the attributes that are set in the header.", "quantifier": "for every document and every content of the files it includes", "why_tests_cant": "The documents are unbounded; tests compare single small documents with stored outputs.", "anchors": ["src/bin/asciidocr/main.rs: main", "src/scanner/mod.rs: Scanner", "src/parser.rs: Parser::parse", "src/graph/asg.rs: Asg"]}
{"id": "C91", "title": "The HTML page is what the templates say", "statement": "The HTML page of a document is what the five template files of the repository give when they are run, as the template engine documents it, on the values of the document's JSON form; if a template fails, no page is written.", "quantifier": "for every document, every nesting of its blocks and every order in which maps are iterated", "why_tests_cant": "The templates call each other to any depth of nesting and branch on every kind and variant of node; tests compare 27 pages, without white space.", "anchors": ["src/backends/htmls.rs: render_htmlbook, render_from_templates, gather_htmlbook_templates", "templates/htmlbook/htmlbook.html.tera", "templates/htmlbook/block.html.tera", "templates/htmlbook/leafblocks.html.tera", "templates/htmlbook/tables.html.tera", "templates/htmlbook/inline.html.tera"]}
{"id": "C92", "title": "Lists, description lists and tables contain only what belongs in them", "statement": "In a parsed document a bulleted list contains only items marked with an asterisk, a numbered list only items marked with a point or with a callout number, a description list only terms with descriptions and a table only cells.", "quantifier": "for every source text and every set of files that can be included", "why_tests_cant": "Blocks are moved between a stack and the graph by about 30 handlers, and a list can be closed by any of them; tests look at documents in which lists end with a blank line.", "anchors": ["src/parser.rs: push_block_to_stack, add_last_list_item_to_list, parse_ordered_list_item, parse_unordered_list_item, parse_description_list_term, parse_delimited_parent_block", "src/graph/blocks.rs: push_block, takes_block_of_type", "src/graph/asg.rs: push_block"]}
{"id": "C93", "title": "References and typographic quotes say what they stand for", "statement": "A document in which references to attributes and typographic quotes written in ASCII stand in the places of texts has the same graph, up to locations, as the document in which the values and the quotes themselves stand there; references to names that are not defined read as they are written.", "quantifier": "for every document, every set of attributes and every choice of places", "why_tests_cant": "References and quotes are tokens of their own and split a text into several; whether the pieces are joined again depends on the handler of every token around them.", "anchors": ["src/parser.rs: parse_attribute_reference, parse_text, add_text_to_last_inline", "src/scanner/tokens.rs: Token::text"]}
{"id": "C94", "title": "What converts, converts the same with more files and without checks", "statement": "A document that converts has the same graph when more files can be found and read, when more inclusions can be nested, and when targets are not checked (`-x`); without the check the outcome differs only if a target is missing.", "quantifier": "for every source text and every two sets of files of which one contains the other", "why_tests_cant": "Files and the flag are looked at by two handlers, but these are reached through every other handler and through nested inclusions and table cells.", "anchors": ["src/parser.rs: check_target, resolve_target, parse_include, new_no_target_resolution", "src/bin/asciidocr/main.rs: run"]}
{"id": "C95", "title": "What a run of the program leaves behind", "statement": "A run that succeeds has written the whole output to its destination, and nothing else except for the line with the number of words if it was asked for. A run that fails writes nothing to any file.", "quantifier": "for every combination of arguments, every input and every state of the file system", "why_tests_cant": "The order of reading, parsing, counting, creating the file and rendering matters; tests look at runs that succeed.", "anchors": ["src/bin/asciidocr/main.rs: main, run, render_string", "src/bin/asciidocr/cli.rs: read_input, read_output", "src/backends/docx/mod.rs: render_docx"]}
{"id": "C96", "title": "Blocks have the form and the delimiter of their name", "statement": "In every converted document a paragraph has some text and no delimiter; listings, literal blocks, passthrough blocks, verses, boxes and tables have the delimiter of their name; admonitions, and they alone, have a kind; and the file of every image exists unless targets are not checked.", "quantifier": "for every source text and every set of files, at every depth", "why_tests_cant": "Delimiters are copied from tokens in one function and blocks are re-named by styles in others; a test sees one nesting.", "anchors": ["src/graph/blocks.rs: LeafBlock, ParentBlock, BlockMacro", "src/parser.rs: parse_delimited_leaf_block, parse_delimited_parent_block, parse_admonition_para_syntax, parse_block_image, add_inlines_to_block_stack"]}
{"id": "C97", "title": "From the source file to the output file", "statement": "A run of the program on a document that is put together from headings, paragraphs, lists, tables, boxes, listings, images and included files succeeds, and the output at its destination is the output for this document: the HTML page has the elements, words and link targets of the blocks, the JSON text reads back to the blocks, and the Word document has each text with its formatting.", "quantifier": "for every document of the class, every set of files and every combination of arguments that is not refused", "why_tests_cant": "It composes reading, scanning, parsing, inclusion, rendering and writing for an infinite class of documents; a test runs one document.", "anchors": ["src/bin/asciidocr/main.rs: main, run", "src/scanner/mod.rs: Scanner", "src/parser.rs: Parser::parse", "src/backends/htmls.rs: render_htmlbook", "src/backends/docx/mod.rs"]}
{"id": "C98", "title": "Errors name what is wrong and where", "statement": "Every error that the conversion of a document returns is explained by something in the input, in a file that it includes, or in a cell of a table: on the line that the error names there is a document title, a heading whose level with the offset is not that of a section, a heading with too many equals signs, an image or include directive whose target does not exist, or the delimiter of a block; and the target in the error is the one that is written there. Every other error has no line.", "quantifier": "for every document, every set of files, and nested includes and tables", "why_tests_cant": "A test triggers an error that its author thought of; the property says of every error in every document that the named line is the right one.", "anchors": ["src/errors.rs: ParserError, ScannerError, BlockError", "src/parser.rs: Parser::parse, parse_include, parse_section_headings, parse_document_title, parse_block_image, parse_table_cell", "src/scanner/mod.rs: add_heading, add_tag, add_include, add_block_image"]}
{"id": "C99", "title": "Blocks attached to list items belong to the item", "statement": "A delimited block that is attached to a list item by a line with only a plus sign is in this item and in no other, after the text of the item and the blocks attached before it, with its kind, its delimiter and the blocks in it in their order; the items before and after it, their texts and their order, and the blocks after the list are as they are written.", "quantifier": "for every document of the class, with any number of items, attached blocks and blocks in them", "why_tests_cant": "A test looks at a list with one attached block; the property is about every combination of items, texts, kinds of blocks and what is in them.", "anchors": ["src/parser.rs: Parser::parse_continuation, parse_new_line, parse_delimited_parent_block, push_block_to_stack, add_last_list_to_block_stack_or_graph", "src/graph/blocks.rs: Block::push_block", "src/scanner/mod.rs: add_block_continuation"]}
{"id": "C100", "title": "A failed run says what is wrong and on which line", "statement": "A run that ends with an error of the document says so on standard error, in one line that names the line of the fault as a decimal number, the target that does not exist in quotation marks, and the offset of headings; on that line of the input or of an included file stands what the message says; and two different errors that name a line never have the same message.", "quantifier": "for every document, every set of files and every combination of arguments", "why_tests_cant": "Messages are made from a table of formats; a test compares one message with one error, and does not see that two errors cannot be told apart or that the line is not that of the fault.", "anchors": ["src/errors.rs: ParserError, ScannerError, BlockError, TokenError", "src/bin/asciidocr/main.rs: main, run"]}
{"id": "C101", "title": "What follows does not change what came before", "statement": "If any text is added after a document that ends with a blank line, and the whole is converted, then the result begins with the blocks of that document, each below the same headings and with the same contents.", "quantifier": "for every document and every text that follows it", "why_tests_cant": "The text that follows is arbitrary, with unclosed blocks, stray markers and headings of any level; tests only have documents that are complete.", "anchors": ["src/parser.rs: Parser::parse, token_into, add_to_block_stack_or_graph", "src/graph/asg.rs: Asg::push_block", "src/graph/blocks.rs: Block::push_block"]}
{"id": "C102", "title": "What comes before does not change what follows", "statement": "If the beginning of a document is replaced by another one with as many lines, the same attributes and no ids, and both end with a blank line, then what follows is converted in the same way: to the same blocks at the same places, or with the same error.", "quantifier": "for every two beginnings and every text that follows them", "why_tests_cant": "The text that follows is arbitrary, also with mistakes in it; the parser keeps a dozen flags between blocks, and tests do not compare what follows two different beginnings.", "anchors": ["src/parser.rs: Parser, Parser::parse, token_into, parse_new_line_char", "src/graph/asg.rs: Asg::push_block, add_header"]}
{"id": "C103", "title": "Every text is converted or refused with a message", "statement": "For every input text, a run of the program leaves its output where it belongs, or ends with status 1 and an error message; it does not panic and does not hang. For a text that names no other files, the outcome does not depend on them.", "quantifier": "for every UTF-8 input, backend and surroundings of the run", "why_tests_cant": "Texts that crash a program are those nobody thought of; tests try a few.", "anchors": ["src/bin/asciidocr/main.rs: main, run", "src/scanner/mod.rs: Scanner", "src/parser.rs: Parser::parse", "src/backends/htmls.rs: render_htmlbook", "src/backends/docx/mod.rs: render_docx"]}
{"id": "C104", "title": "Names occur once in the JSON output", "statement": "In the JSON that a run prints or writes, no object has two members of the same name, also if a document or a block sets an attribute twice. So every JSON reader finds the same value by the same name, in whatever order the program's maps are written.", "quantifier": "for every source, all included files, with and without resolving targets, and every order in which the maps are iterated", "why_tests_cant": "Documents that set an attribute twice in all the ways in which metadata is merged are not enumerated by tests, and the order of maps is different in every run.", "anchors": ["src/graph/asg.rs: Asg", "src/graph/metadata.rs: ElementMetadata", "src/graph/blocks.rs: Block", "src/graph/inlines.rs: Inline", "src/bin/asciidocr/main.rs: run"]}
{"id": "C105", "title": "Paragraphs of Word documents look as expected", "statement": "In the Word document every paragraph is set in 12 point Times New Roman, code in Courier New; titles, headings and terms of description lists are bold; quotations and verses are italic; text is double spaced except in code, lists, quotations and verses; boxes, quotations, definitions and further paragraphs of list items are indented by half an inch; only plain paragraphs, boxes and verses have a first line of another indent; and thematic breaks are centred.", "quantifier": "for every graph, however blocks are nested and in whatever order styles come to be defined", "why_tests_cant": "The look follows from which styles happen to be defined by the blocks before, and along the styles they are based on; tests look at few combinations and not at the resolved look.", "anchors": ["src/backends/docx/styles.rs: generate", "src/backends/docx/styles.rs: style_id", "src/backends/docx/document.rs: DocxWriter"]}
{"id": "C106", "title": "The HTML page and the Word document show the same text", "statement": "The text that a reader sees on the HTML page of a document is the text of the paragraphs of its Word document, the same characters in the same order, except for white space.", "quantifier": "for every graph and every source text with all included files", "why_tests_cant": "Tests compare each output with a fixed expected output, and never the outputs with each other.", "anchors": ["src/backends/htmls.rs: render_htmlbook", "src/backends/docx/mod.rs: render_docx", "src/backends/docx/document.rs: DocxWriter", "templates/htmlbook"]}
{"id": "C107", "title": "Layout and division into files do not change the outputs", "statement": "The HTML page and the Word document of a source do not depend on how many blank lines and which comments are between its blocks, nor on whether the blocks are written in one file or in several included files.", "quantifier": "for every pair of source texts with the same title and blocks, with all included files", "why_tests_cant": "Tests render fixed files, and never two layouts of the same document.", "anchors": ["src/parser.rs: Parser::parse", "src/scanner.rs: Scanner", "src/backends/htmls.rs: render_htmlbook", "src/backends/docx/mod.rs: render_docx"]}
{"id": "C108", "title": "Editing one block changes only its own part of the page", "statement": "If one block of a document is exchanged for another one, the HTML page changes only where the block is written: all bytes before it and after it stay the same. The same holds if a block is left out or inserted. If a paragraph is exchanged for another one, only the text of this paragraph changes in the Word document.", "quantifier": "for every graph, every block in it and every replacement; and for source texts of one or several files", "why_tests_cant": "Tests compare pages with fixed expected pages, and never two versions of a document.", "anchors": ["src/backends/htmls.rs: render_htmlbook", "templates/htmlbook", "src/backends/docx/mod.rs: render_docx", "src/parser.rs: Parser::parse"]}
{"id": "C109", "title": "The layout of a Word document does not depend on its words", "statement": "Two documents that have the same blocks up to their texts, and that can both be written, give Word documents with the same layout: the same number of paragraphs with the same styles, page breaks and numbering, tables and pictures at the same places, and the same style and numbering definitions.", "quantifier": "for every two document graphs with the same blocks up to texts, markup and locations", "why_tests_cant": "The writer keeps a style, a numbering and flags between blocks; a test sees one text for each structure.", "anchors": ["src/backends/docx/mod.rs: render_docx", "src/backends/docx/document.rs: DocxWriter", "src/backends/docx/styles.rs: DocumentStyles"]}
{"id": "C110", "title": "The markup of a page around the texts does not depend on the words", "statement": "If two documents have the same blocks up to their texts, and one of them has an HTML page, so has the other, and both pages are put together in the same way from the same markup and the rendered texts, each of which occurs once and in reading order (the title of a table is not written at all). So equal texts give equal pages, and the number of bytes outside the texts is the same.", "quantifier": "for every two document graphs with the same blocks up to texts and locations", "why_tests_cant": "A template could look into a text to choose markup, or drop or repeat a text in one branch; a test sees one text for each structure.", "anchors": ["src/backends/htmls.rs: render_htmlbook", "templates/htmlbook"]}
