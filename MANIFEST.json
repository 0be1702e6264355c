{
 "claims": [
  {
   "property": "C01",
   "status": "proved",
   "theorems": [
    "Adoc.Props.C01_lossless",
    "Adoc.Props.C01_prefix"
   ],
   "note": "Over the whole scanner model. C01_prefix covers scans that stop early."
  },
  {
   "property": "C02",
   "status": "proved",
   "theorems": [
    "Adoc.Props.C02_one_eof_last",
    "Adoc.Props.C02_fused"
   ],
   "note": "Completed iteration: one Eof, last; further calls return None."
  },
  {
   "property": "C03",
   "status": "proved",
   "theorems": [
    "Adoc.Props.C03_progress",
    "Adoc.Props.C03_items_bounded",
    "Adoc.Props.C03_scan_is_whole_iteration"
   ],
   "note": "Progress per call, item bound, and scan is the whole iteration."
  },
  {
   "property": "C04",
   "status": "proved",
   "theorems": [
    "Adoc.Props.C04_line",
    "Adoc.Props.C04_monotone",
    "Adoc.Props.C04_spanning_token_shifts_lines"
   ],
   "note": "Exact line under the stated proviso; monotone for every source; witness that the proviso is needed."
  },
  {
   "property": "C05",
   "status": "proved",
   "theorems": [
    "Adoc.Props.C05_first",
    "Adoc.Props.C05_adjacent"
   ],
   "note": "Adjacent tokens and first token."
  },
  {
   "property": "C06",
   "status": "proved",
   "theorems": [
    "Adoc.Props.C06_lexeme_chars"
   ],
   "note": "Every lexeme of a scan of UTF-8 text is the encoding of a run of whole characters."
  },
  {
   "property": "C07",
   "status": "partial",
   "theorems": [
    "Adoc.Props.C07_panics",
    "Adoc.Props.C07_hangs",
    "Adoc.Props.C07_returns_partial"
   ],
   "note": "False of the code: C07_panics and C07_hangs list short sources that panic or never return. C07_returns_partial covers every UTF-8 text that ends with a newline and has its constructs closed."
  },
  {
   "property": "C08",
   "status": "partial",
   "theorems": [
    "Adoc.Props.C08_local_partial",
    "Adoc.Props.C08_closing_tag_column_is_absolute"
   ],
   "note": "False when the remaining text has an opening include tag (witness: the column of a closing tag is an absolute offset); proved for all other splits."
  },
  {
   "property": "C09",
   "status": "proved",
   "theorems": [
    "Adoc.Props.C09_sound",
    "Adoc.Props.C09_complete"
   ],
   "note": "Both directions: a delimiter token only from a delimiter line, and every delimiter line gives one."
  },
  {
   "property": "C10",
   "status": "proved",
   "theorems": [
    "Adoc.Props.C10_heading",
    "Adoc.Props.C10_too_deep",
    "Adoc.Props.C10_sound",
    "Adoc.Props.C10_swallows_following_character"
   ],
   "note": "Levels 1-5, the error above 5, and soundness; the character after the marker is part of the lexeme."
  },
  {
   "property": "C11",
   "status": "proved",
   "theorems": [
    "Adoc.Props.C11_text"
   ],
   "note": "Against a separate replacement table."
  },
  {
   "property": "C12",
   "status": "proved",
   "theorems": [
    "Adoc.Props.C12_reconcile",
    "Adoc.Props.C12_bounds"
   ],
   "note": "Exact result and bounds form."
  },
  {
   "property": "C13",
   "status": "proved",
   "theorems": [
    "Adoc.Props.C13_order",
    "Adoc.Props.C13_equal_iff",
    "Adoc.Props.C13_files_not_distinguished",
    "Adoc.Props.C13_assoc",
    "Adoc.Props.C13_idempotent",
    "Adoc.Props.C13_comm",
    "Adoc.Props.C13_covers"
   ],
   "note": "Order laws, associativity, idempotence, commutativity up to equal positions, coverage; file names are ignored by the order (witness)."
  },
  {
   "property": "C14",
   "status": "proved",
   "theorems": [
    "Adoc.Props.C14_paragraphs"
   ],
   "note": "For every document all of whose lines are empty or `PlainLine` (Spec/Plain.lean: does not begin with one of = . / | ( : or inside a character; no * _ ` ^ ~ [ ] # & { + < anywhere; none of the sequences http :: -- -> '' 's image: or an admonition label). Locations are in bytes, as in the code."
  },
  {
   "property": "C15",
   "status": "proved",
   "theorems": [
    "Adoc.Props.C15_levels"
   ],
   "note": "For every item list, file system and fuel, from a fresh parser (empty stack and graph, any attributes and offset); every section at any depth of the final graph."
  },
  {
   "property": "C16",
   "status": "proved",
   "theorems": [
    "Adoc.Props.C16_deeper"
   ],
   "note": "Same scope as C15."
  },
  {
   "property": "C17",
   "status": "partial",
   "theorems": [
    "Adoc.Props.C17_outline_partial",
    "Adoc.Props.C17_paths_partial",
    "Adoc.Props.C17_adjacent",
    "Adoc.Props.C17_end"
   ],
   "note": "For every sequence of headings of levels 1 to 4 with plain titles, separated by any number of blank lines and followed by a newline. False of the code for headings on adjacent lines (C17_adjacent) and for a heading at the very end of the text (C17_end)."
  },
  {
   "property": "C18",
   "status": "partial",
   "theorems": [
    "Adoc.Props.C18_absolute_partial",
    "Adoc.Props.C18_minus_partial",
    "Adoc.Props.C18_plus",
    "Adoc.Props.C18_wraps",
    "Adoc.Props.C18_overflow",
    "Adoc.Props.C18_heading_partial",
    "Adoc.Props.C18_heading_overflow"
   ],
   "note": "False of the code for a plus sign: it sets the offset (C18_plus); values above 127 wrap (C18_wraps) and relative values can overflow (C18_overflow, C18_heading_overflow, a panic in a debug build). Proved for unsigned values up to 127, for the minus sign in range, and for heading levels with an empty block stack and an offset up to 123."
  },
  {
   "property": "C19",
   "status": "partial",
   "theorems": [
    "Adoc.Props.C19_define_partial",
    "Adoc.Props.C19_last_partial",
    "Adoc.Props.C19_colon",
    "Adoc.Props.C19_same",
    "Adoc.Props.C19_reference_partial",
    "Adoc.Props.C19_in_link",
    "Adoc.Props.C19_header_partial"
   ],
   "note": "False of the code for values with a colon (C19_colon), values equal to the name (C19_same) and references inside link text (C19_in_link). Proved for all other definitions, sequences of them, and references outside links and headers. C19_header_partial: the attributes of the graph for headers with any number of definitions."
  },
  {
   "property": "C20",
   "status": "partial",
   "theorems": [
    "Adoc.Props.C20_verbatim_partial",
    "Adoc.Props.C20_graph_partial",
    "Adoc.Props.C20_text_before",
    "Adoc.Props.C20_text_after"
   ],
   "note": "Listing, literal and passthrough blocks that begin where a block can begin, any enclosed tokens, on the block stack (C20_verbatim_partial) and in the graph after a blank line (C20_graph_partial). False of the code when text directly precedes or follows the block (C20_text_before, C20_text_after)."
  },
  {
   "property": "C21",
   "status": "partial",
   "theorems": [
    "Adoc.Props.C21_documents_partial",
    "Adoc.Props.C21_before_title",
    "Adoc.Props.C21_block_newline",
    "Adoc.Props.C21_inner_partial",
    "Adoc.Props.C21_line_partial",
    "Adoc.Props.C21_block_partial",
    "Adoc.Props.C21_newline",
    "Adoc.Props.C21_text_before",
    "Adoc.Props.C21_metadata"
   ],
   "note": "A line comment token outside verbatim blocks changes no parser state; a comment block where a block can begin and without pending metadata contributes nothing. For whole documents of the class, comments between blocks, at the beginning and at the end leave no trace (C21_documents_partial); a comment line between two lines of text leads to exactly the same result as without it (C21_inner_partial). False of the code for the newline after a comment at a paragraph start (C21_newline, C21_block_newline), text directly before a comment block (C21_text_before), pending metadata (C21_metadata) and a comment before the title (C21_before_title)."
  },
  {
   "property": "C22",
   "status": "proved",
   "theorems": [
    "Adoc.Props.C22_token",
    "Adoc.Props.C22_prefix",
    "Adoc.Props.C22_finish"
   ],
   "note": "Per token from every reachable state, for every split of the item list, and for the end of the document (where cross references are then resolved in place)."
  },
  {
   "property": "C23",
   "status": "partial",
   "theorems": [
    "Adoc.Props.C23_outline_partial",
    "Adoc.Props.C23_order_partial",
    "Adoc.Props.C23_false",
    "Adoc.Props.C23_rich_partial"
   ],
   "note": "Documents whose runs of non-empty lines are paragraphs, section headings and flat lists (C23_outline_partial also gives the headings around each block). False of the code in general: adjacent listing blocks come out reversed (C23_false). C23_rich_partial: the same for documents with inline markup, verbatim blocks, breaks, admonitions, boxes, metadata lines and a header."
  },
  {
   "property": "C24",
   "status": "partial",
   "theorems": [
    "Adoc.Props.C24_text_partial",
    "Adoc.Props.C24_false",
    "Adoc.Props.C24_comment"
   ],
   "note": "Same documents as C23. False of the code in general: all paragraphs after a block title are lost (C24_false), and so is text right before a comment block (C24_comment). See also C70."
  },
  {
   "property": "C25",
   "status": "partial",
   "theorems": [
    "Adoc.Props.C25_everything",
    "Adoc.Props.C25_lines",
    "Adoc.Props.C25_open",
    "Adoc.Props.C25_directive_partial",
    "Adoc.Props.C25_directive_open_partial",
    "Adoc.Props.C25_file_open_partial",
    "Adoc.Props.C25_empty_selects_all",
    "Adoc.Props.C25_from_zero"
   ],
   "note": "Closed and open-ended selections over the include loop (C25_lines, C25_open) and the directive (C25_directive_partial, C25_directive_open_partial), for files whose scan has no error. C25_file_open_partial: an open-ended selection from line 1 or later, for every such file. False for an empty selection, which selects every line (C25_empty_selects_all), and for one from line 0, which selects none (C25_from_zero)."
  },
  {
   "property": "C26",
   "status": "partial",
   "theorems": [
    "Adoc.Props.C26_ranges_partial",
    "Adoc.Props.C26_open_not_last",
    "Adoc.Props.C26_overflow",
    "Adoc.Props.C26_unreadable"
   ],
   "note": "C26_ranges_partial: every list of entries whose numbers fit 32 bits, with the form a.. only as last entry. Witnesses: a.. elsewhere is dropped, and the upper bound 2147483647 overflows. An entry that is not a number stands for line 0 (C26_unreadable)."
  },
  {
   "property": "C27",
   "status": "partial",
   "theorems": [
    "Adoc.Props.C27_regions_partial",
    "Adoc.Props.C27_directive_partial",
    "Adoc.Props.C27_nested",
    "Adoc.Props.C27_nested_scan"
   ],
   "note": "Files that consist of selected regions with any other tokens between them (C27_regions_partial, C27_directive_partial), for files whose scan has no error. False for a selected region inside another one (C27_nested; C27_nested_scan: the scanner gives no token for the inner text)."
  },
  {
   "property": "C28",
   "status": "proved",
   "theorems": [
    "Adoc.Props.C28_files",
    "Adoc.Props.C28_parse"
   ],
   "note": "Per token from every reachable state and for a whole document; include nesting depth is bounded only by the fuel, and the claim is about runs that return."
  },
  {
   "property": "C29",
   "status": "partial",
   "theorems": [
    "Adoc.Props.C29_attributes_partial",
    "Adoc.Props.C29_options_partial",
    "Adoc.Props.C29_roles_partial",
    "Adoc.Props.C29_roles_lost",
    "Adoc.Props.C29_first_id_partial",
    "Adoc.Props.C29_token_keeps_partial"
   ],
   "note": "False of the code for roles: the newer set's roles are lost and its options become roles (C29_roles_lost). Attributes, options, older roles, first anchor, and further attribute lists are proved."
  },
  {
   "property": "C30",
   "status": "partial",
   "theorems": [
    "Adoc.Props.C30_mixed_partial",
    "Adoc.Props.C30_mixed_sample",
    "Adoc.Props.C30_language_lost",
    "Adoc.Props.C30_named_partial",
    "Adoc.Props.C30_named_sample",
    "Adoc.Props.C30_order",
    "Adoc.Props.C30_unquoted_partial",
    "Adoc.Props.C30_roles_partial",
    "Adoc.Props.C30_quoted_partial",
    "Adoc.Props.C30_hyphen",
    "Adoc.Props.C30_position_shift",
    "Adoc.Props.C30_invented",
    "Adoc.Props.C30_panics",
    "Adoc.Props.C30_quote_panics"
   ],
   "note": "C30_unquoted_partial: lists without quotes. C30_quoted_partial: a single quoted entry. C30_named_partial: lists of named entries with different names, with and without quotes in any order, where no quoted entry is the end of another. C30_mixed_partial: all lists with a quoted entry, in any order, names and positions: unnamed entries have the number of quoted entries added to their position, and no kind of block is declared. Witnesses: source and its language are not read if another entry is quoted (C30_language_lost), shifted positions, an invented entry, two panics, an earlier entry that wins over a later one of the same name."
  },
  {
   "property": "C31",
   "status": "partial",
   "theorems": [
    "Adoc.Props.C31_resolved_partial",
    "Adoc.Props.C31_title_partial",
    "Adoc.Props.C31_nested",
    "Adoc.Props.C31_titles_partial"
   ],
   "note": "False of the code for cross references inside spans (C31_nested). Proved for inlines directly in titles, principal texts, paragraphs and cells. C31_titles_partial: from the source text, for every document of the class of Spec/RichDoc."
  },
  {
   "property": "C32",
   "status": "proved",
   "theorems": [
    "Adoc.Props.C32_complete",
    "Adoc.Props.C32_sound",
    "Adoc.Props.C32_parse"
   ],
   "note": "For every graph built by pushing blocks, both directions; keys map to the title of a block with that id. C32_parse: the graph of every successful parse is built that way."
  },
  {
   "property": "C33",
   "status": "partial",
   "theorems": [
    "Adoc.Props.C33_flat_partial",
    "Adoc.Props.C33_ids_differ",
    "Adoc.Props.C33_sections_restart",
    "Adoc.Props.C33_break_panics",
    "Adoc.Props.C33_document_id"
   ],
   "note": "False of the code: numbering restarts in each section (C33_sections_restart) and breaks panic (C33_break_panics). Proved for documents without containers. C33_document_id: the id of the document that stands in the ids of footnotes, byte by byte."
  },
  {
   "property": "C34",
   "status": "partial",
   "theorems": [
    "Adoc.Props.C34_extracted_partial",
    "Adoc.Props.C34_nested",
    "Adoc.Props.C34_document_partial"
   ],
   "note": "Footnotes directly in a list of inlines (C34_extracted_partial); C34_document_partial: for every graph, what extraction makes of the whole tree, with exact numbers, and exactly when it stops the program. Footnotes inside other spans are not extracted (C34_nested)."
  },
  {
   "property": "C35",
   "status": "partial",
   "theorems": [
    "Adoc.Props.C35_words_partial",
    "Adoc.Props.C35_empty",
    "Adoc.Props.C35_sum_partial",
    "Adoc.Props.C35_blank_end",
    "Adoc.Props.C35_adjacent"
   ],
   "note": "The word count is that of the concatenated text when the words are separated by ASCII white space. It is not the sum over the blocks (C35_adjacent). C35_sum_partial: for every graph it is at most that sum, and less by at most one for each block but the first. C35_blank_end: nothing is lost where the text before ends with a blank."
  },
  {
   "property": "C36",
   "status": "partial",
   "theorems": [
    "Adoc.Props.C36_text_partial",
    "Adoc.Props.C36_terms_missing"
   ],
   "note": "Proved for graphs without description list terms and parent block titles; with them it is false (C36_terms_missing)."
  },
  {
   "property": "C37",
   "status": "partial",
   "theorems": [
    "Adoc.Props.C37_derived_partial",
    "Adoc.Props.C37_explicit_partial",
    "Adoc.Props.C37_header_without_blank",
    "Adoc.Props.C37_exit"
   ],
   "note": "Derived and explicit column counts with two or more cells, the first two on one line (derived), and when the header option is set. The blank line after the first row is not looked at (C37_header_without_blank); two cells on different lines without attributes end the process (C37_exit)."
  },
  {
   "property": "C38",
   "status": "partial",
   "theorems": [
    "Adoc.Props.C38_rows_partial",
    "Adoc.Props.C38_last_row_lost",
    "Adoc.Props.C38_no_columns",
    "Adoc.Props.C38_one_column",
    "Adoc.Props.C38_one_column_short"
   ],
   "note": "False of the code: the cells of the last row are missing from the docx table (C38_last_row_lost, for two or more columns) and a table without columns divides by zero (C38_no_columns). C38_rows_partial: with two or more columns the rows are full rows of the leading cells, in order, at most one row's worth of cells missing. C38_one_column, C38_one_column_short: what one column gives, exactly (the last cell is missing and the first two share a row)."
  },
  {
   "property": "C39",
   "status": "partial",
   "theorems": [
    "Adoc.Props.C39_rows_partial",
    "Adoc.Props.C39_each_once",
    "Adoc.Props.C39_one_column_rows",
    "Adoc.Props.C39_one_column"
   ],
   "note": "C39_each_once: every cell is in exactly one row, for every table. The number of cells in a row is false for one column without a header (C39_one_column; C39_one_column_rows gives the rows). C39_rows_partial covers two or more columns, or one column with a header; with a header there must be at least one full row. Tera itself is not modelled."
  },
  {
   "property": "C40",
   "status": "partial",
   "theorems": [
    "Adoc.Props.C40_runs_partial",
    "Adoc.Props.C40_covers",
    "Adoc.Props.C40_leak",
    "Adoc.Props.C40_props_partial",
    "Adoc.Props.C40_super_drops"
   ],
   "note": "False of the code: formatting leaks from a nested span to the text after it (C40_leak), and a superscript inside another span drops the outer formatting (C40_super_drops). C40_runs_partial covers inlines in which no span is followed by anything inside the same top-level inline; C40_covers (every inline tree) says no text is lost and each run has at least its enclosing formatting; C40_props_partial is the formatting of a run."
  },
  {
   "property": "C41",
   "status": "partial",
   "theorems": [
    "Adoc.Props.C41_replaces_extension",
    "Adoc.Props.C41_appends_extension",
    "Adoc.Props.C41_trailing",
    "Adoc.Props.C41_no_name",
    "Adoc.Props.C41_every_path",
    "Adoc.Props.C41_overwrites",
    "Adoc.Props.C41_text_formats",
    "Adoc.Props.C41_docx"
   ],
   "note": "Docx to standard output is refused instead of written, so the wording does not hold for docx (C41_docx states what happens). The extension theorems cover every path: C41_every_path splits it, C41_replaces_extension, C41_appends_extension, C41_no_name and C41_trailing say what happens to the parts. C41_overwrites: an input that has the extension of the output already is written over."
  },
  {
   "property": "C42",
   "status": "partial",
   "theorems": [
    "Adoc.Props.C42_tame_partial",
    "Adoc.Props.C42_span_panics",
    "Adoc.Props.C42_footnote_panics",
    "Adoc.Props.C42_attached_listing_panics",
    "Adoc.Props.C42_anchor_panics",
    "Adoc.Props.C42_offset_panics",
    "Adoc.Props.C42_attribute_panics",
    "Adoc.Props.C42_callout_panics",
    "Adoc.Props.C42_table_exits"
   ],
   "note": "For every list of tame tokens and scanner errors, in any order and number, parse returns a result or an error. Tame: text, characters, quotes, headings, list markers, description list markers, breaks, titles, comments, hyperlinks, sections, delimited blocks, admonitions, anchors, cross references, attribute references and attributes other than leveloffset; with either block continuations or verbatim blocks. The property as stated is false of the code: C42_span_panics, C42_footnote_panics, C42_attached_listing_panics, C42_anchor_panics, C42_offset_panics, C42_attribute_panics, C42_callout_panics, C42_table_exits. Missing: closed spans and macros, attribute lists, includes, full tables."
  },
  {
   "property": "C43",
   "status": "partial",
   "theorems": [
    "Adoc.Props.C43_unclosed_partial",
    "Adoc.Props.C43_blank_line",
    "Adoc.Props.C43_plus"
   ],
   "note": "For every list of text tokens and newlines around one marker, at the end of the document, the paragraph has one text: what stands before the marker, the marker, what stands after it. The property as stated is false of the code: C43_blank_line (a blank line after the paragraph keeps the open span and the marker is gone) and C43_plus (an unclosed plus sign comes out as a backtick). Missing: blocks other than paragraphs, several markers, footnote macros."
  },
  {
   "property": "C44",
   "status": "proved",
   "theorems": [
    "Adoc.Props.C44_flat",
    "Adoc.Props.C44_last_item",
    "Adoc.Props.C44_nested"
   ],
   "note": "A document that is a run of item lines, any number, either kind, with or without a final newline. In other documents see C23_outline_partial; the exception is a list of one item after a blank line at the end of the text (C44_last_item). Items of different kinds in one run are outside the claim; the code mixes them up (C44_nested)."
  },
  {
   "property": "C45",
   "status": "proved",
   "theorems": [
    "Adoc.Props.C45_first_error",
    "Adoc.Props.C45_earlier_failure"
   ],
   "note": "The error is the result whatever follows; an earlier failure is the result instead. Stated over feed/parse of the model."
  },
  {
   "property": "C46",
   "status": "partial",
   "theorems": [
    "Adoc.Props.C46_link_partial",
    "Adoc.Props.C46_target_partial"
   ],
   "note": "Image, inline image and include macros: target and attribute text. Link macros: target only (the bracket text of a link is parsed as inlines, not as attributes). The hypotheses Starts hold of all valid UTF-8 text."
  },
  {
   "property": "C47",
   "status": "partial",
   "theorems": [
    "Adoc.Props.C47_list_partial",
    "Adoc.Props.C47_star_partial",
    "Adoc.Props.C47_two_digits",
    "Adoc.Props.C47_panics"
   ],
   "note": "Comma lists of two or more entries and n* for one digit. With two digits the shorthand is left as it is (C47_two_digits); a two-byte character panics."
  },
  {
   "property": "C48",
   "status": "partial",
   "theorems": [
    "Adoc.Props.C48_place",
    "Adoc.Props.C48_demoted",
    "Adoc.Props.C48_title",
    "Adoc.Props.C48_alone",
    "Adoc.Props.C48_header_partial"
   ],
   "note": "Place of the title marker, exactly, with offset 0 (C48_place), demotion by an offset (C48_demoted), and whole documents with a plain title followed by a blank line or nothing (C48_title, C48_alone). C48_header_partial: titles with spans and symbols and any number of attribute lines, before any document of the class of Spec/RichDoc. Links, references, super- and subscripts in the title are not covered; they end the header early."
  },
  {
   "property": "C49",
   "status": "proved",
   "theorems": [
    "Adoc.Props.C49_sound",
    "Adoc.Props.C49_marker_after_letter_outside_ascii",
    "Adoc.Props.C49_block_markers_inside_lines",
    "Adoc.Props.C49_url_extent"
   ],
   "note": "For every UTF-8 source and every token with no include tag before it; the grammar is Spec/Lexical.lean. The witnesses record rules that will surprise an author."
  },
  {
   "property": "C50",
   "status": "proved",
   "theorems": [
    "Adoc.Props.C50_complete",
    "Adoc.Props.C50_blank",
    "Adoc.Props.C50_reference_outside_ascii_panics"
   ],
   "note": "For every rule of Spec/Lexical.lean. The one exception, anchors and cross references with characters outside ASCII, is in the statement and is shown to be real (the scanner panics)."
  },
  {
   "property": "C51",
   "status": "proved",
   "theorems": [
    "Adoc.Props.C51_text_last",
    "Adoc.Props.C51_unambiguous"
   ],
   "note": "Text only where no other rule matches; at most one rule and one extent per position of a UTF-8 text."
  },
  {
   "property": "C52",
   "status": "partial",
   "theorems": [
    "Adoc.Props.C52_defined",
    "Adoc.Props.C52_style_references",
    "Adoc.Props.C52_exactly",
    "Adoc.Props.C52_thematic_break"
   ],
   "note": "False of the code for thematic breaks (C52_thematic_break): the document asks for \"ThematicBreak\" and defines \"Thematic Break\". C52_exactly: true exactly for graphs without thematic breaks; C52_defined, C52_style_references hold for every graph."
  },
  {
   "property": "C53",
   "status": "partial",
   "theorems": [
    "Adoc.Props.C53_page_breaks",
    "Adoc.Props.C53_picture",
    "Adoc.Props.C53_table"
   ],
   "note": "False for pictures and tables (C53_picture, C53_table). C53_page_breaks covers paragraphs of every graph, both directions."
  },
  {
   "property": "C54",
   "status": "partial",
   "theorems": [
    "Adoc.Props.C54_order",
    "Adoc.Props.C54_content_partial",
    "Adoc.Props.C54_caption_lost",
    "Adoc.Props.C54_table_title_lost",
    "Adoc.Props.C54_quote_title_lost",
    "Adoc.Props.C54_attached_terms_lost"
   ],
   "note": "False for captions, titles of tables and quotations, terms of attached description lists (C54_*_lost) and table rows (C38). C54_order: the paragraphs are those of the written flow, one by one, for every graph; C54_content_partial: the flow is the whole content for graphs without those constructs."
  },
  {
   "property": "C55",
   "status": "partial",
   "theorems": [
    "Adoc.Props.C55_roles_partial",
    "Adoc.Props.C55_roles_title_partial",
    "Adoc.Props.C55_after_leaf",
    "Adoc.Props.C55_after_block",
    "Adoc.Props.C55_after_attached",
    "Adoc.Props.C55_after_inner_box"
   ],
   "note": "False after verse, listing, literal, lists, description lists, thematic breaks, tables, attached blocks and boxes in boxes (C55_after_*). C55_roles_partial, C55_roles_title_partial: true for graphs where a heading or box stands between such blocks and plain paragraphs."
  },
  {
   "property": "C56",
   "status": "partial",
   "theorems": [
    "Adoc.Props.C56_numbers",
    "Adoc.Props.C56_definitions",
    "Adoc.Props.C56_ordered_undefined",
    "Adoc.Props.C56_second_undefined"
   ],
   "note": "The last clause is false for ordered lists and for all unordered lists but the first (C56_ordered_undefined, C56_second_undefined). C56_numbers and C56_definitions give the numbers and definitions exactly for graphs whose list items are in lists."
  },
  {
   "property": "C57",
   "status": "partial",
   "theorems": [
    "Adoc.Props.C57_replaced_partial",
    "Adoc.Props.C57_wrong_character",
    "Adoc.Props.C57_section_sign",
    "Adoc.Props.C57_source"
   ],
   "note": "False for &ndash;, &nbsp;, &sect; (C57_wrong_character, C57_section_sign, C57_source). C57_replaced_partial: every other entry of the table is right; references outside the table stay as they are."
  },
  {
   "property": "C58",
   "status": "partial",
   "theorems": [
    "Adoc.Props.C58_returns",
    "Adoc.Props.C58_no_columns",
    "Adoc.Props.C58_source_partial"
   ],
   "note": "False for tables with two cells and no column count (C58_no_columns). C58_returns: returns for every graph whose images can be read and whose tables give one. From source: C58_source_partial, for every source without vertical bars and images."
  },
  {
   "property": "C59",
   "status": "partial",
   "theorems": [
    "Adoc.Props.C59_lines_joined",
    "Adoc.Props.C59_listing"
   ],
   "note": "False: C59_lines_joined shows for every text that no newline comes through; C59_listing shows it from source."
  },
  {
   "property": "C60",
   "status": "partial",
   "theorems": [
    "Adoc.Props.C60_nested_partial",
    "Adoc.Props.C60_text",
    "Adoc.Props.C60_attribute",
    "Adoc.Props.C60_source_partial"
   ],
   "note": "False of the code: neither text nor attribute values are escaped (C60_text, C60_attribute). C60_nested_partial: true for every graph whose texts are themselves well nested and whose attribute values have no double quotes. From source: C60_source_partial, for every source without angle brackets and double quotes."
  },
  {
   "property": "C61",
   "status": "partial",
   "theorems": [
    "Adoc.Props.C61_text_partial",
    "Adoc.Props.C61_source_partial",
    "Adoc.Props.C61_sample",
    "Adoc.Props.C61_verbatim",
    "Adoc.Props.C61_script",
    "Adoc.Props.C61_listing"
   ],
   "note": "False of the code: C61_verbatim shows for every text that it is copied as it is, C61_script and C61_listing show it from source. C61_text_partial: for every graph whose texts have no <, also with >, & and quotation marks, the elements of the page are those of the document's blocks and spans and all other characters are read as text; C61_source_partial: for every source and its files without < and double quotes. Character references such as &lt; are not looked into."
  },
  {
   "property": "C62",
   "status": "partial",
   "theorems": [
    "Adoc.Props.C62_text_partial",
    "Adoc.Props.C62_table_title_lost",
    "Adoc.Props.C62_table_title",
    "Adoc.Props.C62_inline_image_text_lost",
    "Adoc.Props.C62_source_partial"
   ],
   "note": "False for titles of tables and texts for inline images (C62_table_title_lost, C62_table_title, C62_inline_image_text_lost). C62_text_partial: true for all other graphs with texts and attributes as in C60. From source: C62_source_partial."
  },
  {
   "property": "C63",
   "status": "partial",
   "theorems": [
    "Adoc.Props.C63_level_partial",
    "Adoc.Props.C63_same_rank"
   ],
   "note": "False: all headings have rank 1 (C63_same_rank); C63_level_partial: the level shows in the value of data-type and nowhere else."
  },
  {
   "property": "C64",
   "status": "partial",
   "theorems": [
    "Adoc.Props.C64_anchors_partial",
    "Adoc.Props.C64_paragraph",
    "Adoc.Props.C64_box",
    "Adoc.Props.C64_image_in_admonition",
    "Adoc.Props.C64_source_partial"
   ],
   "note": "False for paragraphs, lists, boxes, and images directly in an admonition (C64_paragraph, C64_box, C64_image_in_admonition). C64_anchors_partial: true for sections and all other images. From source: C64_source_partial."
  },
  {
   "property": "C65",
   "status": "partial",
   "theorems": [
    "Adoc.Props.C65_returns_partial",
    "Adoc.Props.C65_one_cell",
    "Adoc.Props.C65_no_cells",
    "Adoc.Props.C65_columns",
    "Adoc.Props.C65_zero",
    "Adoc.Props.C65_short_header",
    "Adoc.Props.C65_source_partial"
   ],
   "note": "False for tables with one cell or none and for column counts that are no positive number (C65_one_cell, C65_no_cells, C65_columns, C65_zero), and for a header row with fewer cells than columns (C65_short_header). C65_returns_partial gives the exact condition for every graph. From source: C65_source_partial, for every source without vertical bars."
  },
  {
   "property": "C66",
   "status": "partial",
   "theorems": [
    "Adoc.Props.C66_placed_partial",
    "Adoc.Props.C66_cells_partial",
    "Adoc.Props.C66_admonition_list",
    "Adoc.Props.C66_header_cells",
    "Adoc.Props.C66_source_partial"
   ],
   "note": "False for lists directly in admonitions and for header cells (C66_admonition_list, C66_header_cells). C66_placed_partial, C66_cells_partial: true for the other graphs with texts without tags. From source: C66_source_partial, if items stand in lists in the graph."
  },
  {
   "property": "C67",
   "status": "proved",
   "theorems": [
    "Adoc.Props.C67_graph",
    "Adoc.Props.C67_texts",
    "Adoc.Props.C67_all_text",
    "Adoc.Props.C67_metadata",
    "Adoc.Props.C67_attributes",
    "Adoc.Props.C67_added_needed"
   ],
   "note": "For every source, every set of files and every include depth, for texts, targets, list markers, the text that is counted in words, metadata and document attributes. The added characters are the list `added` in Spec/Origin.lean; C67_added_needed shows some in use."
  },
  {
   "property": "C68",
   "status": "partial",
   "theorems": [
    "Adoc.Props.C68_blocks",
    "Adoc.Props.C68_inlines",
    "Adoc.Props.C68_metadata",
    "Adoc.Props.C68_title",
    "Adoc.Props.C68_plain",
    "Adoc.Props.C68_tables",
    "Adoc.Props.C68_quotation",
    "Adoc.Props.C68_http"
   ],
   "note": "False of the code: a paragraph before a delimiter becomes a quotation (C68_quotation), every word that begins with http is a link (C68_http). C68_blocks, C68_inlines, C68_metadata, C68_title: for every node of every graph the characters of one of the markups for its kind (Spec/Origin.lean, where quotation and link have the code's conditions) are available; C68_plain, C68_tables are consequences. Missing: that the characters stand together as one marker."
  },
  {
   "property": "C69",
   "status": "partial",
   "theorems": [
    "Adoc.Props.C69_sections_partial",
    "Adoc.Props.C69_link_ends_section",
    "Adoc.Props.C69_link_before_heading",
    "Adoc.Props.C69_section_in_sidebar",
    "Adoc.Props.C69_section_in_admonition"
   ],
   "note": "For every document of the class of Spec/RichDoc: paragraphs, headings of levels 1 to 4, lists, verbatim blocks, breaks, admonitions and boxes, with any inline markup of Spec/Rich, where no heading follows an admonition or a box and a block with a link or cross reference in a section is the last one before a heading. Without these conditions it is false of the code (C69_link_ends_section, C69_link_before_heading, C69_section_in_sidebar, C69_section_in_admonition)."
  },
  {
   "property": "C70",
   "status": "partial",
   "theorems": [
    "Adoc.Props.C70_inlines_partial",
    "Adoc.Props.C70_second_line",
    "Adoc.Props.C70_adjacent",
    "Adoc.Props.C70_bare_url",
    "Adoc.Props.C70_three_levels",
    "Adoc.Props.C70_newline_reference",
    "Adoc.Props.C70_link_in_span",
    "Adoc.Props.C70_title_line",
    "Adoc.Props.C70_span_after_footnote",
    "Adoc.Props.C70_newline_footnote",
    "Adoc.Props.C70_link_in_footnote",
    "Adoc.Props.C70_newline_image",
    "Adoc.Props.C70_styled_item"
   ],
   "note": "For every document of the same class as C69: texts of any number of lines, in which characters that look like markup are allowed where they are read as text (Said of Spec/Rich), spans with all ten markers and spans in them, links with text and spans, cross references, symbols, footnotes with spans, images with attributes and hard line breaks, under the conditions of ElemsOk. False of the code otherwise: C70_second_line, C70_adjacent, C70_bare_url, C70_three_levels, C70_newline_reference, C70_link_in_span, C70_span_after_footnote (the program stops), C70_newline_footnote, C70_link_in_footnote, C70_newline_image. A span directly after the point of a title line is read wrongly (C70_title_line). Styled text in the last item makes a paragraph of it (C70_styled_item)."
  },
  {
   "property": "C71",
   "status": "partial",
   "theorems": [
    "Adoc.Props.C71_verse_blank",
    "Adoc.Props.C71_verbatim_partial",
    "Adoc.Props.C71_boxes_partial",
    "Adoc.Props.C71_nested",
    "Adoc.Props.C71_order",
    "Adoc.Props.C71_break",
    "Adoc.Props.C71_list_at_end",
    "Adoc.Props.C71_admonitions",
    "Adoc.Props.C71_text_partial",
    "Adoc.Props.C71_url",
    "Adoc.Props.C71_unclosed"
   ],
   "note": "For the verbatim blocks of every document of the same class as C69 (C71_verbatim_partial), and for its sidebars, examples, open blocks and quotations with any number of paragraphs, lists and verbatim blocks in them, titles and metadata (C71_boxes_partial). False of the code for delimited blocks and breaks in delimited blocks and for a list directly before the last delimiter (C71_nested, C71_order, C71_break, C71_list_at_end). C71_text_partial: a document of one verbatim block, byte by byte, for every UTF-8 text with closed constructs. A URL at the end of a literal block takes the delimiter with it (C71_url); a reference that is not closed in a listing takes the end of the listing with it (C71_unclosed). Delimited admonitions in each other come out in the wrong order (C71_admonitions)."
  },
  {
   "property": "C72",
   "status": "proved",
   "theorems": [
    "Adoc.Props.C72_read"
   ],
   "note": "For every graph of the model. serde and serde_json are modelled after their documentation; the reader takes bytes and does not check that strings are UTF-8."
  },
  {
   "property": "C73",
   "status": "proved",
   "theorems": [
    "Adoc.Props.C73_same_text"
   ],
   "note": "Equivalence: same text just if the shown graphs are the same; not shown are whether a span was left open, flags of metadata, the document id and the table of ids (serde skip)."
  },
  {
   "property": "C74",
   "status": "partial",
   "theorems": [
    "Adoc.Props.C74_same_value",
    "Adoc.Props.C74_text_partial",
    "Adoc.Props.C74_two_attributes"
   ],
   "note": "Every run gives the same value up to the order of members (C74_same_value), and the same text if no node has two attributes (C74_text_partial). False of the code with two attributes (C74_two_attributes)."
  },
  {
   "property": "C75",
   "status": "partial",
   "theorems": [
    "Adoc.Props.C75_nodes_partial",
    "Adoc.Props.C75_source_partial",
    "Adoc.Props.C75_table"
   ],
   "note": "For every graph without table cells, in particular for every source without vertical bars. False of the code for table cells, which have node_type and no type (C75_table)."
  },
  {
   "property": "C76",
   "status": "partial",
   "theorems": [
    "Adoc.Props.C76_metadata_partial",
    "Adoc.Props.C76_anchor_paragraph",
    "Adoc.Props.C76_role_to_span",
    "Adoc.Props.C76_role_to_paragraph",
    "Adoc.Props.C76_role_to_section",
    "Adoc.Props.C76_two_styles"
   ],
   "note": "For every document of the class of Spec/RichDoc: any number of anchors, attribute lists (with a style, names and positions) and quoted entries before headings and lists, before paragraphs without spans, before verbatim blocks and boxes, and before the lists and verbatim blocks in boxes. False of the code otherwise: C76_anchor_paragraph, C76_role_to_span, C76_role_to_paragraph, C76_role_to_section, C76_two_styles."
  },
  {
   "property": "C77",
   "status": "partial",
   "theorems": [
    "Adoc.Props.C77_tokens",
    "Adoc.Props.C77_locations_partial",
    "Adoc.Props.C77_end_of_input",
    "Adoc.Props.C77_attribute_reference",
    "Adoc.Props.C77_empty_attribute",
    "Adoc.Props.C77_spanning_token"
   ],
   "note": "C77_locations_partial: for every source text without includes, tags, tokens over a line end and cells in cells, and without attribute references if it has attribute entries; all blocks and inlines at any depth. False of the code otherwise: C77_attribute_reference, C77_empty_attribute, C77_spanning_token; C77_end_of_input shows a location in column 0. C77_tokens: the tokens of the scanner."
  },
  {
   "property": "C78",
   "status": "partial",
   "theorems": [
    "Adoc.Props.C78_consolidate",
    "Adoc.Props.C78_consolidateL",
    "Adoc.Props.C78_blocks",
    "Adoc.Props.C78_document",
    "Adoc.Props.C78_in_section",
    "Adoc.Props.C78_not_last"
   ],
   "note": "For all token sequences, C78_blocks and C78_consolidate: every top-level block (and every item of a top-level list) covers its last block, or without blocks its last inline; a section also the last inline of its title. C78_document: the document begins not after 1:1 and covers its last block, or its header. False of the code: blocks in sections C78_in_section, blocks that are not the last C78_not_last."
  },
  {
   "property": "C79",
   "status": "partial",
   "theorems": [
    "Adoc.Props.C79_images_partial",
    "Adoc.Props.C79_missing_partial",
    "Adoc.Props.C79_role_lost",
    "Adoc.Props.C79_order",
    "Adoc.Props.C79_reference_in_title",
    "Adoc.Props.C79_inline"
   ],
   "note": "C79_images_partial: all images of documents of the class of Spec/RichDoc, among blocks of the other kinds, with titles, attributes and metadata lines; C79_missing_partial: for these documents a missing file is an error with the file and the line. False of the code otherwise: C79_role_lost, C79_order, C79_reference_in_title; inline images are not checked: C79_inline."
  },
  {
   "property": "C80",
   "status": "partial",
   "theorems": [
    "Adoc.Props.C80_tables_partial",
    "Adoc.Props.C80_header",
    "Adoc.Props.C80_panic",
    "Adoc.Props.C80_exit",
    "Adoc.Props.C80_next_line",
    "Adoc.Props.C80_bar_in_span",
    "Adoc.Props.C80_text_before",
    "Adoc.Props.C80_errors"
   ],
   "note": "C80_tables_partial: all tables of documents of the class of Spec/RichDoc, with any lines of cells in ASCII, titles and metadata lines; C80_header spells out the columns and the header. False of the code otherwise: C80_panic (a cell with a character that is not ASCII), C80_exit, C80_next_line, C80_bar_in_span, C80_text_before, C80_errors."
  },
  {
   "property": "C81",
   "status": "partial",
   "theorems": [
    "Adoc.Props.C81_dlists_partial",
    "Adoc.Props.C81_panic",
    "Adoc.Props.C81_hang",
    "Adoc.Props.C81_markup",
    "Adoc.Props.C81_title",
    "Adoc.Props.C81_second_line",
    "Adoc.Props.C81_list",
    "Adoc.Props.C81_blank_line",
    "Adoc.Props.C81_anchor",
    "Adoc.Props.C81_paragraph_after",
    "Adoc.Props.C81_metadata"
   ],
   "note": "C81_dlists_partial: all description lists of documents of the class of Spec/RichDoc, with any number of entries whose term and description are on one line each (or the description on the line below) and metadata lines. Cross references in terms do not show titles. False of the code otherwise: C81_panic (a term that ends with `end` or `tag`), C81_hang, C81_markup, C81_title, C81_second_line, C81_list, C81_blank_line, C81_anchor, C81_paragraph_after. C81_metadata (metadata between entries)."
  },
  {
   "property": "C82",
   "status": "partial",
   "theorems": [
    "Adoc.Props.C82_missing_partial",
    "Adoc.Props.C82_missing_sample",
    "Adoc.Props.C82_books_partial",
    "Adoc.Props.C82_whole_partial",
    "Adoc.Props.C82_next_line",
    "Adoc.Props.C82_heading",
    "Adoc.Props.C82_item",
    "Adoc.Props.C82_cells",
    "Adoc.Props.C82_unclosed",
    "Adoc.Props.C82_title",
    "Adoc.Props.C82_itself"
   ],
   "note": "C82_books_partial, C82_whole_partial: documents of the class of Spec/Book, that is, blocks of the class of Spec/RichDoc and include directives without attributes between them, with files of such blocks and directives, nested to any depth; a file may begin with newlines and end with or without them. Only a heading may follow a file in which a section begins while none is open (the section ends with the file). False of the code otherwise: C82_next_line, C82_heading, C82_item, C82_cells, C82_unclosed, C82_title, C82_itself (a file that includes itself). C82_missing_partial: after such a document, an include directive for a file that does not exist is an error with the file and the line, whatever text follows."
  },
  {
   "property": "C83",
   "status": "partial",
   "theorems": [
    "Adoc.Props.C83_missing_partial",
    "Adoc.Props.C83_missing_sample",
    "Adoc.Props.C83_listings_partial",
    "Adoc.Props.C83_file_partial",
    "Adoc.Props.C83_arrow",
    "Adoc.Props.C83_tag_lines",
    "Adoc.Props.C83_icons",
    "Adoc.Props.C83_two_callouts",
    "Adoc.Props.C83_literal",
    "Adoc.Props.C83_paragraph"
   ],
   "note": "C83_listings_partial: documents of the class of Spec/RichDoc; C83_file_partial: a listing that includes a file, for every file that is valid UTF-8, has its constructs closed (Spec.WellClosed), does not contain six equals signs in a row and none of the sequences that are replaced. There are no callouts when the attribute icons is true. False of the code otherwise: C83_arrow, C83_tag_lines, C83_icons (panic), C83_two_callouts, C83_literal. C83_missing_partial: a file that does not exist is an error with the file and the line."
  },
  {
   "property": "C84",
   "status": "partial",
   "theorems": [
    "Adoc.Props.C84_colists_partial",
    "Adoc.Props.C84_after_list",
    "Adoc.Props.C84_after_line",
    "Adoc.Props.C84_blank_line",
    "Adoc.Props.C84_list"
   ],
   "note": "C84_colists_partial: documents of the class of Spec/RichDoc, where a callout list follows a blank line. False of the code otherwise: C84_after_list, C84_after_line, C84_blank_line, C84_list."
  },
  {
   "property": "C85",
   "status": "partial",
   "theorems": [
    "Adoc.Props.C85_page_partial",
    "Adoc.Props.C85_book_partial",
    "Adoc.Props.C85_angle_brackets",
    "Adoc.Props.C85_table_title"
   ],
   "note": "C85_page_partial: documents of the class of Spec/RichDoc, and C85_book_partial: documents of several files of Spec/Book, with no < in texts, no quotation marks in ids, roles and targets, untitled tables and positive numbers of columns. False of the code otherwise: C85_angle_brackets, C85_table_title, and the witnesses of C60 to C66 and C69 to C84."
  },
  {
   "property": "C86",
   "status": "partial",
   "theorems": [
    "Adoc.Props.C86_paragraphs_partial",
    "Adoc.Props.C86_book_partial",
    "Adoc.Props.C86_word_partial"
   ],
   "note": "C86_word_partial: documents of the class of Spec/RichDoc without tables, captions of pictures and titles of quotations; false of the code for these (C54). What is to be read in a block is Word.content of its meaning. C86_paragraphs_partial and C86_book_partial, also with tables and captions: paragraph by paragraph, with page breaks, numbers of list items and, in calm documents, styles."
  },
  {
   "property": "C87",
   "status": "partial",
   "theorems": [
    "Adoc.Props.C87_tree_partial",
    "Adoc.Props.C87_angle_bracket",
    "Adoc.Props.C87_quotation_mark",
    "Adoc.Props.C87_source_partial",
    "Adoc.Props.C87_book_partial"
   ],
   "note": "C87_tree_partial: graphs whose quoted values have no quotation marks and whose texts have balanced elements; false otherwise (C87_angle_bracket, C87_quotation_mark). C87_source_partial and C87_book_partial: documents of the classes of Spec/RichDoc and Spec/Book that are Printable (no < in texts, untitled tables, positive numbers of columns). The rows of tables are those of C39."
  },
  {
   "property": "C88",
   "status": "partial",
   "theorems": [
    "Adoc.Props.C88_covers",
    "Adoc.Props.C88_looks_partial",
    "Adoc.Props.C88_leak",
    "Adoc.Props.C88_script",
    "Adoc.Props.C88_source_partial",
    "Adoc.Props.C88_book_partial"
   ],
   "note": "C88_covers (every graph): the paragraphs, cells, pictures, texts and line breaks, and at least the formatting that is asked for. C88_looks_partial: exactly this formatting, if inside a span or link no span is followed by anything and no script stands in another span; false otherwise (C88_leak, C88_script). C88_source_partial, C88_book_partial: from source texts of the classes of Spec/RichDoc and Spec/Book. Texts are compared up to white space; of a table the first cells are compared, C38 says how many."
  },
  {
   "property": "C89",
   "status": "proved",
   "theorems": [
    "Adoc.Props.C89_graph"
   ],
   "note": "C89_graph: the reader of Spec/JsonRead gives back the graph, without flags of the parser, the document id and the table of ids, which are not part of the output."
  },
  {
   "property": "C90",
   "status": "partial",
   "theorems": [
    "Adoc.Props.C90_source_partial",
    "Adoc.Props.C90_book_partial"
   ],
   "note": "C90_source_partial, C90_book_partial: source texts of the classes of Spec/RichDoc and Spec/Book; all orders of the maps. Locations are not compared."
  },
  {
   "property": "C91",
   "status": "partial",
   "theorems": [
    "Adoc.Props.C91_templates_partial",
    "Adoc.Props.C91_kinds",
    "Adoc.Props.C91_source_partial",
    "Adoc.Props.C91_no_tables",
    "Adoc.Props.C91_test",
    "Adoc.Props.C91_empty_head"
   ],
   "note": "C91_templates_partial, C91_source_partial: the engine of Model/Tera on the texts of the templates gives the page that all properties of pages are about, for graphs whose admonitions have kinds (all graphs of source texts, C91_kinds) and whose numbers of columns are written without signs, points and blanks in at most 18 characters; C91_no_tables: for all source texts without vertical bars. The engine itself is a model of Tera after its documentation."
  },
  {
   "property": "C92",
   "status": "partial",
   "theorems": [
    "Adoc.Props.C92_lists_partial",
    "Adoc.Props.C92_tables",
    "Adoc.Props.C92_open_sample",
    "Adoc.Props.C92_continuation_not",
    "Adoc.Props.C92_outside"
   ],
   "note": "C92_lists_partial: for all source texts and files without lines of one `+` (block continuations); C92_tables: for tables without this restriction. False of the code with continuation lines (C92_continuation_not). The converse is false too: items, terms and cells also stand outside of lists and tables (C92_outside)."
  },
  {
   "property": "C93",
   "status": "partial",
   "theorems": [
    "Adoc.Props.C93_filled_partial",
    "Adoc.Props.C93_sample",
    "Adoc.Props.C93_link_not",
    "Adoc.Props.C93_verse_not",
    "Adoc.Props.C93_title_not",
    "Adoc.Props.C93_empty_value",
    "Adoc.Props.C93_verse"
   ],
   "note": "C93_filled_partial: for all documents of the class of C23 without tables and verses, with references and quotes in any texts outside of links, titles of documents and verbatim blocks; C93_sample meets its hypotheses. False of the code in the texts of links, in verses and in the title of a document (C93_link_not, C93_verse_not, C93_title_not). In verses quotation marks are typographic (C93_verse)."
  },
  {
   "property": "C94",
   "status": "proved",
   "theorems": [
    "Adoc.Props.C94_unchecked",
    "Adoc.Props.C94_files",
    "Adoc.Props.C94_keeps",
    "Adoc.Props.C94_one_graph",
    "Adoc.Props.C94_sample",
    "Adoc.Props.C94_files_sample"
   ],
   "note": "For all documents and worlds: C94_unchecked (the flag), C94_files (more files and more room; also errors and panics are the same unless something was missing), C94_keeps, C94_one_graph."
  },
  {
   "property": "C95",
   "status": "partial",
   "theorems": [
    "Adoc.Props.C95_warning",
    "Adoc.Props.C95_success",
    "Adoc.Props.C95_failure_partial",
    "Adoc.Props.C95_only_destination",
    "Adoc.Props.C95_count",
    "Adoc.Props.C95_sample",
    "Adoc.Props.C95_failure_sample",
    "Adoc.Props.C95_word_not",
    "Adoc.Props.C95_count_json",
    "Adoc.Props.C95_input_lost"
   ],
   "note": "For all systems and arguments: C95_success, C95_only_destination, C95_count; C95_failure_partial for HTML and JSON. False for Word: the file is created before the document is made, so that a failure leaves an empty file (C95_word_not). Warnings of the log go to standard output as well, before the output; what they say is not modelled, and with any of them JSON on standard output cannot be read (C95_warning). Standard output that cannot be written, and writes that fail half way, are not modelled."
  },
  {
   "property": "C96",
   "status": "partial",
   "theorems": [
    "Adoc.Props.C96_shapes_partial",
    "Adoc.Props.C96_unchecked_partial",
    "Adoc.Props.C96_paragraphs",
    "Adoc.Props.C96_images",
    "Adoc.Props.C96_sample",
    "Adoc.Props.C96_comment_not",
    "Adoc.Props.C96_quotation_not",
    "Adoc.Props.C96_bracket",
    "Adoc.Props.C96_images_not"
   ],
   "note": "For all documents: C96_shapes_partial and C96_unchecked_partial, with C96_paragraphs and C96_images as consequences. False of the code in two cases, which the predicate allows: a comment block that is never closed stays as a listing with its text (C96_comment_not), and a quotation written as a paragraph has an empty delimiter (C96_quotation_not)."
  },
  {
   "property": "C97",
   "status": "partial",
   "theorems": [
    "Adoc.Props.C97_html_partial",
    "Adoc.Props.C97_json_partial",
    "Adoc.Props.C97_word_partial",
    "Adoc.Props.C97_sample",
    "Adoc.Props.C97_json_sample",
    "Adoc.Props.C97_word_sample"
   ],
   "note": "For all documents of the class of C82 (several files, given part by part), all systems and arguments: C97_html_partial, C97_json_partial, C97_word_partial, each with a sample run. Missing: documents outside of the class; for HTML the texts must have no < or & in them (C85), for Word no spans inside spans that go on (C88)."
  },
  {
   "property": "C98",
   "status": "partial",
   "theorems": [
    "Adoc.Props.C98_fault",
    "Adoc.Props.C98_line_partial",
    "Adoc.Props.C98_cell",
    "Adoc.Props.C98_cell_line",
    "Adoc.Props.C98_nowhere",
    "Adoc.Props.C98_empty_verse",
    "Adoc.Props.C98_included"
   ],
   "note": "C98_fault explains every error of every document (any files, includes, tables) by a token or a scanner error of a text that is read. C98_line_partial says what stands on the named line of the input or of an included file; missing there: tags, and tokens that run over a line end (as in C04). False: headings that are too deep in a cell are reported for line 1 (C98_cell_line), some errors have no line (C98_nowhere), errors in included files do not name the file (C98_included)."
  },
  {
   "property": "C99",
   "status": "partial",
   "theorems": [
    "Adoc.Props.C99_attached_partial",
    "Adoc.Props.C99_paragraph",
    "Adoc.Props.C99_paragraph_end",
    "Adoc.Props.C99_lines",
    "Adoc.Props.C99_first_item",
    "Adoc.Props.C99_listing",
    "Adoc.Props.C99_break",
    "Adoc.Props.C99_inner_box",
    "Adoc.Props.C99_blank_line",
    "Adoc.Props.C99_description_list"
   ],
   "note": "C99_attached_partial: for every document of the class of C69, which now has lists with examples, sidebars, open blocks and quotations attached to all items but the first, with paragraphs on one line, lists and verbatim blocks in them. Missing: titles and metadata on attached blocks, attached tables, attachments in description lists. False of the code: attached paragraphs become part of the text or an error (C99_paragraph, C99_paragraph_end, C99_description_list), newlines in attached blocks are lost (C99_lines), the first item of a list after a paragraph cannot have attached blocks (C99_first_item), attached listings panic (C99_listing), breaks and boxes in attached boxes come to stand in wrong places (C99_break, C99_inner_box), a blank line before the plus sign is an error (C99_blank_line)."
  },
  {
   "property": "C100",
   "status": "partial",
   "theorems": [
    "Adoc.Props.C100_told_apart",
    "Adoc.Props.C100_same_message",
    "Adoc.Props.C100_cause_partial",
    "Adoc.Props.C100_runs",
    "Adoc.Props.C100_sample",
    "Adoc.Props.C100_file"
   ],
   "note": "For all systems and arguments: what a failed run says (C100_cause_partial, with the cause of C98 for texts where no token runs over a line end and there are no tags); for all pairs of errors: C100_told_apart, C100_runs. The message does not name the file (C100_file), and some errors without a line have the same message (C100_same_message). Messages of panics are not modelled."
  },
  {
   "property": "C101",
   "status": "partial",
   "theorems": [
    "Adoc.Props.C101_before_partial",
    "Adoc.Props.C101_any_partial",
    "Adoc.Props.C101_title",
    "Adoc.Props.C101_unclosed"
   ],
   "note": "For all documents of the class of C69 that end with a blank line and not with a box, and all texts that follow: the blocks before any of its headings, or all blocks if it has no headings, come first (C101_before_partial; C101_any_partial without a condition on what follows). False for the section that is open at the end of the document: its title can get more text (C101_title), and blocks can be put before it (C101_unclosed)."
  },
  {
   "property": "C102",
   "status": "partial",
   "theorems": [
    "Adoc.Props.C102_after_partial",
    "Adoc.Props.C102_dlist",
    "Adoc.Props.C102_panics",
    "Adoc.Props.C102_ref",
    "Adoc.Props.C102_box"
   ],
   "note": "For all beginnings of the class of C69 without headings, links, cross references and description lists that do not end with a box, and all texts that follow without opening include tags: the same error, or the same blocks with the same locations and the same ids (C102_after_partial). False after a description list (C102_dlist: line ends become pieces of text; C102_panics: a later text panics), after a cross reference (C102_ref: the next section ends after one block) and after a delimited block (C102_box: a section that follows is in it)."
  },
  {
   "property": "C103",
   "status": "partial",
   "theorems": [
    "Adoc.Props.C103_run_partial",
    "Adoc.Props.C103_files_partial",
    "Adoc.Props.C103_sample",
    "Adoc.Props.C103_outcomes",
    "Adoc.Props.C103_needed"
   ],
   "note": "False of the code: C103_needed lists texts that panic or hang, and C07 and C42 have more. C103_run_partial: all UTF-8 texts, with their lines and characters in any order, that end with a newline, have none of the characters []|^~, have *_`+# only between two blanks, between two letters or digits, as the asterisk of a list item or as the plus sign of a line break, have no < right before a digit, < or >, none of the words image:, include::, tag::, end:: and leveloffset, no equals sign right before a character outside of ASCII, and only ASCII between http and the next blank. For each condition, C103_needed has a text that crashes without it. Missing: texts with spans, brackets and tables (for documents of the class of C69 see C97)."
  },
  {
   "property": "C104",
   "status": "proved",
   "theorems": [
    "Adoc.Props.C104_once",
    "Adoc.Props.C104_run",
    "Adoc.Props.C104_lookup"
   ],
   "note": "C104_once: for every run of the parser that returns, whatever order the maps are written in. C104_run: for what a run of the program leaves in its file or on standard output. C104_lookup: what is found by a name does not depend on the order."
  },
  {
   "property": "C105",
   "status": "partial",
   "theorems": [
    "Adoc.Props.C105_looks_partial",
    "Adoc.Props.C105_all_partial",
    "Adoc.Props.C105_thematic_break",
    "Adoc.Props.C105_kinds_partial",
    "Adoc.Props.C105_kinds_title_partial",
    "Adoc.Props.C105_witness",
    "Adoc.Props.C105_source_partial",
    "Adoc.Props.C105_book_partial"
   ],
   "note": "False of the code for thematic breaks (C105_thematic_break, C105_witness): their paragraph asks for a style that is not defined, so it is neither centred nor bold although a style for it is defined under another name. C105_looks_partial: every other paragraph of every graph has the expected look. C105_all_partial: every paragraph of every graph without thematic breaks. C105_kinds_partial, C105_kinds_title_partial: in the graphs of C55_roles_partial the looks of the paragraphs follow, one by one, from the kinds of blocks they come from. C105_source_partial, C105_book_partial: the same from source texts of the classes of Spec/RichDoc and Spec/Book. What the library sets by itself and the space after attributions are not modelled."
  },
  {
   "property": "C106",
   "status": "partial",
   "theorems": [
    "Adoc.Props.C106_alike_partial",
    "Adoc.Props.C106_labels",
    "Adoc.Props.C106_references",
    "Adoc.Props.C106_attribution",
    "Adoc.Props.C106_lost",
    "Adoc.Props.C106_source_partial",
    "Adoc.Props.C106_book_partial"
   ],
   "note": "False of the code: labels of admonitions and thematic breaks are in Word only (C106_labels), references without a text show their target on the page only (C106_references), attributions differ (C106_attribution), titles of quotations are on the page only and text between angle brackets in Word only (C106_lost). C106_alike_partial: for every graph without these, character references, and what C54 and C62 say is lost (Spec/Alike). C106_source_partial, C106_book_partial: the same from source texts of the classes of Spec/RichDoc and Spec/Book."
  },
  {
   "property": "C107",
   "status": "partial",
   "theorems": [
    "Adoc.Props.C107_outputs",
    "Adoc.Props.C107_layout_partial",
    "Adoc.Props.C107_comments_partial",
    "Adoc.Props.C107_files_partial",
    "Adoc.Props.C107_split_partial",
    "Adoc.Props.C107_seen",
    "Adoc.Props.C107_words",
    "Adoc.Props.C107_runs_partial"
   ],
   "note": "False of the code: comments before a title, blank lines in description lists, comment blocks without a blank line after them (C107_seen). C107_outputs: for every two graphs with the same title and the same blocks in the same sections, whatever their locations, both outputs are identical. C107_layout_partial, C107_comments_partial, C107_files_partial, C107_split_partial: the same from source texts of the classes of Spec/RichDoc and Spec/Book. C107_runs_partial: whole runs of the program for HTML and Word print the same, write the same files and end in the same way; C107_words: the number of words is the same."
  },
  {
   "property": "C108",
   "status": "partial",
   "theorems": [
    "Adoc.Props.C108_page",
    "Adoc.Props.C108_title",
    "Adoc.Props.C108_delete",
    "Adoc.Props.C108_cell",
    "Adoc.Props.C108_word_text",
    "Adoc.Props.C108_source_partial",
    "Adoc.Props.C108_book_partial",
    "Adoc.Props.C108_delete_partial",
    "Adoc.Props.C108_word_partial",
    "Adoc.Props.C108_link",
    "Adoc.Props.C108_word"
   ],
   "note": "C108_page: for every graph, block (in sections, lists, items and boxes at any depth) and replacement; C108_cell, C108_title: the same for the text of the cells of tables and for the title. C108_source_partial, C108_book_partial: from source texts of the classes of Spec/RichDoc and Spec/Book, for blocks that are not headings and have the same ids. C108_delete, C108_delete_partial: a block is left out or inserted, for every graph and from source texts. C108_word_text: for every graph, if a paragraph, listing or verse is exchanged for another one of the same kind and both end with a text, the Word documents are the same up to the text of at most one paragraph; C108_word_partial: the same from source texts of several files. Missing: documents outside the classes, and other blocks in Word. False of the code: a link in place of a paragraph ends the section (C108_link), and in Word the style goes over to the next paragraph (C108_word)."
  },
  {
   "property": "C109",
   "status": "proved",
   "theorems": [
    "Adoc.Props.C109_layout",
    "Adoc.Props.C109_book_partial"
   ],
   "note": "C109_layout: for every two graphs. C109_book_partial: also from source texts of one or several files, for the class of Spec/Book."
  },
  {
   "property": "C110",
   "status": "proved",
   "theorems": [
    "Adoc.Props.C110_page",
    "Adoc.Props.C110_same",
    "Adoc.Props.C110_size",
    "Adoc.Props.C110_book_partial"
   ],
   "note": "C110_page, C110_same, C110_size: for every two graphs. C110_book_partial: also from source texts of one or several files, for the class of Spec/Book."
  }
 ]
}
