{
 "claims": [
  {
   "property": "C01",
   "status": "proved",
   "theorems": [
    "Vw.C01_parse_terminates"
   ],
   "note": "All texts and all behaviours of the URI and date libraries; the fuel of every loop and recursion suffices."
  },
  {
   "property": "C02",
   "status": "proved",
   "theorems": [
    "Vw.C02_every_text_is_a_page"
   ],
   "note": ""
  },
  {
   "property": "C03",
   "status": "partial",
   "theorems": [
    "Vw.C03_panic_sites_partial",
    "Vw.C03_no_panic_partial",
    "Vw.C03_violated"
   ],
   "note": "The code violates the full statement (three witnesses). Proved: what the text must contain for a panic at each of the four sites (PanicNeeds); valid UTF-8 below 65533 bytes without white space outside ASCII, without words beginning with a link scheme and without diary links whose anchor is no URI never panics (Calm)."
  },
  {
   "property": "C04",
   "status": "proved",
   "theorems": [
    "Vw.C04_regions_in_bounds"
   ],
   "note": ""
  },
  {
   "property": "C05",
   "status": "partial",
   "theorems": [
    "Vw.C05_regions_nest_partial",
    "Vw.C05_violated"
   ],
   "note": "Proved for all elements except the two wrappers of definition list entries, for which the code violates it."
  },
  {
   "property": "C06",
   "status": "proved",
   "theorems": [
    "Vw.C06_elements_tile_page"
   ],
   "note": ""
  },
  {
   "property": "C07",
   "status": "proved",
   "theorems": [
    "Vw.C07_text_verbatim"
   ],
   "note": ""
  },
  {
   "property": "C08",
   "status": "proved",
   "theorems": [
    "Vw.C08_strings_utf8"
   ],
   "note": "Strings inside library values (URIs, dates) excluded."
  },
  {
   "property": "C09",
   "status": "proved",
   "theorems": [
    "Vw.C09_header_elements",
    "Vw.C09_header_syntax"
   ],
   "note": "Both for the elements of a page and for the element parser; panics in the inline content excluded."
  },
  {
   "property": "C10",
   "status": "proved",
   "theorems": [
    "Vw.C10_divider_elements",
    "Vw.C10_divider_syntax"
   ],
   "note": ""
  },
  {
   "property": "C11",
   "status": "proved",
   "theorems": [
    "Vw.C11_code_lines",
    "Vw.C11_code_head",
    "Vw.C11_code_recognised"
   ],
   "note": "Code blocks at any depth of a page, with language and metadata of the opening line. Non-ASCII lines are covered for order and count but their dedent may panic (see C03)."
  },
  {
   "property": "C12",
   "status": "proved",
   "theorems": [
    "Vw.C12_math_lines",
    "Vw.C12_math_recognised"
   ],
   "note": "As C11, with the environment, at any depth of a page."
  },
  {
   "property": "C13",
   "status": "partial",
   "theorems": [
    "Vw.C13_comments_partial",
    "Vw.C13_comments_in_page",
    "Vw.C13_violated"
   ],
   "note": "Comments on every text and in every page: first terminator, rest of the line, the lines between. The lines joined by newlines are not the text when the comment ends with a line break or has CRLF line ends (witness)."
  },
  {
   "property": "C14",
   "status": "partial",
   "theorems": [
    "Vw.C14_bodies_partial",
    "Vw.C14_code_recognised",
    "Vw.C14_math_recognised",
    "Vw.C14_violated"
   ],
   "note": "What every delimited element of a page captures; exact recognition for code and math. Math whose body begins with a dollar sign and decorations of which the body does not begin with parseable text are not recognised (witness). Recognition of links in brackets and of decorations in the rows of a page is C114."
  },
  {
   "property": "C15",
   "status": "partial",
   "theorems": [
    "Vw.C15_tags_partial",
    "Vw.C15_violated"
   ],
   "note": "All clauses but the last: the source starts with the tags between colons, but a word like :a:b:c loses its end."
  },
  {
   "property": "C16",
   "status": "partial",
   "theorems": [
    "Vw.C16_placeholder_value_partial",
    "Vw.C16_blank_test_partial",
    "Vw.C16_violated"
   ],
   "note": "Exact behaviour proved: the first byte of a value is not looked at. The code violates the full statement for one-character values."
  },
  {
   "property": "C17",
   "status": "proved",
   "theorems": [
    "Vw.C17_line",
    "Vw.C17_column"
   ],
   "note": ""
  },
  {
   "property": "C18",
   "status": "proved",
   "theorems": [
    "Vw.C18_cells_by_row_and_column",
    "Vw.C18_counts_exact"
   ],
   "note": "Tables at any depth of a page; the kind of each cell is also determined by its source text."
  },
  {
   "property": "C19",
   "status": "proved",
   "theorems": [
    "Vw.C19_print_parse",
    "Vw.C19_accepted"
   ],
   "note": "Positions below 2^64; the accepted strings are characterised exactly."
  },
  {
   "property": "C20",
   "status": "proved",
   "theorems": [
    "Vw.C20_rows_partition"
   ],
   "note": "For every table value."
  },
  {
   "property": "C21",
   "status": "partial",
   "theorems": [
    "Vw.C21_rowspan_partial",
    "Vw.C21_colspan_partial",
    "Vw.C21_colspan_parsed",
    "Vw.C21_gap_above",
    "Vw.C21_violated"
   ],
   "note": "Column spans of parsed tables are fully proved. Row spans are proved for columns without a gap above the cell; the code violates the claim below a gap, and the deviation is proved exactly."
  },
  {
   "property": "C22",
   "status": "partial",
   "theorems": [
    "Vw.C22_cells_partial",
    "Vw.C22_rectangular_partial",
    "Vw.C22_rows_parsed",
    "Vw.C22_row_column",
    "Vw.C22_violated"
   ],
   "note": "Exact behaviour of cells() for every table; it stops at the first gap, so the claim fails for ragged tables and is proved for tables without gaps. Row by row iteration is proved complete for all parsed tables."
  },
  {
   "property": "C23",
   "status": "partial",
   "theorems": [
    "Vw.C23_strict_eq_partial",
    "Vw.C23_strict_not_eq"
   ],
   "note": "For pages of which the maps have distinct keys and the tables right counts, as the types guarantee. Equality of URIs is an external equivalence. That strict_eq implies == needs that equal URIs have the same text, because terms and definitions are compared by == as displayed; otherwise it fails (C23_strict_not_eq)."
  },
  {
   "property": "C24",
   "status": "partial",
   "theorems": [
    "Vw.C24_alphabet_partial",
    "Vw.C24_violated"
   ],
   "note": "Proved for positions below 2^32; beyond, the code truncates to u32 and repeats prefixes."
  },
  {
   "property": "C25",
   "status": "partial",
   "theorems": [
    "Vw.C25_prefix_partial",
    "Vw.C25_violated"
   ],
   "note": "Exact set of items whose printed prefix is read back, for every type, suffix and position; the claim fails for the others (words mixing roman digits and other letters, ordered items without suffix), shown by witnesses. Assumes the crate numerals prints standard numerals."
  },
  {
   "property": "C26",
   "status": "proved",
   "theorems": [
    "Vw.C26_roman"
   ],
   "note": "The external crate numerals is assumed to print the standard numerals."
  },
  {
   "property": "C27",
   "status": "partial",
   "theorems": [
    "Vw.C27_progress_partial",
    "Vw.C27_mean",
    "Vw.C27_violated"
   ],
   "note": "Proved for at most 2^24 items with f32 rounding that is monotone and exact on whole numbers up to 2^24; beyond, the code violates the claim about completed items."
  },
  {
   "property": "C28",
   "status": "partial",
   "theorems": [
    "Vw.C28_numbering_partial",
    "Vw.C28_violated"
   ],
   "note": "Numbering and uniform types proved for every list at any depth, with type and suffixes tied to the source prefixes; the roman clause is false in the code (witness)."
  },
  {
   "property": "C29",
   "status": "proved",
   "theorems": [
    "Vw.C29_line_groups"
   ],
   "note": ""
  },
  {
   "property": "C30",
   "status": "proved",
   "theorems": [
    "Vw.C30_display_round_trip",
    "Vw.C30_link_anchor"
   ],
   "note": ""
  },
  {
   "property": "C31",
   "status": "proved",
   "theorems": [
    "Vw.C31_encode_uri",
    "Vw.C31_escapes",
    "Vw.C31_decodes"
   ],
   "note": ""
  },
  {
   "property": "C32",
   "status": "partial",
   "theorems": [
    "Vw.C32_regions_partial",
    "Vw.C32_violated"
   ],
   "note": "Proved for all ranges whose end is below the largest usize; at the limit the conversion overflows."
  },
  {
   "property": "C33",
   "status": "proved",
   "theorems": [
    "Vw.C33_state"
   ],
   "note": "For every block and page, every configuration and formatter state, when formatting does not panic."
  },
  {
   "property": "C34",
   "status": "partial",
   "theorems": [
    "Vw.C34_prefix_partial",
    "Vw.C34_trimmed_kept",
    "Vw.C34_violated"
   ],
   "note": "Formatting only appends for elements without blank trimmed lines; for all elements and pages everything but whitespace at the end of earlier text is kept; C34_violated shows that a blank line in a paragraph removes an earlier empty line."
  },
  {
   "property": "C35",
   "status": "proved",
   "theorems": [
    "Vw.C35_aligned"
   ],
   "note": "Widths are in bytes, as in the code."
  },
  {
   "property": "C36",
   "status": "partial",
   "theorems": [
    "Vw.C36_no_panic_partial",
    "Vw.C36_full_iff",
    "Vw.C36_iff",
    "Vw.C36_no_text_panics",
    "Vw.C36_violated"
   ],
   "note": "The exact condition for a panic is proved for all tables (C36_iff) and in a simpler form for tables without gaps (C36_full_iff); C36_violated is a parsed table that makes the formatter panic."
  },
  {
   "property": "C37",
   "status": "proved",
   "theorems": [
    "Vw.C37_leaf_round_trip",
    "Vw.C37_leaf_round_trip_calm"
   ],
   "note": "The conditions on strings are LeafOk (Spec/RoundTrip). The first theorem allows the panics of C03; the second excludes them by an assumption on the text."
  },
  {
   "property": "C38",
   "status": "partial",
   "theorems": [
    "Vw.C38_metadata_order",
    "Vw.C38_same_pages",
    "Vw.C38_equal_pages_violated"
   ],
   "note": "Independence of the order of maps is proved in full. That equal pages have equal text is proved for pages of the same structure; it fails for definition lists, whose terms are compared as displayed. Equality of URIs is a parameter and is assumed to imply the same text."
  },
  {
   "property": "C39",
   "status": "proved",
   "theorems": [
    "Vw.C39_concat",
    "Vw.C39_line_break"
   ],
   "note": "The conditions are those of the quantifier; C39_line_break shows that only lists can fail the second."
  },
  {
   "property": "C40",
   "status": "partial",
   "theorems": [
    "Vw.C40_partial",
    "Vw.C40_not_requested",
    "Vw.C40_violated",
    "Vw.C40_violated_generated",
    "Vw.C40_page_partial",
    "Vw.C40_page_simple",
    "Vw.C40_page_violated"
   ],
   "note": "Ids are unique when no requested id is another one with a dash and a number (for calls and for whole pages). Always: an id handed out differs from all ids requested before. The violations are the requests a, a, a-1 and a, a, a-2, a, and a page with the headers a, a, a-1."
  },
  {
   "property": "C41",
   "status": "proved",
   "theorems": [
    "Vw.C41_terminates",
    "Vw.C41_bound"
   ],
   "note": "C41_bound shows that the bound on rounds in the model does not matter."
  },
  {
   "property": "C42",
   "status": "proved",
   "theorems": [
    "Vw.C42_inline",
    "Vw.C42_description",
    "Vw.C42_tag",
    "Vw.C42_code_block",
    "Vw.C42_math_block",
    "Vw.C42_quote",
    "Vw.C42_quote_paragraphs"
   ],
   "note": "Code blocks without server-side highlighting. The escape table of voca_rs is part of the trusted base."
  },
  {
   "property": "C43",
   "status": "partial",
   "theorems": [
    "Vw.C43_partial",
    "Vw.C43_parsed",
    "Vw.C43_violated",
    "Vw.C43_violated_math"
   ],
   "note": "Proved for all pages whose unescaped strings are harmless, with comments left out. C43_violated and C43_violated_math show parsed pages whose output is not nested: languages of code blocks and math environments are not escaped."
  },
  {
   "property": "C44",
   "status": "proved",
   "theorems": [
    "Vw.C44_content",
    "Vw.C44_independent",
    "Vw.C44_pieces"
   ],
   "note": ""
  },
  {
   "property": "C45",
   "status": "proved",
   "theorems": [
    "Vw.C45_no_whitespace",
    "Vw.C45_words",
    "Vw.C45_depends"
   ],
   "note": "Lowercasing is a parameter."
  },
  {
   "property": "C46",
   "status": "proved",
   "theorems": [
    "Vw.C46_no_dots",
    "Vw.C46_idempotent",
    "Vw.C46_same_place",
    "Vw.C46_relative",
    "Vw.C46_climbing"
   ],
   "note": "Absolute paths never escape the root and keep their meaning. A relative path keeps its meaning if it does not climb above its start; C46_climbing shows the condition is needed."
  },
  {
   "property": "C47",
   "status": "partial",
   "theorems": [
    "Vw.C47_link_partial",
    "Vw.C47_violated"
   ],
   "note": "Proved for all absolute paths with clean target names, except when the target is the directory of the source or lies below the source taken as a directory; there the property fails (C47_violated: b.wiki linking to [[b.html/c]]). Names that need percent-encoding are outside the theorem."
  },
  {
   "property": "C48",
   "status": "proved",
   "theorems": [
    "Vw.C48_stem_whole",
    "Vw.C48_outside",
    "Vw.C48_no_panic",
    "Vw.C48_inside",
    "Vw.C48_distinct",
    "Vw.C48_stem",
    "Vw.C48_root"
   ],
   "note": "For files strictly inside the wiki given by relative path, by absolute path, or outside it (where only the file name is kept). C48_root: the wiki directory itself is mapped beside the output directory."
  },
  {
   "property": "C49",
   "status": "proved",
   "theorems": [
    "Vw.C49_none",
    "Vw.C49_deepest"
   ],
   "note": ""
  },
  {
   "property": "C50",
   "status": "proved",
   "theorems": [
    "Vw.C50_root",
    "Vw.C50_page",
    "Vw.C50_none"
   ],
   "note": "For absolute wiki directories and pages given without dot components."
  },
  {
   "property": "C51",
   "status": "proved",
   "theorems": [
    "Vw.C51_transparent",
    "Vw.C51_all_files"
   ],
   "note": "For all histories of edits, removals, loads, interrupted loads and prunes from an empty cache. Assumes of serde_json that no part of a written page reads back as another page (shown of the JSON model by C87_sound), and that no two texts of the history have the same SHA-1."
  },
  {
   "property": "C52",
   "status": "partial",
   "theorems": [
    "Vw.C52_kept_partial",
    "Vw.C52_pruned",
    "Vw.C52_definition_violated"
   ],
   "note": "C52_kept_partial when no system call fails, for pages that read back from JSON (exactly those of C87_cache); C52_pruned for all outcomes of removals. False of pages with definition lists, whose entry is never readable."
  },
  {
   "property": "C53",
   "status": "partial",
   "theorems": [
    "Vw.C53_partial",
    "Vw.C53_prefix_partial",
    "Vw.C53_error",
    "Vw.C53_violated"
   ],
   "note": "Violated when an earlier wiki is left out (C53_violated: the files of the selected wiki are loaded and then dropped). The exact result is proved for all selections, the full claim when the selection is a prefix, and the condition under which loading fails."
  },
  {
   "property": "C54",
   "status": "proved",
   "theorems": [
    "Vw.C54_found",
    "Vw.C54_failed",
    "Vw.C54_history",
    "Vw.C54_obtain",
    "Vw.C54_reload"
   ],
   "note": "C54_reload: loading a changed file again still finds the old one."
  },
  {
   "property": "C55",
   "status": "proved",
   "theorems": [
    "Vw.C55_selected",
    "Vw.C55_index",
    "Vw.C55_numeric_name"
   ],
   "note": "For one application of the filter; the tool applies it twice, see C60."
  },
  {
   "property": "C56",
   "status": "proved",
   "theorems": [
    "Vw.C56_refused"
   ],
   "note": "For all 25 element types."
  },
  {
   "property": "C57",
   "status": "partial",
   "theorems": [
    "Vw.C57_column_alignment_partial",
    "Vw.C57_violated"
   ],
   "note": "Proved for columns without a gap above the alignment cell; the code ignores an alignment below a gap."
  },
  {
   "property": "C58",
   "status": "partial",
   "theorems": [
    "Vw.C58_cells_kept_partial",
    "Vw.C58_lost",
    "Vw.C58_violated"
   ],
   "note": "Cells before the first gap are kept; C58_lost says what is written for the others, which is blanks; C58_violated shows that cells after a gap are lost."
  },
  {
   "property": "C59",
   "status": "partial",
   "theorems": [
    "Vw.C59_wiki_partial",
    "Vw.C59_interwiki_partial",
    "Vw.C59_diary_partial",
    "Vw.C59_violated",
    "Vw.C59_violated_directory"
   ],
   "note": "Proved for pages and directories, relative or from the wiki root, whose names have no dots, in directories not called *.html. Fails for dotted names ([[v1.2]] leads to v1.html) and for interwiki links to directories."
  },
  {
   "property": "C60",
   "status": "partial",
   "theorems": [
    "Vw.C60_partial",
    "Vw.C60_violated"
   ],
   "note": "Violated for indexes: the filter is applied again to the filtered list, so --include 1 selects nothing. Proved for arguments that are names."
  },
  {
   "property": "C61",
   "status": "partial",
   "theorems": [
    "Vw.C61_error",
    "Vw.C61_done",
    "Vw.C61_run",
    "Vw.C61_all",
    "Vw.C61_violated"
   ],
   "note": "Proved for runs that are not interrupted. C61_violated: an interruption may leave an empty file."
  },
  {
   "property": "C62",
   "status": "partial",
   "theorems": [
    "Vw.C62_terminates",
    "Vw.C62_inside",
    "Vw.C62_panic_sites_partial",
    "Vw.C62_no_panic_partial"
   ],
   "note": "Termination and regions are proved for all texts and element types; a panic needs the same as in C03, and texts without that (Calm) never panic."
  },
  {
   "property": "C63",
   "status": "partial",
   "theorems": [
    "Vw.C63_partial",
    "Vw.C63_violated",
    "Vw.C63_kept"
   ],
   "note": "The result does not depend on the cache; the cache is written all the same, but no entry is lost."
  },
  {
   "property": "C64",
   "status": "partial",
   "theorems": [
    "Vw.C64_round_trip_partial",
    "Vw.C64_round_trip_calm_partial",
    "Vw.C64_violated"
   ],
   "note": "Proved for pages of all kinds of blocks under TopOk and AllBeside (Spec/PageText). Missing: pages outside these conditions, among them texts whose formatting changes them."
  },
  {
   "property": "C65",
   "status": "proved",
   "theorems": [
    "Vw.C65_well_formed",
    "Vw.C65_valid"
   ],
   "note": "The shape is Page.WF (Spec/WellFormed)."
  },
  {
   "property": "C66",
   "status": "partial",
   "theorems": [
    "Vw.C66_stable_partial",
    "Vw.C66_violated"
   ],
   "note": "Proved for the pages of C64_round_trip_partial. Missing: texts that formatting changes."
  },
  {
   "property": "C67",
   "status": "proved",
   "theorems": [
    "Vw.C67_elements_shown",
    "Vw.C67_parsed"
   ],
   "note": "The pieces are described by BlocksShow (Spec/HtmlShow). The numbers that make ids unique are left open there (C40)."
  },
  {
   "property": "C68",
   "status": "partial",
   "theorems": [
    "Vw.C68_partial",
    "Vw.C68_violated",
    "Vw.C68_violated_bold"
   ],
   "note": "Proved for headers where no level is skipped. Missing: bold text and tags, for which it is violated."
  },
  {
   "property": "C69",
   "status": "proved",
   "theorems": [
    "Vw.C69_by_name",
    "Vw.C69_missing_wiki",
    "Vw.C69_unchanged",
    "Vw.C69_fragment",
    "Vw.C69_transclusion"
   ],
   "note": ""
  },
  {
   "property": "C70",
   "status": "partial",
   "theorems": [
    "Vw.C70_partial",
    "Vw.C70_violated_local",
    "Vw.C70_violated"
   ],
   "note": "Proved for anchors whose parts are the ids of the sections. Violated for links within a page with more than one part and for anchors that are not in normal form."
  },
  {
   "property": "C71",
   "status": "partial",
   "theorems": [
    "Vw.C71_partial",
    "Vw.C71_missing_template",
    "Vw.C71_violated"
   ],
   "note": "Proved for templates of text and variables with a byte outside names between two variables, and values without percent signs. Violated for titles that hold a variable."
  },
  {
   "property": "C72",
   "status": "partial",
   "theorems": [
    "Vw.C72_partial",
    "Vw.C72_failure",
    "Vw.C72_sources",
    "Vw.C72_stdout",
    "Vw.C72_pages",
    "Vw.C72_paths",
    "Vw.C72_standalone",
    "Vw.C72_violated",
    "Vw.C72_violated_include",
    "Vw.C72_violated_nohtml"
   ],
   "note": "Proved for pages whose output file no other page has; with several, one of them is there. Violated for pages of one name given by their paths, for --include with an index, and for %nohtml."
  },
  {
   "property": "C73",
   "status": "partial",
   "theorems": [
    "Vw.C73_walk",
    "Vw.C73_children_partial",
    "Vw.C73_table_order_violated"
   ],
   "note": "All clauses but the order of the children of tables, which is that of a hash map."
  },
  {
   "property": "C74",
   "status": "partial",
   "theorems": [
    "Vw.C74_raw_partial",
    "Vw.C74_blank",
    "Vw.C74_all_lines",
    "Vw.C74_dedent_partial",
    "Vw.C74_no_panic_partial",
    "Vw.C74_no_literal",
    "Vw.C74_blank_line_violated",
    "Vw.C74_escape_violated",
    "Vw.C74_as_is_violated",
    "Vw.C74_panic_violated"
   ],
   "note": "The indentation of all lines, blank ones included, is taken off (C74_all_lines, with the exact condition for panics); that of the lines with content only if no blank line is shorter."
  },
  {
   "property": "C75",
   "status": "partial",
   "theorems": [
    "Vw.C75_meaning_partial",
    "Vw.C75_missing_partial",
    "Vw.C75_escape_violated",
    "Vw.C75_width_violated"
   ],
   "note": "For texts without doubled braces and without arguments after the colon."
  },
  {
   "property": "C76",
   "status": "partial",
   "theorems": [
    "Vw.C76_verbatim_partial",
    "Vw.C76_refused",
    "Vw.C76_depth_violated"
   ],
   "note": "All but depths: strict_eq holds with the parsed element whose depths are set to zero."
  },
  {
   "property": "C77",
   "status": "partial",
   "theorems": [
    "Vw.C77_texts_partial",
    "Vw.C77_missing_partial",
    "Vw.C77_plain",
    "Vw.C77_table_order_violated"
   ],
   "note": "Texts of metadata and properties with more than one entry are left out (formatted keys can collide, and the order is that of a hash map); the order in tables is that of the map. Link targets and dates are not formatted. Needs that std::format! writes what a format text stands for."
  },
  {
   "property": "C78",
   "status": "proved",
   "theorems": [
    "Vw.C78_path_dots",
    "Vw.C78_predicates",
    "Vw.C78_path"
   ],
   "note": ""
  },
  {
   "property": "C79",
   "status": "proved",
   "theorems": [
    "Vw.C79_inline",
    "Vw.C79_block",
    "Vw.C79_definition"
   ],
   "note": "The same law is assumed of the URIs of the library uriparse."
  },
  {
   "property": "C80",
   "status": "partial",
   "theorems": [
    "Vw.C80_calendar",
    "Vw.C80_read_violated",
    "Vw.C80_write_violated",
    "Vw.C80_january_violated",
    "Vw.C80_round_trip_partial"
   ],
   "note": "False for every date: months are counted from 1 in Rust and from 0 in JavaScript. Proved: going through both mistakes restores the date unless it is in December or the next month is too short, in UTC."
  },
  {
   "property": "C81",
   "status": "partial",
   "theorems": [
    "Vw.C81_properties",
    "Vw.C81_partial",
    "Vw.C81_kinds",
    "Vw.C81_violated",
    "Vw.C81_anchor_violated"
   ],
   "note": "A description that can be read as an address, such as any single word, becomes an image. Anchors that are not URI fragments stop the program."
  },
  {
   "property": "C82",
   "status": "proved",
   "theorems": [
    "Vw.C82_page",
    "Vw.C82_element"
   ],
   "note": ""
  },
  {
   "property": "C83",
   "status": "partial",
   "theorems": [
    "Vw.C83_partial",
    "Vw.C83_violated"
   ],
   "note": "False after a value that is not a cell: the following cells move to the left. Proved for all other places."
  },
  {
   "property": "C84",
   "status": "partial",
   "theorems": [
    "Vw.C84_listed",
    "Vw.C84_partial",
    "Vw.C84_all",
    "Vw.C84_violated"
   ],
   "note": "False for a term written twice: only its first definitions are found. Proved for lists with no term twice."
  },
  {
   "property": "C85",
   "status": "proved",
   "theorems": [
    "Vw.C85_page",
    "Vw.C85_elements",
    "Vw.C85_written"
   ],
   "note": "Copies of URIs are assumed to be equal to the original (uriparse)."
  },
  {
   "property": "C86",
   "status": "partial",
   "theorems": [
    "Vw.C86_rows",
    "Vw.C86_body_partial",
    "Vw.C86_row_column_partial",
    "Vw.C86_cells_partial",
    "Vw.C86_into_cells_violated",
    "Vw.C86_body_violated",
    "Vw.C86_gap_violated"
   ],
   "note": "Rows, columns and header rows: exact. The others: exact for tables without gaps and with one divider row, never too small otherwise. False with several divider rows, with gaps, and for into_cells on any table."
  },
  {
   "property": "C87",
   "status": "partial",
   "theorems": [
    "Vw.C87_back",
    "Vw.C87_torn",
    "Vw.C87_equal",
    "Vw.C87_cache",
    "Vw.C87_sound",
    "Vw.C87_transparent",
    "Vw.C87_definition_violated",
    "Vw.C87_depth_violated"
   ],
   "note": "Exact: a page reads back if and only if it has no definition list and its JSON is nested less than 128 deep; torn texts are never read. False for pages with definition lists, whose serialisation fails, and for 26 lists in each other."
  },
  {
   "property": "C88",
   "status": "partial",
   "theorems": [
    "Vw.C88_partial",
    "Vw.C88_definition",
    "Vw.C88_violated"
   ],
   "note": "Holds of wikis without definition lists. If any page of any wiki has one, inspecting fails whatever the path."
  },
  {
   "property": "C89",
   "status": "partial",
   "theorems": [
    "Vw.C89_suffix",
    "Vw.C89_edited",
    "Vw.C89_blank_lines",
    "Vw.C89_violated"
   ],
   "note": "The first three sentences hold of all texts (blank lines in front of texts that are not empty). The last is false: an element that is still open, as a code block, takes what is after the blank line."
  },
  {
   "property": "C90",
   "status": "partial",
   "theorems": [
    "Vw.C90_counted",
    "Vw.C90_lower_bound",
    "Vw.C90_violated",
    "Vw.C90_flat_partial"
   ],
   "note": "False: on n lines that are items each one deeper than the one before, `list` is entered at least 2^n - 1 times (shown for texts below 64 KiB, up to 358 lines). It holds for texts no line of which begins as a list item does: at most three times per byte and twice at the end. A lower bound in terms of the lists of the page is proved for all texts. Missing: an upper bound for texts with list items."
  },
  {
   "property": "C91",
   "status": "proved",
   "theorems": [
    "Vw.C91_converted",
    "Vw.C91_page",
    "Vw.C91_unresolved",
    "Vw.C91_within",
    "Vw.C91_no_panic",
    "Vw.C91_wikis"
   ],
   "note": "For valid pages, which all parsed pages are (C65_valid). What is needed is defined on the page alone: links in all inline elements, images that describe links, code blocks; cells behind a gap in their row and divider rows of tables are not shown and need nothing. The highlighter is taken to fail only with a theme error."
  },
  {
   "property": "C92",
   "status": "partial",
   "theorems": [
    "Vw.C92_number",
    "Vw.C92_partial",
    "Vw.C92_shifted",
    "Vw.C92_violated"
   ],
   "note": "False: the wikis that are not selected are taken out of the list, so with `--include 0 --include 2` a link to wiki 1 leads to wiki 2 and a link to wiki 2 is an error. The number stands for the place among the selected wikis (all cases). It keeps its meaning if no wiki up to it is left out; from the first one left out on it stands for a wiki further back or for none."
  },
  {
   "property": "C93",
   "status": "proved",
   "theorems": [
    "Vw.C93_line_endings",
    "Vw.C93_same_bytes"
   ],
   "note": "Equal up to places at every depth; the places of the elements of the page itself are proved to be the moved ones. Texts that mix both line endings are not covered."
  },
  {
   "property": "C94",
   "status": "proved",
   "theorems": [
    "Vw.C94_places",
    "Vw.C94_line_endings",
    "Vw.C94_blank_lines"
   ],
   "note": "For all pages, parsed or not. Libraries (dates, uris, highlighting) are parameters that see no places."
  },
  {
   "property": "C95",
   "status": "partial",
   "theorems": [
    "Vw.C95_comments_partial",
    "Vw.C95_newlines_partial",
    "Vw.C95_breaks_partial",
    "Vw.C95_no_effect",
    "Vw.C95_lists_violated",
    "Vw.C95_links_violated"
   ],
   "note": "Holds of comments (the output is that of the page without comments) and of paragraphs. False of lists and links: list.ignore_newline, link.base_url, link.canonicalize, link.use_ugly_urls, template.name and template.ext change nothing that is written, on any page."
  },
  {
   "property": "C96",
   "status": "partial",
   "theorems": [
    "Vw.C96_inside_partial",
    "Vw.C96_reads_partial",
    "Vw.C96_absolute",
    "Vw.C96_outside_violated",
    "Vw.C96_extension_violated"
   ],
   "note": "Exact for relative names: the file is in the directory unless there is a `..` in the name; then the page does not depend on files elsewhere. False for absolute names and names with `..`, which show any readable file, and for the extension, which is never added."
  },
  {
   "property": "C97",
   "status": "partial",
   "theorems": [
    "Vw.C97_blocks",
    "Vw.C97_decorations_partial",
    "Vw.C97_plain_decorations",
    "Vw.C97_decorations_violated"
   ],
   "note": "Proved of all kinds of blocks, at any depth. False of decorations: what follows the first code, math or tags inside of them is dropped; this is the only way to lose text there, so decorations without backticks, dollars and colons keep all of it."
  },
  {
   "property": "C98",
   "status": "proved",
   "theorems": [
    "Vw.C98_not_in_itself",
    "Vw.C98_depth"
   ],
   "note": "Of parsed pages; the bound is reached."
  },
  {
   "property": "C99",
   "status": "partial",
   "theorems": [
    "Vw.C99_read_partial",
    "Vw.C99_plain",
    "Vw.C99_violated"
   ],
   "note": "The parts are read from the text as a separate grammar says, for all kinds of links, and the grammar names the text that no part holds. That text need not be empty: a second description, what follows an image in a description, and what follows braces in a target are dropped. Links [[target]] and [[target|text]] drop nothing."
  },
  {
   "property": "C100",
   "status": "partial",
   "theorems": [
    "Vw.C100_header_partial",
    "Vw.C100_divider",
    "Vw.C100_placeholder_partial",
    "Vw.C100_header_colons_violated",
    "Vw.C100_header_blanks_violated",
    "Vw.C100_placeholder_violated"
   ],
   "note": "Proved in full for dividers. For headers there are two more exceptions, both witnessed: a header line with two colons after a definition list line, and a header line with four blanks before it after an indented quote. For placeholders there is one, also witnessed: a value with two colons makes the line a definition list. Placeholder lines are those for a title, a template or another name whose value has more than one byte."
  },
  {
   "property": "C101",
   "status": "partial",
   "theorems": [
    "Vw.C101_quote_partial",
    "Vw.C101_item_partial",
    "Vw.C101_row_partial",
    "Vw.C101_quote_colons_violated",
    "Vw.C101_item_colons_violated",
    "Vw.C101_item_blanks_violated",
    "Vw.C101_item_box_violated",
    "Vw.C101_row_colons_violated",
    "Vw.C101_row_blanks_violated",
    "Vw.C101_cell_text_violated",
    "Vw.C101_row_end_violated"
   ],
   "note": "There are two more exceptions, both witnessed: a line with two colons is read as a definition, and an item or a row with four blanks before it after an indented quote belongs to the quote. Further limits, also witnessed: a cell that begins with a hyphen, an arrow or a backslash and a slash and goes on with text keeps its line from being a row, as do blanks after the last bar; an item with a box and nothing else is no item. Quote lines are those without a lone carriage return. Which quote, table or list it is and how it is divided is not part of this property."
  },
  {
   "property": "C102",
   "status": "partial",
   "theorems": [
    "Vw.C102_code_partial",
    "Vw.C102_math_partial",
    "Vw.C102_colons_violated",
    "Vw.C102_blanks_violated",
    "Vw.C102_list_violated"
   ],
   "note": "There are three more exceptions, all witnessed: an opening line with two colons, as in the value of a metadata entry, is read as a definition; one with four blanks after an indented quote belongs to the quote; an indented block in a list item ends up as text if a line of it is not indented. For indented blocks in lists it is not shown when they are found. As in C11, lines from which blanks are taken are ASCII."
  },
  {
   "property": "C103",
   "status": "partial",
   "theorems": [
    "Vw.C103_definition_partial",
    "Vw.C103_blanks_violated",
    "Vw.C103_other_violated"
   ],
   "note": "A definition with four blanks after an indented quote belongs to the quote, and a term that begins like an item, a row or a quote is a definition by itself but not after such a line; both are witnessed. The theorem is for terms that begin like no other block and for definitions in the same line as the term; the list has an entry with this term and this definition, and the definition lines after it (see C111)."
  },
  {
   "property": "C104",
   "status": "proved",
   "theorems": [
    "Vw.C104_quote_lines"
   ],
   "note": "Quotes in lists too. Which lines are quotes is C101."
  },
  {
   "property": "C105",
   "status": "proved",
   "theorems": [
    "Vw.C105_plain",
    "Vw.C105_plain_flush"
   ],
   "note": "Together with C100-C103 this says for almost every line which block it belongs to. Lines with two colons, a bar or an arrow at the beginning are left out here because whether they begin a block depends on the rest of the line."
  },
  {
   "property": "C106",
   "status": "proved",
   "theorems": [
    "Vw.C106_not_split",
    "Vw.C106_text_lines",
    "Vw.C106_items"
   ],
   "note": "C106_items is for the blocks in items of lists at any depth, the others are for the elements of the page itself. Lines of text are those of C105 that are not indented; the exceptions are those of C105 too. For lists it is about first items with content, as in C101."
  },
  {
   "property": "C107",
   "status": "partial",
   "theorems": [
    "Vw.C107_items",
    "Vw.C107_same_list_partial",
    "Vw.C107_indented_header_violated"
   ],
   "note": "Proved for items where one begins where the other ends (C107_items), and for items between which all lines are indented more and none is blank or a header (C107_same_list_partial). What is missing fails: an indented header ends the list (C107_indented_header_violated). Items are those of C101."
  },
  {
   "property": "C108",
   "status": "partial",
   "theorems": [
    "Vw.C108_deeper",
    "Vw.C108_inner_partial",
    "Vw.C108_colons_violated"
   ],
   "note": "C108_deeper is as stated. C108_inner_partial is for lines with no blank line and no header between the item and them. It has two exceptions: the line is inside a code block, a math block or a comment in the item, or it has two colons and belongs to a definition list there (this happens: C108_colons_violated). Items are those of C101."
  },
  {
   "property": "C109",
   "status": "partial",
   "theorems": [
    "Vw.C109_takes_in_partial",
    "Vw.C109_ends",
    "Vw.C109_header_violated"
   ],
   "note": "C109_ends is as stated. C109_takes_in_partial has one exception, headers: an indented header does not belong to the item above it (C109_header_violated). \"Belong\" means that the line is within the region of the item."
  },
  {
   "property": "C110",
   "status": "partial",
   "theorems": [
    "Vw.C110_text",
    "Vw.C110_definition",
    "Vw.C110_quote_partial",
    "Vw.C110_row_partial",
    "Vw.C110_colons_violated"
   ],
   "note": "With no headers between (see C109), and unless the line is inside a code block, a math block or a comment in the item. Text and definitions (C110_text, C110_definition) have no other exception; quotes and rows with two colons may be in a definition list instead, and this happens (C110_colons_violated). Forms of lines are those of C101, C103 and C105."
  },
  {
   "property": "C111",
   "status": "proved",
   "theorems": [
    "Vw.C111_entry",
    "Vw.C111_bare"
   ],
   "note": "Terms are those of C103. \"Is the text\" means that the region of the term or definition is where the text is; that no text of a region is lost is C97."
  },
  {
   "property": "C112",
   "status": "proved",
   "theorems": [
    "Vw.C112_marks"
   ],
   "note": "Which lines are items is C101; which type a list has is C28."
  },
  {
   "property": "C113",
   "status": "partial",
   "theorems": [
    "Vw.C113_text_partial",
    "Vw.C113_violated"
   ],
   "note": "Proved for all elements except decorations that begin with code or a formula, for which it fails: bold text around code is read as two texts and code (C113_violated). Tags and addresses at the end of a cell are only covered if whitespace or the end of the page follows."
  },
  {
   "property": "C114",
   "status": "partial",
   "theorems": [
    "Vw.C114_found_partial",
    "Vw.C114_violated"
   ],
   "note": "Proved for all elements except decorations that begin with code or a formula, for which it fails (C114_violated). Needs that a URI with a scheme begins with it (Env.SchemeSound). Tags and addresses at the end of a cell are only covered if whitespace or the end of the page follows."
  },
  {
   "property": "C115",
   "status": "proved",
   "theorems": [
    "Vw.C115_texts_apart",
    "Vw.C115_one_text",
    "Vw.C115_plain"
   ],
   "note": "For every page that can be read. C115_plain needs that a URI with a scheme begins with it (Env.SchemeSound)."
  },
  {
   "property": "C116",
   "status": "proved",
   "theorems": [
    "Vw.C116_rows",
    "Vw.C116_lines",
    "Vw.C116_count"
   ],
   "note": "For every page that can be read. A comment over several lines is one element, so the lines it touches are one row."
  },
  {
   "property": "C117",
   "status": "proved",
   "theorems": [
    "Vw.C117_inside",
    "Vw.C117_between"
   ],
   "note": "For every page that can be read. Line ends are LF and CR LF, and blanks up to the end of the text count as a blank line."
  },
  {
   "property": "C118",
   "status": "proved",
   "theorems": [
    "Vw.C118_begin",
    "Vw.C118_end",
    "Vw.C118_placeholder",
    "Vw.C118_items",
    "Vw.C118_lists"
   ],
   "note": "For every page that can be read."
  }
 ]
}