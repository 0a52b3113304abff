{"id": "C01", "title": "Parsing a page always terminates", "statement": "Language::from_vimwiki_str(text).parse::<Page>() returns for every text: no repetition or recursion in the page grammar can loop forever.", "quantifier": "every byte sequence given as page text, every behaviour of the URI and date libraries", "why_tests_cant": "Non-termination hides in inputs nobody wrote a test for; only an argument over all inputs (a decreasing measure for every loop) excludes it.", "anchors": ["vimwiki-core/src/lang/parsers/vimwiki/mod.rs: page", "vimwiki-core/src/lang/parsers/vimwiki/blocks/mod.rs: top_level_block_element, nested_block_element", "vimwiki-core/src/lang/parsers/vimwiki/blocks/lists.rs: list, list_item", "vimwiki-core/src/lang/parsers/vimwiki/blocks/inline/typefaces.rs: text, decorated_text"]}
{"id": "C02", "title": "Every text is a page", "statement": "Whenever parse::<Page> does not panic it returns Ok: no text is rejected with a parse error, and the parser has consumed the whole text.", "quantifier": "every byte sequence given as page text", "why_tests_cant": "The grammar has ordered alternatives with lookahead; that the last alternative (paragraph) catches whatever the others leave is a statement about every possible line.", "anchors": ["vimwiki-core/src/lang/parsers/vimwiki/mod.rs: page", "vimwiki-core/src/lang/parsers/vimwiki/blocks/paragraphs.rs: paragraph, continue_paragraph", "vimwiki-core/src/lang/parsers/utils/line.rs: blank_line"]}
{"id": "C03", "title": "Parsing a page does not panic", "statement": "parse::<Page> never panics. (The code violates this; the model pins down exactly which sites can panic and proves panic-freedom for inputs that avoid them.)", "quantifier": "every byte sequence given as page text", "why_tests_cant": "A panic needs one specific combination of neighbouring elements; sampling inputs cannot show absence.", "anchors": ["vimwiki-core/src/lang/parsers/vimwiki/blocks/inline/typefaces.rs:107-113 (text)", "vimwiki-core/src/lang/parsers/vimwiki/blocks/code.rs:37-55", "vimwiki-core/src/lang/parsers/vimwiki/blocks/math.rs:38-56", "vimwiki-core/src/lang/elements/blocks/inline/links/mod.rs:157-180 (new_diary_link)", "vimwiki-core/src/lang/parsers/span.rs:113-115"]}
{"id": "C04", "title": "Element regions lie inside the source text", "statement": "For every element at any nesting depth of a parsed page, region().offset() + region().len() <= text.len(), so slicing the source by a region never fails.", "quantifier": "every page text and every element of the resulting tree", "why_tests_cant": "Editors slice the buffer by these regions; an out-of-range region appears only for particular nestings of sub-spans.", "anchors": ["vimwiki-core/src/lang/parsers/utils/convert.rs: capture, locate", "vimwiki-core/src/lang/elements/utils/region.rs: Region", "vimwiki-core/src/lang/parsers/span.rs: with_length, advance_start_by"]}
{"id": "C05", "title": "Element regions nest and are ordered like the tree", "statement": "In a parsed page each child element's region is contained in its parent's region, and the regions of consecutive siblings are disjoint and in source order.", "quantifier": "every page text and every parent/child and sibling pair of the resulting tree", "why_tests_cant": "Requires a structural invariant over an unbounded recursive tree.", "anchors": ["vimwiki-core/src/lang/parsers/utils/convert.rs: capture, locate, deeper", "vimwiki-core/src/lang/parsers/vimwiki/blocks/lists.rs: list_item", "vimwiki-core/src/lang/parsers/vimwiki/blocks/definitions.rs: term_and_definitions", "vimwiki-core/src/lang/elements/blocks/definitions.rs:369-395"]}
{"id": "C06", "title": "Top-level elements tile the page", "statement": "The regions of the top-level elements of a parsed page, in order, are non-empty and disjoint, and every byte between two consecutive regions belongs to a line made only of spaces and tabs (or, after a placeholder, to its line terminator).", "quantifier": "every page text", "why_tests_cant": "Losing or duplicating text is only visible for particular sequences of block elements.", "anchors": ["vimwiki-core/src/lang/parsers/vimwiki/mod.rs: page", "vimwiki-core/src/lang/parsers/vimwiki/blocks/placeholders.rs: placeholder"]}
{"id": "C07", "title": "Text elements quote the source verbatim", "statement": "The string of every Text element of a parsed page equals the bytes of the source at the element's region, is non-empty, and contains no newline.", "quantifier": "every page text and every Text element in it", "why_tests_cant": "Text is what remains after all other inline forms are excluded, computed by a length counter that is corrected when links are found by looking back.", "anchors": ["vimwiki-core/src/lang/parsers/vimwiki/blocks/inline/typefaces.rs: text"]}
{"id": "C08", "title": "Extracted strings are valid UTF-8", "statement": "If the page text is valid UTF-8, every string stored in the parsed page (built with from_utf8_unchecked from byte spans) starts and ends on a character boundary, hence is valid UTF-8.", "quantifier": "every UTF-8 page text and every span turned into a string", "why_tests_cant": "This is a memory-safety obligation of unsafe code that must hold for all inputs.", "anchors": ["vimwiki-core/src/lang/parsers/span.rs:204-211", "vimwiki-core/src/lang/parsers/vimwiki/blocks/inline/typefaces.rs: text", "vimwiki-core/src/lang/parsers/utils/bytes.rs"]}
{"id": "C09", "title": "Header syntax is exactly the documented one", "statement": "A line parses as a header of level n iff after optional blanks it starts with exactly n (1..6) '=' and, trailing blanks removed, ends with exactly n '=', with inline content between them that is not just '='s; it is centered iff it is indented.", "quantifier": "every line of text, every level", "why_tests_cant": "The level limits and balance checks have boundaries on both sides for every n and every content.", "anchors": ["vimwiki-core/src/lang/parsers/vimwiki/blocks/headers.rs: header, header_tail"]}
{"id": "C10", "title": "Divider syntax is exactly four or more hyphens", "statement": "At the beginning of a line, a divider is recognised iff the line consists of at least four '-' and nothing else.", "quantifier": "every line of text", "why_tests_cant": "The recogniser must reject every near miss (spaces, other bytes, three hyphens) of any length.", "anchors": ["vimwiki-core/src/lang/parsers/vimwiki/blocks/dividers.rs: divider"]}
{"id": "C11", "title": "Code blocks keep their lines verbatim", "statement": "For a code block whose fences are indented by a and b blanks, the stored lines are exactly the source lines between the fences, each with min(a, b, its own leading blanks) bytes removed, none dropped, duplicated or reordered; the language and the metadata are exactly what stands after the opening mark.", "quantifier": "all sequences of ASCII lines none of which is a closing fence, all indents", "why_tests_cant": "The number and contents of lines are unbounded.", "anchors": ["vimwiki-core/src/lang/parsers/vimwiki/blocks/code.rs: code_block"]}
{"id": "C12", "title": "Math blocks keep their lines verbatim", "statement": "Same as for code blocks with the {{$ ... }}$ fences, and the environment between percent signs is returned verbatim.", "quantifier": "all sequences of ASCII lines none of which is a closing fence, all indents", "why_tests_cant": "The number and contents of lines are unbounded.", "anchors": ["vimwiki-core/src/lang/parsers/vimwiki/blocks/math.rs: math_block"]}
{"id": "C13", "title": "Comments end at the first terminator", "statement": "A multi-line comment ends at the first '+%%' after its opening and its lines joined by newlines are the text in between; a line comment is exactly the rest of the line.", "quantifier": "every text following a comment opener", "why_tests_cant": "First-match semantics over arbitrary text.", "anchors": ["vimwiki-core/src/lang/parsers/vimwiki/blocks/inline/comments.rs", "vimwiki-core/src/lang/parsers/utils/bytes.rs: take_until, take_until_end_of_line_or_input"]}
{"id": "C14", "title": "Delimited inline forms take the shortest non-empty body on one line", "statement": "For code spans, math spans, decorated text and bracketed links, the body that is captured is the shortest non-empty text after the opening delimiter that is followed by the closing delimiter, it never crosses a newline, and the form is recognised whenever such a body exists (subject to the comment exclusion).", "quantifier": "every text, every delimiter pair", "why_tests_cant": "Shortest-match and completeness quantify over all split points of the text.", "anchors": ["vimwiki-core/src/lang/parsers/utils/bytes.rs:54-112 (surround_in_line1), 150-196 (take_line_until)"]}
{"id": "C15", "title": "Tags never contain separators", "statement": "Every tag of a parsed tag set is non-empty and contains no ':', blank or newline, the tag set is preceded by whitespace or the start of the text, and writing ':a:b:' reproduces the source of the element.", "quantifier": "every text position", "why_tests_cant": "Quantifies over all texts and all tag counts.", "anchors": ["vimwiki-core/src/lang/parsers/vimwiki/blocks/inline/tags.rs", "vimwiki-core/src/lang/parsers/utils/character.rs: whole_word"]}
{"id": "C16", "title": "A blank test accepts exactly blank text", "statement": "A placeholder value or indented blockquote line is rejected as blank only if it consists of spaces and tabs. (The code violates this: one-character values are treated as blank.)", "quantifier": "every value text", "why_tests_cant": "The test function scans for gaps between blanks; correctness is about every arrangement of blanks.", "anchors": ["vimwiki-core/src/lang/parsers/span.rs:229-252 (is_only_whitespace)", "vimwiki-core/src/lang/parsers/vimwiki/blocks/placeholders.rs", "vimwiki-core/src/lang/parsers/vimwiki/blocks/blockquotes.rs"]}
{"id": "C17", "title": "Line and column of a position are right", "statement": "For every position in a text, the reported line is one plus the number of newlines before it and the column is one plus the number of characters since the last newline.", "quantifier": "every text and every offset", "why_tests_cant": "Off-by-one errors appear only at line starts, line ends and multi-byte characters.", "anchors": ["vimwiki-core/src/lang/parsers/span.rs:275-308"]}
{"id": "C18", "title": "Table cells are addressed by row and column of the source", "statement": "In a parsed table the cell found at (r, c) is the c-th '|'-separated cell of the r-th row line and no other cells exist; row and column counts are one more than the largest used index.", "quantifier": "every sequence of rows of any lengths", "why_tests_cant": "Quantifies over all table shapes including ragged ones.", "anchors": ["vimwiki-core/src/lang/parsers/vimwiki/blocks/tables.rs: table", "vimwiki-core/src/lang/elements/blocks/tables.rs: Table::new"]}
{"id": "C19", "title": "Cell positions survive printing and parsing", "statement": "Parsing the printed form of any cell position yields the same position; a string is accepted iff it is two decimal numbers below 2^64, each optionally with whitespace around it and a plus sign, separated by one comma.", "quantifier": "all row and column numbers, all strings", "why_tests_cant": "Infinite domain.", "anchors": ["vimwiki-core/src/lang/elements/blocks/tables.rs: CellPos Display/FromStr"]}
{"id": "C20", "title": "Header and body rows partition a table", "statement": "header_rows and body_rows enumerate disjoint row sets that together with the divider rows are all rows, and rows before the first divider row are header rows.", "quantifier": "all tables", "why_tests_cant": "All table shapes and divider positions.", "anchors": ["vimwiki-core/src/lang/elements/blocks/tables.rs: header_rows, body_rows"]}
{"id": "C21", "title": "Row and column spans count the marker cells", "statement": "The rowspan (colspan) of a cell is one plus the length of the maximal run of span-from-above (span-from-left) markers directly below (right of) it.", "quantifier": "all tables and all positions", "why_tests_cant": "Runs of any length at any position.", "anchors": ["vimwiki-core/src/lang/elements/blocks/tables.rs:293-331"]}
{"id": "C22", "title": "Table iterators visit every cell exactly once", "statement": "cells() yields each cell of the table exactly once, in row-major order. (Violated for ragged tables; proved for rectangular ones.)", "quantifier": "all tables", "why_tests_cant": "All table shapes.", "anchors": ["vimwiki-core/src/lang/elements/blocks/tables.rs: CellsIter, RowsIter, ColumnsIter"]}
{"id": "C23", "title": "Strict equality is an equivalence finer than equality", "statement": "strict_eq is reflexive, symmetric and transitive on pages and implies ==; == ignores regions everywhere.", "quantifier": "all pairs and triples of pages", "why_tests_cant": "Algebraic laws over an unbounded recursive type.", "anchors": ["vimwiki-core/src/utils.rs: StrictEq", "vimwiki-core/src/lang/elements/utils/mod.rs: Located", "vimwiki-core/src/lang/elements/blocks/mod.rs"]}
{"id": "C24", "title": "Alphabetic list prefixes are the bijective base-26 numerals", "statement": "The alphabetic prefix printed for position n is the n-th string in the order a, b, ..., z, aa, ab, ...: distinct positions give distinct prefixes and every non-empty lowercase word is the prefix of exactly one position.", "quantifier": "all positions below 2^32, all words", "why_tests_cant": "Infinite family; boundaries at every power of 26.", "anchors": ["vimwiki-core/src/lang/elements/blocks/lists/item.rs: pos_to_alphabet"]}
{"id": "C25", "title": "Printed list prefixes are recognised as list items of the same kind", "statement": "For every list item type, suffix and position, the printed prefix followed by a blank is accepted by the list item parser and yields the same suffix and, after list normalisation, the same type class.", "quantifier": "all list item types, suffixes and positions", "why_tests_cant": "Unbounded positions; roman/alphabetic overlap depends on the spelling of each number.", "anchors": ["vimwiki-core/src/lang/elements/blocks/lists/item.rs: to_prefix", "vimwiki-core/src/lang/parsers/vimwiki/blocks/lists.rs: list_item_prefix"]}
{"id": "C26", "title": "Roman numerals are printed correctly", "statement": "The roman prefix of a position n in 1..3999 evaluates back to n under the subtractive rules and uses only i v x l c d m.", "quantifier": "all positions representable", "why_tests_cant": "Thousands of values, wrap-around on larger ones.", "anchors": ["vimwiki-core/src/lang/elements/blocks/lists/item.rs"]}
{"id": "C27", "title": "Todo progress is a fraction", "statement": "compute_todo_progress of any list item, however nested, lies in [0, 1]; an item whose tree holds only completed todo items has progress 1 and one with only incomplete ones has progress 0.", "quantifier": "all list item trees", "why_tests_cant": "Averages over unbounded recursive structure.", "anchors": ["vimwiki-core/src/lang/elements/blocks/lists/item.rs:119-184"]}
{"id": "C28", "title": "List items are numbered consecutively and types are uniform after normalisation", "statement": "In a parsed list the i-th item has position i, and after normalisation every item has the type of the first item, which is roman only if every item of the list was recognised as roman of that case.", "quantifier": "every list source text", "why_tests_cant": "Lists of any length and mixture.", "anchors": ["vimwiki-core/src/lang/parsers/vimwiki/blocks/lists.rs: list", "vimwiki-core/src/lang/elements/blocks/lists/mod.rs: normalize"]}
{"id": "C29", "title": "Blockquote line groups are the maximal runs of non-blank lines", "statement": "line_groups returns non-empty groups of consecutive non-blank lines, in order, whose concatenation is the list of all non-blank lines, and two groups are separated by at least one blank line.", "quantifier": "all line lists", "why_tests_cant": "All interleavings of blank and non-blank lines.", "anchors": ["vimwiki-core/src/lang/elements/blocks/blockquotes.rs: line_groups"]}
{"id": "C30", "title": "Anchors round-trip through their textual forms", "statement": "Parsing the printed form of a non-empty anchor whose parts contain no '#' returns the same anchor, and the anchor read back from a link built with the encoded fragment has the same parts when they contain no '%23'.", "quantifier": "all anchors", "why_tests_cant": "All part lists and contents.", "anchors": ["vimwiki-core/src/lang/elements/blocks/inline/links/anchor.rs", "vimwiki-core/src/lang/elements/blocks/inline/links/data.rs: to_anchor"]}
{"id": "C31", "title": "URI encoding is reversible and safe", "statement": "encode_uri output contains no blank, quote, angle bracket, backquote, control or non-ASCII byte and at most one '#'; every such byte is written as % and two upper case hexadecimal digits, and the first %23 becomes #. Decoding replaces % and two hexadecimal digits of either case by their byte and nothing else; it returns the original bytes when the original has no '%'.", "quantifier": "all byte strings", "why_tests_cant": "All byte values in all positions.", "anchors": ["vimwiki-core/src/lang/elements/blocks/inline/links/data.rs: encode_uri, decode_uri"]}
{"id": "C32", "title": "Regions contain exactly their offsets", "statement": "Region::contains(x) holds iff offset <= x < offset+len, and every Rust range converts to a region containing exactly the members of the range.", "quantifier": "all ranges and offsets", "why_tests_cant": "Infinite domain, empty and inverted ranges.", "anchors": ["vimwiki-core/src/lang/elements/utils/region.rs"]}
{"id": "C33", "title": "Formatting restores the formatter state", "statement": "After an element or a page was formatted, the indentation level of the formatter is what it was before, and whitespace skipping is off if it was off before.", "quantifier": "all elements, all formatter states and configurations", "why_tests_cant": "Nesting is unbounded and the state is threaded through closures.", "anchors": ["vimwiki-core/src/lang/output/vimwiki/formatter.rs: and_indent, and_trim, skip_whitespace", "vimwiki-core/src/lang/output/vimwiki/mod.rs"]}
{"id": "C34", "title": "Formatting only appends", "statement": "Formatting an element never changes text already written, i.e. the previous content stays a prefix of the new content. (Violated by and_trim; proved for elements that do not trim.)", "quantifier": "all elements and all previously written text", "why_tests_cant": "Depends on the previous content, which is arbitrary.", "anchors": ["vimwiki-core/src/lang/output/vimwiki/formatter.rs:93-119"]}
{"id": "C35", "title": "Formatted tables are aligned", "statement": "Every row of a table written as vimwiki text has the same byte length, equal to the sum of the column widths, and starts and ends with '|'.", "quantifier": "all tables for which formatting succeeds", "why_tests_cant": "All table shapes, cell contents and alignments.", "anchors": ["vimwiki-core/src/lang/output/vimwiki/mod.rs:392-543"]}
{"id": "C36", "title": "Formatting a table does not panic", "statement": "Writing any table obtained from the parser as vimwiki text succeeds. (Violated for columns that hold only alignment cells; proved when every column has a content cell.)", "quantifier": "all tables", "why_tests_cant": "Needs a particular combination of cell kinds.", "anchors": ["vimwiki-core/src/lang/output/vimwiki/mod.rs:452-543"]}
{"id": "C37", "title": "Leaf blocks survive a format/parse round trip", "statement": "Parsing the formatted text of a divider, code block, math block or placeholder gives back an equal element (under stated conditions on its strings).", "quantifier": "all such elements", "why_tests_cant": "All contents.", "anchors": ["vimwiki-core/src/lang/output/vimwiki/mod.rs", "vimwiki-core/src/lang/parsers/vimwiki/blocks"]}
{"id": "C38", "title": "Code block metadata is written deterministically", "statement": "The vimwiki text of a code block, and of a whole page, depends only on the set of pairs in each map, not on the iteration order of the hash maps: equal pages have equal text.", "quantifier": "all metadata maps and all iteration orders", "why_tests_cant": "Hash map order is random per process.", "anchors": ["vimwiki-core/src/lang/output/vimwiki/mod.rs:323-365"]}
{"id": "C39", "title": "Pages are formatted element by element with exact separators", "statement": "The vimwiki text of a page is the concatenation of the texts of its elements with exactly one blank line between consecutive ones when separation is enabled, and none otherwise.", "quantifier": "all pages and configurations whose elements format without trimming earlier text and, when separation is disabled, write texts that are empty or end with a line break", "why_tests_cant": "Unbounded number of elements.", "anchors": ["vimwiki-core/src/lang/output/vimwiki/mod.rs:19-38"]}
{"id": "C40", "title": "Header and bold ids are unique in an HTML page", "statement": "No two elements of the produced HTML page get the same id. (Violated; proved when no requested id ends in '-' followed by digits.)", "quantifier": "all sequences of requested ids", "why_tests_cant": "Collisions arise from interactions between earlier suffixes and later texts.", "anchors": ["vimwiki-core/src/lang/output/html/formatter.rs:87-109"]}
{"id": "C41", "title": "Unique id generation terminates", "statement": "ensure_unique_id returns for every cache contents and requested id.", "quantifier": "all id caches and ids", "why_tests_cant": "While loop over a mutable map.", "anchors": ["vimwiki-core/src/lang/output/html/formatter.rs:87-109"]}
{"id": "C42", "title": "Text is escaped in HTML", "statement": "The HTML written for text, code, math, tags, keywords and blockquote lines contains none of the characters < > \" ' coming from the source, and unescaping it gives back the source text.", "quantifier": "all texts", "why_tests_cant": "All strings.", "anchors": ["vimwiki-core/src/lang/output/html/mod.rs: Text, CodeInline, MathInline, Tags, Blockquote, CodeBlock"]}
{"id": "C43", "title": "HTML output is well nested", "statement": "For every page (comments excluded) the sequence of opening and closing tags written is balanced and properly nested.", "quantifier": "all pages and configurations", "why_tests_cant": "Unbounded recursive structure.", "anchors": ["vimwiki-core/src/lang/output/html/mod.rs"]}
{"id": "C44", "title": "Page content is inserted verbatim in the template", "statement": "The page body written by to_html_page appears unchanged in the result wherever the template has %content%, whatever placeholders the body contains.", "quantifier": "all templates and bodies", "why_tests_cant": "Substitution order matters only for bodies or titles that contain placeholders.", "anchors": ["vimwiki-core/src/lang/output/html/convert.rs:31-107"]}
{"id": "C45", "title": "Normalised ids contain no whitespace", "statement": "normalize_id never yields whitespace, and depends only on the words of the text.", "quantifier": "all texts", "why_tests_cant": "All whitespace arrangements.", "anchors": ["vimwiki-core/src/lang/output/html/utils.rs:54-63"]}
{"id": "C46", "title": "Path normalisation removes dots", "statement": "normalize_path yields a path without '.' and '..' components, is idempotent, never escapes the root of an absolute path, and leads to the same place as the original for absolute paths and for relative paths that do not climb above their start.", "quantifier": "all paths", "why_tests_cant": "All component sequences.", "anchors": ["vimwiki-core/src/lang/output/html/utils.rs:75-101"]}
{"id": "C47", "title": "Relative links point to their target", "statement": "Resolving the relative link computed for a target from the directory of the source page gives the target again.", "quantifier": "all pairs of normalised absolute output paths", "why_tests_cant": "All common-prefix structures.", "anchors": ["vimwiki-core/src/lang/output/html/utils.rs:365-386"]}
{"id": "C48", "title": "Output paths stay in the output directory", "statement": "The HTML output path of a page inside a wiki is inside the wiki's output directory, keeps the relative directory structure, and distinct pages (up to extension) get distinct outputs.", "quantifier": "all wikis and page paths without '..'", "why_tests_cant": "All paths.", "anchors": ["vimwiki-core/src/lang/output/html/config.rs:409-428"]}
{"id": "C49", "title": "A page belongs to the deepest wiki containing it", "statement": "find_wiki_index_by_path returns a wiki whose directory contains the page and no other containing wiki is deeper; it returns none iff no wiki contains it.", "quantifier": "all wiki configurations and paths", "why_tests_cant": "Nested wikis in any order.", "anchors": ["vimwiki-core/src/lang/output/html/config.rs:225-238"]}
{"id": "C50", "title": "Root path leads from a page to its wiki root", "statement": "path_to_root applied from the page's output directory resolves to the wiki's output root.", "quantifier": "all page depths", "why_tests_cant": "All depths.", "anchors": ["vimwiki-core/src/lang/output/html/config.rs:362-383"]}
{"id": "C51", "title": "The cache is transparent", "statement": "Loading a wiki file with caching returns the same page as parsing the file, for any sequence of earlier loads, edits, prunes and interrupted cache writes.", "quantifier": "all histories of loads, edits, prunes and crashes, all file contents", "why_tests_cant": "Crash points and histories are unbounded.", "anchors": ["vimwiki-cli/src/ast.rs: load_wiki_file"]}
{"id": "C52", "title": "Pruning keeps every cache entry in use", "statement": "After load_ast the cache holds an entry for every loaded file, and pruning removes only entries whose name is not the checksum of a loaded file.", "quantifier": "all cache directory contents", "why_tests_cant": "Arbitrary directory states.", "anchors": ["vimwiki-cli/src/ast.rs: load_ast"]}
{"id": "C53", "title": "Every selected wiki's files are loaded", "statement": "load_ast returns, for each selected wiki in order, all of its files. (Violated when an earlier wiki is filtered out; proved when the selection is a prefix of the configured wikis.)", "quantifier": "all configurations and include filters", "why_tests_cant": "All subsets.", "anchors": ["vimwiki-cli/src/ast.rs: load_ast", "vimwiki-cli/src/opt.rs: filter_by_wiki_idx_and_name"]}
{"id": "C54", "title": "A loaded file can be found", "statement": "After Ast::load_file(path) succeeds, find_file_by_path(path) finds it and all previously loaded files are still found.", "quantifier": "all sequences of load_file calls", "why_tests_cant": "All histories.", "anchors": ["vimwiki-cli/src/ast.rs:34-80"]}
{"id": "C55", "title": "The include filter selects by index or name", "statement": "An empty include list selects every wiki; otherwise a wiki is selected iff one of the entries equals its index or its name, and numbers are read as indexes.", "quantifier": "all include lists and wikis", "why_tests_cant": "All combinations.", "anchors": ["vimwiki-cli/src/opt.rs"]}
{"id": "C56", "title": "Unsupported languages are refused", "statement": "Parsing Markdown or Mediawiki input as any element is always an error and never panics or returns an element.", "quantifier": "all inputs", "why_tests_cant": "All texts.", "anchors": ["vimwiki-core/src/lang/mod.rs:1-214"]}
{"id": "C57", "title": "Column alignment is that of the first alignment cell of the column", "statement": "The alignment of a column is the alignment of the topmost alignment cell in that column, and the default if there is none. (Violated below a gap of a ragged table.)", "quantifier": "all tables and all columns", "why_tests_cant": "Holds for every table shape and every placement of divider rows.", "anchors": ["vimwiki-core/src/lang/elements/blocks/tables.rs:184-192 get_column_alignment"]}
{"id": "C58", "title": "Formatting a table keeps the text of every cell", "statement": "Every cell of a table is in the formatted table at its row and column, with its text surrounded by spaces only, and alignment cells as hyphens with the right colons.", "quantifier": "all tables and configurations", "why_tests_cant": "All shapes of tables, including ragged ones.", "anchors": ["vimwiki-core/src/lang/output/vimwiki/mod.rs:392-543"]}
{"id": "C59", "title": "Links lead to the output of the page they name", "statement": "The reference written for a wiki, interwiki or diary link, resolved as RFC 3986 says against the output file of the page holding the link, is the output file of the page the link names.", "quantifier": "all wiki configurations, source pages and links", "why_tests_cant": "Directory structures of source and target, several wikis with different output directories, all names.", "anchors": ["vimwiki-core/src/lang/output/html/utils.rs:110-362", "vimwiki-core/src/lang/output/html/config.rs:385-428"]}
{"id": "C60", "title": "Include arguments select the wikis they name", "statement": "With --include, the tool works on exactly the configured wikis whose index or name is given, with all of their files. (Violated for indexes.)", "quantifier": "all configurations, include arguments, files and histories", "why_tests_cant": "All combinations of arguments and wiki lists, and two filters in a row.", "anchors": ["vimwiki-cli/src/utils.rs:80-89", "vimwiki-cli/src/lib.rs:113-145", "vimwiki-cli/src/ast.rs: load_ast"]}
{"id": "C61", "title": "Formatting in place keeps files intact", "statement": "format --inline leaves a file alone when it cannot be read, parsed or formatted, otherwise replaces it by the formatted text, touches no other file, and if interrupted leaves the old or the new text. (Violated for interruptions.)", "quantifier": "all files, pages and crash points", "why_tests_cant": "Crash points and file sets are unbounded.", "anchors": ["vimwiki-cli/src/subcommand/format.rs"]}
{"id": "C62", "title": "Every element type can be parsed on its own", "statement": "Parsing any text as any of the 25 element types ends, a returned element is not empty and lies in the text, and there is no panic. (Panics as in C03.)", "quantifier": "all texts and element types", "why_tests_cant": "All texts.", "anchors": ["vimwiki-core/src/lang/mod.rs:94-213"]}
{"id": "C63", "title": "--no-cache leaves the cache out of play", "statement": "With --no-cache the result does not depend on the cache and the cache is not changed. (The second half is violated.)", "quantifier": "all cache contents, files and wikis", "why_tests_cant": "Arbitrary directory states.", "anchors": ["vimwiki-cli/src/ast.rs: load_wiki_file, load_ast"]}
{"id": "C64", "title": "Pages survive formatting and parsing back", "statement": "Parsing a text, formatting the page as vimwiki text and parsing that again gives an equal page; likewise any page built from blocks whose texts the syntax can express is read back equal from its formatted text. (The first half is violated, by table cells without blanks around their text among others.)", "quantifier": "all pages: any nesting of inline elements, lists and list contents, any length, every formatter configuration and every URI and date library", "why_tests_cant": "The set of pages is infinite, and every combination of neighbouring elements has its own way to go wrong.", "anchors": ["vimwiki-core/src/lang/output/vimwiki/mod.rs: ToVimwiki for Page and all blocks", "vimwiki-core/src/lang/parsers/vimwiki/blocks: page, block_element"]}
{"id": "C65", "title": "Parsed pages are well formed", "statement": "Every parsed page has the shape its consumers rely on: header levels from 1 to 6; no empty paragraph, blockquote, list, list item, definition list, term or decoration; decorations contain only text, decorations, keywords and links; list items contain no headers, dividers, placeholders or centered tables; tables have distinct cell positions, right counts, a first cell in every row and a row that is no divider; raw links have one of the six schemes; interwiki indexes fit 32 bits; only wiki links and transclusions have properties; the keys of metadata and properties are distinct.", "quantifier": "all texts, every URI and date library", "why_tests_cant": "Arbitrary input text.", "anchors": ["vimwiki-core/src/lang/parsers/vimwiki: page and all element parsers", "vimwiki-core/src/lang/elements/blocks"]}
{"id": "C66", "title": "Formatting is stable", "statement": "Formatting a formatted page again changes nothing: the page read from the formatted text is formatted to the same text. (Violated by lists whose items begin with different marks, among others.)", "quantifier": "all pages and formatter configurations", "why_tests_cant": "Arbitrary pages.", "anchors": ["vimwiki-core/src/lang/output/vimwiki/mod.rs", "vimwiki-cli/src/subcommand/format.rs"]}
{"id": "C67", "title": "Every element appears in the HTML as its kind demands", "statement": "The HTML of a page is the sequence of the pieces of its blocks, in order and each followed by a line break; headers, paragraphs, lists with todo classes, tables with head and body and spans, definition lists, quotes, code, math, decorations, tags, links, images and keywords each appear with the element and attributes documented for them and with the HTML of exactly their contents.", "quantifier": "all pages (parsed or built), configurations and libraries for which conversion succeeds", "why_tests_cant": "Arbitrary nesting and order of elements; what is written for one element depends on the headers before it.", "anchors": ["vimwiki-core/src/lang/output/html/mod.rs: Output for all elements"]}
{"id": "C68", "title": "Long ids name the sections an element is in", "statement": "The long id of a header, bold text or tag consists of the ids of the headers of the sections around it, then its own. (Violated if a header level is skipped after a section has ended, and by bold text and tags after a deeper section has ended.)", "quantifier": "all pages and positions of headers", "why_tests_cant": "Depends on the whole sequence of headers before the element.", "anchors": ["vimwiki-core/src/lang/output/html/mod.rs: build_complete_id, write_anchor, Output for Header", "vimwiki-core/src/lang/output/html/formatter.rs: insert_header_text, max_header_level"]}
{"id": "C69", "title": "Links to other wikis are checked, and anchors are kept", "statement": "A link that names a wiki leads into the first wiki of that name, or of that index; if there is none, conversion fails with an error that names it, and it never leads elsewhere. Raw links and links with a scheme of their own are written unchanged. The parts of the anchor of a link to a page become the fragment of the address, joined by dashes. A transclusion of a local file leads to the file of the same name and extension in the output directory.", "quantifier": "all configurations, pages, links and libraries", "why_tests_cant": "Depends on the list of wikis, the place of the page and the link together.", "anchors": ["vimwiki-core/src/lang/output/html/utils.rs: resolve_link", "vimwiki-core/src/lang/output/html/config.rs: find_wiki_by_name, find_wiki_by_index"]}
{"id": "C70", "title": "A link to a section leads to it", "statement": "If the anchor of a link names a header of the target page and the headers of the sections around it, the HTML of the target page has an element with the id the link asks for. (Violated: anchors are not brought to the normal form of ids, and the parts of an anchor within the same page are not joined by dashes.)", "quantifier": "all pages, headers and links", "why_tests_cant": "Relates the output of two pages for every sequence of headers and every anchor.", "anchors": ["vimwiki-core/src/lang/output/html/utils.rs: resolve_link", "vimwiki-core/src/lang/output/html/mod.rs: Output for Header", "vimwiki-core/src/lang/elements/blocks/inline/links/data.rs: to_anchor"]}
{"id": "C71", "title": "Every variable of a template is replaced by its value", "statement": "The page written is the template, which is the last one the page names or the configured one, with each %title%, %date%, %root_path%, %wiki_path%, %css%, %encoding% and %content% replaced by its value and all other text unchanged; the title is the last one set in the page or the name of its file, the date the last one set or today. (Violated for titles that themselves hold a variable.)", "quantifier": "all templates, pages, configurations and libraries", "why_tests_cant": "Any number and order of variables, percent signs in the text around them, and values that meet the text.", "anchors": ["vimwiki-core/src/lang/output/html/convert.rs: to_html_page", "vimwiki-core/src/lang/output/html/mod.rs: Output for Placeholder"]}
{"id": "C72", "title": "Converting writes the HTML of every page to its own file and changes nothing else", "statement": "A successful convert leaves, for every page of the selected wikis or at the paths given, the HTML of the page as it is on disk, whatever the cache holds, in the output file of the page; writes the style sheet of each wiki if asked to; and changes no other file. A failing convert reports the error of a page and changes only output files, each of which holds the HTML of a page. With --stdout it changes no file and prints the pages in order. (Violated: pages with one output file overwrite each other, --include with an index converts nothing, %nohtml is ignored.)", "quantifier": "all disks and caches reached by any history, configurations, options and faults", "why_tests_cant": "Ranges over every history of edits, runs and broken cache entries and every set of files.", "anchors": ["vimwiki-cli/src/subcommand/convert.rs: convert, process_path, process_file", "vimwiki-cli/src/utils.rs: load_html_config", "vimwiki-cli/src/lib.rs: run"]}
{"id": "C73", "title": "Walking through children visits every element once", "statement": "A program that asks a parsed page for its elements and every element for its children visits every element of the page, at whatever depth, exactly once. Every child lies in the region of its parent and has the next depth (two deeper below a table, because cells are no elements), and children come in source order. (Violated for the order in tables: their children come in the order of a hash map.)", "quantifier": "all texts, URI and date libraries, all elements at any depth", "why_tests_cant": "Ranges over all trees of elements that any text can have.", "anchors": ["vimwiki-core/src/lang/elements/mod.rs: IntoChildren for Element, InlineBlockElement, Page", "vimwiki-core/src/lang/elements/blocks/mod.rs: IntoChildren for BlockElement", "vimwiki-core/src/lang/elements/blocks/tables.rs: IntoChildren for Table", "vimwiki-core/src/lang/elements/blocks/definitions.rs: IntoChildren for DefinitionList"]}
{"id": "C74", "title": "Macros parse the text of their literal without the shared indentation", "statement": "A macro that builds elements from a string literal parses the text of the literal: blank lines at both ends are dropped and, except for the raw macros, the indentation common to all lines with content is taken off every line. A literal of blank lines only, or something that is no literal, is reported as an error; no literal makes the macro panic. (Violated: an empty line between indented lines keeps the indentation; escapes such as \\n are not replaced; the raw macros also drop blank lines; names that start with r and lines indented with characters of different lengths make the macro panic.)", "quantifier": "all literals of any length, plain or raw, both kinds of macros", "why_tests_cant": "Ranges over all literals: any number of lines, any mix of indentation and characters.", "anchors": ["vimwiki_macros/src/utils.rs: input_to_string", "vimwiki_macros/src/lib.rs: impl_macro!"]}
{"id": "C75", "title": "Format macros put in the arguments that the placeholders name", "statement": "In the formatting macros every text of the parsed elements is a format text. The generated call of format! has the same meaning as the text under the arguments given to the macro: numbered and named placeholders stand for those arguments, empty ones for the next argument counted across all texts of the element, and specifications after a colon are kept. The call gets each argument it uses and no other. A placeholder without argument is an error. (Violated for doubled braces, which stand for braces, and for arguments named after the colon.)", "quantifier": "all format texts, argument lists and positions of the counter", "why_tests_cant": "Ranges over all sequences of placeholders and all argument lists.", "anchors": ["vimwiki_macros/src/formatter.rs: Formatter::quote_format_str", "vimwiki_macros/src/args.rs: FormatArgs"]}
{"id": "C76", "title": "A macro builds the element its text is parsed to", "statement": "The value of the code generated by a macro without formatting equals the element that parsing the text at run time gives, for every kind of element: same structure, texts, maps, tables, links and regions with the same offset and length, and the same depth. The macro reports an error exactly if the text is refused. (Violated for depths: all of them become zero.)", "quantifier": "all literals, all 25 kinds of elements, plain and raw macros, URI libraries that read what they write", "why_tests_cant": "Ranges over all elements of any size and nesting.", "anchors": ["vimwiki_macros/src/lib.rs: impl_macro!", "vimwiki_macros/src/tokens: Tokenize", "vimwiki_macros/src/tokens/elements/location.rs: tokenize_region"]}
{"id": "C77", "title": "A formatting macro changes only texts and numbers empty placeholders in source order", "statement": "A formatting macro builds the parsed element with every text replaced by what it stands for; empty placeholders take the arguments of the macro one after the other in source order, across all nested elements. All else stays. A missing argument is an error. Without braces in the texts it does what the macro without formatting does. (Violated for tables: the order is that of a hash map.)", "quantifier": "all literals, argument lists and kinds of elements", "why_tests_cant": "Ranges over all elements and all distributions of placeholders over their texts.", "anchors": ["vimwiki_macros/src/formatter.rs: Formatter", "vimwiki_macros/src/tokens/mod.rs: TokenizeContext::quote_str", "vimwiki_macros/src/tokens/elements/blocks/tables.rs: tokenize_table"]}
{"id": "C78", "title": "What kind of link it is and which file it names", "statement": "is_local holds exactly for links without a scheme or with the scheme file or local; is_local_anchor exactly for links that consist of a fragment only; is_path_dir exactly for paths that end with a slash; has_anchor exactly for links with a fragment. The path of a link has the segments of its address, from the root exactly if the address begins with a slash.", "quantifier": "all links", "why_tests_cant": "Ranges over all combinations of the parts of an address.", "anchors": ["vimwiki-core/src/lang/elements/blocks/inline/links/data.rs: is_local, is_local_anchor, is_path_dir, has_anchor, to_path_buf"]}
{"id": "C79", "title": "Equal elements hash alike", "statement": "Two inline elements, containers of them, table cells, terms, definitions, bundles of definitions or hashable blocks that are == give a hasher the same data, wherever they were found and in whatever order the properties of their links are stored; so they can be used as keys of a hash map or set.", "quantifier": "all pairs of equal elements of a type that implements Hash", "why_tests_cant": "Ranges over all pairs of equal elements; hash maps store properties in random order.", "anchors": ["vimwiki-core/src/lang/elements/blocks/inline/links/data.rs: Hash for LinkData", "vimwiki-core/src/lang/elements/utils/mod.rs: Hash for Located", "vimwiki-core/src/lang/elements/blocks/definitions.rs: Hash for DefinitionListValue", "vimwiki-core/src/lang/elements: derived Hash"]}
{"id": "C80", "title": "Dates pass unchanged between vimwiki and JavaScript", "statement": "The date of a date placeholder given to JavaScript shows the same year, month and day; a diary link made from a JavaScript date is for that date; making one never stops the program.", "quantifier": "all dates of the calendar and all JavaScript dates", "why_tests_cant": "Holds only if it holds for every month and every length of month.", "anchors": ["vimwiki-wasm/src/elements.rs: Placeholder::date", "vimwiki-wasm/src/elements.rs: Link::new_diary_link"]}
{"id": "C81", "title": "Links made in JavaScript keep their address and description", "statement": "A link made by one of the constructors has the kind, address and description text it was made with, or an error is returned for an unreadable address.", "quantifier": "all addresses, descriptions, anchors and properties", "why_tests_cant": "Ranges over all texts, and the outcome depends on whether the description can be read as a URI.", "anchors": ["vimwiki-wasm/src/elements.rs: Link::new_wiki_link", "vimwiki-wasm/src/elements.rs: Link::new_indexed_interwiki_link", "vimwiki-wasm/src/elements.rs: Link::new_named_interwiki_link", "vimwiki-wasm/src/elements.rs: Link::new_diary_link", "vimwiki-wasm/src/elements.rs: Link::new_transclusion_link"]}
{"id": "C82", "title": "The descendants given to JavaScript are all elements, level by level", "statement": "For a parsed page, and for every element in it, the descendants are all elements below, each exactly once, those of one level before those of the next.", "quantifier": "all parsed pages and elements, of any depth and size", "why_tests_cant": "Ranges over all documents; the queue is as long as the document is wide.", "anchors": ["vimwiki-wasm/src/elements.rs: descendants", "vimwiki-core/src/lang/elements/mod.rs: into_children"]}
{"id": "C83", "title": "Tables made in JavaScript have their cells where they were given", "statement": "The cell found at a row and column of a table made from an array of arrays is the value given at that place, or none if that is not a cell.", "quantifier": "all arrays of rows, also with values of other types", "why_tests_cant": "Ranges over all sizes and all places of values that are not cells.", "anchors": ["vimwiki-wasm/src/elements.rs: Table::new"]}
{"id": "C84", "title": "Looking up a term gives its definitions", "statement": "A term can be looked up exactly if it is among the terms of the list; the result are all definitions written for it; all lookups together give all definitions in order.", "quantifier": "all definition lists", "why_tests_cant": "Ranges over all lists, in which terms may repeat.", "anchors": ["vimwiki-core/src/lang/elements/blocks/definitions.rs: DefinitionList::get, terms, definitions", "vimwiki-wasm/src/elements.rs: DefinitionList::get_def"]}
{"id": "C85", "title": "Copies of pages and elements are faithful", "statement": "to_borrowed and into_owned of a page or element give a value that is equal, strictly equal, has the same regions and counts, and is written in the same way, however often copies are made.", "quantifier": "all pages and elements with well formed maps, in particular all parsed ones, of any depth", "why_tests_cant": "Thirty hand written copy functions must each keep every field of every variant, at every depth and in every order of hash maps.", "anchors": ["vimwiki-core/src/lang/elements/mod.rs: Page::to_borrowed, Page::into_owned", "vimwiki-core/src/lang/elements/blocks/mod.rs: BlockElement::to_borrowed, into_owned", "vimwiki-core/src/lang/elements/blocks/tables.rs: Table::to_borrowed, into_owned", "vimwiki-core/src/lang/elements/blocks/lists/item.rs: ListItem::to_borrowed, into_owned", "vimwiki-core/src/lang/elements/blocks/inline/links/data.rs: LinkData::to_borrowed, into_owned"]}
{"id": "C86", "title": "Size hints of table iterators are right", "statement": "Whenever the size hint of an iterator over rows, columns or cells of a table is taken, it is the number of items still to come, and taking it never panics.", "quantifier": "all tables, all iterators and all numbers of calls before the hint is taken", "why_tests_cant": "Ranges over all shapes of tables and all states of the iterators.", "anchors": ["vimwiki-core/src/lang/elements/blocks/tables.rs: Rows, HeaderRows, BodyRows, Row, IntoRow, Columns, Column, IntoColumn, Cells, IntoCells: size_hint"]}
{"id": "C87", "title": "Pages survive being kept as JSON", "statement": "A page that is serialised as JSON and read back is equal to the original, with the same positions, and no part of the text of a page is ever read as another page.", "quantifier": "all texts that parse, all places where writing may stop", "why_tests_cant": "Ranges over all pages, their nesting and all prefixes of their serialised form.", "anchors": ["vimwiki-cli/src/ast.rs: load_wiki_file (to_writer_pretty, from_reader)", "vimwiki-core/src/lang/elements: Serialize and Deserialize of all elements", "vimwiki-core/src/lang/elements/utils: Located (serde flatten)"]}
{"id": "C88", "title": "Inspecting gives the JSON of the wikis", "statement": "Inspecting loaded wikis with a path writes, as a JSON array, the values that the path selects from the JSON of the wikis.", "quantifier": "all loaded wikis and all paths", "why_tests_cant": "Ranges over all pages of the wikis.", "anchors": ["vimwiki-cli/src/subcommand/inspect.rs: inspect", "vimwiki-cli/src/ast.rs: Ast, Wiki, WikiFile"]}
{"id": "C89", "title": "Elements do not depend on the text before them", "statement": "An element of a page and all elements after it are what is parsed from the text that begins with it, at positions counted from there. Replacing the text before an element, when an element still begins there, leaves it and those after it as they were but for their positions, and blank lines in front of a text only move its elements. Conversely two texts with a blank line between them are parsed as the elements of the first and then those of the second.", "quantifier": "all texts, all elements of their pages, all texts put in front", "why_tests_cant": "Ranges over all pairs of texts; parsers look back at the text before them (beginning of line, preceding whitespace), so that every parser has to be considered.", "anchors": ["vimwiki-core/src/lang/parsers/vimwiki/mod.rs: page", "vimwiki-core/src/lang/parsers/span.rs: Span", "vimwiki-core/src/lang/parsers/utils/line.rs: beginning_of_line"]}
{"id": "C90", "title": "The work for a text is bounded by its length", "statement": "Parsing a text takes an amount of work that is at most a small multiple of the length of the text. In particular each list of a text is read a bounded number of times.", "quantifier": "all texts", "why_tests_cant": "Ranges over all texts, of any depth of nesting; the work doubles with each level, which no test with a few levels shows.", "anchors": ["vimwiki-core/src/lang/parsers/vimwiki/blocks/paragraphs.rs: paragraph, continue_paragraph", "vimwiki-core/src/lang/parsers/vimwiki/blocks/lists.rs: list, list_item, list_item_tail", "vimwiki-core/src/lang/parsers/vimwiki/blocks/mod.rs: nested_block_element"]}
{"id": "C91", "title": "A page is converted to HTML unless something it shows cannot be had", "statement": "Converting a page to HTML succeeds exactly if every link shown in it can be resolved, every code block can be highlighted (where that is done while converting), the template it names can be read and the page lies in its wiki. If it fails, the error is that of one of these. A link can be resolved unless it names a wiki that is not configured or the way to its target is rejected as a reference. The conversion never panics and always ends.", "quantifier": "all pages that can be parsed, all configurations and libraries", "why_tests_cant": "Ranges over all pages and configurations; an element that is written in a wrong place or a loop that does not end shows only on some of them.", "anchors": ["vimwiki-core/src/lang/output/html/mod.rs: Output for Page, Output for Link, Output for CodeBlock", "vimwiki-core/src/lang/output/html/convert.rs: to_html_string, to_html_page", "vimwiki-core/src/lang/output/html/utils.rs: resolve_link"]}
{"id": "C92", "title": "A number in a link stands for the same wiki whatever wikis are selected", "statement": "A link to a wiki by its number (`[[wiki1:page]]`) leads to the wiki with that number in the configuration, whatever wikis the user selects with `--include` and whatever paths are given to the tool.", "quantifier": "all configurations, selections, paths and numbers", "why_tests_cant": "Ranges over all selections of wikis; only selections that leave out a wiki before another one matter.", "anchors": ["vimwiki-cli/src/utils.rs: load_html_config", "vimwiki-cli/src/opt.rs: filter_by_wiki_idx_and_name", "vimwiki-core/src/lang/output/html/utils.rs: resolve_link"]}
{"id": "C93", "title": "The line endings of a text do not matter", "statement": "Replacing every line feed of a text that holds no carriage return by a carriage return and a line feed changes nothing in its page but the places of its elements: both texts parse to equal pages or both make the parser panic for the same reason, and every element of the one stands where the line endings move it to, over the same bytes with the other line endings.", "quantifier": "all texts without carriage returns", "why_tests_cant": "Ranges over all texts: every parser that looks at the end of a line has to treat both line endings alike, in every combination of elements.", "anchors": ["vimwiki-core/src/lang/parsers/utils/line.rs: blank_line", "vimwiki-core/src/lang/parsers/utils/character.rs: end_of_line_or_input", "vimwiki-core/src/lang/parsers/utils/bytes.rs: take_line_while", "vimwiki-core/src/lang/parsers/utils/whitespace.rs: single_multispace", "vimwiki-core/src/lang/parsers/vimwiki: page and all parsers of elements", "vimwiki-core/src/lang/parsers/span.rs"]}
{"id": "C94", "title": "What is written does not depend on where elements stand", "statement": "The vimwiki text and the HTML of a page depend on its elements and not on their places in the text: pages that differ only in places are written alike or fail alike. So neither the line endings of a text nor blank lines in front of it change what is written.", "quantifier": "all pages, libraries and configurations; all texts without carriage returns; all blank lines", "why_tests_cant": "Ranges over all pages; tables are written through iterators over cells that carry places.", "anchors": ["vimwiki-core/src/lang/output/html/mod.rs", "vimwiki-core/src/lang/output/html/convert.rs", "vimwiki-core/src/lang/output/vimwiki/mod.rs", "vimwiki-core/src/lang/elements/utils: Located"]}
{"id": "C95", "title": "Options of the HTML output have the effect they describe", "statement": "Comments are written only if they are included by the configuration; line breaks of paragraphs and of lists are spaces or break tags as configured for each of them; links are completed with the base url if they are to be canonical, and do not show the names of files unless ugly urls are asked for.", "quantifier": "all pages, libraries and configurations", "why_tests_cant": "Ranges over all pages and all combinations of options.", "anchors": ["vimwiki-core/src/lang/output/html/config.rs: HtmlListConfig, HtmlParagraphConfig, HtmlLinkConfig, HtmlCommentConfig, HtmlTemplateConfig", "vimwiki-core/src/lang/output/html/mod.rs: Output for List, ListItem, Paragraph, Link, Comment"]}
{"id": "C96", "title": "Templates are read from the template directory", "statement": "A page that names a template is written with the file of that name and the configured extension in the configured directory of templates, and no file outside of that directory is read or shown.", "quantifier": "all pages, configurations and file systems", "why_tests_cant": "Ranges over all names a page can give and over all files that are there.", "anchors": ["vimwiki-core/src/lang/output/html/convert.rs: to_html_page", "vimwiki-core/src/lang/output/html/config.rs: HtmlTemplateConfig"]}
{"id": "C97", "title": "Text inside of elements is not lost", "statement": "All text of a block is found again in its parts (lines, terms, cells, items and the elements in them), except for blanks, line ends and the marks that make the block what it is; and all text of a decoration is found again in the elements inside of it, except for its delimiters.", "quantifier": "all texts", "why_tests_cant": "Ranges over all texts; tests see only the combinations of elements they contain.", "anchors": ["vimwiki-core/src/lang/parsers/vimwiki/blocks/inline/typefaces.rs: decorated_text", "vimwiki-core/src/lang/parsers/vimwiki/blocks/paragraphs.rs", "vimwiki-core/src/lang/parsers/vimwiki/blocks/definitions.rs", "vimwiki-core/src/lang/parsers/vimwiki/blocks/headers.rs", "vimwiki-core/src/lang/parsers/vimwiki/blocks/lists.rs", "vimwiki-core/src/lang/parsers/vimwiki/blocks/tables.rs"]}
{"id": "C98", "title": "Decorations do not contain themselves", "statement": "No decoration (bold, italic, strikeout, superscript, subscript) contains another one of the same kind, at any depth, so decorations are nested at most five deep.", "quantifier": "all texts", "why_tests_cant": "Ranges over all texts and depths.", "anchors": ["vimwiki-core/src/lang/parsers/vimwiki/blocks/inline/typefaces.rs: decorated_text, bold_text, italic_text, strikeout_text, superscript_text, subscript_text"]}
{"id": "C99", "title": "Links say what is written between their brackets", "statement": "The target, the description and the properties of a link in brackets or braces are exactly the parts that `|` separates in its text, the wiki number, wiki name, date and anchor are exactly what the prefix says, and no text between the brackets is dropped.", "quantifier": "all texts and all links in them", "why_tests_cant": "Ranges over all texts between the brackets; tests see only a few shapes of links.", "anchors": ["vimwiki-core/src/lang/parsers/vimwiki/blocks/inline/links/mod.rs: link_data, link_uri_ref, link_description, link_properties, link_anchor", "vimwiki-core/src/lang/parsers/vimwiki/blocks/inline/links/wiki.rs", "vimwiki-core/src/lang/parsers/vimwiki/blocks/inline/links/interwiki.rs", "vimwiki-core/src/lang/parsers/vimwiki/blocks/inline/links/diary.rs", "vimwiki-core/src/lang/parsers/vimwiki/blocks/inline/links/transclusion.rs"]}
{"id": "C100", "title": "Header, divider and placeholder lines are found wherever they stand", "statement": "A line written as a header, a divider or a placeholder is read as that element with its level, centering or value, whatever stands before and after it, unless it is inside a code block, a math block or a comment.", "quantifier": "all texts and all lines of them", "why_tests_cant": "Ranges over all texts around the line: paragraphs, nested lists, tables, quotes and definitions before it.", "anchors": ["vimwiki-core/src/lang/parsers/vimwiki/blocks/mod.rs: block_element", "vimwiki-core/src/lang/parsers/vimwiki/blocks/paragraphs.rs: continue_paragraph", "vimwiki-core/src/lang/parsers/vimwiki/blocks/headers.rs: header", "vimwiki-core/src/lang/parsers/vimwiki/blocks/dividers.rs: divider", "vimwiki-core/src/lang/parsers/vimwiki/blocks/placeholders.rs: placeholder", "vimwiki-core/src/lang/parsers/vimwiki/blocks/definitions.rs: definition_list", "vimwiki-core/src/lang/parsers/vimwiki/blocks/blockquotes.rs: indented_blockquote_line"]}
{"id": "C101", "title": "Quotes, list items and table rows are found wherever they stand", "statement": "A line written as a quote, a list item or a table row is read as part of a quote, as an item of a list or as part of a table, whatever stands before and after it, unless it is inside a code block, a math block or a comment.", "quantifier": "all texts and all lines of them", "why_tests_cant": "Ranges over all texts around the line: paragraphs, nested lists, tables, quotes and definitions before it, and over all numbers and contents of cells.", "anchors": ["vimwiki-core/src/lang/parsers/vimwiki/blocks/mod.rs: block_element", "vimwiki-core/src/lang/parsers/vimwiki/blocks/paragraphs.rs: continue_paragraph", "vimwiki-core/src/lang/parsers/vimwiki/blocks/blockquotes.rs: blockquote", "vimwiki-core/src/lang/parsers/vimwiki/blocks/lists.rs: list", "vimwiki-core/src/lang/parsers/vimwiki/blocks/tables.rs: table", "vimwiki-core/src/lang/parsers/vimwiki/blocks/tables.rs: cell", "vimwiki-core/src/lang/parsers/vimwiki/blocks/definitions.rs: definition_list"]}
{"id": "C102", "title": "Blocks of code and of formulas are found wherever they stand", "statement": "Lines written as a block of code or of formulas are read as one block with the language or environment, the metadata and the lines that are written there, whatever stands before and after them, unless the first of them is inside another such block or a comment.", "quantifier": "all texts, all lines of them and all numbers and contents of lines between the fences", "why_tests_cant": "Ranges over all texts around the block: paragraphs, nested lists, tables, quotes and definitions before it, and over all contents of it.", "anchors": ["vimwiki-core/src/lang/parsers/vimwiki/blocks/mod.rs: block_element", "vimwiki-core/src/lang/parsers/vimwiki/blocks/paragraphs.rs: continue_paragraph", "vimwiki-core/src/lang/parsers/vimwiki/blocks/code.rs: code_block", "vimwiki-core/src/lang/parsers/vimwiki/blocks/math.rs: math_block", "vimwiki-core/src/lang/parsers/vimwiki/blocks/lists.rs: list_item", "vimwiki-core/src/lang/parsers/vimwiki/blocks/definitions.rs: definition_list"]}
{"id": "C103", "title": "Definitions are found wherever they stand", "statement": "A line written as a term, two colons, blanks and a definition is read as part of a definition list, whatever stands before and after it, unless it is inside a code block, a math block or a comment.", "quantifier": "all texts and all lines of them", "why_tests_cant": "Ranges over all texts around the line: paragraphs, nested lists, tables, quotes and definitions before it, and over all terms and definitions.", "anchors": ["vimwiki-core/src/lang/parsers/vimwiki/blocks/definitions.rs: definition_list", "vimwiki-core/src/lang/parsers/vimwiki/blocks/definitions.rs: term_line", "vimwiki-core/src/lang/parsers/vimwiki/blocks/mod.rs: block_element", "vimwiki-core/src/lang/parsers/vimwiki/blocks/paragraphs.rs: continue_paragraph", "vimwiki-core/src/lang/parsers/vimwiki/blocks/lists.rs: list_item"]}
{"id": "C104", "title": "Quotes keep their lines", "statement": "Each line of the source of a quote is one line of the quote, in the same order: the text behind the arrow or behind the indent up to the end of the line, with all blanks in it. A blank line between lines with arrows is an empty line of the quote; nothing is dropped, merged or added.", "quantifier": "all texts and all quotes in them at any depth", "why_tests_cant": "Ranges over all texts and all places where quotes can stand, over any number of lines and of blank lines between them.", "anchors": ["vimwiki-core/src/lang/parsers/vimwiki/blocks/blockquotes.rs: indented_blockquote", "vimwiki-core/src/lang/parsers/vimwiki/blocks/blockquotes.rs: arrow_blockquote"]}
{"id": "C105", "title": "Lines that begin no block are text", "statement": "Every line that is not blank and begins no header, divider, placeholder, definition, list item, table row, quote or fence is part of a paragraph, at the top level or in a list item, however the lines before and after it look. The only exceptions are lines inside code blocks, math blocks and comments, and lines that begin with four blanks and are in a quote.", "quantifier": "all texts and all lines in them", "why_tests_cant": "Ranges over all texts and over every kind of block before, around and after the line.", "anchors": ["vimwiki-core/src/lang/parsers/vimwiki/blocks/mod.rs: top_level_block_element", "vimwiki-core/src/lang/parsers/vimwiki/blocks/mod.rs: nested_block_element", "vimwiki-core/src/lang/parsers/vimwiki/blocks/paragraphs.rs: paragraph"]}
{"id": "C106", "title": "Blocks take in all lines that belong to them", "statement": "Lines of text that follow each other are in one paragraph. Two elements of a page with nothing between them are not both paragraphs, both tables or both definition lists; two such quotes are not both written with arrows or both indented, and two such lists have different indentations. In an item of a list, no block is followed by a paragraph, table, definition list or quote if it is of that kind itself, and two lists next to each other have different indentations.", "quantifier": "all texts and all pairs of elements or lines in them", "why_tests_cant": "Ranges over all texts, all elements of their pages and whatever stands around them.", "anchors": ["vimwiki-core/src/lang/parsers/vimwiki/blocks/paragraphs.rs: paragraph", "vimwiki-core/src/lang/parsers/vimwiki/blocks/tables.rs: table", "vimwiki-core/src/lang/parsers/vimwiki/blocks/definitions.rs: definition_list", "vimwiki-core/src/lang/parsers/vimwiki/blocks/blockquotes.rs: blockquote", "vimwiki-core/src/lang/parsers/vimwiki/blocks/lists.rs: list"]}
{"id": "C107", "title": "Items that follow each other are in one list", "statement": "The items of a list, at whatever depth, stand at the beginnings of lines and have the same indentation. Two items with the same indentation between which there are only lines that are indented more are in one list.", "quantifier": "all texts, all lists in them at whatever depth and all their items", "why_tests_cant": "Ranges over all texts, all depths of lists and whatever stands in the items.", "anchors": ["vimwiki-core/src/lang/parsers/vimwiki/blocks/lists.rs: list, list_item"]}
{"id": "C108", "title": "Lists nest by indentation", "statement": "A line written as an item that is indented more than an item above it, with only lines that are indented more than that item between them, is an item of a list inside that item. All items of lists inside an item are indented more than the item.", "quantifier": "all texts, all items at whatever depth and all lines that follow them", "why_tests_cant": "Ranges over all texts, all depths of lists and whatever stands in the items.", "anchors": ["vimwiki-core/src/lang/parsers/vimwiki/blocks/lists.rs: list, list_item, list_item_tail"]}
{"id": "C109", "title": "An item has all the lines below it that are indented more", "statement": "The lines after an item belong to the item as long as they are not blank and indented more than the item. A line that is not indented more does not belong to it.", "quantifier": "all texts, all items at whatever depth and all lines after them", "why_tests_cant": "Ranges over all texts, all depths of lists and whatever the lines hold.", "anchors": ["vimwiki-core/src/lang/parsers/vimwiki/blocks/lists.rs: list_item, list_item_tail", "vimwiki-core/src/lang/parsers/vimwiki/blocks/mod.rs: nested_block_element"]}
{"id": "C110", "title": "What is written under an item is inside the item", "statement": "A quote line, table row, definition or line of text under an item (it and all lines between it and the item are not blank and indented more than the item) is in a quote, table, definition list or paragraph that is inside that item.", "quantifier": "all texts, all items at whatever depth and all lines under them", "why_tests_cant": "Ranges over all texts, all depths of lists and whatever the other lines hold.", "anchors": ["vimwiki-core/src/lang/parsers/vimwiki/blocks/lists.rs: list_item, list_item_tail", "vimwiki-core/src/lang/parsers/vimwiki/blocks/mod.rs: nested_block_element"]}
{"id": "C111", "title": "A term has the definitions that stand with it", "statement": "In a definition list, every line written as a term, two colons, blanks and a definition begins an entry of its own: its term is the text before the colons, its first definition is the text after them, and its other definitions are, in their order and each a whole line, the lines after it that begin with two colons, up to the first line that is none. The same holds of a line written as a term and two colons, which has one or more definitions, all on the lines after it. No definition line that follows is left out, unless the list is inside an item and ends before.", "quantifier": "all texts, all definition lists at whatever depth and all lines of them", "why_tests_cant": "Ranges over all texts and all numbers of entries and of definitions in an entry.", "anchors": ["vimwiki-core/src/lang/parsers/vimwiki/blocks/definitions.rs: definition_list, term_and_definitions, term_line, definition_line"]}
{"id": "C112", "title": "Items have the marks that are written", "statement": "Every item of every list begins with the prefix of an item. The item says which kind of suffix this prefix has, and it has a mark for what is to be done (open, one of three states in between, done, rejected) exactly if this mark is written in brackets after the prefix, and then it has that mark.", "quantifier": "all texts, all lists at whatever depth and all items of them", "why_tests_cant": "Ranges over all texts, all depths and all items, with anything after the prefix.", "anchors": ["vimwiki-core/src/lang/parsers/vimwiki/blocks/lists.rs: list_item, list_item_prefix, list_item_tail, todo_status"]}
{"id": "C113", "title": "Elements are found inside of text", "statement": "If something that reads as code, a formula, a comment, a keyword, a link in brackets or braces, tags between whitespace, a web address or decorated text stands in a line of a paragraph, in a header, a term, a definition, a cell or decorated text, then no plain text of the page holds the place where it begins.", "quantifier": "all texts, all rows of elements at whatever depth, all texts in them and all places in these texts", "why_tests_cant": "Ranges over all texts, all places in them and everything that can stand before and after an element.", "anchors": ["vimwiki-core/src/lang/parsers/vimwiki/blocks/inline/typefaces.rs: text, non_text", "vimwiki-core/src/lang/parsers/vimwiki/blocks/inline/mod.rs: inline_element_container"]}
{"id": "C114", "title": "What is written in a row is an element of the row", "statement": "If code, a formula, a comment, a keyword, a link in brackets, a transclusion, tags between whitespace, a web address that is a word or decorated text is written in a line of a paragraph, in a header, a term, a definition, a cell or decorated text, then that row has an element of this kind at this place, of this length and, for code, formulas, keywords, tags and addresses, with this content; unless it begins inside of another element of the row that is not text.", "quantifier": "all texts, all rows of elements at whatever depth and all places in them", "why_tests_cant": "Ranges over all texts, all places in them and everything that can stand before and after an element; tests show single rows.", "anchors": ["vimwiki-core/src/lang/parsers/vimwiki/blocks/inline/mod.rs: inline_element, inline_element_container", "vimwiki-core/src/lang/parsers/vimwiki/blocks/inline/typefaces.rs: text, decorated_text, keyword", "vimwiki-core/src/lang/parsers/vimwiki/blocks/inline/code.rs: code_inline"]}
{"id": "C115", "title": "Text is never cut in two", "statement": "In no line of a paragraph, header, term, definition, cell or decorated text are two text elements next to each other: text ends only where the row ends or where an element of another kind begins. A row that holds nothing but text is one text element, and a row in which nothing is written that elements of other kinds begin with is one text element with exactly what is written.", "quantifier": "all texts and all rows of elements at whatever depth", "why_tests_cant": "Ranges over all texts and everything that can end text; tests show single rows.", "anchors": ["vimwiki-core/src/lang/parsers/vimwiki/blocks/inline/typefaces.rs: text", "vimwiki-core/src/lang/parsers/vimwiki/blocks/inline/mod.rs: inline_element_container"]}
{"id": "C116", "title": "The lines of a paragraph are kept", "statement": "The lines of a paragraph, on the page or in an item of a list, are the lines of the text in its region, in order: each begins with the first byte that is no blank and ends where the line ends. Lines are joined only by comments that go over several lines. So a paragraph without such comments has as many lines as its text has line feeds, or one more at the end of the text.", "quantifier": "all texts and all paragraphs at whatever depth", "why_tests_cant": "Ranges over all texts and all paragraphs of their pages, nested in lists at any depth.", "anchors": ["vimwiki-core/src/lang/parsers/vimwiki/blocks/paragraphs.rs: paragraph, paragraph_line, continue_paragraph", "vimwiki-core/src/lang/elements/blocks/paragraphs.rs: Paragraph"]}
{"id": "C117", "title": "Blank lines separate blocks", "statement": "A line of blanks only never runs through a paragraph, a table, a definition list or a list. If it is in the region of a block of a page at all, at whatever depth, it is inside a code block, a math block, a comment over several lines or a quote, which is that block or is in it. Every other blank line lies between elements: each element ends before it or begins after it.", "quantifier": "all texts, all lines of blanks in them and all blocks of the page", "why_tests_cant": "Ranges over all texts and all blank lines, whatever comes before and after them and however deep the lists around them are.", "anchors": ["vimwiki-core/src/lang/parsers/vimwiki/mod.rs: page", "vimwiki-core/src/lang/parsers/vimwiki/blocks/paragraphs.rs: continue_paragraph", "vimwiki-core/src/lang/parsers/vimwiki/blocks/lists.rs: list, list_item", "vimwiki-core/src/lang/parsers/utils/line.rs: blank_line"]}
{"id": "C118", "title": "Blocks are made of whole lines", "statement": "Every element of a page begins where a line begins, and every block of a page, at whatever depth, ends where a line or the text ends; only the region of a placeholder leaves out the end of its line. The blocks of an item of a list follow each other with nothing between them, all but the first begin with a line, and the item ends with the last of them. The items of a list are all of it but equally many blanks before each of them. So no line is shared by two blocks that follow each other.", "quantifier": "all texts, all blocks of their pages and all items of lists", "why_tests_cant": "Ranges over all texts and over blocks nested at any depth.", "anchors": ["vimwiki-core/src/lang/parsers/vimwiki/mod.rs: page", "vimwiki-core/src/lang/parsers/vimwiki/blocks/lists.rs: list_item, list_item_tail", "vimwiki-core/src/lang/parsers/vimwiki/blocks/mod.rs: nested_block_element", "vimwiki-core/src/lang/parsers/utils/character.rs: end_of_line_or_input"]}
