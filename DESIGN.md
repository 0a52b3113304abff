# Formal model of vimwiki-rs: design

The subject is the Rust workspace in `/repo` (vimwiki-core, vimwiki-cli,
vimwiki_macros, vimwiki-wasm). The model is written in Lean 4 under `lean/Verif`. It is read
off the source by hand; nothing of the project is executed.

## Layout

* `Verif/Model/*` – definitions only. Each definition names the file and lines
  it models and any simplification.
* `Verif/Spec/*` – small specifications, written without the model's helpers.
* `Verif/Lemmas/*` – helper lemmas.
* `Verif/Props/*` – one theorem per claim, with a non-vacuity `example` beside
  it. `MANIFEST.json` lists these names.
* `Verif/Tests/*` – the project's own tests run against the model, see below.

## Modelling conventions

* A Rust `&str`/`&[u8]` is a `List Nat` of bytes (`Str`). Theorems hold for any
  numbers, a fortiori for bytes below 256.
* `usize` is `Nat`. A subtraction that would underflow is an explicit panic
  outcome (the debug-profile behaviour; a release build would wrap). `u16` depth
  overflow is an explicit panic. Additive overflow of `usize` is not modelled.
* A parser is a total function `Span → Res α`. `Res` has four outcomes: `ok`,
  `err`, `panic reason`, and `diverge`. `diverge` is what a loop or recursion
  returns when its fuel runs out; termination theorems show it never occurs.
* nom 6.1.2 combinators are modelled by hand from their documented behaviour,
  including "a successful iteration that consumed nothing is an error" in
  `many0`, `many1` and `fold_many0`.
* Error values are not modelled (only the fact that a parser failed), except in
  the separate model of `Error::or`.
* External libraries are parameters: `URIReference::try_from`,
  `NaiveDate::parse_from_str`, syntax highlighting, the file system, serde.
  Theorems hold for every value of the parameters unless hypotheses are named.

## Trusted base

* Lean 4.33.0 kernel. Axioms: at most `propext`, `Classical.choice`,
  `Quot.sound`; no axioms are added and no `sorry`, `native_decide`, `bv_decide`.
* The hand translation from Rust to Lean, and of nom, memchr, std path and
  string functions, percent-encoding, voca_rs::escape::escape_html and
  relative-path as described beside each definition.
* Assumptions about libraries, each a hypothesis of the theorems that need it or part of a definition:
  * the `numerals` crate writes the usual roman numeral of 1 to 3999 (`rom`);
  * `f32` division rounds monotonically and exactly on small integers (`Rounding`);
  * `usize` has 64 bits where a theorem speaks of the limit;
  * `URIReference` parsing: `Env.SchemeSound`, `LinkLib.Sound`, and that the text of a URI has no quote or
    angle bracket where output is shown to be well formed;
  * `std::path` on Unix as lists of components, names as bytes; canonical paths given as such;
  * `escape_html` byte by byte; `to_lowercase`, percent decoding, syntect, reading templates, formatting
    dates and today's date as arbitrary functions;
  * the cache: no part of what is written of a page reads back as another page (`CliLib.Sound`, shown of the JSON model
    by `C87_sound` if hash maps keep their order and URIs come back as they are); SHA-1 has no collision among the texts that occur (`NoCollision`);
  * the file system as a list of files; `WalkDir` lists all files in an unspecified but fixed order and
    before the first one is converted; creating directories succeeds; other processes do not interfere.
  * macros: the text of a token is what `TokenStream::to_string` gives; `str::lines` and `char::is_whitespace` of
    current std; the two regular expressions of the formatter as written beside the scanners; `std::format!` writes what a
    format text stands for (`FormatSound`); the generated constructors build the values they name.
  * hashing: equal URIs of uriparse feed a hasher the same data; std's `Hash` for strings, vectors and options.
  * copies: a copied URI is equal to the original, new hash maps have the same entries (`CopyLib.Sound`).
  * dates of JavaScript: `new Date` carries months and days over as documented (`JsLib.Sound`); chrono's `from_ymd`
    panics exactly for days that do not exist; its range of years is not modelled.
  * JSON: `serde_json` writes and reads as in `Model/Json`, with its limit of 127 open brackets; URIs and dates read back
    from what is written of them (`SerdeLib.Sound`); readers are modelled for objects, as written, not for sequences, and
    do not check the range of numbers; `jsonpath::select` is an arbitrary function.
* The stack of the Rust program is taken to be unbounded.
* Not modelled: the mediawiki/markdown stubs beyond the refusal, logging/timekeeping, the `serve` subcommand, command line parsing by structopt,
  how syn reads the arguments of macros, the parts of vimwiki-wasm that only hand on a field, the text of the default style sheet.

## Checking the model against the project's tests

The hand translation is trusted, so `Verif/Tests` runs the model on the project's own test cases while
building. No theorem uses these modules; they are checks of fidelity, not proofs.

* `Parsers`: 284 calls from the 243 unit tests of the parsers, with the asserted result in a short notation.
* `VimwikiOut`, `HtmlOut`: 236 assertions from 191 unit tests of the two writers. Left out are ignored tests,
  the two of server-side highlighting, a loop over keywords, and one test that accepts either of two orders.
* `Pages`: the integration tests, including the one that lists every region and depth of a large page, and all
  fixtures in `tests/output`.

The tests were translated by script; the URI and date libraries are stand-ins in `Tests/Lib`. The model agrees
with every one of them.

## What the log of wrong programs shows

`seeded/LOG.jsonl` has one line for each edit of the model that was built: 536, of which 24 still built. Each
of those 24 has a note. Two more edits could not be applied and are not in it. How much a line shows differs:

* `first_errors` are the declarations, lemmas included, that no longer compiled. `failed_theorems` are the
  property theorems among them (70 lines have one; in 45 it is a theorem of the property named in `claim`).
* `unproved_dependents` was not observed. It is computed: the property theorems whose proofs use a declaration
  in `first_errors`. Lake does not build modules behind one that failed, so these were mostly not tried.
* In 422 lines only lemmas failed. Often the first one is a lemma about the shape of the edited definition that
  any edit would break. Such a line shows that the proofs do not go through unchanged. It does not show that
  the theorem is false of the edited model, so it is weak evidence that the theorem states enough. Long lists
  of dependents, with C01 or C02 for an edit of lists, come from this.
* In 19 lines a test or an example failed and no property theorem did.
* In 39 lines `claim` names a property that is in neither list, and in 215 it names none. Some of the 39 use
  numbers from an earlier plan. They were not run again, so for them it is open whether the theorems of the
  property named notice the edit (for instance b4-34 to b4-50 for C67, b7-001 to b7-003 for C99).
* Nine lines (b11-001, b11-002, b12 and b13) were checked further: the edited model was run on a text, and the
  note gives the result that contradicts the theorem. The other lines were not checked in this way.

## Plan per property

* **C01** Parsing a page always terminates. Full page grammar as fuelled functions with a distinguished `diverge` outcome; prove by a compositional progress predicate that `diverge` is unreachable with fuel = length.
* **C02** Every text is a page. Same model; prove `page` never returns `err`: paragraph succeeds on any non-blank line that the other alternatives reject.
* **C03** Parsing a page does not panic. Panic outcomes carry a reason. Prove the only reachable reasons are four named ones; witnesses for the violations; partial theorem for inputs avoiding them.
* **C04** Element regions lie inside the source text. Postcondition carried by the compositional predicate through all parsers.
* **C05** Element regions nest and are ordered like the tree. Recursive predicate on the tree; negation witness for definition bundles; partial for the rest.
* **C06** Top-level elements tile the page. Postcondition of the page loop.
* **C07** Text elements quote the source verbatim. Postcondition of `text`, lifted through the tree.
* **C08** Extracted strings are valid UTF-8. Boundary invariant on spans carried through the parsers.
* **C09** Header syntax is exactly the documented one. Independent line grammar; equivalence with the parser.
* **C10** Divider syntax is exactly four or more hyphens. Independent predicate on the line; equivalence with the parser.
* **C11** Code blocks keep their lines verbatim. Function from line lists to source text; parser applied to it returns the expected lines (induction on lines).
* **C12** Math blocks keep their lines verbatim. As C11.
* **C13** Comments end at the first terminator. First-occurrence specification of the scanners; lifted to the comment parsers.
* **C14** Delimited inline forms take the shortest non-empty body on one line. Declarative shortest-match specification; soundness and completeness of the scanners.
* **C15** Tags never contain separators. Postcondition of the tag parser.
* **C16** A blank test accepts exactly blank text. Characterise the scanner exactly; negation witness for one-byte values; partial theorem.
* **C17** Line and column of a position are right. Line/column as counts over the prefix.
* **C18** Table cells are addressed by row and column of the source. Model of rows to cell map; lookup specification.
* **C19** Cell positions survive printing and parsing. Decimal printing/reading model; round trip by induction.
* **C20** Header and body rows partition a table. Model of header/body split.
* **C21** Row and column spans count the marker cells. Model of span counting loops; maximal-run specification.
* **C22** Table iterators visit every cell exactly once. Model of the iterators with explicit state; rectangular case proved; ragged witness.
* **C23** Strict equality is an equivalence finer than equality. Structural induction on the tree; `==` of terms and definitions compares the displayed text, so `==` is sameness of structure after replacing each by its text.
* **C24** Alphabetic list prefixes are the bijective base-26 numerals. Bijective base-26 specification; induction.
* **C25** Printed list prefixes are recognised as list items of the same kind. Uses the list prefix parsers and the printed prefixes.
* **C26** Roman numerals are printed correctly. Greedy roman printing modelled; evaluation specification by bounded table composition plus induction on thousands.
* **C27** Todo progress is a fraction. Progress as exact rationals; induction on the tree.
* **C28** List items are numbered consecutively and types are uniform after normalisation. Postcondition of the list parser and of `normalize`.
* **C29** Blockquote line groups are the maximal runs of non-blank lines. Fold model of `line_groups`; specification by runs.
* **C30** Anchors round-trip through their textual forms. Split/join round trip.
* **C31** URI encoding is reversible and safe. Byte-wise encoder model; encoded and decoded forms as inductive relations.
* **C32** Regions contain exactly their offsets. Arithmetic.
* **C33** Formatting restores the formatter state. State-passing model of the formatter; induction on elements.
* **C34** Formatting only appends. As C33; negation witness for `and_trim`; partial.
* **C35** Formatted tables are aligned. Table formatting model; width specification.
* **C36** Formatting a table does not panic. Explicit underflow outcome; witness; partial.
* **C37** Leaf blocks survive a format/parse round trip. Compose formatter model with parser model.
* **C38** Code block metadata is written deterministically. Sorting model; permutation invariance; witness for equal pages with different terms.
* **C39** Pages are formatted element by element with exact separators. Induction over elements.
* **C40** Header and bold ids are unique in an HTML page. Model of the id cache; witness; partial with invariant over request histories.
* **C41** Unique id generation terminates. Well-founded loop measure: lengths of cached keys.
* **C42** Text is escaped in HTML. Byte-wise escape model; unescape inverse.
* **C43** HTML output is well nested. Event model of the HTML writer; Dyck-word predicate.
* **C44** Page content is inserted verbatim in the template. Sequential replace model.
* **C45** Normalised ids contain no whitespace. Split/join model.
* **C46** Path normalisation removes dots. Stack model of components.
* **C47** Relative links point to their target. Component model of relative paths.
* **C48** Output paths stay in the output directory. Component model.
* **C49** A page belongs to the deepest wiki containing it. Model of filter/max_by_key.
* **C50** Root path leads from a page to its wiki root. Component model.
* **C51** The cache is transparent. State machine over cache directory with crash steps; invariant.
* **C52** Pruning keeps every cache entry in use. Set reasoning on the prune step.
* **C53** Every selected wiki's files are loaded. Model of load_ast over configs; witness; partial.
* **C54** A loaded file can be found. State machine over load_file.
* **C55** The include filter selects by index or name. Direct.
* **C56** Unsupported languages are refused. Direct.
* **C57** Column alignment is that of the first alignment cell of the column. Model of the column iterator and the search; witness for ragged tables.
* **C58** Formatting a table keeps its cells. Model of the table formatter; witness for gaps; partial.
* **C59** Links lead to the output of the page they name. Component model of link resolution; witnesses; partial.
* **C60** Include arguments select the wikis they name. Composition of the two filters; witness; partial for names.
* **C61** Formatting in place keeps files intact. File map with a crash point; witness; partial.
* **C62** Every element type can be parsed on its own. One postcondition for all parsers.
* **C63** --no-cache leaves the cache out of play. Independence by induction over the files; witness.
* **C64** Pages survive formatting and parsing back. Describe the text of each block that can be
  written (Spec/InlineText, BlockText, NestText, PageText), prove that the formatter writes exactly it and
  that the parsers read it back, by mutual induction over blocks, items and contents; witness for the rest.
* **C65** Parsed pages are well formed. For each parser prove that all its results have the shape, by
  induction on the fuel of recursive parsers.
* **C66** Formatting is stable. From C64, C65 and C38; witness for pages outside C64.
* **C67** HTML of every element. A relation between elements and trees of HTML (Spec/HtmlShow) that
  only depends on the headers before; every writer is shown to write a tree in the relation.
* **C68** Long ids. The open sections as a stack; equal to the formatter's last headers if no level is
  skipped. Witnesses for a skipped level and for bold text.
* **C69** Links to other wikis, anchors, transclusions. Case analysis of `resolve_link` with an
  independent reading of relative references.
* **C70** Links to sections. C68 and C69 together give the element with the id asked for; witnesses for
  anchors within the page and for anchors that are not normalised.
* **C71** Template variables. A template as a list of texts and variables; replacing one variable in the
  text is the same as replacing it in the list, by induction over the list. The last title, date and
  template: an invariant of all writers. Witness for a title that holds a variable.
* **C72** Converting. The whole subcommand over a disk with files, cache and faults; an invariant that
  pages and cache stay as they were (outputs end in `html` or `css`, pages do not) gives the list of files
  written. Witnesses for colliding outputs, `--include` and `%nohtml`.
* **C73** Children. Every `into_children` is modelled; a walk is a relation that any program asking for
  children follows. It is compared with a listing of the elements by structural recursion, with cells by
  row and column.
* **C74** Macros. `input_to_string` on the text of the token, with `str::lines`, `str::trim` and
  `char::is_whitespace` modelled on UTF-8 bytes. The specification describes lines, indentation and
  literals as relations.
* **C75** Macros. `quote_format_str` with its two regular expressions as scanners; the template of the
  call and its arguments are compared with a meaning of format texts defined on a list of parts.
* **C76** Quote. The value of the generated code as a function of the parsed element, one definition per
  tokenize function. Compared by == and strict_eq of C23; by mutual induction, with permutations of maps
  and counts of tables.
* **C77** Quote. A list of the texts of an element and the element without texts, both by structural
  recursion; `Formats` says that tokenizing formats exactly that list and leaves the rest.
* **C78** Links. Predicates on the parts of the address beside the model; by cases.
* **C79** Hashing modelled as the list of data fed to the hasher; structural induction, sorted keys by
  permutation.
* **C80** JavaScript dates as a parameter with the documented carry rules (`JsLib.Sound`), shown
  satisfiable; arithmetic on months and days.
* **C81** Constructors with the URI parser as a parameter; case analysis.
* **C82** Queue loop with fuel; invariant of the queue, related to the depth first walk of C73 by
  permutation.
* **C83** Enumeration of rows and cells; lookup in the collected map.
* **C84** Induction over the items.
* **C85** One definition for both kinds of copies, with copying of URIs and order of new hash maps as
  parameters; structural induction.
* **C86** Invariants of the iterator states; the items still to come as a relation (`Yields`).
* **C87** JSON values, `serde_json` as writer and reader of bytes with its recursion limit; a scanner
  invariant for prefixes; serialisation of each element with an inverse reader.
* **C88** `to_value` on the JSON model; `jsonpath::select` as a parameter.
* **C89** A relation between runs of all parsers on a text and on the same text behind another one that
  ends with a newline, proved parser by parser.
* **C90** The parsers of blocks with a counter of the entries into `list`, proved to erase to the
  parsers of the model.
* **C91** `Need` and `Page.Needs` in Spec/HtmlFails; a relation between writers and needs (`Wants`)
  closed under the combinators of the writer.
* **C92** On the model of the selection of wikis (C55) and of links (C69).
* **C93** A simulation between the run of the parser on a text and on the text with the other line
  endings (Lemmas/Crlf*): spans are related if they begin at corresponding places, never between the two
  bytes of a line ending, and every parser keeps the relation.
* **C94** By induction over elements: every writer gives the same for an element without its places
  (Lemmas/Erased).
* **C95** By induction over elements, with transformations of pages (Spec/Options) that the options
  stand for.
* **C96** The file system is a function from paths to contents; independence of files elsewhere is
  equality of the results on two file systems.
* **C97** Layout relations of the parsers carry the bytes between the parts; the end of the contents of
  a decoration is characterised by the failure of the parsers of its elements.
* **C98** The body of a decoration has its delimiter nowhere but at its first byte, and an inner one of
  the same kind would need two more.
* **C99** Every link element carries the run of its body parser; inversion of that run gives a relation
  between the text in the brackets, the parts and the rest.
* **C100** For a set of line starts with a first byte that begins no list item, table, fence or quote,
  and with which a paragraph does not go on, each block parser is shown to consume no such line start
  except in verbatim text, colon lines and deeply indented quotes; the tiling of the page by its
  elements then gives an element that begins there.
* **C101** The argument of C100 with a claim about the block that the line is for: if a table, a quote
  or a list reads the line, that claim holds; a paragraph does not go on with the line since the parser
  for tables, quotes or lists does not fail on it, shown by running it on the form of the line up to
  panics.
* **C102** The argument of C100 and C101, with the claim that the block at the line is the one written
  there or the line is indented and in a list. A block that is tried on the line has all of the rest of
  the text, so that the run of C11 and C12 gives its contents; every line of a list begins an item or is
  indented, shown by going through the lines of its items.
* **C103** The argument of C100 and C101: a paragraph does not go on with such a line since the parser
  for definition lists does not fail on it, shown by running it on the form of the line up to panics; no
  item, row, quote or fence begins like the term.
* **C104** The rules for the line parsers give the source of each line; the sources are put together
  along the repetitions (`RowsAt`), and the layout of a page (`BlockAt`) carries the result to every
  block of it.
* **C105** Same walk over the page as in C100-C103, with paragraphs as the block in which the line is
  found: every other block either has a fixed beginning on each of its lines, which the line does not
  have, or hides its lines.
* **C106** A repetition ends where its parser fails. An element of the same kind at that place would
  begin with the same parser on the same input. For lists the parser of an item is used with other fuel;
  that it does not fail on item lines was shown for C101.
* **C107** Induction over the fuel of nested blocks. The lines of an item end where a line is not
  indented more, so nothing that belongs to a list inside the item stands behind them. An item ends at
  a line that is not indented more or where the parser of nested blocks fails, and that fails only on
  blank lines and on headers. A list ends only where the parser of an item fails or the indentation is
  another one, and on item lines it does not fail.
* **C108** The same induction as for C107. What a line inside an item belongs to follows from the
  lemmas for C101, used on the contents of the item; quotes inside items have an arrow on every line.
* **C109** From the induction for C107: at the end of an item there is the end of the text, a line that
  is not indented more, a blank line or a header.
* **C110** The lines are in the item by C109. The lemmas for C101, C103 and C105 are about any place
  where blocks are read, and are used on the contents of the item. That quotes inside items have an
  arrow on every line is part of the induction for C107.
* **C111** Every definition list of a page comes from a run of its parser, at the top level or inside an
  item (part of the induction for C107). Each round of the repetition takes one line with a term and
  then the lines that begin with two colons; a line with a term does not begin with two colons, so it is
  the first line of a round. The parser for further definitions does not fail on a line of the right
  form, so none is left out.
* **C112** Every list of a page comes from a run of its parser (part of the induction for C107). The run
  of an item is taken apart: if a mark is read, it is the text after the prefix; if none is read, the
  parser for marks fails there, which it does not do on a mark. A mark does not go over the end of a
  line, so the end of the lines of the item does not matter.
* **C113** The loop of the parser of texts goes on byte by byte as long as nothing else is read, so at
  each byte of a text the parsers of all other elements fail, on the input up to the end of the row or
  further. This is kept in the layout of rows. The parsers of the other elements are run forwards on
  what the specification describes (BeginsAt), and do not fail. A decoration of which the body is read
  at all can only fail where its body begins; the parser of its contents fails there only before code,
  formulas, tags and comments (lemma for C97), and tags need whitespace before them.
* **C114** The elements of a row cover it without gaps, so one of them covers the place. By C113 it is
  not a text. If it begins there, its first bytes tell its kind, because the layout says how each kind
  of element is written, and a body up to the first closing mark is the only one. Tags and addresses are
  what their parsers read; no element begins inside of the scheme of an address.
* **C115** Where the parser of text ends, running it once more takes the same path to the byte that
  stopped it and goes back by the same number of bytes (for addresses), so it reads nothing and fails.
  The parsers of all other elements never give text. Both facts are kept in the layout of rows.
* **C116** Every paragraph of a page comes from a run of the parser of paragraphs, on the page itself or
  among the blocks of an item. One step of its repetition takes blanks, a row of elements and the end of
  the line. A line feed among elements is inside a comment; a row never ends with a line feed, so it
  ends at the end of an item only where the text ends.
* **C117** No line of blanks begins an item, a fence or a row of a table, and none has two colons, so it
  is no line of a definition list. A paragraph does not go on with it, so it can be in a paragraph only
  behind a line feed inside of a comment. Blocks in items are treated by induction on the fuel of the
  nested parser; the lemmas on lists are those for the other kinds of lines.
* **C118** Each block parser stops at the end of its span or behind a line feed. The spans of items end
  behind a line feed or with the text, so this is the end of a line in both cases. The blocks of an item
  come from a repetition: each begins where the one before it has stopped. So do the items of a list,
  behind their blanks.

## Violations found

Where the code does not have a property, the negation is proved for a concrete case and the property is
proved under the conditions named in `MANIFEST.json` (`_partial` theorems). The texts are those of the theorems.

* `C03_violated` C03 does not hold: three texts on which parsing panics, each at another place.
* `C05_violated` C05 does not hold for the wrappers: the bundle of definitions does not contain its
  first definition, and the entry ends before its last definition does.
* `C100_header_blanks_violated` A centered header line with four blanks before it is swallowed by a
  quote in the line before it.
* `C100_header_colons_violated` A header line with two colons is swallowed by a definition list in
  the line before it: it is neither a header nor inside anything verbatim.
* `C100_placeholder_violated` A placeholder line with two colons is read as a definition list.
* `C101_cell_text_violated` A negative number, an arrow with text or a hyphen with text at the
  beginning of a cell keeps the row from being a row: the whole line is text.
* `C101_item_blanks_violated` A list item with four blanks before it after an indented quote is part
  of the quote.
* `C101_item_box_violated` An item with a box and nothing else is no item.
* `C101_item_colons_violated` A list item with two colons is read as a definition.
* `C101_quote_colons_violated` A quote line with two colons is read as a definition.
* `C101_row_blanks_violated` A row with four blanks before it after an indented quote is part of the
  quote.
* `C101_row_colons_violated` A row with two colons is read as a definition.
* `C101_row_end_violated` Blanks after the last bar keep the line from being a row.
* `C102_blanks_violated` A block of code with four blanks before it after an indented quote is part
  of the quote.
* `C102_colons_violated` A block of code whose metadata have two colons is read as a definition.
* `C102_list_violated` A block of code in a list item of which a line is not indented is no code:
  the item ends before that line.
* `C103_blanks_violated` A definition with four blanks before it after an indented quote is part of
  the quote.
* `C103_other_violated` A term that begins like a list item is a definition by itself, but an item
  after an item; the same goes for rows and quotes.
* `C107_indented_header_violated` What stands between two items can part them: an indented line that
  begins no block of an item ends the list.
* `C108_colons_violated` An item with two colons inside an item is read as a definition.
* `C109_header_violated` A header does not belong to the item it is indented under.
* `C110_colons_violated` Lines with two colons under an item are definitions, whatever else they
  look like.
* `C113_violated` It does not hold for decorations that begin with code: bold text around code is
  two texts with stars and code.
* `C114_violated` Bold text around code is written at the beginning of this line, but the row begins
  with a text.
* `C13_violated` The lines of a comment joined by newlines are not always its text.
* `C14_violated` Two texts of delimited form that are not recognised: math whose shortest body
  begins with the delimiter, and bold text around code.
* `C15_violated` C15 does not hold in full: the rest of the word after the last tag is part of the
  element's region but of no tag, so it is lost.
* `C16_violated` C16 does not hold: the value `x` is not blank, yet the line is no placeholder.
* `C21_violated` C21 does not hold for row spans of ragged tables: the content cell in the second
  column of the second row has row span 0 because the first row is shorter.
* `C22_violated` C22 does not hold for ragged tables: five cells are written, `cells()` returns the
  three before the gap.
* `C24_violated` C24 does not hold beyond: positions are truncated to 32 bits.
* `C25_violated` C25 does not hold for all items: "XC." (upper roman, item 90) and "ca." (lower
  alphabetic, item 79) are rejected, since the letters taken for roman digits end the word, and so
  is "1", a number without suffix.
* `C27_violated` C27 does not hold for larger lists: with the rounding of `f32` (to nearest, ties to
  even, as the three values show) 2^24 + 2 completed items have progress below 1.
* `C28_violated` The roman clause of C28 does not hold: "j." is no roman numeral.
* `C32_violated` C32 does not hold at the limit: converting a range that includes the largest
  `usize` overflows, and so does asking a region that ends beyond it.
* `C34_violated` C34 does not hold for all elements: a paragraph with a blank line removes the empty
  line written before it.
* `C36_violated` C36 does not hold for all tables: the text `|a|` over `|--|:--|` is parsed as a
  table that the formatter cannot write.
* `C38_equal_pages_violated` Pages that are equal (`==`) need not have the same vimwiki text: terms
  are compared as they are displayed, so the pages of `*a*:: b` and of `a:: b` are equal.
* `C40_page_violated` C40 fails for pages: three headers `a`, `a` and `a-1`.
* `C40_violated` C40 fails: asking for `a`, `a` and `a-1` gives `a`, `a-1` and `a-1`.
* `C40_violated_generated` C40 fails also between two generated ids.
* `C43_violated` C43 fails: the language of a code block is written as it is.
* `C43_violated_math` C43 fails: the environment of a math block is written as it is.
* `C46_climbing` A relative path that climbs loses its leading `..`, so the condition is needed.
* `C47_violated` C47 fails: the page `b.wiki` linking to `[[b.html/c]]` gets the link `c.html`,
  which leads to `/out/c.html` and not to `/out/b.html/c.html`.
* `C48_root` The directory of the wiki itself is not a page: its output is beside the output
  directory. The files of C48 are therefore strictly inside the wiki.
* `C52_definition_violated` C52 is violated: a page with a definition list is loaded, but its cache
  entry cannot be read, so it is parsed again each time.
* `C53_violated` C53 fails: with the second of two wikis selected, its page is not in the result.
* `C54_reload` Loading a file a second time does not make the new text visible: the entry of the
  first load is the one that is found.
* `C55_numeric_name` C55: a wiki whose name is a number cannot be selected by name.
* `C57_violated` C57 does not hold for ragged tables: the alignment written for the second column is
  ignored because the header row is shorter.
* `C58_violated` C58 does not hold for all tables: after a row that is too short, the cells of the
  following rows are written as blanks.
* `C59_violated` C59 fails: `[[v1.2]]` leads to `v1.html`, but the page `v1.2.wiki` is written to
  `v1.2.html`.
* `C59_violated_directory` C59 fails for directories of other wikis: `[[dir/]]` leads to
  `dir/index.html`, but `[[wn.main:dir/]]` leads to `dir.html`.
* `C60_violated` C60 fails: `--include 1` with two wikis leaves nothing, since the second wiki
  becomes the first and only one and is filtered out again.
* `C61_violated` C61 fails when the tool is interrupted: the file may end up with neither its old
  nor its new text.
* `C63_violated` C63 fails: with `--no-cache` an entry is written all the same, here over an
  existing one.
* `C64_violated` C64 is violated: the cells of `|a|b|` are written with blanks around them, which
  become part of their text.
* `C66_violated` C66 is violated: items of a list that begin with different marks are numbered like
  the first one, but a hyphen has no suffix, so that the second item becomes text.
* `C68_violated` C68 fails if a level is skipped: the section `b` has ended before `d`.
* `C68_violated_bold` C68 fails for bold text even if no level is skipped.
* `C70_violated` C70 fails for headers with capital letters and blanks: the id is `a-b`, the
  fragment `A%20b`.
* `C70_violated_local` C70 fails for links within a page: the parts of the anchor are not joined by
  a dash.
* `C71_violated` C71 fails for a title that holds a variable: it is replaced as well.
* `C72_violated` C72 fails: two pages given by their paths, in different directories but with the
  same name, have the same output file, and the second replaces the first.
* `C72_violated_include` C72 fails: with `--include 1` the second wiki is selected, but nothing is
  converted.
* `C72_violated_nohtml` C72: a page with `%nohtml` is converted all the same.
* `C73_table_order_violated` C73, the order in a table: a table hands out the contents of its cells
  in the order of a hash map, so its children need not be in source order.
* `C74_as_is_violated` C74 is violated: macros of the raw kind do not take the literal as it is.
* `C74_blank_line_violated` C74 is violated: an empty line between two indented ones keeps the macro
  from removing their indentation.
* `C74_escape_violated` C74 is violated: escapes in a literal are not replaced, so the parsed text
  is not the value of the literal (`a`, a line feed, `b`).
* `C74_panic_violated` C74 is violated: a name that starts with `r` makes the macro panic, as does a
  literal with lines indented by a no-break space and by a space.
* `C75_escape_violated` C75 is violated: doubled braces, which stand for braces in format texts, are
  taken for a placeholder.
* `C75_width_violated` C75 is violated: arguments named after the colon of a placeholder do not
  reach the generated call. Here the width is to be argument 1, but the call has one argument only.
* `C76_depth_violated` C76 is violated: the depths of the parsed page get lost.
* `C77_table_order_violated` C77 is violated for tables: which argument goes to which cell depends
  on the order of a hash map. Both orders of the parsed table's map are shown.
* `C80_january_violated` C80 fails: a date in January stops the program.
* `C80_read_violated` C80 fails: the date that JavaScript is given for a placeholder is never that
  of the placeholder.
* `C80_write_violated` C80 fails: no diary link made in JavaScript has the date it was made with.
* `C81_anchor_violated` C81 fails: an anchor that is no fragment of an address stops the program.
* `C81_violated` C81 fails: a description that can be read as an address becomes an image, as in
  `[[page|{{Home}}]]`.
* `C83_violated` C83 fails: after something that is not a cell the others move to the left.
* `C84_violated` C84 fails: of a term written twice only the first definitions are found.
* `C86_body_violated` C86 fails for the body rows of a table with two divider rows: three are
  announced, two returned.
* `C86_gap_violated` C86 fails for tables with rows of different lengths: for the second row two
  cells are announced and one returned, for all cells five are announced and three returned.
* `C86_into_cells_violated` C86 fails for `into_cells()` on every table without gaps that has two
  cells or more: once the first cell has been returned the hint is one less than what is left.
* `C87_definition_violated` C87 is violated: a page with a definition list cannot be written, and
  what is left of it cannot be read.
* `C87_depth_violated` C87 is violated: the JSON of a page with 26 lists in each other is written,
  but cannot be read back.
* `C88_violated` C88 is violated: there are wikis of which nothing can be inspected.
* `C89_violated` C89 fails for elements before a text: a blank line does not end an element that is
  still open, so that the page of two texts on both sides of a blank line need not be the two pages.
* `C90_violated` C90 does not hold: on `n` lines, each an item one deeper than the one before, the
  reader of lists is entered at least `2 ^ n - 1` times.
* `C92_violated` C92 fails: with `--include 0 --include 2` a link to wiki 1 leads to wiki 2, and a
  link to wiki 2 is an error.
* `C95_links_violated` C95 fails for links: they neither begin with the base url nor lose the name
  of the file.
* `C95_lists_violated` C95 fails for lists: a line break in an item is not written as one although
  it shall not be ignored.
* `C96_extension_violated` C96 fails: the extension of templates is not put behind the name.
* `C96_outside_violated` C96 fails: a page can show any file that can be read, by an absolute path
  or with `..`.
* `C97_decorations_violated` **C97 is violated**: of the text `a`, code and more text in a
  decoration only the text before the code is kept.
* `C99_violated` Text in brackets that the link does not hold: a second description, what follows an
  image in a description, and what follows braces in a target.
