import Verif.Tests.Show

/-!
# The project's tests of the vimwiki output

Translated from the unit tests of `/repo/vimwiki-core/src/lang/output/vimwiki/mod.rs`, whose names are
given in the comments.
-/

namespace Vw.Tests

-- blockquote_should_default_to_arrow_style
#guard vw [Block.fmt out {} (.blockquote [b!"some lines", b!"of text", [], b!"with an empty line"])] = some b!"> some lines\n> of text\n>\n> with an empty line\n"

-- blockquote_should_trim_lines_by_default
#guard vw [Block.fmt out {} (.blockquote [b!"\t some lines \t", b!"\t\tof text\r"])] = some b!"> some lines\n> of text\n"

-- blockquote_should_use_arrow_style_if_indented_setting_disabled
#guard vw [Block.fmt out ({ preferIndentedQuote := false }) (.blockquote [b!"some lines", b!"of text"])] = some b!"> some lines\n> of text\n"

-- blockquote_should_use_indented_style_if_setting_enabled
#guard vw [Block.fmt out ({ preferIndentedQuote := true }) (.blockquote [b!"some lines", b!"of text"])] = some b!"    some lines\n    of text\n"

-- blockquote_should_trim_lines_if_setting_enabled
#guard vw [Block.fmt out ({ trimQuote := true }) (.blockquote [b!"\t some lines \t", b!"\t\tof text\r"])] = some b!"> some lines\n> of text\n"

-- blockquote_should_not_trim_lines_if_setting_disabled
#guard vw [Block.fmt out ({ trimQuote := false }) (.blockquote [b!"\t some lines \t", b!"\t\tof text\r"])] = some b!"> \t some lines \t\n> \t\tof text\r\n"

-- blockquote_should_support_indentation
#guard vw [Fm.andIndent (Block.fmt out {} (.blockquote [b!"some lines", b!"of text"]))] = some b!"    > some lines\n    > of text\n"

-- definition_list_should_place_first_definition_on_same_line_as_term_by_default
#guard vw [Block.fmt out {} (.defs [loc ⟨loc [loc (.text b!"term1")], loc []⟩])] = some b!"term1::\n"
#guard vw [Block.fmt out {} (.defs [loc ⟨loc [loc (.text b!"term1")], loc [loc [loc (.text b!"def1")]]⟩])] = some b!"term1:: def1\n"
#guard vw [Block.fmt out {} (.defs [loc ⟨loc [loc (.text b!"term1")], loc [loc [loc (.text b!"def1")], loc [loc (.text b!"def2")]]⟩])] = some b!"term1:: def1\n:: def2\n"

-- definition_list_should_trim_terms_by_default
#guard vw [Block.fmt out {} (.defs [loc ⟨loc [loc (.text b!" \rterm1\t ")], loc []⟩])] = some b!"term1::\n"
#guard vw [Block.fmt out {} (.defs [loc ⟨loc [loc (.text b!" \rterm1\t ")], loc [loc [loc (.text b!"def1")]]⟩])] = some b!"term1:: def1\n"
#guard vw [Block.fmt out {} (.defs [loc ⟨loc [loc (.text b!" \rterm1\t ")], loc [loc [loc (.text b!"def1")], loc [loc (.text b!"def2")]]⟩])] = some b!"term1:: def1\n:: def2\n"

-- definition_list_should_trim_definitions_by_default
#guard vw [Block.fmt out {} (.defs [loc ⟨loc [loc (.text b!"term1")], loc [loc [loc (.text b!" \rdef1\t ")]]⟩])] = some b!"term1:: def1\n"
#guard vw [Block.fmt out {} (.defs [loc ⟨loc [loc (.text b!"term1")], loc [loc [loc (.text b!" \rdef1\t ")], loc [loc (.text b!" \rdef2\t ")]]⟩])] = some b!"term1:: def1\n:: def2\n"

-- definition_list_should_not_place_first_definition_on_same_line_as_term_if_setting_disabled
#guard vw [Block.fmt out ({ termAlone := false }) (.defs [loc ⟨loc [loc (.text b!"term1")], loc []⟩])] = some b!"term1::\n"
#guard vw [Block.fmt out ({ termAlone := false }) (.defs [loc ⟨loc [loc (.text b!"term1")], loc [loc [loc (.text b!"def1")]]⟩])] = some b!"term1:: def1\n"
#guard vw [Block.fmt out ({ termAlone := false }) (.defs [loc ⟨loc [loc (.text b!"term1")], loc [loc [loc (.text b!"def1")], loc [loc (.text b!"def2")]]⟩])] = some b!"term1:: def1\n:: def2\n"

-- definition_list_should_place_first_definition_on_same_line_as_term_if_setting_enabled
#guard vw [Block.fmt out ({ termAlone := true }) (.defs [loc ⟨loc [loc (.text b!"term1")], loc []⟩])] = some b!"term1::\n"
#guard vw [Block.fmt out ({ termAlone := true }) (.defs [loc ⟨loc [loc (.text b!"term1")], loc [loc [loc (.text b!"def1")]]⟩])] = some b!"term1::\n:: def1\n"
#guard vw [Block.fmt out ({ termAlone := true }) (.defs [loc ⟨loc [loc (.text b!"term1")], loc [loc [loc (.text b!"def1")], loc [loc (.text b!"def2")]]⟩])] = some b!"term1::\n:: def1\n:: def2\n"

-- definition_list_should_trim_terms_if_setting_enabled
#guard vw [Block.fmt out ({ trimTerms := true }) (.defs [loc ⟨loc [loc (.text b!" \rterm1\t ")], loc []⟩])] = some b!"term1::\n"
#guard vw [Block.fmt out ({ trimTerms := true }) (.defs [loc ⟨loc [loc (.text b!" \rterm1\t ")], loc [loc [loc (.text b!"def1")]]⟩])] = some b!"term1:: def1\n"
#guard vw [Block.fmt out ({ trimTerms := true }) (.defs [loc ⟨loc [loc (.text b!" \rterm1\t ")], loc [loc [loc (.text b!"def1")], loc [loc (.text b!"def2")]]⟩])] = some b!"term1:: def1\n:: def2\n"

-- definition_list_should_not_trim_terms_if_setting_disabled
#guard vw [Block.fmt out ({ trimTerms := false }) (.defs [loc ⟨loc [loc (.text b!" \rterm1\t ")], loc []⟩])] = some b!" \rterm1\t ::\n"
#guard vw [Block.fmt out ({ trimTerms := false }) (.defs [loc ⟨loc [loc (.text b!" \rterm1\t ")], loc [loc [loc (.text b!"def1")]]⟩])] = some b!" \rterm1\t :: def1\n"
#guard vw [Block.fmt out ({ trimTerms := false }) (.defs [loc ⟨loc [loc (.text b!" \rterm1\t ")], loc [loc [loc (.text b!"def1")], loc [loc (.text b!"def2")]]⟩])] = some b!" \rterm1\t :: def1\n:: def2\n"

-- definition_list_should_trim_definitions_if_setting_enabled
#guard vw [Block.fmt out ({ trimDefs := true }) (.defs [loc ⟨loc [loc (.text b!"term1")], loc [loc [loc (.text b!" \rdef1\t ")]]⟩])] = some b!"term1:: def1\n"
#guard vw [Block.fmt out ({ trimDefs := true }) (.defs [loc ⟨loc [loc (.text b!"term1")], loc [loc [loc (.text b!" \rdef1\t ")], loc [loc (.text b!" \rdef2\t ")]]⟩])] = some b!"term1:: def1\n:: def2\n"

-- definition_list_should_not_trim_definitions_if_setting_disabled
#guard vw [Block.fmt out ({ trimDefs := false }) (.defs [loc ⟨loc [loc (.text b!"term1")], loc [loc [loc (.text b!" \rdef1\t ")]]⟩])] = some b!"term1::  \rdef1\t \n"
#guard vw [Block.fmt out ({ trimDefs := false }) (.defs [loc ⟨loc [loc (.text b!"term1")], loc [loc [loc (.text b!" \rdef1\t ")], loc [loc (.text b!" \rdef2\t ")]]⟩])] = some b!"term1::  \rdef1\t \n::  \rdef2\t \n"

-- definition_list_should_support_indentation
#guard vw [Fm.andIndent (Block.fmt out {} (.defs [loc ⟨loc [loc (.text b!"term1")], loc []⟩]))] = some b!"    term1::\n"
#guard vw [Fm.andIndent (Block.fmt out {} (.defs [loc ⟨loc [loc (.text b!"term1")], loc [loc [loc (.text b!"def1")]]⟩]))] = some b!"    term1:: def1\n"
#guard vw [Fm.andIndent (Block.fmt out {} (.defs [loc ⟨loc [loc (.text b!"term1")], loc [loc [loc (.text b!"def1")], loc [loc (.text b!"def2")]]⟩]))] = some b!"    term1:: def1\n    :: def2\n"

-- divider_should_output_vimwiki_syntax
#guard vw [Block.fmt out {} .divider] = some b!"----\n"

-- divider_should_not_support_indentation
#guard vw [Fm.andIndent (Block.fmt out {} .divider)] = some b!"----\n"

-- header_should_trim_content_by_default
#guard vw [Block.fmt out {} (.header [loc (.text b!" \r\tsome header \r\t")] 1 false)] = some b!"= some header =\n"

-- header_should_pad_content_by_default
#guard vw [Block.fmt out {} (.header [loc (.text b!"some header")] 1 false)] = some b!"= some header =\n"

-- header_should_trim_content_if_setting_enabled
#guard vw [Block.fmt out ({ trimHeader := true }) (.header [loc (.text b!" \r\tsome header \r\t")] 1 false)] = some b!"= some header =\n"

-- header_should_not_trim_content_if_setting_disabled
#guard vw [Block.fmt out ({ trimHeader := false }) (.header [loc (.text b!" \r\tsome header \r\t")] 1 false)] = some b!"=  \r\tsome header \r\t =\n"

-- header_should_pad_content_if_setting_enabled
#guard vw [Block.fmt out ({ headerNoPadding := false }) (.header [loc (.text b!"some header")] 1 false)] = some b!"= some header =\n"

-- header_should_not_pad_content_if_setting_disabled
#guard vw [Block.fmt out ({ headerNoPadding := true }) (.header [loc (.text b!"some header")] 1 false)] = some b!"=some header=\n"

-- header_should_support_level_1_header
#guard vw [Block.fmt out {} (.header [loc (.text b!"some header")] 1 false)] = some b!"= some header =\n"

-- header_should_support_level_2_header
#guard vw [Block.fmt out {} (.header [loc (.text b!"some header")] 2 false)] = some b!"== some header ==\n"

-- header_should_support_level_3_header
#guard vw [Block.fmt out {} (.header [loc (.text b!"some header")] 3 false)] = some b!"=== some header ===\n"

-- header_should_support_level_4_header
#guard vw [Block.fmt out {} (.header [loc (.text b!"some header")] 4 false)] = some b!"==== some header ====\n"

-- header_should_support_level_5_header
#guard vw [Block.fmt out {} (.header [loc (.text b!"some header")] 5 false)] = some b!"===== some header =====\n"

-- header_should_support_level_6_header
#guard vw [Block.fmt out {} (.header [loc (.text b!"some header")] 6 false)] = some b!"====== some header ======\n"

-- header_should_support_being_centered
#guard vw [Block.fmt out {} (.header [loc (.text b!"some header")] 1 true)] = some b!"    = some header =\n"

-- header_should_not_support_indentation
#guard vw [Fm.andIndent (Block.fmt out {} (.header [loc (.text b!"some header")] 1 false))] = some b!"= some header =\n"

-- list_should_output_list_items
#guard vw [Block.fmt out {} (.list [loc ⟨.hyphen, .none, 0, [loc (.paragraph [[loc (.text b!"some list item")]])], none⟩, loc ⟨.hyphen, .none, 1, [loc (.paragraph [[loc (.text b!"another list item")]])], none⟩])] = some b!"- some list item\n- another list item\n"

-- list_should_output_list_items_extra_content_at_appropriate_indentation
#guard vw [Block.fmt out {} (.list [loc ⟨.hyphen, .none, 0, [loc (.paragraph [[loc (.text b!"nested")]]), loc (.list [loc ⟨.asterisk, .none, 0, [loc (.paragraph [[loc (.text b!"list")]]), loc (.list [loc ⟨.number, .period, 0, [loc (.paragraph [[loc (.text b!"of")]]), loc (.list [loc ⟨.lowerAlpha, .period, 0, [loc (.paragraph [[loc (.text b!"content")]]), loc (.paragraph [[loc (.text b!"second line of a")]])], none⟩]), loc (.paragraph [[loc (.text b!"second line of 1")]])], none⟩]), loc (.paragraph [[loc (.text b!"second line of bullet")]])], none⟩]), loc (.paragraph [[loc (.text b!"second line of hyphen")]])], none⟩, loc ⟨.asterisk, .none, 1, [loc (.paragraph [[loc (.text b!"different list item")]])], none⟩])] = some b!"- nested\n    * list\n        1. of\n            a. content\n                second line of a\n            second line of 1\n        second line of bullet\n    second line of hyphen\n* different list item\n"

-- list_item_should_include_prefix_at_beginning
#guard vw [Block.fmtItems out {} [loc ⟨.hyphen, .none, 0, [loc (.paragraph [[loc (.text b!"some list item")]])], none⟩]] = some b!"- some list item\n"
#guard vw [Block.fmtItems out {} [loc ⟨.asterisk, .none, 0, [loc (.paragraph [[loc (.text b!"some list item")]])], none⟩]] = some b!"* some list item\n"
#guard vw [Block.fmtItems out {} [loc ⟨(.other b!"xXx"), .none, 0, [loc (.paragraph [[loc (.text b!"some list item")]])], none⟩]] = some b!"xXx some list item\n"
#guard vw [Block.fmtItems out {} [loc ⟨.number, .period, 0, [loc (.paragraph [[loc (.text b!"some list item")]])], none⟩]] = some b!"1. some list item\n"
#guard vw [Block.fmtItems out {} [loc ⟨.number, .paren, 0, [loc (.paragraph [[loc (.text b!"some list item")]])], none⟩]] = some b!"1) some list item\n"
#guard vw [Block.fmtItems out {} [loc ⟨.pound, .none, 0, [loc (.paragraph [[loc (.text b!"some list item")]])], none⟩]] = some b!"# some list item\n"
#guard vw [Block.fmtItems out {} [loc ⟨.lowerAlpha, .period, 0, [loc (.paragraph [[loc (.text b!"some list item")]])], none⟩]] = some b!"a. some list item\n"
#guard vw [Block.fmtItems out {} [loc ⟨.lowerAlpha, .paren, 0, [loc (.paragraph [[loc (.text b!"some list item")]])], none⟩]] = some b!"a) some list item\n"
#guard vw [Block.fmtItems out {} [loc ⟨.upperAlpha, .period, 0, [loc (.paragraph [[loc (.text b!"some list item")]])], none⟩]] = some b!"A. some list item\n"
#guard vw [Block.fmtItems out {} [loc ⟨.upperAlpha, .paren, 0, [loc (.paragraph [[loc (.text b!"some list item")]])], none⟩]] = some b!"A) some list item\n"
#guard vw [Block.fmtItems out {} [loc ⟨.lowerRoman, .period, 0, [loc (.paragraph [[loc (.text b!"some list item")]])], none⟩]] = some b!"i. some list item\n"
#guard vw [Block.fmtItems out {} [loc ⟨.lowerRoman, .paren, 0, [loc (.paragraph [[loc (.text b!"some list item")]])], none⟩]] = some b!"i) some list item\n"
#guard vw [Block.fmtItems out {} [loc ⟨.upperRoman, .period, 0, [loc (.paragraph [[loc (.text b!"some list item")]])], none⟩]] = some b!"I. some list item\n"
#guard vw [Block.fmtItems out {} [loc ⟨.upperRoman, .paren, 0, [loc (.paragraph [[loc (.text b!"some list item")]])], none⟩]] = some b!"I) some list item\n"

-- list_item_should_include_todo_status
#guard vw [Block.fmtItems out {} [loc ⟨.hyphen, .none, 0, [loc (.paragraph [[loc (.text b!"some list item")]])], some .incomplete⟩]] = some b!"- [ ] some list item\n"
#guard vw [Block.fmtItems out {} [loc ⟨.hyphen, .none, 0, [loc (.paragraph [[loc (.text b!"some list item")]])], some .partial1⟩]] = some b!"- [.] some list item\n"
#guard vw [Block.fmtItems out {} [loc ⟨.hyphen, .none, 0, [loc (.paragraph [[loc (.text b!"some list item")]])], some .partial2⟩]] = some b!"- [o] some list item\n"
#guard vw [Block.fmtItems out {} [loc ⟨.hyphen, .none, 0, [loc (.paragraph [[loc (.text b!"some list item")]])], some .partial3⟩]] = some b!"- [O] some list item\n"
#guard vw [Block.fmtItems out {} [loc ⟨.hyphen, .none, 0, [loc (.paragraph [[loc (.text b!"some list item")]])], some .complete⟩]] = some b!"- [X] some list item\n"
#guard vw [Block.fmtItems out {} [loc ⟨.hyphen, .none, 0, [loc (.paragraph [[loc (.text b!"some list item")]])], some .rejected⟩]] = some b!"- [-] some list item\n"

-- list_item_should_support_indentation
#guard vw [Fm.andIndent (Block.fmtItems out {} [loc ⟨.hyphen, .none, 0, [loc (.paragraph [[loc (.text b!"some list item")]])], none⟩])] = some b!"    - some list item\n"

-- math_block_should_output_vimwiki
#guard vw [Block.fmt out {} (.math [b!"some lines", b!"of math"] none)] = some b!"{{$\nsome lines\nof math\n}}$\n"

-- math_block_should_support_environment
#guard vw [Block.fmt out {} (.math [b!"some lines", b!"of math"] (some b!"test environment"))] = some b!"{{$%test environment%\nsome lines\nof math\n}}$\n"

-- math_block_should_support_indentation
#guard vw [Fm.andIndent (Block.fmt out {} (.math [b!"some lines", b!"of math"] none))] = some b!"    {{$\n    some lines\n    of math\n    }}$\n"

-- placeholder_should_support_title
#guard vw [Block.fmt out {} (.placeholder (.title b!"test title"))] = some b!"%title test title\n"

-- placeholder_should_support_date
#guard vw [Block.fmt out {} (.placeholder (.date ⟨2021, 6, 17⟩))] = some b!"%date 2021-06-17\n"

-- placeholder_should_support_template
#guard vw [Block.fmt out {} (.placeholder (.template b!"test template"))] = some b!"%template test template\n"

-- placeholder_should_support_nohtml
#guard vw [Block.fmt out {} (.placeholder .noHtml)] = some b!"%nohtml\n"

-- placeholder_should_support_other
#guard vw [Block.fmt out {} (.placeholder (.other b!"name" b!"value"))] = some b!"%name value\n"

-- placeholder_should_not_support_indentation
#guard vw [Fm.andIndent (Block.fmt out {} (.placeholder (.title b!"test title")))] = some b!"%title test title\n"

-- code_block_should_output_vimwiki
#guard vw [Block.fmt out {} (.code none [] [b!"some lines", b!"of code"])] = some b!"{{{\nsome lines\nof code\n}}}\n"

-- code_block_should_support_language
#guard vw [Block.fmt out {} (.code (some b!"language") [] [b!"some lines", b!"of code"])] = some b!"{{{language\nsome lines\nof code\n}}}\n"

-- code_block_should_support_metadata
#guard vw [Block.fmt out {} (.code none [(b!"key1", b!"value1"), (b!"key2", b!"value2")] [b!"some lines", b!"of code"])] = some b!"{{{key1=\"value1\" key2=\"value2\"\nsome lines\nof code\n}}}\n"

-- code_block_should_support_language_and_metadata
#guard vw [Block.fmt out {} (.code (some b!"language") [(b!"key1", b!"value1"), (b!"key2", b!"value2")] [b!"some lines", b!"of code"])] = some b!"{{{language key1=\"value1\" key2=\"value2\"\nsome lines\nof code\n}}}\n"

-- code_block_should_support_indentation
#guard vw [Fm.andIndent (Block.fmt out {} (.code none [] [b!"some lines", b!"of code"]))] = some b!"    {{{\n    some lines\n    of code\n    }}}\n"

-- paragraph_should_not_wrap_lines_to_80_characters_split_by_words_if_setting_disabled
#guard vw [Block.fmt out {} (.paragraph [[loc (.text b!"some text that is over 80 characters in length should wrap based on word boundaries")], [loc (.text b!"with boundaries being on the next line")]])] = some b!"some text that is over 80 characters in length should wrap based on word boundaries\nwith boundaries being on the next line\n"

-- paragraph_should_trim_lines_by_default
#guard vw [Block.fmt out {} (.paragraph [[loc (.text b!" \r\tsome text \r\t")], [loc (.text b!" \r\tand more text \r\t")]])] = some b!"some text\nand more text\n"

-- paragraph_should_trim_lines_if_setting_enabled
#guard vw [Block.fmt out ({ trimParagraph := true }) (.paragraph [[loc (.text b!" \r\tsome text \r\t")], [loc (.text b!" \r\tand more text \r\t")]])] = some b!"some text\nand more text\n"

-- paragraph_should_not_trim_lines_if_setting_disabled
#guard vw [Block.fmt out ({ trimParagraph := false }) (.paragraph [[loc (.text b!" \r\tsome text \r\t")], [loc (.text b!" \r\tand more text \r\t")]])] = some b!" \r\tsome text \r\t\n \r\tand more text \r\t\n"

-- paragraph_should_support_indentation
#guard vw [Fm.andIndent (Block.fmt out {} (.paragraph [[loc (.text b!"some text")], [loc (.text b!"and more text")]]))] = some b!"    some text\n    and more text\n"

-- table_should_pad_cells_by_default
#guard vw [Block.fmt out {} (.table (Table.new [(⟨0, 0⟩, loc (.content [loc (.text b!"some header")])), (⟨1, 0⟩, loc (.align .none)), (⟨2, 0⟩, loc (.content [loc (.text b!"some text")]))] false))] = some b!"| some header |\n|-------------|\n| some text   |\n"

-- table_should_pad_cells_if_setting_enabled
#guard vw [Block.fmt out ({ tableNoPadding := false }) (.table (Table.new [(⟨0, 0⟩, loc (.content [loc (.text b!"some header")])), (⟨1, 0⟩, loc (.align .none)), (⟨2, 0⟩, loc (.content [loc (.text b!"some text")]))] false))] = some b!"| some header |\n|-------------|\n| some text   |\n"

-- table_should_not_pad_cells_if_setting_disabled
#guard vw [Block.fmt out ({ tableNoPadding := true }) (.table (Table.new [(⟨0, 0⟩, loc (.content [loc (.text b!"some header")])), (⟨1, 0⟩, loc (.align .none)), (⟨2, 0⟩, loc (.content [loc (.text b!"some text")]))] false))] = some b!"|some header|\n|-----------|\n|some text  |\n"

-- table_should_adjust_cell_size_to_fit_largest_cell_in_column_for_no_padding_if_disabled
#guard vw [Block.fmt out ({ tableNoPadding := true }) (.table (Table.new [(⟨0, 0⟩, loc (.content [loc (.text b!"some header 1")])), (⟨0, 1⟩, loc (.span .fromLeft)), (⟨0, 2⟩, loc (.content [loc (.text b!"some header 2")])), (⟨0, 3⟩, loc (.span .fromLeft)), (⟨1, 0⟩, loc (.align .none)), (⟨1, 1⟩, loc (.align .left)), (⟨1, 2⟩, loc (.align .right)), (⟨1, 3⟩, loc (.align .center)), (⟨2, 0⟩, loc (.content [loc (.text b!"some text 1")])), (⟨2, 1⟩, loc (.span .fromAbove)), (⟨2, 2⟩, loc (.span .fromAbove)), (⟨2, 3⟩, loc (.content [loc (.text [])]))] false))] = some b!"|some header 1|> |some header 2|>  |\n|-------------|:-|------------:|:-:|\n|some text 1  |\\/|\\/           |   |\n"

-- table_should_adjust_cell_size_to_fit_largest_cell_in_column_accounting_for_padding_if_enabled
#guard vw [Block.fmt out ({ tableNoPadding := false }) (.table (Table.new [(⟨0, 0⟩, loc (.content [loc (.text b!"some header 1")])), (⟨0, 1⟩, loc (.span .fromLeft)), (⟨0, 2⟩, loc (.content [loc (.text b!"some header 2")])), (⟨0, 3⟩, loc (.span .fromLeft)), (⟨1, 0⟩, loc (.align .none)), (⟨1, 1⟩, loc (.align .left)), (⟨1, 2⟩, loc (.align .right)), (⟨1, 3⟩, loc (.align .center)), (⟨2, 0⟩, loc (.content [loc (.text b!"some text 1")])), (⟨2, 1⟩, loc (.span .fromAbove)), (⟨2, 2⟩, loc (.span .fromAbove)), (⟨2, 3⟩, loc (.content [loc (.text [])]))] false))] = some b!"| some header 1 | >  | some header 2 | > |\n|---------------|:---|--------------:|:-:|\n| some text 1   | \\/ | \\/            |   |\n"

-- table_should_leverage_a_base_divider_size_in_case_all_other_cells_empty
#guard vw [Block.fmt out ({ tableNoPadding := true }) (.table (Table.new [(⟨0, 0⟩, loc (.content [loc (.text [])])), (⟨0, 1⟩, loc (.content [loc (.text [])])), (⟨0, 2⟩, loc (.content [loc (.text [])])), (⟨0, 3⟩, loc (.content [loc (.text [])])), (⟨1, 0⟩, loc (.align .none)), (⟨1, 1⟩, loc (.align .left)), (⟨1, 2⟩, loc (.align .right)), (⟨1, 3⟩, loc (.align .center)), (⟨2, 0⟩, loc (.content [loc (.text [])])), (⟨2, 1⟩, loc (.content [loc (.text [])])), (⟨2, 2⟩, loc (.content [loc (.text [])])), (⟨2, 3⟩, loc (.content [loc (.text [])]))] false))] = some b!"| |  |  |   |\n|-|:-|-:|:-:|\n| |  |  |   |\n"

-- table_should_support_being_centered
#guard vw [Block.fmt out ({ tableNoPadding := true }) (.table (Table.new [(⟨0, 0⟩, loc (.content [loc (.text b!"some header")])), (⟨1, 0⟩, loc (.align .none)), (⟨2, 0⟩, loc (.content [loc (.text b!"some text")]))] true))] = some b!"    |some header|\n    |-----------|\n    |some text  |\n"

-- table_should_support_indentation
#guard vw [Fm.andIndent (Block.fmt out ({ tableNoPadding := true }) (.table (Table.new [(⟨0, 0⟩, loc (.content [loc (.text b!"some header")])), (⟨1, 0⟩, loc (.align .none)), (⟨2, 0⟩, loc (.content [loc (.text b!"some text")]))] false)))] = some b!"    |some header|\n    |-----------|\n    |some text  |\n"

-- table_should_only_pad_cells_where_needed
#guard vw [Block.fmt out ({ tableNoPadding := false }) (.table (Table.new [(⟨0, 0⟩, loc (.content [loc (.text b!"a")])), (⟨0, 1⟩, loc (.content [loc (.text b!" a")])), (⟨0, 2⟩, loc (.content [loc (.text b!"a ")])), (⟨0, 3⟩, loc (.content [loc (.text b!" a ")])), (⟨1, 0⟩, loc (.content [loc (.text b!"b")])), (⟨1, 1⟩, loc (.content [loc (.text b!"b")])), (⟨1, 2⟩, loc (.content [loc (.text b!"b")])), (⟨1, 3⟩, loc (.content [loc (.text b!"b")]))] false))] = some b!"| a | a | a | a |\n| b | b | b | b |\n"

-- text_should_output_the_same
#guard vw [fun f => some (Inline.fmt out {} (.text b!"some text") f)] = some b!"some text"

-- decorated_text_should_output_bold_text_with_asterisks
#guard vw [fun f => some (Inline.fmt out {} (.decorated .bold [loc (.text b!"some text")]) f)] = some b!"*some text*"

-- decorated_text_should_output_italic_text_with_underscores
#guard vw [fun f => some (Inline.fmt out {} (.decorated .italic [loc (.text b!"some text")]) f)] = some b!"_some text_"

-- decorated_text_should_output_strikeout_text_with_double_tilde
#guard vw [fun f => some (Inline.fmt out {} (.decorated .strikeout [loc (.text b!"some text")]) f)] = some b!"~~some text~~"

-- decorated_text_should_output_superscript_text_with_carrot
#guard vw [fun f => some (Inline.fmt out {} (.decorated .superscript [loc (.text b!"some text")]) f)] = some b!"^some text^"

-- decorated_text_should_output_subscript_text_with_double_comma
#guard vw [fun f => some (Inline.fmt out {} (.decorated .subscript [loc (.text b!"some text")]) f)] = some b!",,some text,,"

-- wiki_link_should_output_vimwiki
#guard vw [fun f => some (Inline.fmt out {} (.link (.wiki ⟨(ref b!"some/page"), none, none⟩)) f)] = some b!"[[some/page]]"

-- wiki_link_should_output_vimwiki_with_uri_percent_decoded
#guard vw [fun f => some (Inline.fmt out {} (.link (.wiki ⟨(ref b!"some/page%20with%20spaces"), none, none⟩)) f)] = some b!"[[some/page with spaces]]"

-- wiki_link_should_support_text_descriptions
#guard vw [fun f => some (Inline.fmt out {} (.link (.wiki ⟨(ref b!"some/page"), (some (.text b!"text description")), none⟩)) f)] = some b!"[[some/page|text description]]"

-- wiki_link_should_support_transclusion_descriptions
#guard vw [fun f => some (Inline.fmt out {} (.link (.wiki ⟨(ref b!"some/page"), (some (.transclusion (ref b!"https://example.com/img.png") none none)), none⟩)) f)] = some b!"[[some/page|{{https://example.com/img.png}}]]"

-- indexed_interwiki_link_should_output_vimwiki
#guard vw [fun f => some (Inline.fmt out {} (.link (.indexed 123 ⟨(ref b!"some/page"), none, none⟩)) f)] = some b!"[[wiki123:some/page]]"

-- indexed_interwiki_link_should_output_vimwiki_with_uri_percent_decoded
#guard vw [fun f => some (Inline.fmt out {} (.link (.indexed 123 ⟨(ref b!"some/page%20with%20spaces"), none, none⟩)) f)] = some b!"[[wiki123:some/page with spaces]]"

-- indexed_interwiki_link_should_support_text_descriptions
#guard vw [fun f => some (Inline.fmt out {} (.link (.indexed 123 ⟨(ref b!"some/page"), (some (.text b!"text description")), none⟩)) f)] = some b!"[[wiki123:some/page|text description]]"

-- indexed_interwiki_link_should_support_transclusion_descriptions
#guard vw [fun f => some (Inline.fmt out {} (.link (.indexed 123 ⟨(ref b!"some/page"), (some (.transclusion (ref b!"https://example.com/img.png") none none)), none⟩)) f)] = some b!"[[wiki123:some/page|{{https://example.com/img.png}}]]"

-- named_interwiki_link_should_output_vimwiki
#guard vw [fun f => some (Inline.fmt out {} (.link (.named b!"my wiki" ⟨(ref b!"some/page"), none, none⟩)) f)] = some b!"[[wn.my wiki:some/page]]"

-- named_interwiki_link_should_output_vimwiki_with_uri_percent_decoded
#guard vw [fun f => some (Inline.fmt out {} (.link (.named b!"my wiki" ⟨(ref b!"some/page%20with%20spaces"), none, none⟩)) f)] = some b!"[[wn.my wiki:some/page with spaces]]"

-- named_interwiki_link_should_support_text_descriptions
#guard vw [fun f => some (Inline.fmt out {} (.link (.named b!"my wiki" ⟨(ref b!"some/page"), (some (.text b!"text description")), none⟩)) f)] = some b!"[[wn.my wiki:some/page|text description]]"

-- named_interwiki_link_should_support_transclusion_descriptions
#guard vw [fun f => some (Inline.fmt out {} (.link (.named b!"my wiki" ⟨(ref b!"some/page"), (some (.transclusion (ref b!"https://example.com/img.png") none none)), none⟩)) f)] = some b!"[[wn.my wiki:some/page|{{https://example.com/img.png}}]]"

-- diary_link_should_output_vimwiki
#guard vw [fun f => some (Inline.fmt out {} (.link (.diary ⟨2021, 6, 17⟩ ⟨(ref []), none, none⟩)) f)] = some b!"[[diary:2021-06-17]]"

-- diary_link_should_support_text_descriptions
#guard vw [fun f => some (Inline.fmt out {} (.link (.diary ⟨2021, 6, 17⟩ ⟨(ref []), (some (.text b!"text description")), none⟩)) f)] = some b!"[[diary:2021-06-17|text description]]"

-- diary_link_should_support_transclusion_descriptions
#guard vw [fun f => some (Inline.fmt out {} (.link (.diary ⟨2021, 6, 17⟩ ⟨(ref []), (some (.transclusion (ref b!"https://example.com/img.png") none none)), none⟩)) f)] = some b!"[[diary:2021-06-17|{{https://example.com/img.png}}]]"

-- diary_link_should_support_anchors
#guard vw [fun f => some (Inline.fmt out {} (.link (.diary ⟨2021, 6, 17⟩ ⟨(ref b!"#one%23two%23three"), none, none⟩)) f)] = some b!"[[diary:2021-06-17#one#two#three]]"

-- diary_link_should_support_anchors_and_descriptions_together
#guard vw [fun f => some (Inline.fmt out {} (.link (.diary ⟨2021, 6, 17⟩ ⟨(ref b!"#one%23two%23three"), (some (.text b!"text description")), none⟩)) f)] = some b!"[[diary:2021-06-17#one#two#three|text description]]"

-- raw_link_should_output_vimwiki
#guard vw [fun f => some (Inline.fmt out {} (.link (.raw ⟨(ref b!"https://example.com/"), none, none⟩)) f)] = some b!"https://example.com/"

-- transclusion_link_should_output_vimwiki
#guard vw [fun f => some (Inline.fmt out {} (.link (.transclusion ⟨(ref b!"some/img.png"), none, none⟩)) f)] = some b!"{{some/img.png}}"

-- transclusion_link_should_output_with_uri_percent_decoded
#guard vw [fun f => some (Inline.fmt out {} (.link (.transclusion ⟨(ref b!"some/img%20with%20spaces.png"), none, none⟩)) f)] = some b!"{{some/img with spaces.png}}"

-- transclusion_link_should_support_text_descriptions
#guard vw [fun f => some (Inline.fmt out {} (.link (.transclusion ⟨(ref b!"some/img.png"), (some (.text b!"text description")), none⟩)) f)] = some b!"{{some/img.png|text description}}"

-- transclusion_link_should_support_transclusion_descriptions
#guard vw [fun f => some (Inline.fmt out {} (.link (.transclusion ⟨(ref b!"some/img.png"), (some (.transclusion (ref b!"https://example.com/img.png") none none)), none⟩)) f)] = some b!"{{some/img.png|{{https://example.com/img.png}}}}"

-- transclusion_link_should_support_properties
#guard vw [fun f => some (Inline.fmt out {} (.link (.transclusion ⟨(ref b!"some/img.png"), none, (some [(b!"key", b!"value")])⟩)) f)] = some b!"{{some/img.png||key=\"value\"}}"

-- transclusion_link_should_support_description_properties
#guard vw [fun f => some (Inline.fmt out {} (.link (.transclusion ⟨(ref b!"some/img.png"), (some (.text b!"text description")), (some [(b!"key", b!"value")])⟩)) f)] = some b!"{{some/img.png|text description|key=\"value\"}}"

-- tags_should_output_vimwiki
#guard vw [fun f => some (Inline.fmt out {} (.tags [b!"one", b!"two"]) f)] = some b!":one:two:"

-- tags_should_output_single_tag
#guard vw [fun f => some (Inline.fmt out {} (.tags [b!"one"]) f)] = some b!":one:"

-- code_inline_should_output_vimwiki
#guard vw [fun f => some (Inline.fmt out {} (.code b!"some code") f)] = some b!"`some code`"

-- math_inline_should_output_vimwiki
#guard vw [fun f => some (Inline.fmt out {} (.math b!"some math") f)] = some b!"$some math$"

-- line_comment_should_pad_content_by_default
#guard vw [fun f => some (Inline.fmt out {} (.comment (.line b!"some comment")) f)] = some b!"%% some comment"

-- line_comment_should_pad_content_if_setting_enabled
#guard vw [fun f => some (Inline.fmt out ({ commentNoPadding := false }) (.comment (.line b!"some comment")) f)] = some b!"%% some comment"

-- line_comment_should_not_pad_content_if_setting_disabled
#guard vw [fun f => some (Inline.fmt out ({ commentNoPadding := true }) (.comment (.line b!"some comment")) f)] = some b!"%%some comment"

-- line_comment_should_trim_content_by_default
#guard vw [fun f => some (Inline.fmt out {} (.comment (.line b!" \r\tsome comment \r\t")) f)] = some b!"%% some comment"

-- line_comment_should_trim_content_if_setting_enabled
#guard vw [fun f => some (Inline.fmt out ({ trimComment := true }) (.comment (.line b!" \r\tsome comment \r\t")) f)] = some b!"%% some comment"

-- line_comment_should_not_trim_content_if_setting_disabled
#guard vw [fun f => some (Inline.fmt out ({ trimComment := false }) (.comment (.line b!" \r\tsome comment \r\t")) f)] = some b!"%%  \r\tsome comment \r\t"

-- multi_line_comment_should_support_multiple_lines
#guard vw [fun f => some (Inline.fmt out {} (.comment (.multi [b!"line one", b!"line two"])) f)] = some b!"%%+ line one\nline two +%%"

-- multi_line_comment_should_pad_content_by_default
#guard vw [fun f => some (Inline.fmt out {} (.comment (.multi [b!"some single line comment"])) f)] = some b!"%%+ some single line comment +%%"

-- multi_line_comment_should_pad_content_if_setting_enabled
#guard vw [fun f => some (Inline.fmt out ({ commentNoPadding := false }) (.comment (.multi [b!"some single line comment"])) f)] = some b!"%%+ some single line comment +%%"

-- multi_line_comment_should_not_pad_content_if_setting_disabled
#guard vw [fun f => some (Inline.fmt out ({ commentNoPadding := true }) (.comment (.multi [b!"some single line comment"])) f)] = some b!"%%+some single line comment+%%"

-- multi_line_comment_should_trim_content_by_default
#guard vw [fun f => some (Inline.fmt out {} (.comment (.multi [b!" \r\tline one \r\t", b!" \r\tline two \r\t"])) f)] = some b!"%%+ line one\nline two +%%"

-- multi_line_comment_should_trim_content_if_setting_enabled
#guard vw [fun f => some (Inline.fmt out ({ trimComment := true }) (.comment (.multi [b!" \r\tline one \r\t", b!" \r\tline two \r\t"])) f)] = some b!"%%+ line one\nline two +%%"

-- multi_line_comment_should_not_trim_content_if_setting_disabled
#guard vw [fun f => some (Inline.fmt out ({ trimComment := false }) (.comment (.multi [b!" \r\tline one \r\t", b!" \r\tline two \r\t"])) f)] = some b!"%%+  \r\tline one \r\t\n \r\tline two \r\t +%%"

end Vw.Tests
