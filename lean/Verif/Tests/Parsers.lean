import Verif.Tests.Show

/-!
# The project's tests of the parsers

The inputs of the unit tests in `/repo/vimwiki-core/src/lang/parsers/vimwiki` with what the tests
assert about each result, in the notation of `Verif.Tests.Show`; text after ` >>` is left unread.
-/

namespace Vw.Tests


/-! ## blocks/blockquotes.rs -/

-- blockquote_should_fail_if_not_starting_with_correct_prefix
#guard blk blockquote b!"< Wrong prefix\n< on these lines\n" =
  b!"error"

-- blockquote_should_fail_if_not_enough_spaces_at_beginning
#guard blk blockquote b!"   Only using\n   three spaces\nregular line starts here and is needed for indoc to have a baseline\n" =
  b!"error"

-- blockquote_should_fail_if_using_indented_format_and_line_is_empty
#guard blk blockquote b!"        " =
  b!"error"

-- blockquote_should_stop_if_using_indented_format_and_reach_blank_line
#guard blk blockquote b!"    This is a blockquote\n    that is using four spaces\n\n    This is another blockquote\n    that is using four spaces\nregular line starts here and is needed for indoc to have a baseline\n" =
  b!"quote(This is a blockquote|that is using four spaces) >>\n    This is another blockquote\n    that is using four spaces\nregular line starts here and is needed for indoc to have a baseline\n"

-- blockquote_should_stop_if_using_indented_format_and_reach_unindented_line
#guard blk blockquote b!"    This is a blockquote\n    that is using four spaces\nregular line starts here and is needed for indoc to have a baseline\n    This is another blockquote\n    that is using four spaces\n" =
  b!"quote(This is a blockquote|that is using four spaces) >>regular line starts here and is needed for indoc to have a baseline\n    This is another blockquote\n    that is using four spaces\n"

-- blockquote_should_consume_blank_lines_if_using_angle_prefix
#guard blk blockquote b!"> This is a blockquote\n> that is using prefixes\n\n> This is another blockquote\n> that is using prefixes\n\nthis is a regular line\n> This is a third blockquote\n> that is using prefixes\n" =
  b!"quote(This is a blockquote|that is using prefixes||This is another blockquote|that is using prefixes) >>\nthis is a regular line\n> This is a third blockquote\n> that is using prefixes\n"

/-! ## blocks/code.rs -/

-- code_block_should_fail_if_does_not_have_starting_line
#guard blk codeBlock b!"some code\n}}}\n" =
  b!"error"

-- code_block_should_fail_if_starting_block_not_on_own_line
#guard blk codeBlock b!"{{{some code\n}}}\n" =
  b!"error"

-- code_block_should_fail_if_does_not_have_ending_line
#guard blk codeBlock b!"{{{\nsome code\n" =
  b!"error"

-- code_block_should_fail_if_ending_block_not_on_own_line
#guard blk codeBlock b!"{{{\nsome code}}}\n" =
  b!"error"

-- code_block_should_support_having_no_lines
#guard blk codeBlock b!"{{{\n}}}\n" =
  b!"code(- {} )"

-- code_block_should_support_lang_shorthand
#guard blk codeBlock b!"{{{c++\nsome code\n}}}\n" =
  b!"code(c++ {} some code)"

-- code_block_should_support_lang_shorthand_with_metadata
#guard blk codeBlock b!"{{{c++ key=\"value\"\nsome code\n}}}\n" =
  b!"code(c++ {key='value'} some code)"

-- code_block_should_parse_all_lines_between
#guard blk codeBlock b!"{{{\nTyger! Tyger! burning bright\n In the forests of the night,\n  What immortal hand or eye\n   Could frame thy fearful symmetry?\nIn what distant deeps or skies\n Burnt the fire of thine eyes?\n  On what wings dare he aspire?\n   What the hand dare sieze the fire?\n}}}\n" =
  b!"code(- {} Tyger! Tyger! burning bright| In the forests of the night,|  What immortal hand or eye|   Could frame thy fearful symmetry?|In what distant deeps or skies| Burnt the fire of thine eyes?|  On what wings dare he aspire?|   What the hand dare sieze the fire?)"

-- code_block_should_support_single_metadata
#guard blk codeBlock b!"{{{class=\"brush: python\"\ndef hello(world):\n    for x in range(10):\n        print(\"Hello {0} number {1}\".format(world, x))\n}}}\n" =
  b!"code(- {class='brush: python'} def hello(world):|    for x in range(10):|        print(\"Hello {0} number {1}\".format(world, x)))"

-- code_block_should_support_multiple_metadata
#guard blk codeBlock b!"{{{class=\"brush: python\" style=\"position: relative\"\ndef hello(world):\n    for x in range(10):\n        print(\"Hello {0} number {1}\".format(world, x))\n}}}\n" =
  b!"code(- {class='brush: python',style='position: relative'} def hello(world):|    for x in range(10):|        print(\"Hello {0} number {1}\".format(world, x)))"

-- code_block_should_support_indentation
#guard blk codeBlock b!"  {{{\n  one line\n  two line\n  }}}" =
  b!"code(- {} one line|two line)"
#guard blk codeBlock b!"    {{{\none line\ntwo line\n}}}\n" =
  b!"code(- {} one line|two line)"
#guard blk codeBlock b!"{{{\none line\ntwo line\n    }}}\n" =
  b!"code(- {} one line|two line)"
#guard blk codeBlock b!"    {{{\none line\ntwo line\n    }}}\n" =
  b!"code(- {} one line|two line)"
#guard blk codeBlock b!"    {{{\none line\n        two line\n  three line\n    four line\n     five line\n    }}}\n" =
  b!"code(- {} one line|    two line|three line|four line| five line)"

/-! ## blocks/definitions.rs -/

-- definition_list_should_fail_if_input_empty
#guard blk (definitionList env) b!"" =
  b!"error"

-- definition_list_should_fail_if_not_starting_with_a_term
#guard blk (definitionList env) b!"no term here" =
  b!"error"

-- definition_list_should_fail_if_starting_with_a_definition
#guard blk (definitionList env) b!":: some definition" =
  b!"error"

-- definition_list_should_fail_if_no_space_between_term_and_def_sep
#guard blk (definitionList env) b!"term::some definition" =
  b!"error"

-- definition_list_should_fail_if_one_term_and_no_defs
#guard blk (definitionList env) b!"term::" =
  b!"error"

-- definition_list_should_fail_if_multiple_terms_and_no_defs
#guard blk (definitionList env) b!"term 1::\nterm 2::\n" =
  b!"error"

-- definition_list_should_fail_if_term_is_commented_out
#guard blk (definitionList env) b!"%%term1:: def1" =
  b!"error"
#guard blk (definitionList env) b!"%%+term1:: def1+%%" =
  b!"error"

-- definition_list_should_properly_adjust_depth_for_children
#guard blk (definitionList env) b!"term1:: def1" =
  b!"defs('term1' :: 'def1')"

-- definition_list_should_succeed_if_one_term_and_inline_def
#guard blk (definitionList env) b!"term 1:: def 1" =
  b!"defs('term 1' :: 'def 1')"

-- definition_list_should_succeed_if_one_term_and_def_on_next_line
#guard blk (definitionList env) b!"term 1::\n:: def 1\n" =
  b!"defs('term 1' :: 'def 1')"

-- definition_list_should_succeed_if_one_term_and_multiple_line_defs
#guard blk (definitionList env) b!"term 1::\n:: def 1\n:: def 2\n" =
  b!"defs('term 1' :: 'def 1' , 'def 2')"

-- definition_list_should_succeed_if_one_term_and_inline_def_and_line_def
#guard blk (definitionList env) b!"term 1:: def 1\n:: def 2\n" =
  b!"defs('term 1' :: 'def 1' , 'def 2')"

-- definition_list_should_succeed_if_multiple_terms_and_inline_defs
#guard blk (definitionList env) b!"term 1:: def 1\nterm 2:: def 2\n" =
  b!"defs('term 1' :: 'def 1'; 'term 2' :: 'def 2')"

-- definition_list_should_succeed_if_multiple_terms_and_line_defs
#guard blk (definitionList env) b!"term 1::\n:: def 1\nterm 2::\n:: def 2\n" =
  b!"defs('term 1' :: 'def 1'; 'term 2' :: 'def 2')"

-- definition_list_should_succeed_if_multiple_terms_and_mixed_defs
#guard blk (definitionList env) b!"term 1:: def 1\n:: def 2\nterm 2:: def 3\n:: def 4\n" =
  b!"defs('term 1' :: 'def 1' , 'def 2'; 'term 2' :: 'def 3' , 'def 4')"

-- definition_list_should_support_inline_elements_in_terms_and_definitions
#guard blk (definitionList env) b!"*term* 1:: [[def 1]]\n:: def $2+2$\n" =
  b!"defs(bold['term'] ' 1' :: wiki(def%201 - -) , 'def ' math(2+2))"

/-! ## blocks/dividers.rs -/

-- divider_should_fail_if_not_at_beginning_of_line
#guard blk divider b!" ----" =
  b!"error"

-- divider_should_fail_if_not_at_least_four_hyphens
#guard blk divider b!"---" =
  b!"error"

-- divider_should_fail_if_not_only_hyphens_within_line
#guard blk divider b!"----a" =
  b!"error"

-- divider_should_succeed_if_four_hyphens_at_start_of_line
#guard blk divider b!"----" =
  b!"divider"

-- divider_should_succeed_if_more_than_four_hyphens_at_start_of_line
#guard blk divider b!"-----" =
  b!"divider"

-- divider_should_consume_end_of_line
#guard blk divider b!"----\nabcd" =
  b!"divider >>abcd"

/-! ## blocks/headers.rs -/

-- header_should_parse_level_1_header
#guard blk (header env) b!"=test header=" =
  b!"h1('test header')"
#guard blk (header env) b!" =test header= " =
  b!"h1c('test header')"

-- header_should_parse_level_2_header
#guard blk (header env) b!"==test header==" =
  b!"h2('test header')"
#guard blk (header env) b!" ==test header== " =
  b!"h2c('test header')"

-- header_should_parse_level_3_header
#guard blk (header env) b!"===test header===" =
  b!"h3('test header')"
#guard blk (header env) b!" ===test header=== " =
  b!"h3c('test header')"

-- header_should_parse_level_4_header
#guard blk (header env) b!"====test header====" =
  b!"h4('test header')"
#guard blk (header env) b!" ====test header==== " =
  b!"h4c('test header')"

-- header_should_parse_level_5_header
#guard blk (header env) b!"=====test header=====" =
  b!"h5('test header')"
#guard blk (header env) b!" =====test header===== " =
  b!"h5c('test header')"

-- header_should_parse_level_6_header
#guard blk (header env) b!"======test header======" =
  b!"h6('test header')"
#guard blk (header env) b!" ======test header====== " =
  b!"h6c('test header')"

-- header_should_fail_if_level_greater_than_6
#guard blk (header env) b!"=======test header=======" =
  b!"error"
#guard blk (header env) b!" =======test header======= " =
  b!"error"

-- header_should_trim_whitespace_around_text
#guard blk (header env) b!"= test header\t=" =
  b!"h1('test header')"

-- header_should_support_equals_signs_within_content
#guard blk (header env) b!"=test =header=" =
  b!"h1('test =header')"

-- header_should_support_decorations_within_content
#guard blk (header env) b!"=*bold* header TODO [[link]] :tag1:tag2: $math$=" =
  b!"h1(bold['bold'] ' header ' TODO ' ' wiki(link - -) ' ' tags(tag1,tag2) ' ' math(math))"

/-! ## blocks/inline/code.rs -/

-- code_inline_should_fail_if_input_empty
#guard inl codeInline b!"" =
  b!"error"

-- code_inline_should_fail_if_does_not_start_with_backtick
#guard inl codeInline b!"some code`" =
  b!"error"

-- code_inline_should_fail_if_does_not_end_with_backtick
#guard inl codeInline b!"`some code" =
  b!"error"

-- code_inline_should_fail_if_end_is_on_next_line
#guard inl codeInline b!"`some code\n`\n" =
  b!"error"

-- code_inline_should_consume_all_text_between_backticks_as_code
#guard inl codeInline b!"`some code`" =
  b!"code(some code)"

/-! ## blocks/inline/comments.rs -/

-- comment_should_fail_if_no_input
#guard inl comment b!"" =
  b!"error"

-- comment_should_fail_if_only_one_percent_sign
#guard inl comment b!"% comment" =
  b!"error"
#guard inl comment b!"%+ comment +%" =
  b!"error"

-- comment_should_parse_line_comment
#guard inl comment b!"%% comment" =
  b!"line( comment)"
#guard inl comment b!"%% comment\nnext line" =
  b!"line( comment) >>\nnext line"
#guard inl comment b!"%% comment\r\nnext line" =
  b!"line( comment) >>\r\nnext line"

-- comment_should_parse_multi_line_comment
#guard inl comment b!"%%+ comment +%%" =
  b!"multi( comment )"
#guard inl comment b!"%%+ comment\nnext line +%%" =
  b!"multi( comment|next line )"
#guard inl comment b!"%%+ comment\r\nnext line +%%" =
  b!"multi( comment|next line )"
#guard inl comment b!"%%+ comment\nnext line +%%after" =
  b!"multi( comment|next line ) >>after"
#guard inl comment b!"%%+ comment\r\nnext line +%%after" =
  b!"multi( comment|next line ) >>after"
#guard inl comment b!"%%+ comment\n+%%" =
  b!"multi( comment)"
#guard inl comment b!"%%+ comment\r\n+%%" =
  b!"multi( comment)"

/-! ## blocks/inline/links/diary.rs -/

-- diary_link_should_fail_if_not_using_diary_scheme
#guard inl (diaryLink env) b!"[[notdiary:2012-03-05]]" =
  b!"error"

-- diary_link_should_fail_if_not_using_correct_date_format
#guard inl (diaryLink env) b!"[[diary:2012/03/05]]" =
  b!"error"

-- diary_link_should_support_diary_scheme
#guard inl (diaryLink env) b!"[[diary:2012-03-05]]" =
  b!"diary(2012-03-05  - -)"

-- diary_link_should_support_a_description
#guard inl (diaryLink env) b!"[[diary:2012-03-05|some description]]" =
  b!"diary(2012-03-05  'some description' -)"

-- diary_link_should_support_an_anchor
#guard inl (diaryLink env) b!"[[diary:2012-03-05#Tomorrow]]" =
  b!"diary(2012-03-05 #Tomorrow - -)"

-- diary_link_should_support_an_anchor_and_description
#guard inl (diaryLink env) b!"[[diary:2012-03-05#Tomorrow|Tasks for tomorrow]]" =
  b!"diary(2012-03-05 #Tomorrow 'Tasks for tomorrow' -)"

/-! ## blocks/inline/links/interwiki.rs -/

-- indexed_interwiki_link_should_support_numbered_prefix
#guard inl (indexedInterwikiLink env) b!"[[wiki1:This is a link]]" =
  b!"indexed(1 This%20is%20a%20link - -)"

-- indexed_interwiki_link_should_support_description
#guard inl (indexedInterwikiLink env) b!"[[wiki1:This is a link source|Description of the link]]" =
  b!"indexed(1 This%20is%20a%20link%20source 'Description of the link' -)"

-- indexed_interwiki_link_should_support_anchors
#guard inl (indexedInterwikiLink env) b!"[[wiki1:This is a link source#anchor]]" =
  b!"indexed(1 This%20is%20a%20link%20source#anchor - -)"

-- indexed_interwiki_link_should_support_description_and_anchors
#guard inl (indexedInterwikiLink env) b!"[[wiki1:This is a link source#anchor|Description of the link]]" =
  b!"indexed(1 This%20is%20a%20link%20source#anchor 'Description of the link' -)"

-- named_interwiki_link_should_support_named_wikis
#guard inl (namedInterwikiLink env) b!"[[wn.My Name:This is a link]]" =
  b!"named(My Name This%20is%20a%20link - -)"

-- named_interwiki_link_should_support_description
#guard inl (namedInterwikiLink env) b!"[[wn.My Name:This is a link|Description of the link]]" =
  b!"named(My Name This%20is%20a%20link 'Description of the link' -)"

-- named_interwiki_link_should_support_anchors
#guard inl (namedInterwikiLink env) b!"[[wn.My Name:This is a link#anchor]]" =
  b!"named(My Name This%20is%20a%20link#anchor - -)"

-- named_interwiki_link_should_support_description_and_anchors
#guard inl (namedInterwikiLink env) b!"[[wn.My Name:This is a link#anchor|Description of the link]]" =
  b!"named(My Name This%20is%20a%20link#anchor 'Description of the link' -)"

/-! ## blocks/inline/links/mod.rs -/

-- link_should_return_diary_link_where_appropriate
#guard inl (link env) b!"[[diary:2012-03-05]]" =
  b!"diary(2012-03-05  - -)"

-- link_should_return_indexed_interwiki_link_where_appropriate
#guard inl (link env) b!"[[wiki1:Some Link]]" =
  b!"indexed(1 Some%20Link - -)"

-- link_should_return_named_interwiki_link_where_appropriate
#guard inl (link env) b!"[[wn.My Name:Some Link]]" =
  b!"named(My Name Some%20Link - -)"

-- link_should_return_wiki_link_where_appropriate
#guard inl (link env) b!"[[Some Link]]" =
  b!"wiki(Some%20Link - -)"

-- link_should_return_raw_link_where_appropriate
#guard inl (link env) b!"https://example.com" =
  b!"raw(https://example.com/ - -)"

-- link_should_return_transclusion_link_where_appropriate
#guard inl (link env) b!"{{https://example.com/img.jpg}}" =
  b!"transclusion(https://example.com/img.jpg - -)"

/-! ## blocks/inline/links/raw.rs -/

-- raw_link_should_support_http_scheme
#guard inl (rawLink env) b!"http://example.com" =
  b!"raw(http://example.com/ - -)"

-- raw_link_should_support_https_scheme
#guard inl (rawLink env) b!"https://example.com" =
  b!"raw(https://example.com/ - -)"

-- raw_link_should_support_ftp_scheme
#guard inl (rawLink env) b!"ftp://example.com" =
  b!"raw(ftp://example.com/ - -)"

-- raw_link_should_support_file_scheme
#guard inl (rawLink env) b!"file:///some/path" =
  b!"raw(file:///some/path - -)"

-- raw_link_should_support_local_scheme
#guard inl (rawLink env) b!"local:///some/path" =
  b!"raw(local:///some/path - -)"

-- raw_link_should_support_mailto_scheme
#guard inl (rawLink env) b!"mailto:person@example.com" =
  b!"raw(mailto:person@example.com - -)"

/-! ## blocks/inline/links/transclusion.rs -/

-- transclusion_link_should_support_local_relative_uri
#guard inl (transclusionLink env) b!"{{file:../../images/vimwiki_logo.png}}" =
  b!"transclusion(file:../../images/vimwiki_logo.png - -)"

-- transclusion_link_should_support_local_absolute_uri
#guard inl (transclusionLink env) b!"{{file:/some/path/images/vimwiki_logo.png}}" =
  b!"transclusion(file:/some/path/images/vimwiki_logo.png - -)"

-- transclusion_link_should_support_universal_uri
#guard inl (transclusionLink env) b!"{{http://vimwiki.googlecode.com/hg/images/vimwiki_logo.png}}" =
  b!"transclusion(http://vimwiki.googlecode.com/hg/images/vimwiki_logo.png - -)"

-- transclusion_link_should_support_alternate_text
#guard inl (transclusionLink env) b!"{{http://vimwiki.googlecode.com/hg/images/vimwiki_logo.png|Vimwiki}}" =
  b!"transclusion(http://vimwiki.googlecode.com/hg/images/vimwiki_logo.png 'Vimwiki' -)"

-- transclusion_link_should_support_alternate_text_and_style
#guard inl (transclusionLink env) b!"{{http://vimwiki.googlecode.com/vimwiki_logo.png|cool stuff|style=\"width:150px;height:120px;\"}}" =
  b!"transclusion(http://vimwiki.googlecode.com/vimwiki_logo.png 'cool stuff' {style='width:150px;height:120px;'})"

-- transclusion_link_should_support_css_class_without_alternate_text
#guard inl (transclusionLink env) b!"{{http://vimwiki.googlecode.com/vimwiki_logo.png||class=\"center flow blabla\"}}" =
  b!"transclusion(http://vimwiki.googlecode.com/vimwiki_logo.png '' {class='center flow blabla'})"

-- transclusion_link_should_support_multiple_properties
#guard inl (transclusionLink env) b!"{{http://vimwiki.googlecode.com/vimwiki_logo.png||class=\"center flow blabla\" style=\"something\"}}" =
  b!"transclusion(http://vimwiki.googlecode.com/vimwiki_logo.png '' {class='center flow blabla',style='something'})"

/-! ## blocks/inline/links/wiki.rs -/

-- wiki_link_should_fail_if_does_not_have_proper_prefix
#guard inl (wikiLink env) b!"link]]" =
  b!"error"

-- wiki_link_should_fail_if_does_not_have_proper_suffix
#guard inl (wikiLink env) b!"[[link" =
  b!"error"

-- wiki_link_should_not_consume_across_lines
#guard inl (wikiLink env) b!"[[link\n]]" =
  b!"error"

-- wiki_link_should_support_plain_link
#guard inl (wikiLink env) b!"[[This is a link]]" =
  b!"wiki(This%20is%20a%20link - -)"

-- wiki_link_should_support_description
#guard inl (wikiLink env) b!"[[This is a link source|Description of the link]]" =
  b!"wiki(This%20is%20a%20link%20source 'Description of the link' -)"

-- wiki_link_should_support_thumbnail_description
#guard inl (wikiLink env) b!"[[This is a link source|{{https://example.com/img.jpg}}]]" =
  b!"wiki(This%20is%20a%20link%20source {{https://example.com/img.jpg - -}} -)"

-- wiki_link_should_support_sources_in_subdirectories
#guard inl (wikiLink env) b!"[[projects/Important Project 1]]" =
  b!"wiki(projects/Important%20Project%201 - -)"

-- wiki_link_should_support_relative_sources
#guard inl (wikiLink env) b!"[[../index]]" =
  b!"wiki(../index - -)"

-- wiki_link_should_support_absolute_source_for_wiki_root
#guard inl (wikiLink env) b!"[[/index]]" =
  b!"wiki(/index - -)"

-- wiki_link_should_support_source_being_subdirectory
#guard inl (wikiLink env) b!"[[a subdirectory/|Other files]]" =
  b!"wiki(a%20subdirectory/ 'Other files' -)"

-- wiki_link_should_support_an_anchor
#guard inl (wikiLink env) b!"[[Todo List#Tomorrow]]" =
  b!"wiki(Todo%20List#Tomorrow - -)"

-- wiki_link_should_support_multiple_anchors
#guard inl (wikiLink env) b!"[[Todo List#Tomorrow#Later]]" =
  b!"wiki(Todo%20List#Tomorrow%23Later - -)"

-- wiki_link_should_support_an_anchor_and_a_description
#guard inl (wikiLink env) b!"[[Todo List#Tomorrow|Tasks for tomorrow]]" =
  b!"wiki(Todo%20List#Tomorrow 'Tasks for tomorrow' -)"

-- wiki_link_should_support_multiple_anchors_and_a_description
#guard inl (wikiLink env) b!"[[Todo List#Tomorrow#Later|Tasks for tomorrow]]" =
  b!"wiki(Todo%20List#Tomorrow%23Later 'Tasks for tomorrow' -)"

-- wiki_link_should_support_anchor_only
#guard inl (wikiLink env) b!"[[#Tomorrow]]" =
  b!"wiki(#Tomorrow - -)"

/-! ## blocks/inline/math.rs -/

-- math_inline_should_fail_if_input_empty
#guard inl mathInline b!"" =
  b!"error"

-- math_inline_should_fail_if_does_not_start_with_dollar_sign
#guard inl mathInline b!"\\sum_i a_i^2 = 1$" =
  b!"error"

-- math_inline_should_fail_if_does_not_end_with_dollar_sign
#guard inl mathInline b!"$\\sum_i a_i^2 = 1" =
  b!"error"

-- math_inline_should_fail_if_end_is_on_next_line
#guard inl mathInline b!"$\\sum_i a_i^2 = 1\n$\n" =
  b!"error"

-- math_inline_should_consume_all_text_between_dollar_signs_as_formula
#guard inl mathInline b!"$\\sum_i a_i^2 = 1$" =
  b!"math(\\sum_i a_i^2 = 1)"

/-! ## blocks/inline/mod.rs -/

-- inline_element_container_should_prioritize_comments_over_bold_text
#guard inls (inlineContainer env) b!"*not %%bold*" =
  b!"'*not ' line(bold*)"

-- inline_element_container_should_prioritize_comments_over_italic_text
#guard inls (inlineContainer env) b!"_not %%italic_" =
  b!"'_not ' line(italic_)"

-- inline_element_container_should_prioritize_comments_over_strikeout_text
#guard inls (inlineContainer env) b!"~~not %%strikeout~~" =
  b!"'~~not ' line(strikeout~~)"

-- inline_element_container_should_prioritize_comments_over_superscript_text
#guard inls (inlineContainer env) b!"^not %%superscript^" =
  b!"'^not ' line(superscript^)"

-- inline_element_container_should_prioritize_comments_over_subscript_text
#guard inls (inlineContainer env) b!",,not %%subscript,," =
  b!"',,not ' line(subscript,,)"

-- inline_element_container_should_prioritize_comments_over_math
#guard inls (inlineContainer env) b!"$not %%math$" =
  b!"'$not ' line(math$)"

-- inline_element_container_should_prioritize_comments_over_code
#guard inls (inlineContainer env) b!"`not %%code`" =
  b!"'`not ' line(code`)"

-- inline_element_container_should_prioritize_comments_over_link
#guard inls (inlineContainer env) b!"[[link|not %%link]]" =
  b!"'[[link|not ' line(link]])"

-- inline_element_container_should_prioritize_comments_over_keyword
#guard inls (inlineContainer env) b!"TO%%+DO+%%DO" =
  b!"'TO' multi(DO) 'DO'"

-- inline_element_container_should_prioritize_comments_over_text
#guard inls (inlineContainer env) b!"some text%%comment" =
  b!"'some text' line(comment)"
#guard inls (inlineContainer env) b!"some%%+comment+%%text" =
  b!"'some' multi(comment) 'text'"

-- inline_element_container_should_correctly_identify_elements
#guard inls (inlineContainer env) b!"*item 1* has a [[link]] with `code` and :tag: and $formula$ is DONE" =
  b!"bold['item 1'] ' has a ' wiki(link - -) ' with ' code(code) ' and ' tags(tag) ' and ' math(formula) ' is ' DONE"

-- inline_element_container_should_adjust_depth_of_inline_elements
#guard inls (inlineContainer env) b!"*item 1* has a [[link]] with `code` and :tag: and $formula$ is DONE" =
  b!"bold['item 1'] ' has a ' wiki(link - -) ' with ' code(code) ' and ' tags(tag) ' and ' math(formula) ' is ' DONE"

/-! ## blocks/inline/tags.rs -/

-- tags_should_fail_if_input_empty
#guard inl tags b!"" =
  b!"error"

-- tags_should_fail_if_not_starting_with_colon
#guard inl tags b!"tag-example:" =
  b!"error"

-- tags_should_fail_if_not_ending_with_colon
#guard inl tags b!":tag-example" =
  b!"error"

-- tags_should_fail_if_only_comprised_of_colons
#guard inl tags b!"::" =
  b!"error"

-- tags_should_yield_a_single_tag_if_one_pair_of_colons_with_text
#guard inl tags b!":tag-example:" =
  b!"tags(tag-example)"

-- tags_should_yield_a_single_tag_if_one_pair_of_colons_with_trailing_content
#guard inl tags b!":tag-example: and other text" =
  b!"tags(tag-example) >> and other text"

-- tags_should_yield_multiple_tags_if_many_colons_with_text
#guard inl tags b!":tag-one:tag-two:" =
  b!"tags(tag-one,tag-two)"

/-! ## blocks/inline/typefaces.rs -/

-- text_should_fail_if_input_empty
#guard inl (text env) b!"" =
  b!"error"

-- text_should_fail_if_given_a_raw_link_immediately
#guard inl (text env) b!"https://example.com/" =
  b!"error"

-- text_should_consume_until_encountering_inline_math
#guard inl (text env) b!"abc123$math$" =
  b!"'abc123' >>$math$"

-- text_should_consume_until_encountering_a_tag
#guard inl (text env) b!"abc123 :tag:" =
  b!"'abc123 ' >>:tag:"

-- text_should_consume_until_encountering_a_wiki_link
#guard inl (text env) b!"abc123[[some link]]" =
  b!"'abc123' >>[[some link]]"

-- text_should_consume_until_encountering_a_transclusion_link
#guard inl (text env) b!"abc123{{some link}}" =
  b!"'abc123' >>{{some link}}"

-- text_should_consume_until_encountering_a_raw_link
#guard inl (text env) b!"abc123 https://example.com/" =
  b!"'abc123 ' >>https://example.com/"

-- text_should_consume_until_encountering_decorated_text
#guard inl (text env) b!"abc123*bold text*" =
  b!"'abc123' >>*bold text*"

-- text_should_consume_until_encountering_a_keyword
#guard inl (text env) b!"abc123 TODO" =
  b!"'abc123 ' >>TODO"

-- text_should_consume_until_reaching_end_of_line
#guard inl (text env) b!"abc123\nsome other text" =
  b!"'abc123' >>\nsome other text"
#guard inl (text env) b!"abc123\r\nsome other text" =
  b!"'abc123' >>\r\nsome other text"

-- text_should_consume_until_reaching_end_of_input
#guard inl (text env) b!"abc123" =
  b!"'abc123'"

-- decorated_text_should_fail_if_input_empty
#guard inl (decoratedText env) b!"" =
  b!"error"

-- decorated_text_should_fail_if_start_and_end_separated_by_newline
#guard inl (decoratedText env) b!"*bold text\n*" =
  b!"error"

-- decorated_text_should_support_bold
#guard inl (decoratedText env) b!"*bold text*" =
  b!"bold['bold text']"

-- decorated_text_should_support_italic
#guard inl (decoratedText env) b!"_italic text_" =
  b!"italic['italic text']"

-- decorated_text_should_support_strikeout
#guard inl (decoratedText env) b!"~~strikeout text~~" =
  b!"strikeout['strikeout text']"

-- decorated_text_should_support_superscript
#guard inl (decoratedText env) b!"^superscript text^" =
  b!"superscript['superscript text']"

-- decorated_text_should_support_subscript
#guard inl (decoratedText env) b!",,subscript text,," =
  b!"subscript['subscript text']"

-- decorated_text_should_support_links
#guard inl (decoratedText env) b!"*[[some link]]*" =
  b!"bold[wiki(some%20link - -)]"

-- decorated_text_should_support_keywords
#guard inl (decoratedText env) b!"*TODO*" =
  b!"bold[TODO]"

-- decorated_text_should_support_nested_decorated_text
#guard inl (decoratedText env) b!"*bold _italic_*" =
  b!"bold['bold ' italic['italic']]"

-- decorated_text_should_properly_adjust_depth_for_content
#guard inl (decoratedText env) b!"*bold _italic_ DONE ~~strikeout~~ ^^superscript^^ ,,subscript,, [[some link]]*" =
  b!"bold['bold ' italic['italic'] ' ' DONE ' ' strikeout['strikeout'] ' ' superscript['^superscript'] '^ ' subscript['subscript'] ' ' wiki(some%20link - -)]"

-- keyword_should_fail_if_input_empty
#guard inl keyword b!"" =
  b!"error"

-- keyword_should_fail_if_not_a_matching_identifier
#guard inl keyword b!"NOTHING" =
  b!"error"

-- keyword_should_consume_specific_keywords
#guard inl keyword b!"DONE" =
  b!"DONE"
#guard inl keyword b!"FIXED" =
  b!"FIXED"
#guard inl keyword b!"FIXME" =
  b!"FIXME"
#guard inl keyword b!"STARTED" =
  b!"STARTED"
#guard inl keyword b!"TODO" =
  b!"TODO"
#guard inl keyword b!"XXX" =
  b!"XXX"

/-! ## blocks/lists.rs -/

-- list_should_fail_if_no_proper_start_to_single_list_item
#guard blk (list env) b!"| some item with bad prefix" =
  b!"error"

-- list_should_fail_if_no_space_after_single_list_item_prefix
#guard blk (list env) b!"-some item with no space" =
  b!"error"
#guard blk (list env) b!"*some item with no space" =
  b!"error"
#guard blk (list env) b!"1.some item with no space" =
  b!"error"
#guard blk (list env) b!"1)some item with no space" =
  b!"error"
#guard blk (list env) b!"a)some item with no space" =
  b!"error"
#guard blk (list env) b!"A)some item with no space" =
  b!"error"
#guard blk (list env) b!"i)some item with no space" =
  b!"error"
#guard blk (list env) b!"I)some item with no space" =
  b!"error"
#guard blk (list env) b!"#some item with no space" =
  b!"error"

-- list_should_properly_adjust_depth_for_list_items_and_contents
#guard blk (list env) b!"- list item 1\n  has extra content\n  - sublist item 1\n    has content\n  - sublist item 2\n  on multiple lines\n- list item 2\n" =
  b!"list(<-@0 p('list item 1' / 'has extra content') list(<-@0 p('sublist item 1' / 'has content')><-@1 p('sublist item 2')>) p('on multiple lines')><-@1 p('list item 2')>)"

-- list_should_succeed_for_single_unordered_hyphen_item
#guard blk (list env) b!"- list item 1" =
  b!"list(<-@0 p('list item 1')>)"

-- list_should_succeed_for_single_unordered_asterisk_item
#guard blk (list env) b!"* list item 1" =
  b!"list(<*@0 p('list item 1')>)"

-- list_should_succeed_for_single_ordered_pound_item
#guard blk (list env) b!"# list item 1" =
  b!"list(<#@0 p('list item 1')>)"

-- list_should_succeed_for_single_ordered_number_period_item
#guard blk (list env) b!"1. list item 1" =
  b!"list(<1.@0 p('list item 1')>)"

-- list_should_succeed_for_single_ordered_number_paren_item
#guard blk (list env) b!"1) list item 1" =
  b!"list(<1)@0 p('list item 1')>)"

-- list_should_succeed_for_single_ordered_lowercase_alphabet_paren_item
#guard blk (list env) b!"a) list item 1" =
  b!"list(<a)@0 p('list item 1')>)"

-- list_should_succeed_for_single_ordered_uppercase_alphabet_paren_item
#guard blk (list env) b!"A) list item 1" =
  b!"list(<A)@0 p('list item 1')>)"

-- list_should_succeed_for_single_ordered_lowercase_roman_paren_item
#guard blk (list env) b!"i) list item 1" =
  b!"list(<i)@0 p('list item 1')>)"

-- list_should_succeed_for_single_ordered_uppercase_roman_paren_item
#guard blk (list env) b!"I) list item 1" =
  b!"list(<I)@0 p('list item 1')>)"

-- list_should_support_list_item_with_paragraph_on_same_line
#guard blk (list env) b!"- list *item 1* has a [[link]] with :tag: and $formula$ is DONE\n" =
  b!"list(<-@0 p('list ' bold['item 1'] ' has a ' wiki(link - -) ' with ' tags(tag) ' and ' math(formula) ' is ' DONE)>)"

-- list_should_support_list_item_with_paragraph_on_multiple_lines
#guard blk (list env) b!"- list item 1\n  has extra content\n  on multiple lines\nnot a list item\n" =
  b!"list(<-@0 p('list item 1' / 'has extra content' / 'on multiple lines')>) >>not a list item\n"

-- list_should_support_list_item_with_blockquote
#guard blk (list env) b!"- list item\n  > some blockquote\n" =
  b!"list(<-@0 p('list item') quote(some blockquote)>)"

-- list_should_support_list_item_with_code_block
#guard blk (list env) b!"- list item\n  {{{\n  some code\n  }}}\n" =
  b!"list(<-@0 p('list item') code(- {} some code)>)"

-- list_should_support_list_item_with_definition_list
#guard blk (list env) b!"- list item\n  term:: def\n" =
  b!"list(<-@0 p('list item') defs('term' :: 'def')>)"

-- list_should_support_list_item_with_math_block
#guard blk (list env) b!"- list item\n  {{$\n  some math\n  }}$\n" =
  b!"list(<-@0 p('list item') math(- some math)>)"

-- list_should_support_list_item_with_table
#guard blk (list env) b!"- list item\n  |cell|\n" =
  b!"list(<-@0 p('list item') table('cell')>)"

-- list_should_not_support_list_item_with_divider
#guard blk (list env) b!"- list item\n  ----\n" =
  b!"list(<-@0 p('list item' / '----')>)"

-- list_should_support_list_item_with_header
#guard blk (list env) b!"- list item\n  =header=\n" =
  b!"list(<-@0 p('list item')>) >>  =header=\n"

-- list_should_not_support_list_item_with_placeholder
#guard blk (list env) b!"- list item\n  %title my title\n" =
  b!"list(<-@0 p('list item' / '%title my title')>)"

-- list_should_support_list_item_with_sublists
#guard blk (list env) b!"- list item 1\n  - sublist item 1\n  - sublist item 2\nnot a list item\n" =
  b!"list(<-@0 p('list item 1') list(<-@0 p('sublist item 1')><-@1 p('sublist item 2')>)>) >>not a list item\n"

-- list_should_support_list_item_with_content_separated_by_sublist
#guard blk (list env) b!"- list item 1\n  has extra content\n  - sublist item 1\n    has content\n  - sublist item 2\n  on multiple lines\nnot a list item\n" =
  b!"list(<-@0 p('list item 1' / 'has extra content') list(<-@0 p('sublist item 1' / 'has content')><-@1 p('sublist item 2')>) p('on multiple lines')>) >>not a list item\n"

-- list_should_supported_deeply_nested_sublists_with_paragraphs_over_blockquotes
#guard blk (list env) b!"- List of items\n    - Containing a sublist\n        - With another sublist\n            - And an additional sublist\n          with content from the a sublist\n      and content after that sublist as paragraph within list item\n" =
  b!"list(<-@0 p('List of items') list(<-@0 p('Containing a sublist') list(<-@0 p('With another sublist') list(<-@0 p('And an additional sublist')>) p('with content from the a sublist')>) p('and content after that sublist as paragraph within list item')>)>)"

-- list_should_properly_read_through_different_types_that_are_nested
#guard blk (list env) b!"- nested\n * list\n  1. of\n   a) content\n    second line of a\n   second line of 1\n  second line of bullet\n second line of hyphen\n* different list item\n" =
  b!"list(<-@0 p('nested') list(<*@0 p('list') list(<1.@0 p('of') list(<a)@0 p('content' / 'second line of a')>) p('second line of 1')>) p('second line of bullet')>) p('second line of hyphen')><-@1 p('different list item')>)"

-- list_should_support_todo_list_items
#guard blk (list env) b!"- [ ] list item 1\n- [.] list item 2\n- [o] list item 3\n- [O] list item 4\n- [X] list item 5\n- [-] list item 6\n" =
  b!"list(<-@0[ ] p('list item 1')><-@1[.] p('list item 2')><-@2[o] p('list item 3')><-@3[O] p('list item 4')><-@4[X] p('list item 5')><-@5[-] p('list item 6')>)"

/-! ## blocks/math.rs -/

-- math_block_should_fail_if_input_empty
#guard blk mathBlock b!"" =
  b!"error"

-- math_block_should_fail_if_does_not_start_with_dedicated_line
#guard blk mathBlock b!"    \\sum_i a_i^2\n}}$\n" =
  b!"error"

-- math_block_should_fail_if_does_not_end_with_dedicated_line
#guard blk mathBlock b!"{{$\n    \\sum_i a_i^2\n" =
  b!"error"

-- math_block_should_support_zero_lines_between_as_formula
#guard blk mathBlock b!"{{$\n}}$\n" =
  b!"math(- )"

-- math_block_should_consume_all_lines_between_as_formula
#guard blk mathBlock b!"{{$\n\\sum_i a_i^2\n=\n1\n}}$\n" =
  b!"math(- \\sum_i a_i^2|=|1)"

-- math_block_should_fail_if_environment_delimiters_not_used_correctly
#guard blk mathBlock b!"{{$%align\n\\sum_i a_i^2\n=\n1\n}}$\n" =
  b!"error"
#guard blk mathBlock b!"{{$align%\n\\sum_i a_i^2\n=\n1\n}}$\n" =
  b!"error"
#guard blk mathBlock b!"{{$%%\n\\sum_i a_i^2\n=\n1\n}}$\n" =
  b!"error"

-- math_block_should_accept_optional_environment_specifier
#guard blk mathBlock b!"{{$%align%\n\\sum_i a_i^2 &= 1 + 1 \\\\\n&= 2.\n}}$\n" =
  b!"math(align \\sum_i a_i^2 &= 1 + 1 \\\\|&= 2.)"

-- math_block_should_support_indentation
#guard blk mathBlock b!"  {{$\n  one line\n  two line\n  }}$" =
  b!"math(- one line|two line)"
#guard blk mathBlock b!"    {{$\none line\ntwo line\n}}$\n" =
  b!"math(- one line|two line)"
#guard blk mathBlock b!"{{$\none line\ntwo line\n    }}$\n" =
  b!"math(- one line|two line)"
#guard blk mathBlock b!"    {{$\none line\ntwo line\n    }}$\n" =
  b!"math(- one line|two line)"
#guard blk mathBlock b!"    {{$\none line\n        two line\n  three line\n    four line\n     five line\n    }}$\n" =
  b!"math(- one line|    two line|three line|four line| five line)"

/-! ## blocks/paragraphs.rs -/

-- paragraph_should_fail_if_on_blank_line
#guard blk (paragraph env) b!" " =
  b!"error"

-- paragraph_should_parse_single_line
#guard blk (paragraph env) b!"Some paragraph with *decorations*, [[links]], $math$, and more\n" =
  b!"p('Some paragraph with ' bold['decorations'] ', ' wiki(links - -) ', ' math(math) ', and more')"

-- paragraph_should_parse_multiple_lines
#guard blk (paragraph env) b!"Some paragraph with *decorations*,\n[[links]], $math$, and more\n" =
  b!"p('Some paragraph with ' bold['decorations'] ',' / wiki(links - -) ', ' math(math) ', and more')"

-- paragraph_should_support_whitespace_at_beginning_of_all_following_lines
#guard blk (paragraph env) b!"Some paragraph with *decorations*,\n  [[links]], $math$, and more\n" =
  b!"p('Some paragraph with ' bold['decorations'] ',' / wiki(links - -) ', ' math(math) ', and more')"

-- paragraph_should_stop_at_a_blank_line
#guard blk (paragraph env) b!"Some paragraph with *decorations*,\n[[links]], $math$, and more\n\nAnd this would be a second paragraph\n" =
  b!"p('Some paragraph with ' bold['decorations'] ',' / wiki(links - -) ', ' math(math) ', and more') >>\nAnd this would be a second paragraph\n"

-- paragraph_should_stop_after_encountering_a_list
#guard blk (paragraph env) b!"some paragraph\nof text\n- list item\n" =
  b!"p('some paragraph' / 'of text') >>- list item\n"

-- paragraph_should_stop_after_encountering_a_header
#guard blk (paragraph env) b!"some paragraph\nof text\n= header =\n" =
  b!"p('some paragraph' / 'of text') >>= header =\n"

-- paragraph_should_stop_after_encountering_a_definition_list
#guard blk (paragraph env) b!"some paragraph\nof text\nterm:: def\n" =
  b!"p('some paragraph' / 'of text') >>term:: def\n"

-- paragraph_should_stop_after_encountering_a_table
#guard blk (paragraph env) b!"some paragraph\nof text\n|cell|\n" =
  b!"p('some paragraph' / 'of text') >>|cell|\n"

-- paragraph_should_stop_after_encountering_a_code_block
#guard blk (paragraph env) b!"some paragraph\nof text\n{{{\ncode block\n}}}\n" =
  b!"p('some paragraph' / 'of text') >>{{{\ncode block\n}}}\n"

-- paragraph_should_stop_after_encountering_a_math_block
#guard blk (paragraph env) b!"some paragraph\nof text\n{{$\nmath block\n}}$\n" =
  b!"p('some paragraph' / 'of text') >>{{$\nmath block\n}}$\n"

-- paragraph_should_stop_after_encountering_a_blank_line
#guard blk (paragraph env) b!"some paragraph\nof text\n\nmore text\n" =
  b!"p('some paragraph' / 'of text') >>\nmore text\n"

-- paragraph_should_continue_consuming_when_encountering_an_indented_blockquote
#guard blk (paragraph env) b!"some paragraph\nof text\n    some blockquote\n" =
  b!"p('some paragraph' / 'of text' / 'some blockquote')"

-- paragraph_should_stop_after_encountering_an_arrow_blockquote
#guard blk (paragraph env) b!"some paragraph\nof text\n> some blockquote\n" =
  b!"p('some paragraph' / 'of text') >>> some blockquote\n"

-- paragraph_should_stop_after_encountering_a_divider
#guard blk (paragraph env) b!"some paragraph\nof text\n----\n" =
  b!"p('some paragraph' / 'of text') >>----\n"

-- paragraph_should_stop_after_encountering_a_placeholder
#guard blk (paragraph env) b!"some paragraph\nof text\n%title some title\n" =
  b!"p('some paragraph' / 'of text') >>%title some title\n"

/-! ## blocks/placeholders.rs -/

-- placeholder_should_fail_if_input_empty
#guard blk (placeholder env) b!"" =
  b!"error"

-- placeholder_should_fail_title_with_no_text
#guard blk (placeholder env) b!"%title" =
  b!"error"

-- placeholder_should_succeed_if_title_with_text_input
#guard blk (placeholder env) b!"%title some title" =
  b!"title 'some title'"

-- placeholder_should_fail_if_nohtml_with_text
#guard blk (placeholder env) b!"%nohtml something" =
  b!"error"

-- placeholder_should_succeed_if_nohtml_with_no_text_input
#guard blk (placeholder env) b!"%nohtml" =
  b!"nohtml"

-- placeholder_should_fail_if_template_with_no_text
#guard blk (placeholder env) b!"%template" =
  b!"error"

-- placeholder_should_succeed_if_template_with_text_input
#guard blk (placeholder env) b!"%template my_template" =
  b!"template 'my_template'"

-- placeholder_should_fail_if_date_with_no_text
#guard blk (placeholder env) b!"%date" =
  b!"error"

-- placeholder_should_fail_if_date_with_non_date_input
#guard blk (placeholder env) b!"%date something" =
  b!"error"

-- placeholder_should_succeed_if_date_with_date_input
#guard blk (placeholder env) b!"%date 2012-03-05" =
  b!"date 2012-03-05"

-- placeholder_fallback_should_fail_if_double_percent_at_start
#guard blk (placeholder env) b!"%%other something else" =
  b!"error"

-- placeholder_fallback_should_fail_if_no_space_between_name_and_value
#guard blk (placeholder env) b!"%othervalue" =
  b!"error"

-- placeholder_fallback_should_fail_if_no_name_provided
#guard blk (placeholder env) b!"% value" =
  b!"error"

-- placeholder_fallback_should_fail_if_percent_found_in_name
#guard blk (placeholder env) b!"%oth%er value" =
  b!"error"

-- placeholder_fallback_should_fail_if_percent_found_at_end_of_name
#guard blk (placeholder env) b!"%other% value" =
  b!"error"

-- placeholder_fallback_should_fail_if_no_value_after_name
#guard blk (placeholder env) b!"%other" =
  b!"error"

-- placeholder_fallback_should_succeed_if_percent_followed_by_name_space_and_value
#guard blk (placeholder env) b!"%other something else" =
  b!"other other 'something else'"

/-! ## blocks/tables.rs -/

-- table_should_fail_if_input_empty
#guard blk (table env) b!"" =
  b!"error"

-- table_should_fail_if_not_starting_with_pipe
#guard blk (table env) b!"name|age|\n|---|---|\n|abc|012|\n|def|045|\n" =
  b!"error"

-- table_should_fail_if_not_ending_with_pipe
#guard blk (table env) b!"|name|age\n|---|---|\n|abc|012|\n|def|045|\n" =
  b!"error"

-- table_should_fail_if_no_content_row_found
#guard blk (table env) b!"|---------|" =
  b!"error"

-- table_should_properly_adjust_depth_for_cells
#guard blk (table env) b!"|one|two|\n|---|---|\n|abc|def|\n|ghi|jkl|\n" =
  b!"table('one' | 'two' / -- | -- / 'abc' | 'def' / 'ghi' | 'jkl')"

-- table_should_succeed_if_uneven_columns_found
#guard blk (table env) b!"|name| age|\n|----|----|\n|abcd|1111|\n|efgh|2222|3333|\n|ijkl|4444|\n" =
  b!"table('name' | ' age' | none / -- | -- | none / 'abcd' | '1111' | none / 'efgh' | '2222' | '3333' / 'ijkl' | '4444' | none)"

-- table_should_support_single_row_with_single_cell
#guard blk (table env) b!"|value1|" =
  b!"table('value1')"

-- table_should_support_single_row_with_multiple_cells
#guard blk (table env) b!"|value1|value2|" =
  b!"table('value1' | 'value2')"

-- table_should_support_multiple_rows_with_single_cells
#guard blk (table env) b!"|value1|\n|value2|\n" =
  b!"table('value1' / 'value2')"

-- table_should_support_multiple_rows_with_multiple_cells
#guard blk (table env) b!"|value1|value2|\n|value3|value4|\n" =
  b!"table('value1' | 'value2' / 'value3' | 'value4')"

-- table_should_support_row_and_divider_with_single_cell
#guard blk (table env) b!"|value1|\n|------|\n" =
  b!"table('value1' / --)"

-- table_should_support_row_and_divider_with_multiple_cells
#guard blk (table env) b!"|value1|value2|\n|------|------|\n" =
  b!"table('value1' | 'value2' / -- | --)"

-- table_should_support_row_and_divider_with_different_column_alignments
#guard blk (table env) b!"|value1|value2|value3|value4|\n|------|:-----|-----:|:----:|\n" =
  b!"table('value1' | 'value2' | 'value3' | 'value4' / -- | :- | -: | :-:)"

-- table_should_support_span_left_cell
#guard blk (table env) b!"|>|" =
  b!"table(>)"

-- table_should_support_span_above_cell
#guard blk (table env) b!"|\\/|" =
  b!"table(^)"

-- table_should_support_centering_through_indentation
#guard blk (table env) b!" |value1|" =
  b!"table(centered 'value1')"

-- table_should_support_inline_content_in_cells
#guard blk (table env) b!"|some text|" =
  b!"table('some text')"

/-! ## mod.rs -/

-- page_should_skip_blank_lines_not_within_block_elements
#guard pg b!"\n\n" =
  b!""

-- page_should_parse_blocks
#guard pg b!"some text with % signs" =
  b!"p('some text with % signs')"

end Vw.Tests
