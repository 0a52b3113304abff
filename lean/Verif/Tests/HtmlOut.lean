import Verif.Tests.Show

/-!
# The project's tests of the HTML output

Translated from the unit tests of `/repo/vimwiki-core/src/lang/output/html/mod.rs`, whose names are
given in the comments.
-/

namespace Vw.Tests

-- page_should_add_a_newline_after_each_block_element_rendered
#guard ht [pageHtml html cfg ⟨[loc (.paragraph [[loc (.text b!"paragraph 1")]]), loc (.paragraph [[loc (.text b!"paragraph 2")]])]⟩] = some b!"<p>paragraph 1</p>\n<p>paragraph 2</p>\n"

-- blockquote_with_multiple_line_groups_should_output_blockquote_tag_with_paragraph_for_each_group_of_lines
#guard ht [Block.html html cfg (.blockquote [b!"line1", b!"line2", [], b!"line3"])] = some b!"<blockquote>\n<p>line1 line2</p>\n<p>line3</p>\n</blockquote>"

-- blockquote_with_single_line_group_should_output_blockquote_tag_with_no_paragraph
#guard ht [Block.html html cfg (.blockquote [b!"line1", b!"line2", b!"line3"])] = some b!"<blockquote>\nline1\nline2\nline3\n</blockquote>"

-- blockquote_should_escape_html_in_each_line_of_a_singular_line_group
#guard ht [Block.html html cfg (.blockquote [b!"<test1>", b!"<test2>", b!"<test3>"])] = some b!"<blockquote>\n&lt;test1&gt;\n&lt;test2&gt;\n&lt;test3&gt;\n</blockquote>"

-- blockquote_should_escape_html_in_each_line_of_multiple_line_groups
#guard ht [Block.html html cfg (.blockquote [b!"<test1>", b!"<test2>", [], b!"<test3>"])] = some b!"<blockquote>\n<p>&lt;test1&gt; &lt;test2&gt;</p>\n<p>&lt;test3&gt;</p>\n</blockquote>"

-- definition_list_should_output_list_tag_with_term_and_definition_tags_together
#guard ht [Block.html html cfg (.defs [loc ⟨loc [loc (.text b!"term1")], loc []⟩])] = some b!"<dl>\n<dt>term1</dt>\n</dl>"
#guard ht [Block.html html cfg (.defs [loc ⟨loc [loc (.text b!"term1")], loc [loc [loc (.text b!"def1")]]⟩])] = some b!"<dl>\n<dt>term1</dt>\n<dd>def1</dd>\n</dl>"
#guard ht [Block.html html cfg (.defs [loc ⟨loc [loc (.text b!"term1")], loc [loc [loc (.text b!"def1")], loc [loc (.text b!"def2")]]⟩])] = some b!"<dl>\n<dt>term1</dt>\n<dd>def1</dd>\n<dd>def2</dd>\n</dl>"

-- divider_should_output_hr_tag
#guard ht [Block.html html cfg .divider] = some b!"<hr />"

-- header_should_output_h_and_a_tags
#guard ht [Block.html html cfg (.header [loc (.text b!"some header")] 3 false)] = some b!"<h3 id=\"some-header\" class=\"header\"><a href=\"#some-header\">some header</a></h3>"

-- header_should_support_toc_variant
#guard ht [Block.html html cfg (.header [loc (.text b!"Contents")] 1 false)] = some b!"<div class=\"toc\"><h1 id=\"contents\">Contents</h1></div>"

-- header_should_escape_html_in_ids
#guard ht [W.insertHeader 1 b!"h1", W.insertHeader 2 b!"h2", Block.html html cfg (.header [loc (.text b!"<test>")] 3 false)] = some b!"<div id=\"h1-h2-&lt;test&gt;\"><h3 id=\"&lt;test&gt;\" class=\"header\"><a href=\"#h1-h2-&lt;test&gt;\">&lt;test&gt;</a></h3></div>"

-- header_should_escape_html_in_ids_for_toc
#guard ht [Block.html html ({ cfg with toc := b!"<test>" }) (.header [loc (.text b!"<test>")] 1 false)] = some b!"<div class=\"toc\"><h1 id=\"&lt;test&gt;\">&lt;test&gt;</h1></div>"

-- header_should_produce_unique_ids_from_repeated_same_header
#guard ht [Block.html html cfg (.header [loc (.text b!"some header")] 3 false), Block.html html cfg (.header [loc (.text b!"some header")] 3 false), Block.html html cfg (.header [loc (.text b!"some header")] 3 false)] = some b!"<h3 id=\"some-header\" class=\"header\"><a href=\"#some-header\">some header</a></h3><h3 id=\"some-header-1\" class=\"header\"><a href=\"#some-header-1\">some header</a></h3><h3 id=\"some-header-2\" class=\"header\"><a href=\"#some-header-2\">some header</a></h3>"

-- header_should_produce_unique_ids_from_repeated_same_header_with_nested_headers
#guard ht [W.insertHeader 1 b!"a", W.insertHeader 2 b!"b", Block.html html cfg (.header [loc (.text b!"some header")] 3 false), Block.html html cfg (.header [loc (.text b!"some header")] 3 false), W.insertHeader 2 b!"c", Block.html html cfg (.header [loc (.text b!"some header")] 3 false)] = some b!"<div id=\"a-b-some-header\"><h3 id=\"some-header\" class=\"header\"><a href=\"#a-b-some-header\">some header</a></h3></div><div id=\"a-b-some-header-1\"><h3 id=\"some-header-1\" class=\"header\"><a href=\"#a-b-some-header-1\">some header</a></h3></div><div id=\"a-c-some-header\"><h3 id=\"some-header-2\" class=\"header\"><a href=\"#a-c-some-header\">some header</a></h3></div>"

-- list_should_output_ordered_list_if_ordered_type
#guard ht [Block.html html cfg (.list [loc ⟨.number, .none, 0, [loc (.paragraph [[loc (.text b!"some list item")]])], none⟩])] = some b!"<ol>\n<li><p>some list item</p></li>\n</ol>"

-- list_should_output_unordered_list_if_unordered_type
#guard ht [Block.html html cfg (.list [loc ⟨.hyphen, .none, 0, [loc (.paragraph [[loc (.text b!"some list item")]])], none⟩])] = some b!"<ul>\n<li><p>some list item</p></li>\n</ul>"

-- list_item_should_output_li_tag
#guard ht [Block.htmlItems html cfg [loc ⟨.hyphen, .none, 0, [loc (.paragraph [[loc (.text b!"some list item")]])], none⟩]] = some b!"<li><p>some list item</p></li>\n"

-- list_item_should_support_adding_class_based_on_todo_status
#guard ht [Block.htmlItems html cfg [loc ⟨.hyphen, .none, 0, [loc (.paragraph [[loc (.text b!"some list item")]])], some .incomplete⟩]] = some b!"<li class=\"done0\"><p>some list item</p></li>\n"
#guard ht [Block.htmlItems html cfg [loc ⟨.hyphen, .none, 0, [loc (.paragraph [[loc (.text b!"some list item")]])], some .partial1⟩]] = some b!"<li class=\"done1\"><p>some list item</p></li>\n"
#guard ht [Block.htmlItems html cfg [loc ⟨.hyphen, .none, 0, [loc (.paragraph [[loc (.text b!"some list item")]])], some .partial2⟩]] = some b!"<li class=\"done2\"><p>some list item</p></li>\n"
#guard ht [Block.htmlItems html cfg [loc ⟨.hyphen, .none, 0, [loc (.paragraph [[loc (.text b!"some list item")]])], some .partial3⟩]] = some b!"<li class=\"done3\"><p>some list item</p></li>\n"
#guard ht [Block.htmlItems html cfg [loc ⟨.hyphen, .none, 0, [loc (.paragraph [[loc (.text b!"some list item")]])], some .complete⟩]] = some b!"<li class=\"done4\"><p>some list item</p></li>\n"
#guard ht [Block.htmlItems html cfg [loc ⟨.hyphen, .none, 0, [loc (.paragraph [[loc (.text b!"some list item")]])], some .rejected⟩]] = some b!"<li class=\"rejected\"><p>some list item</p></li>\n"

-- math_block_should_output_a_mathjax_notation
#guard ht [Block.html html cfg (.math [b!"some lines", b!"of math"] none)] = some b!"\\[\nsome lines\nof math\n\\]"

-- math_block_should_support_environments
#guard ht [Block.html html cfg (.math [b!"some lines", b!"of math"] (some b!"test environment"))] = some b!"\\begin{test environment}\nsome lines\nof math\n\\end{test environment}"

-- placeholder_should_set_title_if_specified
#guard (end_ [Block.html html cfg (.placeholder (.title b!"test title"))]).bind (·.title) = some b!"test title"

-- placeholder_should_set_date_if_specified
#guard (end_ [Block.html html cfg (.placeholder (.date ⟨2021, 4, 27⟩))]).bind (·.date) = some ⟨2021, 4, 27⟩

-- placeholder_should_set_template_if_specified
#guard (end_ [Block.html html cfg (.placeholder (.template b!"template file"))]).bind (·.template) = some b!"template file"

-- code_block_should_output_pre_code_tags_for_clientside_render
#guard ht [Block.html html cfg (.code none [] [b!"some lines", b!"of code"])] = some b!"<pre><code>some lines\nof code</code></pre>"

-- code_block_should_escape_output_clientside
#guard ht [Block.html html cfg (.code none [] [b!"<test>"])] = some b!"<pre><code>&lt;test&gt;</code></pre>"

-- paragraph_should_output_p_tag
#guard ht [Block.html html cfg (.paragraph [[loc (.text b!"some text")], [loc (.text b!"and more text")]])] = some b!"<p>some text and more text</p>"

-- paragraph_should_support_linebreaks_if_configured
#guard ht [Block.html html ({ cfg with ignoreNewline := false }) (.paragraph [[loc (.text b!"some text")], [loc (.text b!"and more text")]])] = some b!"<p>some text<br />and more text</p>"

-- table_should_output_table_and_other_relevant_tags_for_header_and_body
#guard ht [Block.html html cfg (.table (Table.new [(⟨0, 0⟩, loc (.content [loc (.text b!"some header")])), (⟨1, 0⟩, loc (.align .none)), (⟨2, 0⟩, loc (.content [loc (.text b!"some text")]))] false))] = some b!"<table>\n<thead>\n<tr>\n<th>some header</th>\n</tr>\n</thead>\n<tbody>\n<tr>\n<td>some text</td>\n</tr>\n</tbody>\n</table>"

-- table_should_support_rowspan_attr_on_header_cells
#guard ht [Block.html html cfg (.table (Table.new [(⟨0, 0⟩, loc (.content [loc (.text b!"some text")])), (⟨1, 0⟩, loc (.span .fromAbove)), (⟨2, 0⟩, loc (.align .none))] false))] = some b!"<table>\n<thead>\n<tr>\n<th rowspan=\"2\">some text</th>\n</tr>\n</thead>\n</table>"

-- table_should_support_colspan_attr_on_header_cells
#guard ht [Block.html html cfg (.table (Table.new [(⟨0, 0⟩, loc (.content [loc (.text b!"some text")])), (⟨0, 1⟩, loc (.span .fromLeft)), (⟨1, 0⟩, loc (.align .none)), (⟨1, 1⟩, loc (.align .none))] false))] = some b!"<table>\n<thead>\n<tr>\n<th colspan=\"2\">some text</th>\n</tr>\n</thead>\n</table>"

-- table_should_support_rowspan_attr_on_body_cells
#guard ht [Block.html html cfg (.table (Table.new [(⟨0, 0⟩, loc (.content [loc (.text b!"some text")])), (⟨1, 0⟩, loc (.span .fromAbove))] false))] = some b!"<table>\n<tbody>\n<tr>\n<td rowspan=\"2\">some text</td>\n</tr>\n</tbody>\n</table>"

-- table_should_support_colspan_attr_on_body_cells
#guard ht [Block.html html cfg (.table (Table.new [(⟨0, 0⟩, loc (.content [loc (.text b!"some text")])), (⟨0, 1⟩, loc (.span .fromLeft))] false))] = some b!"<table>\n<tbody>\n<tr>\n<td colspan=\"2\">some text</td>\n</tr>\n</tbody>\n</table>"

-- table_should_support_being_centered
#guard ht [Block.html html cfg (.table (Table.new [] true))] = some b!"<table class=\"center\">\n</table>"

-- text_should_output_inner_str
#guard ht [Inline.html html cfg (.text b!"some text")] = some b!"some text"

-- text_should_escape_html
#guard ht [Inline.html html cfg (.text b!"<some>html</some>")] = some b!"&lt;some&gt;html&lt;/some&gt;"

-- decorated_text_should_output_strong_tag_for_bold_text
#guard ht [Inline.html html cfg (.decorated .bold [loc (.text b!"some text")])] = some b!"<strong id=\"some-text\">some text</strong>"

-- decorated_text_should_include_extra_span_with_id_comprised_of_previous_headers_for_bold_text
#guard ht [W.insertHeader 1 b!"one", W.insertHeader 2 b!"two", W.insertHeader 3 b!"three", Inline.html html cfg (.decorated .bold [loc (.text b!"some text")])] = some b!"<span id=\"one-two-three-some-text\"></span><strong id=\"some-text\">some text</strong>"

-- decorated_text_should_escape_id_and_text_for_bold_text
#guard ht [Inline.html html cfg (.decorated .bold [loc (.text b!"some <test> text")])] = some b!"<strong id=\"some-&lt;test&gt;-text\">some &lt;test&gt; text</strong>"

-- decorated_text_should_produce_unique_ids_from_repeated_bold_text
#guard ht [Inline.html html cfg (.decorated .bold [loc (.text b!"bold")]), Inline.html html cfg (.decorated .bold [loc (.text b!"bold")])] = some b!"<strong id=\"bold\">bold</strong><strong id=\"bold-1\">bold</strong>"

-- decorated_text_should_produce_unique_ids_from_repeated_bold_text_with_nested_headers
#guard ht [W.insertHeader 1 b!"a", W.insertHeader 2 b!"b", Inline.html html cfg (.decorated .bold [loc (.text b!"bold")]), Inline.html html cfg (.decorated .bold [loc (.text b!"bold")]), W.insertHeader 2 b!"c", Inline.html html cfg (.decorated .bold [loc (.text b!"bold")])] = some b!"<span id=\"a-b-bold\"></span><strong id=\"bold\">bold</strong><span id=\"a-b-bold-1\"></span><strong id=\"bold-1\">bold</strong><span id=\"a-c-bold\"></span><strong id=\"bold-2\">bold</strong>"

-- decorated_text_should_output_em_tag_for_italic_text
#guard ht [Inline.html html cfg (.decorated .italic [loc (.text b!"some text")])] = some b!"<em>some text</em>"

-- decorated_text_should_output_del_tag_for_strikeout_text
#guard ht [Inline.html html cfg (.decorated .strikeout [loc (.text b!"some text")])] = some b!"<del>some text</del>"

-- decorated_text_should_output_sup_tag_for_superscript_text
#guard ht [Inline.html html cfg (.decorated .superscript [loc (.text b!"some text")])] = some b!"<sup><small>some text</small></sup>"

-- decorated_text_should_output_sub_tag_for_subscript_text
#guard ht [Inline.html html cfg (.decorated .subscript [loc (.text b!"some text")])] = some b!"<sub><small>some text</small></sub>"

-- keyword_should_output_span_with_class_for_todo
#guard ht [Inline.html html cfg (.keyword .todo)] = some b!"<span class=\"todo\">TODO</span>"

-- keyword_should_output_self_in_all_caps
#guard ht [Inline.html html cfg (.keyword .done)] = some b!"DONE"

-- wiki_link_should_output_a_tag
#guard ht [Inline.html html ({ cfg with wikis := [{ defaultWiki with path := .ofStr b!"/wiki/wiki", pathHtml := .ofStr b!"/html/wiki", name := none }], wikiIndex := some 0, page := .ofStr b!"/wiki/wiki/test.wiki" }) (.link (.wiki ⟨(ref b!"some/page"), none, none⟩))] = some b!"<a href=\"some/page.html\">some/page</a>"

-- wiki_link_should_support_anchors
#guard ht [Inline.html html ({ cfg with wikis := [{ defaultWiki with path := .ofStr b!"/wiki/wiki", pathHtml := .ofStr b!"/html/wiki", name := none }], wikiIndex := some 0, page := .ofStr b!"/wiki/wiki/test.wiki" }) (.link (.wiki ⟨(ref b!"some/page#some-anchor"), none, none⟩))] = some b!"<a href=\"some/page.html#some-anchor\">some/page#some-anchor</a>"

-- wiki_link_should_support_standalone_anchors
#guard ht [Inline.html html ({ cfg with wikis := [{ defaultWiki with path := .ofStr b!"/wiki/wiki", pathHtml := .ofStr b!"/html/wiki", name := none }], wikiIndex := some 0, page := .ofStr b!"/wiki/wiki/test.wiki" }) (.link (.wiki ⟨(ref b!"#some-anchor"), none, none⟩))] = some b!"<a href=\"#some-anchor\">#some-anchor</a>"

-- wiki_link_should_support_text_description
#guard ht [Inline.html html ({ cfg with wikis := [{ defaultWiki with path := .ofStr b!"/wiki/wiki", pathHtml := .ofStr b!"/html/wiki", name := none }], wikiIndex := some 0, page := .ofStr b!"/wiki/wiki/test.wiki" }) (.link (.wiki ⟨(ref b!"some/page"), (some (.text b!"some description")), none⟩))] = some b!"<a href=\"some/page.html\">some description</a>"

-- wiki_link_should_support_transclusion_link_description
#guard ht [Inline.html html ({ cfg with wikis := [{ defaultWiki with path := .ofStr b!"/wiki/wiki", pathHtml := .ofStr b!"/html/wiki", name := none }], wikiIndex := some 0, page := .ofStr b!"/wiki/wiki/test.wiki" }) (.link (.wiki ⟨(ref b!"some/page"), (some (.transclusion (ref b!"some/img.png") none none)), none⟩))] = some b!"<a href=\"some/page.html\"><img src=\"some/img.png\" /></a>"

-- indexed_inter_wiki_link_should_output_a_tag
#guard ht [Inline.html html ({ cfg with wikis := [{ defaultWiki with path := .ofStr b!"/wiki/wiki", pathHtml := .ofStr b!"/html/wiki", name := none }, { defaultWiki with path := .ofStr b!"/wiki/wiki2", pathHtml := .ofStr b!"/html/wiki2", name := none }], wikiIndex := some 0, page := .ofStr b!"/wiki/wiki/test.wiki" }) (.link (.indexed 1 ⟨(ref b!"some/page"), none, none⟩))] = some b!"<a href=\"../wiki2/some/page.html\">some/page</a>"

-- indexed_inter_wiki_link_should_support_anchors
#guard ht [Inline.html html ({ cfg with wikis := [{ defaultWiki with path := .ofStr b!"/wiki/wiki", pathHtml := .ofStr b!"/html/wiki", name := none }, { defaultWiki with path := .ofStr b!"/wiki/wiki2", pathHtml := .ofStr b!"/html/wiki2", name := none }], wikiIndex := some 0, page := .ofStr b!"/wiki/wiki/test.wiki" }) (.link (.indexed 1 ⟨(ref b!"some/page#some-anchor"), none, none⟩))] = some b!"<a href=\"../wiki2/some/page.html#some-anchor\">some/page#some-anchor</a>"

-- indexed_inter_wiki_link_should_support_text_description
#guard ht [Inline.html html ({ cfg with wikis := [{ defaultWiki with path := .ofStr b!"/wiki/wiki", pathHtml := .ofStr b!"/html/wiki", name := none }, { defaultWiki with path := .ofStr b!"/wiki/wiki2", pathHtml := .ofStr b!"/html/wiki2", name := none }], wikiIndex := some 0, page := .ofStr b!"/wiki/wiki/test.wiki" }) (.link (.indexed 1 ⟨(ref b!"some/page"), (some (.text b!"some description")), none⟩))] = some b!"<a href=\"../wiki2/some/page.html\">some description</a>"

-- indexed_inter_wiki_link_should_support_transclusion_link_description
#guard ht [Inline.html html ({ cfg with wikis := [{ defaultWiki with path := .ofStr b!"/wiki/wiki", pathHtml := .ofStr b!"/html/wiki", name := none }, { defaultWiki with path := .ofStr b!"/wiki/wiki2", pathHtml := .ofStr b!"/html/wiki2", name := none }], wikiIndex := some 0, page := .ofStr b!"/wiki/wiki/test.wiki" }) (.link (.indexed 1 ⟨(ref b!"some/page"), (some (.transclusion (ref b!"some/img.png") none none)), none⟩))] = some b!"<a href=\"../wiki2/some/page.html\"><img src=\"some/img.png\" /></a>"

-- named_inter_wiki_link_should_output_a_tag
#guard ht [Inline.html html ({ cfg with wikis := [{ defaultWiki with path := .ofStr b!"/wiki/wiki", pathHtml := .ofStr b!"/html/wiki", name := none }, { defaultWiki with path := .ofStr b!"/wiki/wiki2", pathHtml := .ofStr b!"/html/wiki2", name := (some b!"my-wiki") }], wikiIndex := some 0, page := .ofStr b!"/wiki/wiki/test.wiki" }) (.link (.named b!"my-wiki" ⟨(ref b!"some/page"), none, none⟩))] = some b!"<a href=\"../wiki2/some/page.html\">some/page</a>"

-- named_inter_wiki_link_should_support_anchors
#guard ht [Inline.html html ({ cfg with wikis := [{ defaultWiki with path := .ofStr b!"/wiki/wiki", pathHtml := .ofStr b!"/html/wiki", name := none }, { defaultWiki with path := .ofStr b!"/wiki/wiki2", pathHtml := .ofStr b!"/html/wiki2", name := (some b!"my-wiki") }], wikiIndex := some 0, page := .ofStr b!"/wiki/wiki/test.wiki" }) (.link (.named b!"my-wiki" ⟨(ref b!"some/page#some-anchor"), none, none⟩))] = some b!"<a href=\"../wiki2/some/page.html#some-anchor\">some/page#some-anchor</a>"

-- named_inter_wiki_link_should_support_text_description
#guard ht [Inline.html html ({ cfg with wikis := [{ defaultWiki with path := .ofStr b!"/wiki/wiki", pathHtml := .ofStr b!"/html/wiki", name := none }, { defaultWiki with path := .ofStr b!"/wiki/wiki2", pathHtml := .ofStr b!"/html/wiki2", name := (some b!"my-wiki") }], wikiIndex := some 0, page := .ofStr b!"/wiki/wiki/test.wiki" }) (.link (.named b!"my-wiki" ⟨(ref b!"some/page"), (some (.text b!"some description")), none⟩))] = some b!"<a href=\"../wiki2/some/page.html\">some description</a>"

-- named_inter_wiki_link_should_support_transclusion_link_description
#guard ht [Inline.html html ({ cfg with wikis := [{ defaultWiki with path := .ofStr b!"/wiki/wiki", pathHtml := .ofStr b!"/html/wiki", name := none }, { defaultWiki with path := .ofStr b!"/wiki/wiki2", pathHtml := .ofStr b!"/html/wiki2", name := (some b!"my-wiki") }], wikiIndex := some 0, page := .ofStr b!"/wiki/wiki/test.wiki" }) (.link (.named b!"my-wiki" ⟨(ref b!"some/page"), (some (.transclusion (ref b!"some/img.png") none none)), none⟩))] = some b!"<a href=\"../wiki2/some/page.html\"><img src=\"some/img.png\" /></a>"

-- diary_link_should_output_a_tag
#guard ht [Inline.html html ({ cfg with wikis := [{ defaultWiki with path := .ofStr b!"/wiki/wiki", pathHtml := .ofStr b!"/html/wiki", name := none }], wikiIndex := some 0, page := .ofStr b!"/wiki/wiki/test.wiki" }) (.link (.diary ⟨2021, 5, 27⟩ ⟨(ref []), none, none⟩))] = some b!"<a href=\"diary/2021-05-27.html\">diary:2021-05-27</a>"

-- diary_link_should_support_text_description
#guard ht [Inline.html html ({ cfg with wikis := [{ defaultWiki with path := .ofStr b!"/wiki/wiki", pathHtml := .ofStr b!"/html/wiki", name := none }], wikiIndex := some 0, page := .ofStr b!"/wiki/wiki/test.wiki" }) (.link (.diary ⟨2021, 5, 27⟩ ⟨(ref []), (some (.text b!"some description")), none⟩))] = some b!"<a href=\"diary/2021-05-27.html\">some description</a>"

-- diary_link_should_support_transclusion_link_description
#guard ht [Inline.html html ({ cfg with wikis := [{ defaultWiki with path := .ofStr b!"/wiki/wiki", pathHtml := .ofStr b!"/html/wiki", name := none }], wikiIndex := some 0, page := .ofStr b!"/wiki/wiki/test.wiki" }) (.link (.diary ⟨2021, 5, 27⟩ ⟨(ref []), (some (.transclusion (ref b!"some/img.png") none none)), none⟩))] = some b!"<a href=\"diary/2021-05-27.html\"><img src=\"some/img.png\" /></a>"

-- raw_link_should_output_a_tag
#guard ht [Inline.html html cfg (.link (.raw ⟨(ref b!"https://example.com"), none, none⟩))] = some b!"<a href=\"https://example.com/\">https://example.com/</a>"

-- transclusion_link_should_output_img_tag
#guard ht [Inline.html html cfg (.link (.transclusion ⟨(ref b!"https://example.com/img.jpg"), none, none⟩))] = some b!"<img src=\"https://example.com/img.jpg\" />"

-- transclusion_link_should_support_local_uris
#guard ht [Inline.html html ({ cfg with wikis := [{ defaultWiki with path := .ofStr b!"/wiki/wiki", pathHtml := .ofStr b!"/html/wiki", name := none }], wikiIndex := some 0, page := .ofStr b!"/wiki/wiki/test.wiki" }) (.link (.transclusion ⟨(ref b!"img/pic.png"), none, none⟩))] = some b!"<img src=\"img/pic.png\" />"

-- transclusion_link_should_use_description_as_alt_text
#guard ht [Inline.html html cfg (.link (.transclusion ⟨(ref b!"https://example.com/img.jpg"), (some (.text b!"some description")), none⟩))] = some b!"<img src=\"https://example.com/img.jpg\" alt=\"some description\" />"

-- transclusion_link_should_escape_html
#guard ht [Inline.html html cfg (.link (.transclusion ⟨(ref b!"https://example.com/img.jpg?a=b&c=d"), (some (.text b!"<test>some description</test>")), (some [(b!"key1", b!"<test>value1</test>")])⟩))] = some b!"<img src=\"https://example.com/img.jpg?a=b&c=d\" alt=\"&lt;test&gt;some description&lt;/test&gt;\" key1=\"&lt;test&gt;value1&lt;/test&gt;\" />"

-- tags_should_output_span_per_tag
#guard ht [Inline.html html cfg (.tags [b!"one", b!"two"])] = some b!"<span class=\"tag\" id=\"one\">one</span><span class=\"tag\" id=\"two\">two</span>"

-- tags_should_include_extra_span_with_id_comprised_of_previous_headers
#guard ht [W.insertHeader 1 b!"first-id", W.insertHeader 3 b!"third-id", Inline.html html cfg (.tags [b!"one", b!"two"])] = some b!"<span id=\"first-id-third-id-one\"></span><span class=\"tag\" id=\"one\">one</span><span id=\"first-id-third-id-two\"></span><span class=\"tag\" id=\"two\">two</span>"

-- tags_should_escape_html
#guard ht [Inline.html html cfg (.tags [b!"one&", b!"two>"])] = some b!"<span class=\"tag\" id=\"one&amp;\">one&amp;</span><span class=\"tag\" id=\"two&gt;\">two&gt;</span>"

-- tags_should_produce_unique_ids_from_repeated_same_tags
#guard ht [Inline.html html cfg (.tags [b!"one", b!"two"]), Inline.html html cfg (.tags [b!"one", b!"two"])] = some b!"<span class=\"tag\" id=\"one\">one</span><span class=\"tag\" id=\"two\">two</span><span class=\"tag\" id=\"one-1\">one</span><span class=\"tag\" id=\"two-1\">two</span>"

-- tags_should_produce_unique_ids_from_repeated_same_tags_with_nested_headers
#guard ht [W.insertHeader 1 b!"a", W.insertHeader 2 b!"b", Inline.html html cfg (.tags [b!"one", b!"two"]), Inline.html html cfg (.tags [b!"one", b!"two"]), W.insertHeader 2 b!"c", Inline.html html cfg (.tags [b!"one", b!"two"])] = some b!"<span id=\"a-b-one\"></span><span class=\"tag\" id=\"one\">one</span><span id=\"a-b-two\"></span><span class=\"tag\" id=\"two\">two</span><span id=\"a-b-one-1\"></span><span class=\"tag\" id=\"one-1\">one</span><span id=\"a-b-two-1\"></span><span class=\"tag\" id=\"two-1\">two</span><span id=\"a-c-one\"></span><span class=\"tag\" id=\"one-2\">one</span><span id=\"a-c-two\"></span><span class=\"tag\" id=\"two-2\">two</span>"

-- code_inline_should_output_code_tag
#guard ht [Inline.html html cfg (.code b!"some code")] = some b!"<code>some code</code>"

-- code_inline_should_escape_html
#guard ht [Inline.html html cfg (.code b!"<test>some code</test>")] = some b!"<code>&lt;test&gt;some code&lt;/test&gt;</code>"

-- math_inline_should_output_a_mathjax_notation
#guard ht [Inline.html html cfg (.math b!"some math")] = some b!"\\(some math\\)"

-- math_inline_should_escape_html
#guard ht [Inline.html html cfg (.math b!"<test>some math</test>")] = some b!"\\(&lt;test&gt;some math&lt;/test&gt;\\)"

-- comment_should_output_tag_based_on_inner_element
#guard ht [Inline.html html ({ cfg with comments := true }) (.comment (.line b!"some comment"))] = some b!"<!-- some comment -->"
#guard ht [Inline.html html ({ cfg with comments := true }) (.comment (.multi [b!"some comment", b!"on multiple lines"]))] = some b!"<!--\nsome comment\non multiple lines\n-->"

-- line_comment_should_output_html_comment_if_flagged
#guard ht [Inline.html html cfg (.comment (.line b!"some comment"))] = some []
#guard ht [Inline.html html ({ cfg with comments := true }) (.comment (.line b!"some comment"))] = some b!"<!-- some comment -->"

-- multi_line_comment_should_output_html_comment_if_flagged
#guard ht [Inline.html html cfg (.comment (.multi [b!"some comment", b!"on multiple lines"]))] = some []
#guard ht [Inline.html html ({ cfg with comments := true }) (.comment (.multi [b!"some comment", b!"on multiple lines"]))] = some b!"<!--\nsome comment\non multiple lines\n-->"

end Vw.Tests
