# Axioms of the property theorems

Output of `#print axioms`.

| theorem | axioms |
|---|---|
| `Ftml.Preproc.C01_no_control_chars` | propext, Quot.sound |
| `Ftml.Preproc.C02_no_edge_newlines` | propext, Quot.sound |
| `Ftml.Preproc.C03_preprocess_total` | propext, Classical.choice, Quot.sound |
| `Ftml.Preproc.C04_newline_pass` | propext, Classical.choice, Quot.sound |
| `Ftml.Preproc.C04_concat_pass` | propext, Classical.choice, Quot.sound |
| `Ftml.Preproc.C04_tab_pass` | propext, Classical.choice, Quot.sound |
| `Ftml.Preproc.C04_null_pass` | propext, Classical.choice, Quot.sound |
| `Ftml.Preproc.C04_backslash_newline_can_remain` | propext |
| `Ftml.Preproc.C04_no_backslash_newline` | propext, Classical.choice, Quot.sound |
| `Ftml.Preproc.C05_dots_can_remain` | propext |
| `Ftml.Preproc.C05_typography_identity` | propext, Quot.sound |
| `Ftml.Preproc.C06_preprocess_identity` | propext, Classical.choice, Quot.sound |
| `Ftml.C07_tokens_tile` | propext, Quot.sound |
| `Ftml.C07_positions_are_bytes` | propext, Classical.choice, Quot.sound |
| `Ftml.C08_lexer_never_falls_back` | propext, Classical.choice, Quot.sound |
| `Ftml.C08_first_token` | propext, Quot.sound |
| `Ftml.C09_no_email_token` | propext, Quot.sound |
| `Ftml.C10_utf16_exact` | propext, Classical.choice, Quot.sound |
| `Ftml.C10_utf16_panics` | propext, Classical.choice, Quot.sound |
| `Ftml.C10_utf16_empty` | none |
| `Ftml.C11_tokens_to_utf16` | propext, Classical.choice, Quot.sound |
| `Ftml.C11_empty_text_panics` | propext |
| `Ftml.C12_normalized_href_safe` | propext, Quot.sound |
| `Ftml.C12_no_dangerous_scheme` | propext, Quot.sound |
| `Ftml.C12_protocol_relative_passes` | propext, Quot.sound |
| `Ftml.C12_dangerous_rejected` | propext, Classical.choice, Quot.sound |
| `Ftml.C12_passed_unchanged` | propext, Quot.sound |
| `Ftml.C13_attribute_ids` | propext, Classical.choice, Quot.sound |
| `Ftml.C13_isolate_ids` | propext, Quot.sound |
| `Ftml.C13_all_prefixed` | propext, Quot.sound |
| `Ftml.C13_idempotent` | propext, Quot.sound |
| `Ftml.C14_refines_list` | propext, Quot.sound |
| `Ftml.C14_observers` | propext, Classical.choice, Quot.sound |
| `Ftml.C15_process_depths` | propext, Classical.choice, Quot.sound |
| `Ftml.C16_round_trip` | propext, Quot.sound |
| `Ftml.C16_parse_display_stable` | propext, Quot.sound |
| `Ftml.C17_parse_fails_iff` | propext, Quot.sound |
| `Ftml.C17_parts_trimmed` | propext, Quot.sound |
| `Ftml.C18_build` | propext, Quot.sound |
| `Ftml.C18_no_space` | propext, Quot.sound |
| `Ftml.C19_innermost_wins` | propext, Quot.sound |
| `Ftml.C19_push_pop` | propext |
| `Ftml.C20_whitelisted` | propext, Quot.sound |
| `Ftml.C20_no_event_handlers` | propext, Quot.sound |
| `Ftml.C20_urls_safe` | propext, Quot.sound |
| `Ftml.C20_unsafe_dropped` | propext, Quot.sound |
| `Ftml.C20_order_independent` | propext, Quot.sound |
| `Ftml.C21_get_first` | propext, Quot.sound |
| `Ftml.C21_add_history` | propext, Quot.sound |
| `Ftml.C21_reference_first` | propext, Quot.sound |
| `Ftml.C22_verbatim` | propext, Quot.sound |
| `Ftml.C22_split` | propext, Quot.sound |
| `Ftml.C23_image_source` | propext, Classical.choice, Quot.sound |
| `Ftml.Includes.C24_disabled` | propext |
| `Ftml.Includes.C25_splice` | propext, Classical.choice, Quot.sound |
| `Ftml.Includes.C25_succeeds` | propext, Classical.choice, Quot.sound |
| `Ftml.Includes.C25_finds_all` | propext, Classical.choice, Quot.sound |
| `Ftml.Includes.C25_disjoint` | propext, Quot.sound |
| `Ftml.Includes.C26_wrong_count` | propext |
| `Ftml.Includes.C26_wrong_page` | propext, Quot.sound |
| `Ftml.Includes.C26_includer_error` | propext |
| `Ftml.Includes.C27_no_panic` | propext, Classical.choice, Quot.sound |
| `Ftml.Includes.C27_nested_panics` | propext |
| `Ftml.Includes.C28_one_pass` | propext, Classical.choice, Quot.sound |
| `Ftml.Includes.C28_deterministic` | propext, Classical.choice, Quot.sound |
| `Ftml.C29_parse_terminates` | propext, Classical.choice, Quot.sound |
| `Ftml.C30_parse_does_not_panic` | propext, Classical.choice, Quot.sound |
| `Ftml.C30_panics` | propext, Classical.choice, Quot.sound |
| `Ftml.C30_double_parenthesis_panics` | propext |
| `Ftml.C30_item_in_div_panics` | propext |
| `Ftml.C30_blank_label_in_heading_panics` | propext |
| `Ftml.C31_error_spans` | propext, Classical.choice, Quot.sound |
| `Ftml.C32_attributes_safe` | propext, Classical.choice, Quot.sound |
| `Ftml.C33_no_page_syntax` | propext, Classical.choice, Quot.sound |
| `Ftml.C34_bibliography_index` | propext, Classical.choice, Quot.sound |
| `Ftml.C35_code_names_unique` | propext, Classical.choice, Quot.sound |
| `Ftml.C35_code_and_html_listed` | propext, Classical.choice, Quot.sound |
| `Ftml.C36_footnotes_do_not_nest` | propext, Classical.choice, Quot.sound |
| `Ftml.C37_paragraphs` | propext, Classical.choice, Quot.sound |
| `Ftml.C38_footnote_block_appended` | propext, Classical.choice, Quot.sound |
| `Ftml.C39_plain_text` | propext, Classical.choice, Quot.sound |
| `Ftml.C40_list_bullet_lost` | propext |
| `Ftml.C40_heading_mark_lost` | propext |
| `Ftml.C40_definition_value_lost` | propext |
| `Ftml.C40_table_row_lost` | propext |
| `Ftml.C40_table_blank_row_lost` | propext |
| `Ftml.C40_definition_taken` | propext |
| `Ftml.C41_depth_limit` | propext, Classical.choice, Quot.sound |
| `Ftml.C42_escaped_has_no_markup` | propext, Quot.sound |
| `Ftml.C42_escaped_ampersands` | propext, Quot.sound |
| `Ftml.C42_escaped_reads_back` | propext, Quot.sound |
| `Ftml.C42_escape_injective` | propext, Quot.sound |
| `Ftml.C43_rendered_is_nested` | propext, Classical.choice, Quot.sound |
| `Ftml.C44_tags_and_attributes` | propext, Classical.choice, Quot.sound |
| `Ftml.C44_attribute_name_injection` | propext |
| `Ftml.C44_texts_are_inert` | propext, Classical.choice, Quot.sound |
| `Ftml.C45_link_addresses` | propext, Classical.choice, Quot.sound |
| `Ftml.C45_javascript_extra` | propext, Quot.sound |
| `Ftml.C46_references_numbered` | propext, Classical.choice, Quot.sound |
| `Ftml.C46_reference_count` | propext, Classical.choice, Quot.sound |
| `Ftml.C46_outcome` | propext, Classical.choice, Quot.sound |
| `Ftml.C46_footnote_in_entry_panics` | propext |
| `Ftml.C47_cycle_never_renders` | propext, Quot.sound |
| `Ftml.C47_self_citation` | propext, Quot.sound |
| `Ftml.C47_footnote_block_in_footnotes` | propext, Quot.sound |
| `Ftml.C47_hangs` | propext, Classical.choice, Quot.sound |
| `Ftml.C47_self_citing_page` | propext, Classical.choice, Quot.sound |
| `Ftml.C47_block_in_footnote_page` | propext, Classical.choice, Quot.sound |
| `Ftml.C48_heading_ids` | propext, Classical.choice, Quot.sound |
| `Ftml.C48_heading_ids_distinct` | propext, Classical.choice, Quot.sound |
| `Ftml.C49_no_outer_newlines` | propext, Classical.choice, Quot.sound |
| `Ftml.C49_hidden_has_no_effect` | propext, Quot.sound |
| `Ftml.C50_text_panics_iff` | propext, Quot.sound |
| `Ftml.C50_nested_items_panic` | propext |
| `Ftml.C50_blank_label_panics` | propext |
| `Ftml.Preproc.C51_content_preserved` | propext, Classical.choice, Quot.sound |
| `Ftml.Preproc.C52_newlines_compressed` | propext, Quot.sound |
| `Ftml.Preproc.C52_newlines_not_compressed_in_general` | propext |
| `Ftml.Preproc.C53_not_idempotent` | propext |
| `Ftml.C54_quote_round_trip` | propext |
| `Ftml.C54_unquoted_verbatim` | propext, Quot.sound |
| `Ftml.C54_trailing_backslash_lost` | propext |
| `Ftml.C55_parse_boolean` | propext |
| `Ftml.C56_anchor_target` | none |
| `Ftml.C57_blanks_maximal` | propext, Quot.sound |
| `Ftml.C57_token_shapes` | propext, Quot.sound |
| `Ftml.C57_heading_tokens` | propext, Quot.sound |
| `Ftml.C57_line_ends` | propext, Quot.sound |
| `Ftml.Includes.C58_first_argument_wins` | propext, Classical.choice, Quot.sound |
| `Ftml.Includes.C58_argument_shape` | propext, Quot.sound |
| `Ftml.C59_partials_under_hosts` | propext, Classical.choice, Quot.sound |
| `Ftml.C59_left_over_item` | propext |
| `Ftml.C60_table_of_contents` | propext, Classical.choice, Quot.sound |
| `Ftml.C60_duplicate_entries` | propext |
| `Ftml.C61_structure` | propext, Classical.choice, Quot.sound |
| `Ftml.C61_top_level` | propext, Classical.choice, Quot.sound |
| `Ftml.C61_counts` | propext, Classical.choice, Quot.sound |
| `Ftml.C61_empty_list` | propext |
| `Ftml.C62_origin_of_elements` | propext, Classical.choice, Quot.sound |
| `Ftml.C62_origin_of_collections` | propext, Classical.choice, Quot.sound |
| `Ftml.C63_verbatim` | propext, Classical.choice, Quot.sound |
| `Ftml.C64_footnote_references` | propext, Classical.choice, Quot.sound |
| `Ftml.C64_duplicate_footnotes` | propext |
| `Ftml.C65_values` | propext, Classical.choice, Quot.sound |
| `Ftml.C65_page_label` | propext, Classical.choice, Quot.sound |
| `Ftml.C66_parsed_text_renders` | propext, Classical.choice, Quot.sound |
| `Ftml.C67_visible_text_kept` | propext, Quot.sound |
| `Ftml.C68_invisible_is_blank` | propext, Quot.sound |
| `Ftml.C68_equation_reference_leaks` | propext |
| `Ftml.C69_depth_irrelevant` | propext |
| `Ftml.C69_returns` | propext, Quot.sound |
| `Ftml.C69_parsed_sound` | propext, Classical.choice, Quot.sound |
| `Ftml.C69_parsed_page_renders` | propext, Classical.choice, Quot.sound |
| `Ftml.C70_texts_are_shown` | propext, Classical.choice, Quot.sound |
| `Ftml.C71_pages` | propext, Classical.choice, Quot.sound |
| `Ftml.C71_float_marks` | propext |
| `Ftml.C72_html` | propext, Classical.choice, Quot.sound |
| `Ftml.C73_text` | propext, Classical.choice, Quot.sound |
| `Ftml.C74_links_reported` | propext, Classical.choice, Quot.sound |
| `Ftml.C74_fragments_and_images` | propext |
| `Ftml.C75_parsed_trees_are_plain` | propext, Classical.choice, Quot.sound |
| `Ftml.C75_rendered_text_is_safe` | propext, Classical.choice, Quot.sound |
| `Ftml.C75_every_text` | propext, Classical.choice, Quot.sound |
| `Ftml.C76_iftags` | propext, Classical.choice, Quot.sound |
| `Ftml.C76_ifcategory` | propext, Classical.choice, Quot.sound |
| `Ftml.C76_hidden_footnote_shown` | propext, Quot.sound |
| `Ftml.C76_conditions` | propext, Classical.choice, Quot.sound |
| `Ftml.C76_categories` | propext, Classical.choice, Quot.sound |
| `Ftml.C76_every_text` | propext, Quot.sound |
| `Ftml.C77_timezones` | propext, Classical.choice, Quot.sound |
| `Ftml.C77_few_digits_are_hours` | propext |
| `Ftml.C78_char_codes` | propext, Classical.choice, Quot.sound |
| `Ftml.C78_no_char` | propext, Classical.choice, Quot.sound |
| `Ftml.C79_lines` | propext, Classical.choice, Quot.sound |
| `Ftml.C80_attributes_written` | propext, Classical.choice, Quot.sound |
| `Ftml.C80_no_attributes` | propext, Classical.choice, Quot.sound |
| `Ftml.C81_text_elements` | propext, Classical.choice, Quot.sound |
| `Ftml.C81_other_strings` | propext, Classical.choice, Quot.sound |
| `Ftml.C81_arguments` | propext, Classical.choice, Quot.sound |
| `Ftml.C82_prefixed_is_not_generated` | propext |
| `Ftml.C82_ids` | propext, Classical.choice, Quot.sound |
| `Ftml.C82_isolated` | propext, Classical.choice, Quot.sound |
| `Ftml.C82_clash_without_isolation` | propext, Quot.sound |
| `Ftml.C82_nul_escapes` | propext, Quot.sound |
| `Ftml.C83_images` | propext, Classical.choice, Quot.sound |
| `Ftml.C83_text_images` | propext, Classical.choice, Quot.sound |
| `Ftml.C83_source_appended` | propext, Quot.sound |
| `Ftml.C84_ids` | propext, Classical.choice, Quot.sound |
| `Ftml.C84_posts` | propext, Classical.choice, Quot.sound |
| `Ftml.C84_fixed_ids` | propext, Quot.sound |
| `Ftml.C85_owned_copy` | propext, Quot.sound |
| `Ftml.C85_parsed_copy` | propext, Classical.choice, Quot.sound |
| `Ftml.C85_iterators` | propext |
| `Ftml.C85_conversions` | none |
| `Ftml.Includes.C86_null_includer` | propext |
| `Ftml.Includes.C86_debug_includer` | propext, Classical.choice, Quot.sound |
| `Ftml.Includes.C86_debug_text` | propext, Quot.sound |
| `Ftml.C87_karma` | propext |
| `Ftml.C88_contents_lead_to_headings` | propext, Classical.choice, Quot.sound |
| `Ftml.C88_draft_dangles` | propext, Classical.choice, Quot.sound |
| `Ftml.C89_line_endings` | propext, Classical.choice, Quot.sound |
| `Ftml.C89_no_includes` | propext |
| `Ftml.C89_nothing_included` | propext |
| `Ftml.C89_source_to_output` | propext, Classical.choice, Quot.sound |
| `Ftml.C90_entries` | propext, Quot.sound |
| `Ftml.C90_page` | propext, Quot.sound |
| `Ftml.C91_element_format` | propext, Quot.sound |
| `Ftml.C91_tree_format` | propext, Quot.sound |
| `Ftml.C91_round_trip` | propext, Classical.choice, Quot.sound |
| `Ftml.C91_parsed_round_trip` | propext, Classical.choice, Quot.sound |
| `Ftml.C91_json_tells_trees_apart` | propext, Classical.choice, Quot.sound |
| `Ftml.C91_repeated_keys` | propext, Quot.sound |
| `Ftml.C91_link_types` | none |
| `Ftml.C92_names` | none |
| `Ftml.C92_token_format` | none |
| `Ftml.C92_settings_format` | none |
| `Ftml.C92_tokens` | propext, Classical.choice, Quot.sound |
| `Ftml.C92_tokens_tile` | propext, Classical.choice, Quot.sound |
| `Ftml.C92_empty_text` | propext |
| `Ftml.C92_parse` | propext, Classical.choice, Quot.sound |
| `Ftml.C92_positions` | propext, Classical.choice, Quot.sound |
| `Ftml.C92_from_mode` | propext |
| `Ftml.C92_settings_round_trip` | propext, Quot.sound |
| `Ftml.C92_error_round_trip` | propext |
| `Ftml.C93_link_types` | propext |
| `Ftml.C93_layouts` | propext |
| `Ftml.C93_alignments` | propext |
| `Ftml.C93_heading_marks` | none |
| `Ftml.C93_headings` | propext, Quot.sound |
| `Ftml.C93_trim` | propext, Classical.choice, Quot.sound |
| `Ftml.C94_unclosed_blocks` | propext, Classical.choice, Quot.sound |
| `Ftml.Includes.C95_finds` | propext, Classical.choice, Quot.sound |
| `Ftml.Includes.C95_replaces` | propext, Classical.choice, Quot.sound |
| `Ftml.C96_entries` | propext, Classical.choice, Quot.sound |
| `Ftml.C96_cited` | propext, Classical.choice, Quot.sound |
| `Ftml.C96_citations` | propext, Classical.choice, Quot.sound |
| `Ftml.C96_numbers_ambiguous` | propext |
| `Ftml.C97_inserts` | propext, Quot.sound |
| `Ftml.C98_hard_breaks` | propext, Classical.choice, Quot.sound |
| `Ftml.C99_links` | propext, Classical.choice, Quot.sound |
| `Ftml.C99_addresses` | propext, Classical.choice, Quot.sound |
| `Ftml.Preproc.C100_indent_pass` | propext, Classical.choice, Quot.sound |
| `Ftml.Preproc.C100_blank_pass` | propext, Classical.choice, Quot.sound |
| `Ftml.Preproc.C100_edge_passes` | propext, Classical.choice, Quot.sound |
| `Ftml.Preproc.C100_whitespace` | propext, Classical.choice, Quot.sound |
| `Ftml.Preproc.C100_preprocess` | propext, Classical.choice, Quot.sound |
| `Ftml.Preproc.C100_preprocess_iff` | propext, Classical.choice, Quot.sound |
| `Ftml.PageJson.C101_read` | propext, Classical.choice, Quot.sound |
| `Ftml.PageJson.C101_format` | none |
| `Ftml.PageJson.C101_round_trip` | propext, Quot.sound |
| `Ftml.PageJson.C101_score` | propext, Classical.choice, Quot.sound |
| `Ftml.C102_raw_text` | propext, Classical.choice, Quot.sound |
| `Ftml.C102_html` | propext, Classical.choice, Quot.sound |
| `Ftml.C102_text` | propext, Classical.choice, Quot.sound |
| `Ftml.C103_scored_block` | propext, Classical.choice, Quot.sound |
| `Ftml.C103_not_scored` | propext |
| `Ftml.C104_order` | propext, Quot.sound |
| `Ftml.C104_extra` | propext |
| `Ftml.C104_needed` | propext, Classical.choice, Quot.sound |
| `Ftml.C104_twice` | propext, Classical.choice, Quot.sound |
| `Ftml.C104_length` | propext |
| `Ftml.C104_element_fields` | propext, Quot.sound |
| `Ftml.C104_element_needed` | propext, Classical.choice, Quot.sound |
| `Ftml.C104_no_contents` | propext |
| `Ftml.C104_page_reference` | propext, Classical.choice, Quot.sound |
| `Ftml.C105_tags` | propext, Classical.choice, Quot.sound |
| `Ftml.C105_html` | propext, Classical.choice, Quot.sound |
| `Ftml.C105_text` | propext, Classical.choice, Quot.sound |
| `Ftml.C106_comments` | propext, Classical.choice, Quot.sound |
| `Ftml.C106_no_effect` | propext, Classical.choice, Quot.sound |
| `Ftml.C107_parse` | propext, Quot.sound |
| `Ftml.C107_text` | propext |
| `Ftml.C107_html` | propext, Quot.sound |
| `Ftml.C107_tree` | propext |
| `Ftml.C107_modes` | propext, Quot.sound |
