{
 "claims": [
  {
   "property": "C01",
   "status": "proved",
   "theorems": [
    "Ftml.Preproc.C01_no_control_chars"
   ],
   "note": ""
  },
  {
   "property": "C02",
   "status": "proved",
   "theorems": [
    "Ftml.Preproc.C02_no_edge_newlines"
   ],
   "note": ""
  },
  {
   "property": "C03",
   "status": "proved",
   "theorems": [
    "Ftml.Preproc.C03_preprocess_total"
   ],
   "note": ""
  },
  {
   "property": "C04",
   "status": "proved",
   "theorems": [
    "Ftml.Preproc.C04_newline_pass",
    "Ftml.Preproc.C04_concat_pass",
    "Ftml.Preproc.C04_tab_pass",
    "Ftml.Preproc.C04_null_pass",
    "Ftml.Preproc.C04_backslash_newline_can_remain",
    "Ftml.Preproc.C04_no_backslash_newline"
   ],
   "note": ""
  },
  {
   "property": "C05",
   "status": "proved",
   "theorems": [
    "Ftml.Preproc.C05_dots_can_remain",
    "Ftml.Preproc.C05_typography_identity"
   ],
   "note": ""
  },
  {
   "property": "C06",
   "status": "proved",
   "theorems": [
    "Ftml.Preproc.C06_preprocess_identity"
   ],
   "note": ""
  },
  {
   "property": "C07",
   "status": "proved",
   "theorems": [
    "Ftml.C07_tokens_tile",
    "Ftml.C07_positions_are_bytes"
   ],
   "note": ""
  },
  {
   "property": "C08",
   "status": "proved",
   "theorems": [
    "Ftml.C08_lexer_never_falls_back",
    "Ftml.C08_first_token"
   ],
   "note": ""
  },
  {
   "property": "C09",
   "status": "proved",
   "theorems": [
    "Ftml.C09_no_email_token"
   ],
   "note": ""
  },
  {
   "property": "C10",
   "status": "proved",
   "theorems": [
    "Ftml.C10_utf16_exact",
    "Ftml.C10_utf16_panics",
    "Ftml.C10_utf16_empty"
   ],
   "note": ""
  },
  {
   "property": "C11",
   "status": "proved",
   "theorems": [
    "Ftml.C11_tokens_to_utf16",
    "Ftml.C11_empty_text_panics"
   ],
   "note": ""
  },
  {
   "property": "C12",
   "status": "proved",
   "theorems": [
    "Ftml.C12_normalized_href_safe",
    "Ftml.C12_no_dangerous_scheme",
    "Ftml.C12_protocol_relative_passes",
    "Ftml.C12_dangerous_rejected",
    "Ftml.C12_passed_unchanged"
   ],
   "note": ""
  },
  {
   "property": "C13",
   "status": "proved",
   "theorems": [
    "Ftml.C13_attribute_ids",
    "Ftml.C13_isolate_ids",
    "Ftml.C13_all_prefixed",
    "Ftml.C13_idempotent"
   ],
   "note": ""
  },
  {
   "property": "C14",
   "status": "proved",
   "theorems": [
    "Ftml.C14_refines_list",
    "Ftml.C14_observers"
   ],
   "note": ""
  },
  {
   "property": "C15",
   "status": "proved",
   "theorems": [
    "Ftml.C15_process_depths"
   ],
   "note": ""
  },
  {
   "property": "C16",
   "status": "proved",
   "theorems": [
    "Ftml.C16_round_trip",
    "Ftml.C16_parse_display_stable"
   ],
   "note": ""
  },
  {
   "property": "C17",
   "status": "proved",
   "theorems": [
    "Ftml.C17_parse_fails_iff",
    "Ftml.C17_parts_trimmed"
   ],
   "note": ""
  },
  {
   "property": "C18",
   "status": "proved",
   "theorems": [
    "Ftml.C18_build",
    "Ftml.C18_no_space"
   ],
   "note": ""
  },
  {
   "property": "C19",
   "status": "proved",
   "theorems": [
    "Ftml.C19_innermost_wins",
    "Ftml.C19_push_pop"
   ],
   "note": ""
  },
  {
   "property": "C20",
   "status": "proved",
   "theorems": [
    "Ftml.C20_whitelisted",
    "Ftml.C20_no_event_handlers",
    "Ftml.C20_urls_safe",
    "Ftml.C20_unsafe_dropped",
    "Ftml.C20_order_independent"
   ],
   "note": ""
  },
  {
   "property": "C21",
   "status": "proved",
   "theorems": [
    "Ftml.C21_get_first",
    "Ftml.C21_add_history",
    "Ftml.C21_reference_first"
   ],
   "note": ""
  },
  {
   "property": "C22",
   "status": "proved",
   "theorems": [
    "Ftml.C22_verbatim",
    "Ftml.C22_split"
   ],
   "note": ""
  },
  {
   "property": "C23",
   "status": "proved",
   "theorems": [
    "Ftml.C23_image_source"
   ],
   "note": ""
  },
  {
   "property": "C24",
   "status": "proved",
   "theorems": [
    "Ftml.Includes.C24_disabled"
   ],
   "note": ""
  },
  {
   "property": "C25",
   "status": "proved",
   "theorems": [
    "Ftml.Includes.C25_splice",
    "Ftml.Includes.C25_succeeds",
    "Ftml.Includes.C25_finds_all",
    "Ftml.Includes.C25_disjoint"
   ],
   "note": ""
  },
  {
   "property": "C26",
   "status": "proved",
   "theorems": [
    "Ftml.Includes.C26_wrong_count",
    "Ftml.Includes.C26_wrong_page",
    "Ftml.Includes.C26_includer_error"
   ],
   "note": ""
  },
  {
   "property": "C27",
   "status": "proved",
   "theorems": [
    "Ftml.Includes.C27_no_panic",
    "Ftml.Includes.C27_nested_panics"
   ],
   "note": ""
  },
  {
   "property": "C28",
   "status": "proved",
   "theorems": [
    "Ftml.Includes.C28_one_pass",
    "Ftml.Includes.C28_deterministic"
   ],
   "note": ""
  },
  {
   "property": "C29",
   "status": "proved",
   "theorems": [
    "Ftml.C29_parse_terminates"
   ],
   "note": ""
  },
  {
   "property": "C30",
   "status": "proved",
   "theorems": [
    "Ftml.C30_parse_does_not_panic",
    "Ftml.C30_panics",
    "Ftml.C30_double_parenthesis_panics",
    "Ftml.C30_item_in_div_panics",
    "Ftml.C30_blank_label_in_heading_panics"
   ],
   "note": ""
  },
  {
   "property": "C31",
   "status": "proved",
   "theorems": [
    "Ftml.C31_error_spans"
   ],
   "note": ""
  },
  {
   "property": "C32",
   "status": "proved",
   "theorems": [
    "Ftml.C32_attributes_safe"
   ],
   "note": ""
  },
  {
   "property": "C33",
   "status": "proved",
   "theorems": [
    "Ftml.C33_no_page_syntax"
   ],
   "note": ""
  },
  {
   "property": "C34",
   "status": "proved",
   "theorems": [
    "Ftml.C34_bibliography_index"
   ],
   "note": ""
  },
  {
   "property": "C35",
   "status": "proved",
   "theorems": [
    "Ftml.C35_code_names_unique",
    "Ftml.C35_code_and_html_listed"
   ],
   "note": ""
  },
  {
   "property": "C36",
   "status": "proved",
   "theorems": [
    "Ftml.C36_footnotes_do_not_nest"
   ],
   "note": ""
  },
  {
   "property": "C37",
   "status": "proved",
   "theorems": [
    "Ftml.C37_paragraphs"
   ],
   "note": ""
  },
  {
   "property": "C38",
   "status": "proved",
   "theorems": [
    "Ftml.C38_footnote_block_appended"
   ],
   "note": ""
  },
  {
   "property": "C39",
   "status": "proved",
   "theorems": [
    "Ftml.C39_plain_text"
   ],
   "note": ""
  },
  {
   "property": "C40",
   "status": "proved",
   "theorems": [
    "Ftml.C40_list_bullet_lost",
    "Ftml.C40_heading_mark_lost",
    "Ftml.C40_definition_value_lost",
    "Ftml.C40_table_row_lost",
    "Ftml.C40_table_blank_row_lost",
    "Ftml.C40_definition_taken"
   ],
   "note": ""
  },
  {
   "property": "C41",
   "status": "proved",
   "theorems": [
    "Ftml.C41_depth_limit"
   ],
   "note": ""
  },
  {
   "property": "C42",
   "status": "proved",
   "theorems": [
    "Ftml.C42_escaped_has_no_markup",
    "Ftml.C42_escaped_ampersands",
    "Ftml.C42_escaped_reads_back",
    "Ftml.C42_escape_injective"
   ],
   "note": ""
  },
  {
   "property": "C43",
   "status": "proved",
   "theorems": [
    "Ftml.C43_rendered_is_nested"
   ],
   "note": ""
  },
  {
   "property": "C44",
   "status": "proved",
   "theorems": [
    "Ftml.C44_tags_and_attributes",
    "Ftml.C44_attribute_name_injection",
    "Ftml.C44_texts_are_inert"
   ],
   "note": ""
  },
  {
   "property": "C45",
   "status": "proved",
   "theorems": [
    "Ftml.C45_link_addresses",
    "Ftml.C45_javascript_extra"
   ],
   "note": ""
  },
  {
   "property": "C46",
   "status": "proved",
   "theorems": [
    "Ftml.C46_references_numbered",
    "Ftml.C46_reference_count",
    "Ftml.C46_outcome",
    "Ftml.C46_footnote_in_entry_panics"
   ],
   "note": ""
  },
  {
   "property": "C47",
   "status": "proved",
   "theorems": [
    "Ftml.C47_cycle_never_renders",
    "Ftml.C47_self_citation",
    "Ftml.C47_footnote_block_in_footnotes",
    "Ftml.C47_hangs",
    "Ftml.C47_self_citing_page",
    "Ftml.C47_block_in_footnote_page"
   ],
   "note": ""
  },
  {
   "property": "C48",
   "status": "proved",
   "theorems": [
    "Ftml.C48_heading_ids",
    "Ftml.C48_heading_ids_distinct"
   ],
   "note": ""
  },
  {
   "property": "C49",
   "status": "proved",
   "theorems": [
    "Ftml.C49_no_outer_newlines",
    "Ftml.C49_hidden_has_no_effect"
   ],
   "note": ""
  },
  {
   "property": "C50",
   "status": "proved",
   "theorems": [
    "Ftml.C50_text_panics_iff",
    "Ftml.C50_nested_items_panic",
    "Ftml.C50_blank_label_panics"
   ],
   "note": ""
  },
  {
   "property": "C51",
   "status": "proved",
   "theorems": [
    "Ftml.Preproc.C51_content_preserved"
   ],
   "note": ""
  },
  {
   "property": "C52",
   "status": "proved",
   "theorems": [
    "Ftml.Preproc.C52_newlines_compressed",
    "Ftml.Preproc.C52_newlines_not_compressed_in_general"
   ],
   "note": ""
  },
  {
   "property": "C53",
   "status": "proved",
   "theorems": [
    "Ftml.Preproc.C53_not_idempotent"
   ],
   "note": ""
  },
  {
   "property": "C54",
   "status": "proved",
   "theorems": [
    "Ftml.C54_quote_round_trip",
    "Ftml.C54_unquoted_verbatim",
    "Ftml.C54_trailing_backslash_lost"
   ],
   "note": ""
  },
  {
   "property": "C55",
   "status": "proved",
   "theorems": [
    "Ftml.C55_parse_boolean"
   ],
   "note": ""
  },
  {
   "property": "C56",
   "status": "proved",
   "theorems": [
    "Ftml.C56_anchor_target"
   ],
   "note": ""
  },
  {
   "property": "C57",
   "status": "proved",
   "theorems": [
    "Ftml.C57_blanks_maximal",
    "Ftml.C57_token_shapes",
    "Ftml.C57_heading_tokens",
    "Ftml.C57_line_ends"
   ],
   "note": ""
  },
  {
   "property": "C58",
   "status": "proved",
   "theorems": [
    "Ftml.Includes.C58_first_argument_wins",
    "Ftml.Includes.C58_argument_shape"
   ],
   "note": ""
  },
  {
   "property": "C59",
   "status": "proved",
   "theorems": [
    "Ftml.C59_partials_under_hosts",
    "Ftml.C59_left_over_item"
   ],
   "note": ""
  },
  {
   "property": "C60",
   "status": "proved",
   "theorems": [
    "Ftml.C60_table_of_contents",
    "Ftml.C60_duplicate_entries"
   ],
   "note": ""
  },
  {
   "property": "C61",
   "status": "proved",
   "theorems": [
    "Ftml.C61_structure",
    "Ftml.C61_top_level",
    "Ftml.C61_counts",
    "Ftml.C61_empty_list"
   ],
   "note": ""
  },
  {
   "property": "C62",
   "status": "proved",
   "theorems": [
    "Ftml.C62_origin_of_elements",
    "Ftml.C62_origin_of_collections"
   ],
   "note": ""
  },
  {
   "property": "C63",
   "status": "proved",
   "theorems": [
    "Ftml.C63_verbatim"
   ],
   "note": ""
  },
  {
   "property": "C64",
   "status": "proved",
   "theorems": [
    "Ftml.C64_footnote_references",
    "Ftml.C64_duplicate_footnotes"
   ],
   "note": ""
  },
  {
   "property": "C65",
   "status": "proved",
   "theorems": [
    "Ftml.C65_values",
    "Ftml.C65_page_label"
   ],
   "note": ""
  },
  {
   "property": "C66",
   "status": "proved",
   "theorems": [
    "Ftml.C66_parsed_text_renders"
   ],
   "note": ""
  },
  {
   "property": "C67",
   "status": "proved",
   "theorems": [
    "Ftml.C67_visible_text_kept"
   ],
   "note": ""
  },
  {
   "property": "C68",
   "status": "proved",
   "theorems": [
    "Ftml.C68_invisible_is_blank",
    "Ftml.C68_equation_reference_leaks"
   ],
   "note": ""
  },
  {
   "property": "C69",
   "status": "proved",
   "theorems": [
    "Ftml.C69_depth_irrelevant",
    "Ftml.C69_returns",
    "Ftml.C69_parsed_sound",
    "Ftml.C69_parsed_page_renders"
   ],
   "note": ""
  },
  {
   "property": "C70",
   "status": "proved",
   "theorems": [
    "Ftml.C70_texts_are_shown"
   ],
   "note": ""
  },
  {
   "property": "C71",
   "status": "proved",
   "theorems": [
    "Ftml.C71_pages",
    "Ftml.C71_float_marks"
   ],
   "note": ""
  },
  {
   "property": "C72",
   "status": "proved",
   "theorems": [
    "Ftml.C72_html"
   ],
   "note": ""
  },
  {
   "property": "C73",
   "status": "proved",
   "theorems": [
    "Ftml.C73_text"
   ],
   "note": ""
  },
  {
   "property": "C74",
   "status": "proved",
   "theorems": [
    "Ftml.C74_links_reported",
    "Ftml.C74_fragments_and_images"
   ],
   "note": ""
  },
  {
   "property": "C75",
   "status": "proved",
   "theorems": [
    "Ftml.C75_parsed_trees_are_plain",
    "Ftml.C75_rendered_text_is_safe",
    "Ftml.C75_every_text"
   ],
   "note": ""
  },
  {
   "property": "C76",
   "status": "proved",
   "theorems": [
    "Ftml.C76_iftags",
    "Ftml.C76_ifcategory",
    "Ftml.C76_hidden_footnote_shown",
    "Ftml.C76_conditions",
    "Ftml.C76_categories",
    "Ftml.C76_every_text"
   ],
   "note": ""
  },
  {
   "property": "C77",
   "status": "proved",
   "theorems": [
    "Ftml.C77_timezones",
    "Ftml.C77_few_digits_are_hours"
   ],
   "note": ""
  },
  {
   "property": "C78",
   "status": "proved",
   "theorems": [
    "Ftml.C78_char_codes",
    "Ftml.C78_no_char"
   ],
   "note": ""
  },
  {
   "property": "C79",
   "status": "proved",
   "theorems": [
    "Ftml.C79_lines"
   ],
   "note": ""
  },
  {
   "property": "C80",
   "status": "proved",
   "theorems": [
    "Ftml.C80_attributes_written",
    "Ftml.C80_no_attributes"
   ],
   "note": ""
  },
  {
   "property": "C81",
   "status": "proved",
   "theorems": [
    "Ftml.C81_text_elements",
    "Ftml.C81_other_strings",
    "Ftml.C81_arguments"
   ],
   "note": ""
  },
  {
   "property": "C82",
   "status": "proved",
   "theorems": [
    "Ftml.C82_prefixed_is_not_generated",
    "Ftml.C82_ids",
    "Ftml.C82_isolated",
    "Ftml.C82_clash_without_isolation",
    "Ftml.C82_nul_escapes"
   ],
   "note": ""
  },
  {
   "property": "C83",
   "status": "proved",
   "theorems": [
    "Ftml.C83_images",
    "Ftml.C83_text_images",
    "Ftml.C83_source_appended"
   ],
   "note": ""
  },
  {
   "property": "C84",
   "status": "proved",
   "theorems": [
    "Ftml.C84_ids",
    "Ftml.C84_posts",
    "Ftml.C84_fixed_ids"
   ],
   "note": ""
  },
  {
   "property": "C85",
   "status": "proved",
   "theorems": [
    "Ftml.C85_owned_copy",
    "Ftml.C85_parsed_copy",
    "Ftml.C85_iterators",
    "Ftml.C85_conversions"
   ],
   "note": ""
  },
  {
   "property": "C86",
   "status": "proved",
   "theorems": [
    "Ftml.Includes.C86_null_includer",
    "Ftml.Includes.C86_debug_includer",
    "Ftml.Includes.C86_debug_text"
   ],
   "note": ""
  },
  {
   "property": "C87",
   "status": "proved",
   "theorems": [
    "Ftml.C87_karma"
   ],
   "note": ""
  },
  {
   "property": "C88",
   "status": "proved",
   "theorems": [
    "Ftml.C88_contents_lead_to_headings",
    "Ftml.C88_draft_dangles"
   ],
   "note": ""
  },
  {
   "property": "C89",
   "status": "proved",
   "theorems": [
    "Ftml.C89_line_endings",
    "Ftml.C89_no_includes",
    "Ftml.C89_nothing_included",
    "Ftml.C89_source_to_output"
   ],
   "note": ""
  },
  {
   "property": "C90",
   "status": "proved",
   "theorems": [
    "Ftml.C90_entries",
    "Ftml.C90_page"
   ],
   "note": ""
  },
  {
   "property": "C91",
   "status": "proved",
   "theorems": [
    "Ftml.C91_element_format",
    "Ftml.C91_tree_format",
    "Ftml.C91_round_trip",
    "Ftml.C91_parsed_round_trip",
    "Ftml.C91_json_tells_trees_apart",
    "Ftml.C91_repeated_keys",
    "Ftml.C91_link_types"
   ],
   "note": ""
  },
  {
   "property": "C92",
   "status": "proved",
   "theorems": [
    "Ftml.C92_names",
    "Ftml.C92_token_format",
    "Ftml.C92_settings_format",
    "Ftml.C92_tokens",
    "Ftml.C92_tokens_tile",
    "Ftml.C92_empty_text",
    "Ftml.C92_parse",
    "Ftml.C92_positions",
    "Ftml.C92_from_mode",
    "Ftml.C92_settings_round_trip",
    "Ftml.C92_error_round_trip"
   ],
   "note": ""
  },
  {
   "property": "C93",
   "status": "proved",
   "theorems": [
    "Ftml.C93_link_types",
    "Ftml.C93_layouts",
    "Ftml.C93_alignments",
    "Ftml.C93_heading_marks",
    "Ftml.C93_headings",
    "Ftml.C93_trim"
   ],
   "note": ""
  },
  {
   "property": "C94",
   "status": "proved",
   "theorems": [
    "Ftml.C94_unclosed_blocks"
   ],
   "note": ""
  },
  {
   "property": "C95",
   "status": "proved",
   "theorems": [
    "Ftml.Includes.C95_finds",
    "Ftml.Includes.C95_replaces"
   ],
   "note": ""
  },
  {
   "property": "C96",
   "status": "proved",
   "theorems": [
    "Ftml.C96_entries",
    "Ftml.C96_cited",
    "Ftml.C96_citations",
    "Ftml.C96_numbers_ambiguous"
   ],
   "note": ""
  },
  {
   "property": "C97",
   "status": "proved",
   "theorems": [
    "Ftml.C97_inserts"
   ],
   "note": ""
  },
  {
   "property": "C98",
   "status": "proved",
   "theorems": [
    "Ftml.C98_hard_breaks"
   ],
   "note": ""
  },
  {
   "property": "C99",
   "status": "proved",
   "theorems": [
    "Ftml.C99_links",
    "Ftml.C99_addresses"
   ],
   "note": ""
  },
  {
   "property": "C100",
   "status": "proved",
   "theorems": [
    "Ftml.Preproc.C100_indent_pass",
    "Ftml.Preproc.C100_blank_pass",
    "Ftml.Preproc.C100_edge_passes",
    "Ftml.Preproc.C100_whitespace",
    "Ftml.Preproc.C100_preprocess",
    "Ftml.Preproc.C100_preprocess_iff"
   ],
   "note": ""
  },
  {
   "property": "C101",
   "status": "proved",
   "theorems": [
    "Ftml.PageJson.C101_read",
    "Ftml.PageJson.C101_format",
    "Ftml.PageJson.C101_round_trip",
    "Ftml.PageJson.C101_score"
   ],
   "note": ""
  },
  {
   "property": "C102",
   "status": "proved",
   "theorems": [
    "Ftml.C102_raw_text",
    "Ftml.C102_html",
    "Ftml.C102_text"
   ],
   "note": ""
  },
  {
   "property": "C103",
   "status": "proved",
   "theorems": [
    "Ftml.C103_scored_block",
    "Ftml.C103_not_scored"
   ],
   "note": ""
  },
  {
   "property": "C104",
   "status": "proved",
   "theorems": [
    "Ftml.C104_order",
    "Ftml.C104_extra",
    "Ftml.C104_needed",
    "Ftml.C104_twice",
    "Ftml.C104_length",
    "Ftml.C104_element_fields",
    "Ftml.C104_element_needed",
    "Ftml.C104_no_contents",
    "Ftml.C104_page_reference"
   ],
   "note": ""
  },
  {
   "property": "C105",
   "status": "proved",
   "theorems": [
    "Ftml.C105_tags",
    "Ftml.C105_html",
    "Ftml.C105_text"
   ],
   "note": ""
  },
  {
   "property": "C106",
   "status": "proved",
   "theorems": [
    "Ftml.C106_comments",
    "Ftml.C106_no_effect"
   ],
   "note": ""
  },
  {
   "property": "C107",
   "status": "proved",
   "theorems": [
    "Ftml.C107_parse",
    "Ftml.C107_text",
    "Ftml.C107_html",
    "Ftml.C107_tree",
    "Ftml.C107_modes"
   ],
   "note": ""
  }
 ]
}