{
 "claims": [
  {
   "property": "C01",
   "status": "proved",
   "theorems": [
    "ElmParser.C01_file_total",
    "ElmParser.C01_statements_total",
    "ElmParser.C01_statement_total",
    "ElmParser.C01_expression_total",
    "ElmParser.C01_term_total",
    "ElmParser.C01_function_total",
    "ElmParser.C01_type_total",
    "ElmParser.C01_typeAnnotation_total",
    "ElmParser.C01_expression_depth",
    "ElmParser.C01_type_depth"
   ],
   "note": ""
  },
  {
   "property": "C02",
   "status": "proved",
   "theorems": [
    "ElmParser.C02_statements",
    "ElmParser.C02_statement",
    "ElmParser.C02_expression",
    "ElmParser.C02_term",
    "ElmParser.C02_function",
    "ElmParser.C02_type",
    "ElmParser.C02_typeAnnotation",
    "ElmParser.C02_file"
   ],
   "note": ""
  },
  {
   "property": "C03",
   "status": "proved",
   "theorems": [
    "ElmParser.C03_nonempty",
    "ElmParser.C03_white"
   ],
   "note": ""
  },
  {
   "property": "C04",
   "status": "proved",
   "theorems": [
    "ElmParser.C04_leading"
   ],
   "note": ""
  },
  {
   "property": "C05",
   "status": "proved",
   "theorems": [
    "ElmParser.C05_loName"
   ],
   "note": ""
  },
  {
   "property": "C06",
   "status": "proved",
   "theorems": [
    "ElmParser.C06_upName",
    "ElmParser.C06_moduleName",
    "ElmParser.C06_qualified"
   ],
   "note": ""
  },
  {
   "property": "C07",
   "status": "proved",
   "theorems": [
    "ElmParser.C07_operator"
   ],
   "note": ""
  },
  {
   "property": "C08",
   "status": "proved",
   "theorems": [
    "ElmParser.C08_expression",
    "ElmParser.C08_term",
    "ElmParser.C08_function",
    "ElmParser.C08_type",
    "ElmParser.C08_file"
   ],
   "note": ""
  },
  {
   "property": "C09",
   "status": "proved",
   "theorems": [
    "ElmParser.C09_gap",
    "ElmParser.C09_gap_of",
    "ElmParser.C09_cases"
   ],
   "note": ""
  },
  {
   "property": "C10",
   "status": "proved",
   "theorems": [
    "ElmParser.C10_wrap",
    "ElmParser.C10_small",
    "ElmParser.C10_order_lost",
    "ElmParser.C10_sameIndent"
   ],
   "note": ""
  },
  {
   "property": "C11",
   "status": "proved",
   "theorems": [
    "ElmParser.C11_term_float",
    "ElmParser.C11_term_integer",
    "ElmParser.C11_integer",
    "ElmParser.C11_float"
   ],
   "note": ""
  },
  {
   "property": "C12",
   "status": "proved",
   "theorems": [
    "ElmParser.C12_character",
    "ElmParser.C12_every_char"
   ],
   "note": ""
  },
  {
   "property": "C13",
   "status": "proved",
   "theorems": [
    "ElmParser.C13_string"
   ],
   "note": ""
  },
  {
   "property": "C14",
   "status": "proved",
   "theorems": [
    "ElmParser.C14_line",
    "ElmParser.C14_block",
    "ElmParser.C14_unterminated"
   ],
   "note": ""
  },
  {
   "property": "C15",
   "status": "proved",
   "theorems": [
    "ElmParser.C15_left_nested"
   ],
   "note": ""
  },
  {
   "property": "C16",
   "status": "proved",
   "theorems": [
    "ElmParser.C16_right_nested"
   ],
   "note": ""
  },
  {
   "property": "C17",
   "status": "proved",
   "theorems": [
    "ElmParser.C17_right_nested",
    "ElmParser.C17_only",
    "ElmParser.C17_no_internal_error"
   ],
   "note": ""
  },
  {
   "property": "C18",
   "status": "proved",
   "theorems": [
    "ElmParser.C18_expression",
    "ElmParser.C18_term",
    "ElmParser.C18_function"
   ],
   "note": ""
  },
  {
   "property": "C19",
   "status": "proved",
   "theorems": [
    "ElmParser.C19_type",
    "ElmParser.C19_annotation",
    "ElmParser.C19_constructor"
   ],
   "note": ""
  },
  {
   "property": "C20",
   "status": "proved",
   "theorems": [
    "ElmParser.C20_file",
    "ElmParser.C20_statement"
   ],
   "note": ""
  },
  {
   "property": "C21",
   "status": "proved",
   "theorems": [
    "ElmParser.C21_expression",
    "ElmParser.C21_term",
    "ElmParser.C21_function",
    "ElmParser.C21_file",
    "ElmParser.C21_statement",
    "ElmParser.C21_tokens_expression",
    "ElmParser.C21_tokens_type",
    "ElmParser.C21_tokens_statement",
    "ElmParser.C21_tokens_file",
    "ElmParser.C21_tokens_occur",
    "ElmParser.C21_tokens_kept",
    "ElmParser.C21_type",
    "ElmParser.C21_typeAnnotation"
   ],
   "note": ""
  },
  {
   "property": "C22",
   "status": "proved",
   "theorems": [
    "ElmParser.C22_type",
    "ElmParser.C22_annotation",
    "ElmParser.C22_exists",
    "ElmParser.C22_exactly"
   ],
   "note": ""
  },
  {
   "property": "C23",
   "status": "proved",
   "theorems": [
    "ElmParser.C23_expression",
    "ElmParser.C23_term",
    "ElmParser.C23_function",
    "ElmParser.C23_place",
    "ElmParser.C23_exists",
    "ElmParser.C23_exists_function",
    "ElmParser.C23_exactly"
   ],
   "note": ""
  },
  {
   "property": "C24",
   "status": "proved",
   "theorems": [
    "ElmParser.C24_file",
    "ElmParser.C24_newlines",
    "ElmParser.C24_exactly"
   ],
   "note": ""
  },
  {
   "property": "C25",
   "status": "proved",
   "theorems": [
    "ElmParser.C25_unambiguous",
    "ElmParser.C25_expression",
    "ElmParser.C25_file_unambiguous",
    "ElmParser.C25_file",
    "ElmParser.C25_type_unambiguous",
    "ElmParser.C25_type"
   ],
   "note": ""
  },
  {
   "property": "C26",
   "status": "proved",
   "theorems": [
    "ElmParser.C26_let",
    "ElmParser.C26_case"
   ],
   "note": ""
  },
  {
   "property": "C27",
   "status": "proved",
   "theorems": [
    "ElmParser.C27_arguments",
    "ElmParser.C27_ends"
   ],
   "note": ""
  },
  {
   "property": "C28",
   "status": "proved",
   "theorems": [
    "ElmParser.C28_parens",
    "ElmParser.C28_tuple",
    "ElmParser.C28_type_tuple",
    "ElmParser.C28_type_arrow"
   ],
   "note": ""
  },
  {
   "property": "C29",
   "status": "proved",
   "theorems": [
    "ElmParser.C29_no_gap"
   ],
   "note": ""
  },
  {
   "property": "C30",
   "status": "proved",
   "theorems": [
    "ElmParser.C30_wellformed",
    "ElmParser.C30_file",
    "ElmParser.C30_iff"
   ],
   "note": ""
  },
  {
   "property": "C31",
   "status": "proved",
   "theorems": [
    "ElmParser.C31_append",
    "ElmParser.C31_insert"
   ],
   "note": ""
  },
  {
   "property": "C32",
   "status": "proved",
   "theorems": [
    "ElmParser.C32_usage",
    "ElmParser.C32_readable",
    "ElmParser.C32_unreadable",
    "ElmParser.C32_status"
   ],
   "note": ""
  },
  {
   "property": "C33",
   "status": "proved",
   "theorems": [
    "ElmParser.C33_extension",
    "ElmParser.C33_directory",
    "ElmParser.C33_unreadable",
    "ElmParser.C33_walk_error",
    "ElmParser.C33_file"
   ],
   "note": ""
  },
  {
   "property": "C34",
   "status": "proved",
   "theorems": [
    "ElmParser.C34_value",
    "ElmParser.C34_fits",
    "ElmParser.C34_overflow",
    "ElmParser.C34_digit",
    "ElmParser.C34_zeros"
   ],
   "note": ""
  },
  {
   "property": "C35",
   "status": "proved",
   "theorems": [
    "ElmParser.C35_next_line",
    "ElmParser.C35_names_free",
    "ElmParser.C35_alone",
    "ElmParser.C35_file"
   ],
   "note": ""
  },
  {
   "property": "C36",
   "status": "proved",
   "theorems": [
    "ElmParser.C36_all",
    "ElmParser.C36_order",
    "ElmParser.C36_only"
   ],
   "note": ""
  },
  {
   "property": "C37",
   "status": "proved",
   "theorems": [
    "ElmParser.C37_closed",
    "ElmParser.C37_type"
   ],
   "note": ""
  },
  {
   "property": "C38",
   "status": "proved",
   "theorems": [
    "ElmParser.C38_same_column",
    "ElmParser.C38_same_line"
   ],
   "note": ""
  },
  {
   "property": "C39",
   "status": "proved",
   "theorems": [
    "ElmParser.C39_separated",
    "ElmParser.C39_adjacent"
   ],
   "note": ""
  },
  {
   "property": "C40",
   "status": "proved",
   "theorems": [
    "ElmParser.C40_results",
    "ElmParser.C40_counts",
    "ElmParser.C40_parens",
    "ElmParser.C40_pairs_parse",
    "ElmParser.C40_pairs"
   ],
   "note": ""
  },
  {
   "property": "C41",
   "status": "proved",
   "theorems": [
    "ElmParser.C41_file",
    "ElmParser.C41_trees",
    "ElmParser.C41_quiet",
    "ElmParser.C41_quiet_run",
    "ElmParser.C41_names"
   ],
   "note": ""
  },
  {
   "property": "C42",
   "status": "proved",
   "theorems": [
    "ElmParser.C42_file",
    "ElmParser.C42_statement",
    "ElmParser.C42_expression",
    "ElmParser.C42_term",
    "ElmParser.C42_function",
    "ElmParser.C42_type",
    "ElmParser.C42_typeAnnotation",
    "ElmParser.C42_failure",
    "ElmParser.C42_check",
    "ElmParser.C42_dump",
    "ElmParser.C42_output"
   ],
   "note": ""
  },
  {
   "property": "C43",
   "status": "proved",
   "theorems": [
    "ElmParser.C43_statement",
    "ElmParser.C43_file",
    "ElmParser.C43_rejected",
    "ElmParser.C43_bom"
   ],
   "note": ""
  },
  {
   "property": "C44",
   "status": "proved",
   "theorems": [
    "ElmParser.C44_definition",
    "ElmParser.C44_rejected",
    "ElmParser.C44_tab",
    "ElmParser.C44_column",
    "ElmParser.C44_adjacent",
    "ElmParser.C44_unread",
    "ElmParser.C44_file"
   ],
   "note": ""
  },
  {
   "property": "C45",
   "status": "proved",
   "theorems": [
    "ElmParser.C45_expression",
    "ElmParser.C45_term",
    "ElmParser.C45_function",
    "ElmParser.C45_type",
    "ElmParser.C45_typeAnnotation",
    "ElmParser.C45_statement",
    "ElmParser.C45_file",
    "ElmParser.C45_same",
    "ElmParser.C45_failure",
    "ElmParser.C45_check",
    "ElmParser.C45_dump"
   ],
   "note": ""
  },
  {
   "property": "C46",
   "status": "proved",
   "theorems": [
    "ElmParser.C46_results",
    "ElmParser.C46_lines",
    "ElmParser.C46_silent",
    "ElmParser.C46_check",
    "ElmParser.C46_dump",
    "ElmParser.C46_stdout",
    "ElmParser.C46_term",
    "ElmParser.C46_term_silent",
    "ElmParser.C46_pairs",
    "ElmParser.C46_output",
    "ElmParser.C46_order",
    "ElmParser.C46_file"
   ],
   "note": ""
  },
  {
   "property": "C47",
   "status": "proved",
   "theorems": [
    "ElmParser.C47_nothing",
    "ElmParser.C47_stopped",
    "ElmParser.C47_cases",
    "ElmParser.C47_before",
    "ElmParser.C47_text",
    "ElmParser.C47_unique",
    "ElmParser.C47_distinct"
   ],
   "note": ""
  },
  {
   "property": "C48",
   "status": "proved",
   "theorems": [
    "ElmParser.C48_expression",
    "ElmParser.C48_file",
    "ElmParser.C48_check",
    "ElmParser.C48_unnested",
    "ElmParser.C48_worst"
   ],
   "note": ""
  },
  {
   "property": "C49",
   "status": "proved",
   "theorems": [
    "ElmParser.C49_results",
    "ElmParser.C49_counts",
    "ElmParser.C49_twice",
    "ElmParser.C49_higher_parse",
    "ElmParser.C49_higher",
    "ElmParser.C49_parens",
    "ElmParser.C49_bound",
    "ElmParser.C49_worst",
    "ElmParser.C49_file_parse",
    "ElmParser.C49_file"
   ],
   "note": ""
  },
  {
   "property": "C50",
   "status": "proved",
   "theorems": [
    "ElmParser.C50_openers",
    "ElmParser.C50_unique",
    "ElmParser.C50_length",
    "ElmParser.C50_budget",
    "ElmParser.C50_tree",
    "ElmParser.C50_operators",
    "ElmParser.C50_sum",
    "ElmParser.C50_parens",
    "ElmParser.C50_flat",
    "ElmParser.C50_items",
    "ElmParser.C50_type_openers",
    "ElmParser.C50_annotation",
    "ElmParser.C50_type_tree",
    "ElmParser.C50_type_parens"
   ],
   "note": ""
  },
  {
   "property": "C51",
   "status": "proved",
   "theorems": [
    "ElmParser.C51_expression",
    "ElmParser.C51_type",
    "ElmParser.C51_statement",
    "ElmParser.C51_file",
    "ElmParser.C51_sharp",
    "ElmParser.C51_no_converse"
   ],
   "note": ""
  },
  {
   "property": "C52",
   "status": "proved",
   "theorems": [
    "ElmParser.C52_tree",
    "ElmParser.C52_message",
    "ElmParser.C52_stdout",
    "ElmParser.C52_dump"
   ],
   "note": ""
  },
  {
   "property": "C53",
   "status": "proved",
   "theorems": [
    "ElmParser.C53_expression",
    "ElmParser.C53_term",
    "ElmParser.C53_function",
    "ElmParser.C53_type",
    "ElmParser.C53_typeAnnotation",
    "ElmParser.C53_statement",
    "ElmParser.C53_file",
    "ElmParser.C53_failure",
    "ElmParser.C53_check"
   ],
   "note": ""
  },
  {
   "property": "C54",
   "status": "proved",
   "theorems": [
    "ElmParser.C54_type",
    "ElmParser.C54_typeAnnotation",
    "ElmParser.C54_expression",
    "ElmParser.C54_function",
    "ElmParser.C54_statement",
    "ElmParser.C54_join",
    "ElmParser.C54_file"
   ],
   "note": ""
  },
  {
   "property": "C55",
   "status": "proved",
   "theorems": [
    "ElmParser.C55_tree",
    "ElmParser.C55_leaves",
    "ElmParser.C55_file",
    "ElmParser.C55_check",
    "ElmParser.C55_rest",
    "ElmParser.C55_path"
   ],
   "note": ""
  },
  {
   "property": "C56",
   "status": "proved",
   "theorems": [
    "ElmParser.C56_file",
    "ElmParser.C56_expression",
    "ElmParser.C56_function",
    "ElmParser.C56_type",
    "ElmParser.C56_typeAnnotation",
    "ElmParser.C56_statement",
    "ElmParser.C56_rename",
    "ElmParser.C56_quoteFree",
    "ElmParser.C56_check"
   ],
   "note": ""
  },
  {
   "property": "C57",
   "status": "proved",
   "theorems": [
    "ElmParser.C57_agree",
    "ElmParser.C57_directory",
    "ElmParser.C57_quiet",
    "ElmParser.C57_missing"
   ],
   "note": ""
  },
  {
   "property": "C58",
   "status": "proved",
   "theorems": [
    "ElmParser.C58_file",
    "ElmParser.C58_spacing",
    "ElmParser.C58_expression",
    "ElmParser.C58_function",
    "ElmParser.C58_type",
    "ElmParser.C58_typeAnnotation",
    "ElmParser.C58_statement",
    "ElmParser.C58_failure",
    "ElmParser.C58_check",
    "ElmParser.C58_dump",
    "ElmParser.C58_quiet",
    "ElmParser.C58_squeeze"
   ],
   "note": ""
  },
  {
   "property": "C59",
   "status": "proved",
   "theorems": [
    "ElmParser.C59_argument",
    "ElmParser.C59_token",
    "ElmParser.C59_name",
    "ElmParser.C59_constructor",
    "ElmParser.C59_number",
    "ElmParser.C59_operator",
    "ElmParser.C59_lines",
    "ElmParser.C59_function",
    "ElmParser.C59_function_lines",
    "ElmParser.C59_definition",
    "ElmParser.C59_column",
    "ElmParser.C59_let",
    "ElmParser.C59_case",
    "ElmParser.C59_arrow",
    "ElmParser.C59_typeArgument",
    "ElmParser.C59_alternative"
   ],
   "note": ""
  },
  {
   "property": "C60",
   "status": "proved",
   "theorems": [
    "ElmParser.C60_type",
    "ElmParser.C60_annotation",
    "ElmParser.C60_expression",
    "ElmParser.C60_function",
    "ElmParser.C60_statement",
    "ElmParser.C60_single"
   ],
   "note": ""
  },
  {
   "property": "C61",
   "status": "proved",
   "theorems": [
    "ElmParser.C61_linear",
    "ElmParser.C61_function",
    "ElmParser.C61_file",
    "ElmParser.C61_let",
    "ElmParser.C61_case",
    "ElmParser.C61_needed",
    "ElmParser.C61_sharp",
    "ElmParser.C61_valid_parse",
    "ElmParser.C61_valid",
    "ElmParser.C61_valid_file"
   ],
   "note": ""
  },
  {
   "property": "C62",
   "status": "proved",
   "theorems": [
    "ElmParser.C62_annotation",
    "ElmParser.C62_type",
    "ElmParser.C62_declarations",
    "ElmParser.C62_expression",
    "ElmParser.C62_file",
    "ElmParser.C62_both"
   ],
   "note": ""
  },
  {
   "property": "C63",
   "status": "proved",
   "theorems": [
    "ElmParser.C63_parsers",
    "ElmParser.C63_search",
    "ElmParser.C63_leftmost",
    "ElmParser.C63_one_match",
    "ElmParser.C63_longest",
    "ElmParser.C63_strings_preferred",
    "ElmParser.C63_string"
   ],
   "note": ""
  },
  {
   "property": "C64",
   "status": "proved",
   "theorems": [
    "ElmParser.C64_exactly",
    "ElmParser.C64_paths",
    "ElmParser.C64_in_turn",
    "ElmParser.C64_failed_listing",
    "ElmParser.C64_silent"
   ],
   "note": ""
  },
  {
   "property": "C65",
   "status": "proved",
   "theorems": [
    "ElmParser.C65_expression",
    "ElmParser.C65_type"
   ],
   "note": ""
  },
  {
   "property": "C66",
   "status": "proved",
   "theorems": [
    "ElmParser.C66_term",
    "ElmParser.C66_expression",
    "ElmParser.C66_target",
    "ElmParser.C66_entry",
    "ElmParser.C66_type",
    "ElmParser.C66_parameter",
    "ElmParser.C66_statement",
    "ElmParser.C66_string",
    "ElmParser.C66_character",
    "ElmParser.C66_infix",
    "ElmParser.C66_names",
    "ElmParser.C66_exports",
    "ElmParser.C66_lexical",
    "ElmParser.C66_newline"
   ],
   "note": ""
  },
  {
   "property": "C67",
   "status": "proved",
   "theorems": [
    "ElmParser.C67_read",
    "ElmParser.C67_unreadable",
    "ElmParser.C67_prefix",
    "ElmParser.C67_injective",
    "ElmParser.C67_cut",
    "ElmParser.C67_unused",
    "ElmParser.C67_ascii",
    "ElmParser.C67_bom",
    "ElmParser.C67_check",
    "ElmParser.C67_check_args",
    "ElmParser.C67_check_file",
    "ElmParser.C67_dump_file",
    "ElmParser.C67_dump_name"
   ],
   "note": ""
  },
  {
   "property": "C68",
   "status": "proved",
   "theorems": [
    "ElmParser.C68_scan",
    "ElmParser.C68_reject",
    "ElmParser.C68_nested",
    "ElmParser.C68_count",
    "ElmParser.C68_code",
    "ElmParser.C68_code_count"
   ],
   "note": ""
  },
  {
   "property": "C69",
   "status": "proved",
   "theorems": [
    "ElmParser.C69_neighbours",
    "ElmParser.C69_code",
    "ElmParser.C69_code_before",
    "ElmParser.C69_code_after",
    "ElmParser.C69_before",
    "ElmParser.C69_after"
   ],
   "note": ""
  },
  {
   "property": "C70",
   "status": "proved",
   "theorems": [
    "ElmParser.C70_scan",
    "ElmParser.C70_reject",
    "ElmParser.C70_text",
    "ElmParser.C70_nested",
    "ElmParser.C70_count",
    "ElmParser.C70_code",
    "ElmParser.C70_code_count"
   ],
   "note": ""
  },
  {
   "property": "C71",
   "status": "proved",
   "theorems": [
    "ElmParser.C71_file",
    "ElmParser.C71_expression",
    "ElmParser.C71_type",
    "ElmParser.C71_valid",
    "ElmParser.C71_part"
   ],
   "note": ""
  },
  {
   "property": "C72",
   "status": "proved",
   "theorems": [
    "ElmParser.C72_line_expression",
    "ElmParser.C72_line_term",
    "ElmParser.C72_line_function",
    "ElmParser.C72_line_type",
    "ElmParser.C72_line_annotation",
    "ElmParser.C72_lower_expression",
    "ElmParser.C72_lower_term",
    "ElmParser.C72_lower_definition",
    "ElmParser.C72_lower_type",
    "ElmParser.C72_lower_annotation",
    "ElmParser.C72_let"
   ],
   "note": ""
  },
  {
   "property": "C73",
   "status": "proved",
   "theorems": [
    "ElmParser.C73_expression",
    "ElmParser.C73_declaration",
    "ElmParser.C73_valid",
    "ElmParser.C73_parens",
    "ElmParser.C73_parens_declaration",
    "ElmParser.C73_substitute",
    "ElmParser.C73_type",
    "ElmParser.C73_type_declaration",
    "ElmParser.C73_pun"
   ],
   "note": ""
  },
  {
   "property": "C74",
   "status": "proved",
   "theorems": [
    "ElmParser.C74_bracket_lost",
    "ElmParser.C74_bracket_added",
    "ElmParser.C74_bracket_changed",
    "ElmParser.C74_word",
    "ElmParser.C74_word_text"
   ],
   "note": ""
  },
  {
   "property": "C75",
   "status": "proved",
   "theorems": [
    "ElmParser.C75_expression",
    "ElmParser.C75_term",
    "ElmParser.C75_function",
    "ElmParser.C75_type",
    "ElmParser.C75_brackets",
    "ElmParser.C75_type_brackets",
    "ElmParser.C75_alone"
   ],
   "note": ""
  },
  {
   "property": "C76",
   "status": "proved",
   "theorems": [
    "ElmParser.C76_expression",
    "ElmParser.C76_function",
    "ElmParser.C76_type",
    "ElmParser.C76_refused",
    "ElmParser.C76_block"
   ],
   "note": ""
  },
  {
   "property": "C77",
   "status": "proved",
   "theorems": [
    "ElmParser.C77_let_grammar",
    "ElmParser.C77_case_grammar",
    "ElmParser.C77_let_join",
    "ElmParser.C77_case_join",
    "ElmParser.C77_let",
    "ElmParser.C77_case"
   ],
   "note": ""
  },
  {
   "property": "C78",
   "status": "proved",
   "theorems": [
    "ElmParser.C78_body",
    "ElmParser.C78_header",
    "ElmParser.C78_definition",
    "ElmParser.C78_port",
    "ElmParser.C78_port_header",
    "ElmParser.C78_declaration",
    "ElmParser.C78_join"
   ],
   "note": ""
  },
  {
   "property": "C79",
   "status": "proved",
   "theorems": [
    "ElmParser.C79_rest",
    "ElmParser.C79_refused",
    "ElmParser.C79_declaration",
    "ElmParser.C79_anywhere"
   ],
   "note": ""
  },
  {
   "property": "C80",
   "status": "proved",
   "theorems": [
    "ElmParser.C80_branch",
    "ElmParser.C80_entry",
    "ElmParser.C80_case",
    "ElmParser.C80_case_stop",
    "ElmParser.C80_case_refused",
    "ElmParser.C80_let",
    "ElmParser.C80_let_refused",
    "ElmParser.C80_branch_head"
   ],
   "note": ""
  },
  {
   "property": "C81",
   "status": "proved",
   "theorems": [
    "ElmParser.C81_type",
    "ElmParser.C81_header",
    "ElmParser.C81_ends",
    "ElmParser.C81_custom",
    "ElmParser.C81_signature",
    "ElmParser.C81_type_anywhere",
    "ElmParser.C81_custom_anywhere",
    "ElmParser.C81_signature_anywhere",
    "ElmParser.C81_signature_alone"
   ],
   "note": ""
  },
  {
   "property": "C82",
   "status": "proved",
   "theorems": [
    "ElmParser.C82_alone",
    "ElmParser.C82_file",
    "ElmParser.C82_refused",
    "ElmParser.C82_order"
   ],
   "note": ""
  },
  {
   "property": "C83",
   "status": "proved",
   "theorems": [
    "ElmParser.C83_check",
    "ElmParser.C83_imports",
    "ElmParser.C83_dump",
    "ElmParser.C83_quiet"
   ],
   "note": ""
  },
  {
   "property": "C84",
   "status": "proved",
   "theorems": [
    "ElmParser.C84_expression",
    "ElmParser.C84_function",
    "ElmParser.C84_type",
    "ElmParser.C84_brackets",
    "ElmParser.C84_function_brackets",
    "ElmParser.C84_type_brackets",
    "ElmParser.C84_linear",
    "ElmParser.C84_linear_brackets"
   ],
   "note": ""
  },
  {
   "property": "C85",
   "status": "proved",
   "theorems": [
    "ElmParser.C85_events",
    "ElmParser.C85_calls",
    "ElmParser.C85_order",
    "ElmParser.C85_insert",
    "ElmParser.C85_linear",
    "ElmParser.C85_check"
   ],
   "note": ""
  },
  {
   "property": "C86",
   "status": "proved",
   "theorems": [
    "ElmParser.C86_report",
    "ElmParser.C86_first",
    "ElmParser.C86_place",
    "ElmParser.C86_before",
    "ElmParser.C86_dump"
   ],
   "note": ""
  },
  {
   "property": "C87",
   "status": "proved",
   "theorems": [
    "ElmParser.C87_events",
    "ElmParser.C87_first",
    "ElmParser.C87_calls",
    "ElmParser.C87_after",
    "ElmParser.C87_check"
   ],
   "note": ""
  }
 ]
}
