{
 "claims": [
  {
   "property": "C01",
   "status": "proved",
   "theorems": [
    "Amxml.C01_decode_encode"
   ],
   "note": ""
  },
  {
   "property": "C02",
   "status": "proved",
   "theorems": [
    "Amxml.C02_encoded_has_no_markup",
    "Amxml.C02_escape"
   ],
   "note": ""
  },
  {
   "property": "C03",
   "status": "proved",
   "theorems": [
    "Amxml.C03_parse_of_serialise"
   ],
   "note": ""
  },
  {
   "property": "C04",
   "status": "partial",
   "theorems": [
    "Amxml.C04_serialise_fixed_point_partial",
    "Amxml.C04_exact",
    "Amxml.C04_stable_after_one_round",
    "Amxml.C04_empty_cdata_counterexample"
   ],
   "note": "False of the code exactly for documents with an element that has only empty texts in it (C04_exact, witness); the tree is stable after one round in all cases."
  },
  {
   "property": "C05",
   "status": "partial",
   "theorems": [
    "Amxml.C05_bounded",
    "Amxml.C05_returns_partial",
    "Amxml.C05_diverges_iff",
    "Amxml.C05_unterminated_start_tag"
   ],
   "note": "Termination is false of the code for inputs ending inside a start tag (C05_diverges_iff says exactly when); proved for NUL-free inputs whose last tag is closed."
  },
  {
   "property": "C06",
   "status": "proved",
   "theorems": [
    "Amxml.C06_cr_irrelevant",
    "Amxml.C06_no_cr_in_tokens"
   ],
   "note": ""
  },
  {
   "property": "C07",
   "status": "proved",
   "theorems": [
    "Amxml.C07_tags_match",
    "Amxml.C07_ok_tags_match",
    "Amxml.C07_mismatch_rejected",
    "Amxml.C07_unclosed_accepted"
   ],
   "note": ""
  },
  {
   "property": "C08",
   "status": "proved",
   "theorems": [
    "Amxml.C08_well_linked"
   ],
   "note": ""
  },
  {
   "property": "C09",
   "status": "proved",
   "theorems": [
    "Amxml.C09_self_closing"
   ],
   "note": ""
  },
  {
   "property": "C10",
   "status": "proved",
   "theorems": [
    "Amxml.C10_cdata_verbatim"
   ],
   "note": ""
  },
  {
   "property": "C11",
   "status": "proved",
   "theorems": [
    "Amxml.C11_comment_verbatim",
    "Amxml.C11_pi_verbatim"
   ],
   "note": ""
  },
  {
   "property": "C12",
   "status": "partial",
   "theorems": [
    "Amxml.C12_references_partial",
    "Amxml.C12_text_partial",
    "Amxml.C12_attribute_partial",
    "Amxml.C12_numeric_amp_decoded_twice"
   ],
   "note": "False of the code when a numeric reference to '&' stands before '#' or the name of an entity with ';' (decoded twice; witnesses); proved for all other texts, also those with such references elsewhere."
  },
  {
   "property": "C13",
   "status": "proved",
   "theorems": [
    "Amxml.C13_directive_token",
    "Amxml.C13_directive_leaves_no_trace"
   ],
   "note": ""
  },
  {
   "property": "C14",
   "status": "partial",
   "theorems": [
    "Amxml.C14_eof_means_end",
    "Amxml.C14_nothing_dropped_partial",
    "Amxml.C14_nul_truncates",
    "Amxml.C14_nul_drops_rest"
   ],
   "note": "False of the code for texts with U+0000 (witness); proved for all others."
  },
  {
   "property": "C15",
   "status": "proved",
   "theorems": [
    "Amxml.C15_set_then_get"
   ],
   "note": ""
  },
  {
   "property": "C16",
   "status": "proved",
   "theorems": [
    "Amxml.C16_set_keeps_names"
   ],
   "note": ""
  },
  {
   "property": "C17",
   "status": "partial",
   "theorems": [
    "Amxml.C17_delete_attribute_partial",
    "Amxml.C17_repeated_attribute_survives",
    "Amxml.C17_exact"
   ],
   "note": "False of the code for elements with a repeated attribute (witness); proved for all others."
  },
  {
   "property": "C18",
   "status": "proved",
   "theorems": [
    "Amxml.C18_append_child"
   ],
   "note": ""
  },
  {
   "property": "C19",
   "status": "proved",
   "theorems": [
    "Amxml.C19_insert_sibling",
    "Amxml.C19_insert_parent_cycle"
   ],
   "note": "The witness C19_insert_parent_cycle shows that inserting a node's own parent makes a cyclic graph."
  },
  {
   "property": "C20",
   "status": "proved",
   "theorems": [
    "Amxml.C20_delete_child"
   ],
   "note": ""
  },
  {
   "property": "C21",
   "status": "proved",
   "theorems": [
    "Amxml.C21_replace_with"
   ],
   "note": ""
  },
  {
   "property": "C22",
   "status": "proved",
   "theorems": [
    "Amxml.C22_document_order",
    "Amxml.C22_injective",
    "Amxml.C22_parsed"
   ],
   "note": ""
  },
  {
   "property": "C23",
   "status": "proved",
   "theorems": [
    "Amxml.C23_never_stale",
    "Amxml.C23_shared_nodes_counterexample"
   ],
   "note": "For well-linked documents, as stated; the counterexample shows that the order is stale once a node is listed in two documents."
  },
  {
   "property": "C24",
   "status": "partial",
   "theorems": [
    "Amxml.C24_edits_keep_links_partial",
    "Amxml.C24_append_detached_partial",
    "Amxml.C24_exact",
    "Amxml.C24_append_foreign_breaks",
    "Amxml.C24_insert_breaks_grandchildren"
   ],
   "note": "False of the code for append_child of a node with another parent and for insertion of a node with children (witnesses); proved for the remaining edits."
  },
  {
   "property": "C25",
   "status": "proved",
   "theorems": [
    "Amxml.C25_no_panic_while_root_held",
    "Amxml.C25_panics_when_root_dropped"
   ],
   "note": ""
  },
  {
   "property": "C26",
   "status": "proved",
   "theorems": [
    "Amxml.C26_namespace_uri"
   ],
   "note": ""
  },
  {
   "property": "C27",
   "status": "proved",
   "theorems": [
    "Amxml.C27_prefix_local"
   ],
   "note": ""
  },
  {
   "property": "C28",
   "status": "proved",
   "theorems": [
    "Amxml.C28_compositional",
    "Amxml.C28_inner_xml",
    "Amxml.C28_local"
   ],
   "note": ""
  },
  {
   "property": "C29",
   "status": "proved",
   "theorems": [
    "Amxml.C29_child_access"
   ],
   "note": ""
  },
  {
   "property": "C30",
   "status": "proved",
   "theorems": [
    "Amxml.C30_axes_partition",
    "Amxml.C30_ancestor_descendant"
   ],
   "note": ""
  },
  {
   "property": "C31",
   "status": "proved",
   "theorems": [
    "Amxml.C31_siblings"
   ],
   "note": ""
  },
  {
   "property": "C32",
   "status": "proved",
   "theorems": [
    "Amxml.C32_path_order",
    "Amxml.C32_path_members",
    "Amxml.C32_path_atoms"
   ],
   "note": "order and absence of duplicates for every path expression; contents for operands that leave the variable bindings as they found them"
  },
  {
   "property": "C33",
   "status": "proved",
   "theorems": [
    "Amxml.C33_union",
    "Amxml.C33_laws",
    "Amxml.C33_expression"
   ],
   "note": ""
  },
  {
   "property": "C34",
   "status": "proved",
   "theorems": [
    "Amxml.C34_intersect_except",
    "Amxml.C34_partition",
    "Amxml.C34_expression"
   ],
   "note": ""
  },
  {
   "property": "C35",
   "status": "proved",
   "theorems": [
    "Amxml.C35_filter_position",
    "Amxml.C35_step_position",
    "Amxml.C35_position_last",
    "Amxml.C35_literal"
   ],
   "note": ""
  },
  {
   "property": "C36",
   "status": "partial",
   "theorems": [
    "Amxml.C36_filter_partial",
    "Amxml.C36_step_partial",
    "Amxml.C36_violated",
    "Amxml.C36_filter_exact",
    "Amxml.C36_step_exact"
   ],
   "note": "violated for predicates whose value is a string, a non-integer number or several nodes; proved for booleans, integers, single nodes and the empty sequence; C36_filter_exact and C36_step_exact say what happens for every value"
  },
  {
   "property": "C37",
   "status": "proved",
   "theorems": [
    "Amxml.C37_existential",
    "Amxml.C37_empty",
    "Amxml.C37_converse",
    "Amxml.C37_expression"
   ],
   "note": ""
  },
  {
   "property": "C38",
   "status": "partial",
   "theorems": [
    "Amxml.C38_lt_gt_partial",
    "Amxml.C38_no_nan_partial",
    "Amxml.C38_violated",
    "Amxml.C38_expression_partial"
   ],
   "note": "False of the code for <= and >= (witness); proved for < and >, and for all operands when NaN is not involved."
  },
  {
   "property": "C39",
   "status": "partial",
   "theorems": [
    "Amxml.C39_singletons",
    "Amxml.C39_not_singleton",
    "Amxml.C39_empty_partial",
    "Amxml.C39_violated",
    "Amxml.C39_expression",
    "Amxml.C39_expression_empty_partial"
   ],
   "note": "The empty-operand clause is false of the code for ne, le, ge (witness); everything else is proved."
  },
  {
   "property": "C40",
   "status": "proved",
   "theorems": [
    "Amxml.C40_ebv",
    "Amxml.C40_expression",
    "Amxml.C40_constants"
   ],
   "note": ""
  },
  {
   "property": "C41",
   "status": "proved",
   "theorems": [
    "Amxml.C41_or_left",
    "Amxml.C41_or_right",
    "Amxml.C41_and_left",
    "Amxml.C41_and_right",
    "Amxml.C41_errors"
   ],
   "note": ""
  },
  {
   "property": "C42",
   "status": "partial",
   "theorems": [
    "Amxml.C42_scope_partial",
    "Amxml.C42_let",
    "Amxml.C42_varRef",
    "Amxml.C42_some_leaks",
    "Amxml.C42_every_leaks",
    "Amxml.C42_some_hides",
    "Amxml.C42_dynamic_scope",
    "Amxml.C42_call_unbinds"
   ],
   "note": "violated for some/every leaving early and for calls of function items; proved for every expression without these"
  },
  {
   "property": "C43",
   "status": "partial",
   "theorems": [
    "Amxml.C43_for_partial",
    "Amxml.C43_quantifiers_partial",
    "Amxml.C43_some_false",
    "Amxml.C43_some_true",
    "Amxml.C43_every_true",
    "Amxml.C43_every_false",
    "Amxml.C43_for_error",
    "Amxml.C43_violated"
   ],
   "note": "violated for bodies that leave variables behind; proved for all others"
  },
  {
   "property": "C44",
   "status": "proved",
   "theorems": [
    "Amxml.C44_range",
    "Amxml.C44_empty",
    "Amxml.C44_expression"
   ],
   "note": ""
  },
  {
   "property": "C45",
   "status": "proved",
   "theorems": [
    "Amxml.C45_idiv_mod",
    "Amxml.C45_zero",
    "Amxml.C45_overflow_panics",
    "Amxml.C45_expression"
   ],
   "note": ""
  },
  {
   "property": "C46",
   "status": "partial",
   "theorems": [
    "Amxml.C46_rounded",
    "Amxml.C46_div_rounded",
    "Amxml.C46_determined",
    "Amxml.C46_exact",
    "Amxml.C46_div_exact",
    "Amxml.C46_type",
    "Amxml.C46_not_numeric_partial",
    "Amxml.C46_numeric_ok",
    "Amxml.C46_integer_exact",
    "Amxml.C46_violated",
    "Amxml.C46_expression",
    "Amxml.C46_expression_errors_partial",
    "Amxml.C46_expression_integers"
   ],
   "note": "see C46_violated for the case where the code differs"
  },
  {
   "property": "C47",
   "status": "proved",
   "theorems": [
    "Amxml.C47_map_get",
    "Amxml.C47_array_get",
    "Amxml.C47_flatten"
   ],
   "note": ""
  },
  {
   "property": "C48",
   "status": "partial",
   "theorems": [
    "Amxml.C48_castable_partial",
    "Amxml.C48_cast_type",
    "Amxml.C48_violated",
    "Amxml.C48_expression_partial",
    "Amxml.C48_expression_type",
    "Amxml.C48_exact"
   ],
   "note": "False of the code for nodes with an XML declaration at or below them (witness); proved for all other operands; C48_exact says what the two operators do for every node."
  },
  {
   "property": "C49",
   "status": "proved",
   "theorems": [
    "Amxml.C49_value",
    "Amxml.C49_error"
   ],
   "note": ""
  },
  {
   "property": "C50",
   "status": "proved",
   "theorems": [
    "Amxml.C50_literal_token",
    "Amxml.C50_literal",
    "Amxml.C50_nul"
   ],
   "note": ""
  },
  {
   "property": "C51",
   "status": "proved",
   "theorems": [
    "Amxml.C51_comment",
    "Amxml.C51_comment_eval",
    "Amxml.C51_only_comments",
    "Amxml.C51_white"
   ],
   "note": ""
  },
  {
   "property": "C52",
   "status": "partial",
   "theorems": [
    "Amxml.C52_lexer_total",
    "Amxml.C52_lexer_total_partial",
    "Amxml.C52_panics",
    "Amxml.C52_violated"
   ],
   "note": "violated for expressions of white space and comments only, which panic; proved for all others"
  },
  {
   "property": "C53",
   "status": "proved",
   "theorems": [
    "Amxml.C53_node_comparison",
    "Amxml.C53_expression"
   ],
   "note": ""
  },
  {
   "property": "C54",
   "status": "proved",
   "theorems": [
    "Amxml.C54_parser_total"
   ],
   "note": ""
  },
  {
   "property": "C56",
   "status": "partial",
   "theorems": [
    "Amxml.C56_associative_partial",
    "Amxml.C56_violated",
    "Amxml.C56_exact"
   ],
   "note": "violated when the last step yields atomic values (C56_exact says what is given); proved for operands that yield nodes"
  },
  {
   "property": "C57",
   "status": "partial",
   "theorems": [
    "Amxml.C57_nodeset_order_partial",
    "Amxml.C57_violated",
    "Amxml.C49_value"
   ],
   "note": "violated for sequence-building expressions; proved for path expressions; C49_value says what is returned in all cases: the nodes of the value, in the order of the value"
  },
  {
   "property": "C59",
   "status": "proved",
   "theorems": [
    "Amxml.C59_concat",
    "Amxml.C59_concat_several",
    "Amxml.C59_string_join"
   ],
   "note": ""
  },
  {
   "property": "C60",
   "status": "proved",
   "theorems": [
    "Amxml.C60_contains",
    "Amxml.C60_before_after"
   ],
   "note": ""
  },
  {
   "property": "C61",
   "status": "partial",
   "theorems": [
    "Amxml.C61_codepoints_partial",
    "Amxml.C61_violated",
    "Amxml.C61_exact"
   ],
   "note": "violated for integers that are no code points; proved for the code points of every string; C61_exact says what every list of integers gives"
  },
  {
   "property": "C62",
   "status": "partial",
   "theorems": [
    "Amxml.C62_translate_partial",
    "Amxml.C62_violated",
    "Amxml.C62_exact"
   ],
   "note": "violated when the second argument repeats a character; C62_exact says what is computed for all arguments"
  },
  {
   "property": "C63",
   "status": "partial",
   "theorems": [
    "Amxml.C63_normalize_space_partial",
    "Amxml.C63_violated",
    "Amxml.C63_exact"
   ],
   "note": "violated for every text of two or more words; C63_exact says what is computed"
  },
  {
   "property": "C64",
   "status": "partial",
   "theorems": [
    "Amxml.C64_window_partial",
    "Amxml.C64_integers_partial",
    "Amxml.C64_special",
    "Amxml.C64_exact",
    "Amxml.C64_violated"
   ],
   "note": "C64_exact says what is given for all numbers, and when the code panics; violated for the numbers fn:round gets wrong, a start of minus infinity without length, and huge starts; proved for all numbers below 2^61 in size that fn:round rounds rightly, infinite lengths and NaN"
  },
  {
   "property": "C65",
   "status": "proved",
   "theorems": [
    "Amxml.C65_count",
    "Amxml.C65_head_tail",
    "Amxml.C65_insert_before",
    "Amxml.C65_remove",
    "Amxml.C65_overflow"
   ],
   "note": "insert-before at the smallest 64-bit integer panics (C65_overflow)"
  },
  {
   "property": "C66",
   "status": "partial",
   "theorems": [
    "Amxml.C66_cardinality",
    "Amxml.C66_index_of_partial",
    "Amxml.C66_violated"
   ],
   "note": "fn:index-of proved where the items can be compared; violated for others, which are a type error instead of different"
  },
  {
   "property": "C68",
   "status": "partial",
   "theorems": [
    "Amxml.C68_exact",
    "Amxml.C68_integer",
    "Amxml.C68_round_partial",
    "Amxml.C68_round_wrong",
    "Amxml.C68_violated",
    "Amxml.C68_not_a_number"
   ],
   "note": "round is proved for all finite numbers but the largest below one half and the odd integers between 2^52 and 2^53 in size; for each of those it is off by one (C68_round_wrong)"
  },
  {
   "property": "C55",
   "status": "partial",
   "theorems": [
    "Amxml.C55_grammar_partial",
    "Amxml.C55_text_partial",
    "Amxml.C55_unambiguous",
    "Amxml.C55_violated",
    "Amxml.C55_words_violated",
    "Amxml.C55_accepts_more"
   ],
   "note": "proved for the productions in Spec/Grammar.lean and the lexical rules in Spec/Lexical.lean; the code departs from the grammar where C55_violated and C55_words_violated say"
  },
  {
   "property": "C76",
   "status": "partial",
   "theorems": [
    "Amxml.C76_step_partial",
    "Amxml.C76_violated",
    "Amxml.C76_exact"
   ],
   "note": "violated for *:n, document-node(), and following/preceding of attributes; proved for all axes and the tests in Spec.NTest; C76_exact: the others select nothing"
  },
  {
   "property": "C77",
   "status": "partial",
   "theorems": [
    "Amxml.C77_instance_partial",
    "Amxml.C77_function_partial",
    "Amxml.C77_violated",
    "Amxml.C77_exact",
    "Amxml.C77_subtypes"
   ],
   "note": "violated as C77_violated says; C77_exact says what instance of gives for every type and every value whose functions are inline functions or references to library functions; proved for types without function signatures, and for function signatures of inline functions without maps, arrays and named processing instructions"
  },
  {
   "property": "C78",
   "status": "partial",
   "theorems": [
    "Amxml.C78_integer_partial",
    "Amxml.C78_number_partial",
    "Amxml.C78_boolean_partial",
    "Amxml.C78_string",
    "Amxml.C78_errors",
    "Amxml.C78_violated",
    "Amxml.C78_number_many"
   ],
   "note": "violated as C78_violated says; C111 says exactly what the casts of texts give"
  },
  {
   "property": "C82",
   "status": "partial",
   "theorems": [
    "Amxml.C82_integer_partial",
    "Amxml.C82_fraction",
    "Amxml.C82_number",
    "Amxml.C82_violated",
    "Amxml.C82_exact"
   ],
   "note": "violated for integer literals of more than 64 bits, which are 0 (C82_exact)"
  },
  {
   "property": "C75",
   "status": "proved",
   "theorems": [
    "Amxml.C75_concatenation",
    "Amxml.C75_flat",
    "Amxml.C75_concat",
    "Amxml.C75_map"
   ],
   "note": ""
  },
  {
   "property": "C79",
   "status": "proved",
   "theorems": [
    "Amxml.C79_compare",
    "Amxml.C79_other"
   ],
   "note": ""
  },
  {
   "property": "C81",
   "status": "partial",
   "theorems": [
    "Amxml.C81_focus",
    "Amxml.C81_filter_partial",
    "Amxml.C81_step_partial",
    "Amxml.C81_last_partial",
    "Amxml.C81_violated",
    "Amxml.C81_exact"
   ],
   "note": "proved for predicates; violated on the right of ! and /, where C81_exact says what is given"
  },
  {
   "property": "C67",
   "status": "partial",
   "theorems": [
    "Amxml.C67_sum",
    "Amxml.C67_sum_integers",
    "Amxml.C67_sum_exact",
    "Amxml.C67_avg",
    "Amxml.C67_extremes_partial",
    "Amxml.C67_extremes_error",
    "Amxml.C67_nan_exact",
    "Amxml.C67_violated"
   ],
   "note": "C67_nan_exact says what NaN does; extremes proved for items that are ordered among each other (no NaN); violated as C67_violated says"
  },
  {
   "property": "C69",
   "status": "partial",
   "theorems": [
    "Amxml.C69_map_constructor",
    "Amxml.C69_map_constructor_error",
    "Amxml.C69_array_constructors",
    "Amxml.C69_map_functions",
    "Amxml.C69_array_functions_partial",
    "Amxml.C69_flatten",
    "Amxml.C69_apply_partial",
    "Amxml.C69_lookup_partial",
    "Amxml.C69_lookup_each_partial",
    "Amxml.C69_violated"
   ],
   "note": "keys are told apart by their text only, as in the code; lookup proved for keys computed with the map as context item; the deviations from XPath are in C69_violated"
  },
  {
   "property": "C70",
   "status": "partial",
   "theorems": [
    "Amxml.C70_names",
    "Amxml.C70_nilled",
    "Amxml.C70_root",
    "Amxml.C70_context",
    "Amxml.C70_lang_partial",
    "Amxml.C70_lang_exact",
    "Amxml.C70_violated"
   ],
   "note": "C70_lang_exact says what fn:lang computes for all arguments; fn:lang proved where all xml:lang on the path agree and the language asked for is in lower case without sub-language; violated otherwise"
  },
  {
   "property": "C71",
   "status": "partial",
   "theorems": [
    "Amxml.C71_inner",
    "Amxml.C71_text_partial",
    "Amxml.C71_leaf",
    "Amxml.C71_sequences",
    "Amxml.C71_violated"
   ],
   "note": "C71_inner says exactly what the code gives for every parsed document; the XPath rule holds without comments and instructions"
  },
  {
   "property": "C72",
   "status": "partial",
   "theorems": [
    "Amxml.C72_for_each_partial",
    "Amxml.C72_filter_partial",
    "Amxml.C72_no_function",
    "Amxml.C72_violated",
    "Amxml.C72_error"
   ],
   "note": "proved with the fixed arguments of a partial call and the free variables of a body evaluated in the caller's variables; C72_error: the error is that of the first item for which the function fails"
  },
  {
   "property": "C74",
   "status": "partial",
   "theorems": [
    "Amxml.C74_items",
    "Amxml.C74_apply_partial",
    "Amxml.C74_argument_type",
    "Amxml.C74_violated",
    "Amxml.C74_exact"
   ],
   "note": "proved for inline functions with as many arguments as parameters, free variables taken from the caller; C74_exact says what every other number of arguments and every other value in the place of the function gives"
  },
  {
   "property": "C58",
   "status": "partial",
   "theorems": [
    "Amxml.C58_only_expressions_partial",
    "Amxml.C58_balanced",
    "Amxml.Spec.Derives.reads",
    "Amxml.C58_violated"
   ],
   "note": "Proved: every text that compiles has a reading (terminals, words, productions) with the tree that is evaluated, hence its brackets are closed. Missing: the readings allow nine liberties that the grammar does not have (listed in Verif/Spec/Accepts.lean); C58_violated shows that the code takes them: `1 +` compiles and panics, `concat('a',,'b')` drops an argument, any word stands for `in` and `return`."
  },
  {
   "property": "C73",
   "status": "partial",
   "theorems": [
    "Amxml.C73_functions",
    "Amxml.C73_calls_checked_partial",
    "Amxml.C73_violated",
    "Amxml.C73_exact"
   ],
   "note": "Proved: the table of functions and numbers of arguments, exactly; and that in every text without `=>` that compiles all calls are of functions in the table. Missing: calls with `=>` and named function references are not checked by the code (C73_violated); they fail when they are called (C73_exact)."
  },
  {
   "property": "C80",
   "status": "partial",
   "theorems": [
    "Amxml.C80_ends_partial",
    "Amxml.C80_no_panic_partial",
    "Amxml.C80_endless",
    "Amxml.C80_overflow",
    "Amxml.C80_violated"
   ],
   "note": "Proved: queries end whose functions call only what is written at the place of the call, maps, arrays and, by name, functions bound by let whose own calls are of lower rank (C80_ends_partial: `Ranked`; a special case are queries whose functions call no functions); and if besides they are expressions of the grammar and do nothing on a list of things that can panic, they end with a value or an error. Missing: the rest, where the claim fails: `let $f := function() { $f() } return $f()` recurses for ever, integer overflow, `array {}`, `function($x) {}`, a map called without argument, `$f(?)`, too many arguments and `?*` panic."
  },
  {
   "property": "C83",
   "status": "proved",
   "theorems": [
    "Amxml.C83_round_trip",
    "Amxml.C83_notation",
    "Amxml.C83_whole"
   ],
   "note": ""
  },
  {
   "property": "C84",
   "status": "partial",
   "theorems": [
    "Amxml.C84_mod",
    "Amxml.C84_idiv_partial",
    "Amxml.C84_idiv_exact",
    "Amxml.C84_violated"
   ],
   "note": "mod proved; idiv proved for whole numbers and false otherwise: `5.5 idiv 1.5` is 5 and `1 idiv 0.5` a division by zero"
  },
  {
   "property": "C85",
   "status": "partial",
   "theorems": [
    "Amxml.C85_distinct_partial",
    "Amxml.C85_violated"
   ],
   "note": "proved for values without nodes, functions and quote characters in strings; false otherwise"
  },
  {
   "property": "C86",
   "status": "partial",
   "theorems": [
    "Amxml.C86_reads_partial",
    "Amxml.C86_violated"
   ],
   "note": "proved for strings (without quote characters and NUL), finite numbers (without the least integer) and arrays; false otherwise"
  },
  {
   "property": "C87",
   "status": "proved",
   "theorems": [
    "Amxml.C87_part",
    "Amxml.C87_nested",
    "Amxml.C87_query"
   ],
   "note": "`Next` (Verif/Spec/Errors.lean) lists the parts of every kind of expression and when they are evaluated"
  },
  {
   "property": "C88",
   "status": "proved",
   "theorems": [
    "Amxml.C88_path",
    "Amxml.C88_named",
    "Amxml.C88_keyed"
   ],
   "note": "from the text of the query to the nodes; `Verif/Spec/Paths.lean` gives the text and the meaning of a path; no white space between the tokens of the path; attributes of the document are not namespace declarations (`PlainAttrs`)"
  },
  {
   "property": "C89",
   "status": "proved",
   "theorems": [
    "Amxml.C89_append_child",
    "Amxml.C89_siblings",
    "Amxml.C89_delete_child",
    "Amxml.C89_attributes"
   ],
   "note": "`nodeText` and `Around` (Verif/Spec/EditText.lean): the text of a node from the texts of its children, and its place in the text of the document"
  },
  {
   "property": "C90",
   "status": "proved",
   "theorems": [
    "Amxml.C90_only_white_space",
    "Amxml.C90_pretty_parses"
   ],
   "note": "`Spaced` and `trimForest` (Verif/Spec/Pretty.lean): a text with white space added, and a tree with white space removed at the ends of texts"
  },
  {
   "property": "C91",
   "status": "proved",
   "theorems": [
    "Amxml.C91_same_answers",
    "Amxml.C91_same_text",
    "Amxml.C91_nodes",
    "Amxml.C91_parse_anywhere",
    "Amxml.C91_parsed_text",
    "Amxml.C91_reparsed"
   ],
   "note": "`SamePlace`, `SameSeq`, `SameOutcome` (Verif/Spec/Same.lean): corresponding nodes, values and outcomes. Attribute nodes are assumed to have nothing below them (`AttrLeaves`), as in every parsed document"
  },
  {
   "property": "C92",
   "status": "proved",
   "theorems": [
    "Amxml.C92_query",
    "Amxml.C92_condition",
    "Amxml.C92_count",
    "Amxml.C92_filters"
   ],
   "note": "The texts and the meaning of queries: Verif/Spec/Queries.lean. A bare path as a predicate is left out: with two or more nodes the code takes it for false (`C36_violated`), so existence is asked with `boolean(q)`"
  },
  {
   "property": "C93",
   "status": "proved",
   "theorems": [
    "Amxml.C93_same_answers",
    "Amxml.C93_same_text",
    "Amxml.C93_same_tree",
    "Amxml.C93_shared"
   ],
   "note": "Unconditional for edits of nodes whose root is another. C93_shared records what the condition means in the code: append_child copies one node and not what is below it, so the nodes below a copied node still belong (by their parent links) to the document they came from, and an edit of one of them shows in both documents."
  },
  {
   "property": "C94",
   "status": "proved",
   "theorems": [
    "Amxml.C94_lexical",
    "Amxml.C94_fails",
    "Amxml.C94_error",
    "Amxml.C94_same_scope",
    "Amxml.C94_restores",
    "Amxml.C94_no_quantifiers"
   ],
   "note": "The meaning with lexical scope is Spec/Scoping (a function of the syntax tree and a place: context, position, size, values of the variables). It takes what an operator makes of values, what library functions return and which nodes an axis selects from the model. The condition on names is needed: C42_some_hides is a query that does not meet it and reads the wrong variable. Errors: C94_error; the order in which the items of a path are looked at is not part of the meaning, so an early type error of the code may stand for a later error."
  },
  {
   "property": "C95",
   "status": "proved",
   "theorems": [
    "Amxml.C95_tokens",
    "Amxml.C95_one_reading",
    "Amxml.C95_accepts",
    "Amxml.C95_never_returns",
    "Amxml.C95_rejects",
    "Amxml.C95_xml_written",
    "Amxml.C95_xml_accepted"
   ],
   "note": "Exact characterisation, both directions; Spec/Markup.lean marks where the accepted language is wider than XML (junk characters in start tags, anything after the name of an end tag, missing names); markup_liberties shows such a text. Texts with U+0000 are the subject of C14."
  },
  {
   "property": "C96",
   "status": "proved",
   "theorems": [
    "Amxml.C96_xml_tree",
    "Amxml.C96_tree",
    "Amxml.C96_determined"
   ],
   "note": "The trees are given by the grammar (XmlDocument relates a text with a forest), not by running the parser; ReadAs says what text with references stands for (the texts left out are those of C12). The relation for arbitrary accepted texts (TextTrees) shows the liberties of the code: missing end tags at the end of the text, nameless end tags."
  },
  {
   "property": "C97",
   "status": "proved",
   "theorems": [
    "Amxml.C97_replace",
    "Amxml.C97_laws",
    "Amxml.C97_equal"
   ],
   "note": "The laws are the constructors of Law in Spec/Laws.lean, stated on syntax trees as the parser builds them; Within is replacement at any places, Equal its closure. Answers are the same; errors arise in the same cases (for queries that make no function items that call others), but need not be the same errors. Conditions as in C94. Function items are left alone by replacement because their expression is their value."
  },
  {
   "property": "C98",
   "status": "proved",
   "theorems": [
    "Amxml.C98_query",
    "Amxml.C98_condition",
    "Amxml.C98_deep",
    "Amxml.C98_preceding",
    "Amxml.C98_de_morgan",
    "Amxml.C98_there_and_back"
   ],
   "note": "The rules are the constructors of PathLaw in Spec/PathLaws.lean, PathEq is the least congruence with them; both speak about syntax only. Documents as in C92: attributes are the nodes the parser or set_attribute makes."
  },
  {
   "property": "C99",
   "status": "proved",
   "theorems": [
    "Amxml.C99_case",
    "Amxml.C99_other"
   ],
   "note": "Texts with other characters go through the Unicode tables of the Rust library, which are not modelled (an opaque function)."
  },
  {
   "property": "C100",
   "status": "proved",
   "theorems": [
    "Amxml.C100_names",
    "Amxml.C100_spaces",
    "Amxml.C100_longest",
    "Amxml.C100_reported",
    "Amxml.C100_tree",
    "Amxml.C100_usable",
    "Amxml.C100_ascii"
   ],
   "note": "For texts without U+0000 (see C14)."
  },
  {
   "property": "C101",
   "status": "proved",
   "theorems": [
    "Amxml.C101_value",
    "Amxml.C101_compare",
    "Amxml.C101_integers",
    "Amxml.C101_order"
   ],
   "note": ""
  },
  {
   "property": "C102",
   "status": "proved",
   "theorems": [
    "Amxml.C102_stays",
    "Amxml.C102_delete",
    "Amxml.C102_set",
    "Amxml.C102_drop",
    "Amxml.C102_named"
   ],
   "note": ""
  },
  {
   "property": "C103",
   "status": "proved",
   "theorems": [
    "Amxml.C103_attribute",
    "Amxml.C103_value",
    "Amxml.C103_append",
    "Amxml.C103_insert",
    "Amxml.C103_last",
    "Amxml.C103_delete_text",
    "Amxml.C103_replace_text"
   ],
   "note": "a node put back with insert_as_… or replace_with is a copy whose children still have the old node as their parent (C24), so for these only the text is claimed"
  },
  {
   "property": "C104",
   "status": "proved",
   "theorems": [
    "Amxml.C104_any_order",
    "Amxml.C104_new_attributes"
   ],
   "note": "C104_new_attributes shows that the condition is needed: two new attributes stand in the order in which they are set"
  },
  {
   "property": "C105",
   "status": "proved",
   "theorems": [
    "Amxml.C105_shortest",
    "Amxml.C105_scientific"
   ],
   "note": ""
  },
  {
   "property": "C106",
   "status": "proved",
   "theorems": [
    "Amxml.C106_value",
    "Amxml.C106_error"
   ],
   "note": "The pairs of operators are listed in swaps (Spec/Laws.lean). The operands are values: which of two failing operand expressions reports its error is another matter."
  },
  {
   "property": "C107",
   "status": "proved",
   "theorems": [
    "Amxml.C107_text",
    "Amxml.C107_start_tag"
   ],
   "note": "for every value, function items (a listing of the syntax tree) and infinite or NaN decimals (inf.0, -inf.0, NaN.0) included"
  },
  {
   "property": "C108",
   "status": "proved",
   "theorems": [
    "Amxml.C108_value",
    "Amxml.C108_fails",
    "Amxml.C108_depth",
    "Amxml.C108_restores",
    "Amxml.C108_no_quantifiers"
   ],
   "note": "The meaning is Spec/Applied (means, with callItem for calls to a depth; where callItem says outOfFuel nothing is claimed). The focus in the body of a function is that of the caller, and the fixed arguments of a partial call are evaluated at each call, as the code does. The conditions on the functions are needed: examples in Props/Applied show the code reading a variable of the caller, hiding one, and removing one."
  },
  {
   "property": "C109",
   "status": "proved",
   "theorems": [
    "Amxml.C109_unchanged",
    "Amxml.C109_text",
    "Amxml.C109_attribute",
    "Amxml.C109_numeric"
   ],
   "note": "The reading of well-formed references among each other is C12."
  },
  {
   "property": "C110",
   "status": "proved",
   "theorems": [
    "Amxml.C110_copy",
    "Amxml.C110_same",
    "Amxml.C110_inner",
    "Amxml.C110_parsed",
    "Amxml.C110_append",
    "Amxml.C110_insert"
   ],
   "note": "Contents outside the stated class are changed by writing and reading (C03, C04, C14)."
  },
  {
   "property": "C111",
   "status": "proved",
   "theorems": [
    "Amxml.C111_number",
    "Amxml.C111_integer",
    "Amxml.C111_classes"
   ],
   "note": "says exactly what C78 and C82 give for texts, also where they are violated. The grammar of f64::from_str is that of Rust since 1.55."
  },
  {
   "property": "C112",
   "status": "partial",
   "theorems": [
    "Amxml.C112_signatures_partial",
    "Amxml.C112_mistaken",
    "Amxml.C112_violated"
   ],
   "note": "violated for the functions in mistakenSignatures, for which C112_mistaken says exactly what they are taken for, and for concat"
  },
  {
   "property": "C113",
   "status": "proved",
   "theorems": [
    "Amxml.C113_items",
    "Amxml.C113_extensional",
    "Amxml.C113_text",
    "Amxml.C113_nodes",
    "Amxml.C113_error"
   ],
   "note": ""
  },
  {
   "property": "C114",
   "status": "proved",
   "theorems": [
    "Amxml.C114_no_larger",
    "Amxml.C114_created",
    "Amxml.C114_written",
    "Amxml.C114_references"
   ],
   "note": "For texts without U+0000 (see C14)."
  },
  {
   "property": "C115",
   "status": "proved",
   "theorems": [
    "Amxml.C115_no_larger"
   ],
   "note": "For texts without U+0000 (see C52)."
  },
  {
   "property": "C116",
   "status": "proved",
   "theorems": [
    "Amxml.C116_depth",
    "Amxml.C116_ranked"
   ],
   "note": "The depth is the fuel of the model's evaluator: one for each nested call of evaluate_xnode or call_function. The recursion of axes over the tree is not counted here but in C118. For functions that call themselves there is no such bound: C80_endless."
  },
  {
   "property": "C117",
   "status": "proved",
   "theorems": [
    "Amxml.C117_navigation",
    "Amxml.C117_tests",
    "Amxml.C117_children",
    "Amxml.C117_attributes",
    "Amxml.C117_root_element",
    "Amxml.C117_names"
   ],
   "note": "Finds (Props/Accessors.lean) says that all four functions of the interface give these nodes, from some depth of recursion on. C117_attributes asks that the heap be reachable, C117_root_element that the node belong to a document tree with plain attributes (both hold of everything made by new_document and edits: C08, C16)."
  },
  {
   "property": "C118",
   "status": "proved",
   "theorems": [
    "Amxml.C118_depth",
    "Amxml.C118_order",
    "Amxml.C118_text",
    "Amxml.C118_unbounded"
   ],
   "note": "Model/Depth.lean has the recursive functions once more, with the calls that may be nested (stack frames) counted and the loops over children as loops; the theorems say that they agree with the functions of the other properties exactly from the depth nesting on. How many bytes a frame takes is not modelled. The lower bound for strings and to_string asks that only elements and the root have children, as in every parsed document."
  },
  {
   "property": "C119",
   "status": "proved",
   "theorems": [
    "Amxml.C119_nesting",
    "Amxml.C119_flat",
    "Amxml.C119_needed",
    "Amxml.C119_exact"
   ],
   "note": "the calls counted are those of parse_expr_single, through which all recursion of the expression grammar goes; besides, parse_predicate_list calls itself once for each predicate of a step, and parse_item_type nests as the type is nested"
  },
  {
   "property": "C120",
   "status": "proved",
   "theorems": [
    "Amxml.C120_description",
    "Amxml.C120_tells",
    "Amxml.C120_kind",
    "Amxml.C120_document"
   ],
   "note": "`kindPrefix` (Spec/Program.lean) is the table of prefixes"
  },
  {
   "property": "C121",
   "status": "proved",
   "theorems": [
    "Amxml.C121_usage",
    "Amxml.C121_unreadable",
    "Amxml.C121_rejected",
    "Amxml.C121_prints",
    "Amxml.C121_hangs",
    "Amxml.C121_status",
    "Amxml.C121_accepts",
    "Amxml.C121_again"
   ],
   "note": "the file system and the `{:?}` form of errors are parameters"
  },
  {
   "property": "C122",
   "status": "proved",
   "theorems": [
    "Amxml.C122_fault",
    "Amxml.C122_mismatch",
    "Amxml.C122_one_fault",
    "Amxml.C122_verdict"
   ],
   "note": "`Fault`, `TagFault` and `OpenAfter` (Spec/Faults.lean) are the specification, over the grammar of C95"
  },
  {
   "property": "C123",
   "status": "proved",
   "theorems": [
    "Amxml.C123_text",
    "Amxml.C123_everywhere",
    "Amxml.C123_kinds",
    "Amxml.C123_value"
   ],
   "note": "blank queries panic (C52)"
  }
 ]
}