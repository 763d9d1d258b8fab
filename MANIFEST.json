{
 "claims": [
  {
   "property": "C01",
   "status": "proved",
   "theorems": [
    "Hext.Props.extract_terminates_safely",
    "Hext.Props.extract_document_safe",
    "Hext.Props.searched_nodes_stored",
    "Hext.Props.every_tree_is_a_document",
    "Hext.Props.C01_hext_safe"
   ],
   "note": "rules with in-range nth-child arguments (Rule.Safe); C01_hext_safe: hexts without ten digits in a row only have such rules"
  },
  {
   "property": "C02",
   "status": "proved",
   "theorems": [
    "Hext.Props.extract_unlimited"
   ],
   "note": ""
  },
  {
   "property": "C03",
   "status": "proved",
   "theorems": [
    "Hext.Props.max_searches_exact",
    "Hext.Props.max_searches_flat",
    "Hext.Props.max_searches_monotone"
   ],
   "note": ""
  },
  {
   "property": "C04",
   "status": "proved",
   "theorems": [
    "Hext.Props.extract_sound",
    "Hext.Props.extract_isResult",
    "Hext.Props.extract_characterised"
   ],
   "note": ""
  },
  {
   "property": "C05",
   "status": "proved",
   "theorems": [
    "Hext.Props.sat_iff",
    "Hext.Props.embeds_iff",
    "Hext.Props.single_rule_complete"
   ],
   "note": ""
  },
  {
   "property": "C06",
   "status": "proved",
   "theorems": [
    "Hext.Props.C06_result",
    "Hext.Props.group_shape"
   ],
   "note": ""
  },
  {
   "property": "C07",
   "status": "proved",
   "theorems": [
    "Hext.Props.C07_result",
    "Hext.Props.group_shape",
    "Hext.Props.group_mandatory",
    "Hext.Props.no_embedding_no_result",
    "Hext.Props.embedding_gives_group"
   ],
   "note": ""
  },
  {
   "property": "C08",
   "status": "proved",
   "theorems": [
    "Hext.Props.C08_result",
    "Hext.Props.group_shape",
    "Hext.Props.group_nongreedy_once"
   ],
   "note": ""
  },
  {
   "property": "C09",
   "status": "partial",
   "theorems": [
    "Hext.Props.C09_result_once",
    "Hext.Props.C09_result_partial",
    "Hext.Props.greedy_takes_all_partial",
    "Hext.Props.greedy_after_mandatory",
    "Hext.Props.greedy_after_optional_once",
    "Hext.Props.greedy_after_greedy_once",
    "Hext.Props.greedy_once"
   ],
   "note": "the full claim is false of the code: a greedy mandatory rule directly after an optional or greedy rule matches only once; the witnesses are theorems; greedy_once says exactly which rules: a mandatory rule that is reached while another one waits (waitingAfter) is used once"
  },
  {
   "property": "C10",
   "status": "proved",
   "theorems": [
    "Hext.Props.C10_result",
    "Hext.Props.groups_disjoint"
   ],
   "note": ""
  },
  {
   "property": "C11",
   "status": "proved",
   "theorems": [
    "Hext.Props.single_rule_complete",
    "Hext.Props.searched_nodes",
    "Hext.Props.searched_once"
   ],
   "note": ""
  },
  {
   "property": "C12",
   "status": "proved",
   "theorems": [
    "Hext.Props.C12_result",
    "Hext.Props.pairs_placed"
   ],
   "note": ""
  },
  {
   "property": "C13",
   "status": "partial",
   "theorems": [
    "Hext.Props.optional_never_blocks_partial",
    "Hext.Props.optional_never_blocks_inner",
    "Hext.Props.embeds_of_sameMandatory",
    "Hext.Props.optional_child_blocks_childless",
    "Hext.Props.optional_blocks_iff"
   ],
   "note": "the full claim is false of the code: an optional child rule blocks a match on a childless node; the witness is a theorem; optional_blocks_iff says exactly when"
  },
  {
   "property": "C14",
   "status": "proved",
   "theorems": [
    "Hext.Props.no_empty_maps",
    "Hext.Props.result_maps"
   ],
   "note": ""
  },
  {
   "property": "C15",
   "status": "proved",
   "theorems": [
    "Hext.Props.result_maps",
    "Hext.Props.isMap_perm",
    "Hext.Props.isMap_sorted_stable",
    "Hext.Props.isMap_unique"
   ],
   "note": ""
  },
  {
   "property": "C16",
   "status": "proved",
   "theorems": [
    "Hext.Props.C16_hext",
    "Hext.Props.mandatory_capture_present",
    "Hext.Props.attribute_capture_iff",
    "Hext.Props.function_capture_iff",
    "Hext.Props.rule_capture_iff"
   ],
   "note": ""
  },
  {
   "property": "C17",
   "status": "proved",
   "theorems": [
    "Hext.Props.nth_child_iff"
   ],
   "note": "the root element is a separate case: nth_child_root_witness; of-type and custom tags: of_type_unknown_witness"
  },
  {
   "property": "C18",
   "status": "partial",
   "theorems": [
    "Hext.Props.nth_child_no_overflow_partial",
    "Hext.Props.nth_child_overflow_iff",
    "Hext.Props.nth_child_overflow_witness"
   ],
   "note": "the full claim is false of the code: signed overflow for extreme arguments; nth_child_overflow_iff says exactly when"
  },
  {
   "property": "C19",
   "status": "proved",
   "theorems": [
    "Hext.Props.only_child_iff"
   ],
   "note": ""
  },
  {
   "property": "C20",
   "status": "proved",
   "theorems": [
    "Hext.Props.child_count_iff",
    "Hext.Props.attribute_count_iff"
   ],
   "note": ""
  },
  {
   "property": "C21",
   "status": "proved",
   "theorems": [
    "Hext.Props.attr_present_iff",
    "Hext.Props.attr_missing_iff",
    "Hext.Props.attr_test_iff",
    "Hext.Props.attr_negated_test_iff",
    "Hext.Props.attr_negation_complements"
   ],
   "note": ""
  },
  {
   "property": "C22",
   "status": "proved",
   "theorems": [
    "Hext.Props.negate_iff",
    "Hext.Props.negate_negate"
   ],
   "note": ""
  },
  {
   "property": "C23",
   "status": "proved",
   "theorems": [
    "Hext.Props.beginsWith_iff",
    "Hext.Props.endsWith_iff",
    "Hext.Props.contains_iff",
    "Hext.Props.equals_iff",
    "Hext.Props.tests_of_null"
   ],
   "note": ""
  },
  {
   "property": "C24",
   "status": "proved",
   "theorems": [
    "Hext.Props.containsWords_iff",
    "Hext.Props.containsWords_overlap_witness",
    "Hext.Props.containsWords_newline_witness"
   ],
   "note": ""
  },
  {
   "property": "C25",
   "status": "proved",
   "theorems": [
    "Hext.Props.tag_iff",
    "Hext.Props.known_tag_rule",
    "Hext.Props.custom_tag_rule"
   ],
   "note": ""
  },
  {
   "property": "C26",
   "status": "proved",
   "theorems": [
    "Hext.Props.collapseWs_correct",
    "Hext.Props.words_flatten",
    "Hext.Props.words_are_words",
    "Hext.Props.collapseWs_normal_form",
    "Hext.Props.collapseWs_idempotent"
   ],
   "note": ""
  },
  {
   "property": "C27",
   "status": "proved",
   "theorems": [
    "Hext.Props.trim_correct",
    "Hext.Props.trim_unique",
    "Hext.Props.trim_idempotent"
   ],
   "note": ""
  },
  {
   "property": "C28",
   "status": "proved",
   "theorems": [
    "Hext.Props.pipe_compose",
    "Hext.Props.pipe_append_transforms",
    "Hext.Props.pipe_append",
    "Hext.Props.append_prepend_correct",
    "Hext.Props.case_correct"
   ],
   "note": ""
  },
  {
   "property": "C29",
   "status": "proved",
   "theorems": [
    "Hext.Props.regex_pipe_correct",
    "Hext.Props.regex_test_correct"
   ],
   "note": ""
  },
  {
   "property": "C30",
   "status": "proved",
   "theorems": [
    "Hext.Props.strip_tags_correct",
    "Hext.Props.text_correct",
    "Hext.Props.text_keeps_bytes",
    "Hext.Props.text_block_breaks",
    "Hext.Props.text_inline"
   ],
   "note": ""
  },
  {
   "property": "C31",
   "status": "proved",
   "theorems": [
    "Hext.Props.inner_html_correct",
    "Hext.Props.attribute_readable",
    "Hext.Props.attribute_not_html_witness",
    "Hext.Props.inner_html_not_injective_witness"
   ],
   "note": "the quoting undone is the code's own (backslashes); an HTML parser reads such a value differently, which attribute_not_html_witness shows"
  },
  {
   "property": "C32",
   "status": "proved",
   "theorems": [
    "Hext.Hist.copy_extracts_same",
    "Hext.Hist.assign_extracts_same"
   ],
   "note": "in the memory model, within any program; the copy also stays the same whatever happens later to the original"
  },
  {
   "property": "C33",
   "status": "proved",
   "theorems": [
    "Hext.Hist.append_next_order",
    "Hext.Hist.append_child_order",
    "Hext.Hist.append_nested_order"
   ],
   "note": ""
  },
  {
   "property": "C34",
   "status": "partial",
   "theorems": [
    "Hext.Props.C34_parse_safe_partial",
    "Hext.Props.C34_parse_safe_unsigned",
    "Hext.Props.C34_parse_unsafe",
    "Hext.Props.C34_parse_unsafe_byte",
    "Hext.Props.C34_unsafe_iff"
   ],
   "note": "the full claim is false of the code: with a signed char an unexpected byte from 128 to 254 is passed to std::isprint (C34_parse_unsafe, for every place where the grammar does not allow such a byte and the text before it can be completed); proved for all texts up to 2^31 - 3 bytes that have such bytes only where the grammar allows them, and for every input of that length where char is unsigned; C34_unsafe_iff says exactly when"
  },
  {
   "property": "C35",
   "status": "partial",
   "theorems": [
    "Hext.Props.C35_out_of_range_iff",
    "Hext.Props.C35_syntax_error_iff_partial",
    "Hext.Props.C35_only_syntax_error_partial",
    "Hext.Props.C35_out_of_range",
    "Hext.Props.C35_out_of_range_big"
   ],
   "note": "the full claim is false of the code: std::out_of_range escapes for numbers that do not fit into an int; C35_out_of_range_iff says exactly for which inputs, C35_syntax_error_iff_partial exactly for which inputs SyntaxError is thrown (inputs without the UB of C34)"
  },
  {
   "property": "C36",
   "status": "proved",
   "theorems": [
    "Hext.Props.C36_parse_iff",
    "Hext.Props.C36_meaning_unique",
    "Hext.Props.C36_accepted_balanced",
    "Hext.Props.C36_unbalanced_rejected",
    "Hext.Props.C36_rule_has_tag",
    "Hext.Props.C36_tag_has_rule"
   ],
   "note": ""
  },
  {
   "property": "C37",
   "status": "proved",
   "theorems": [
    "Hext.Props.C37_parse_print",
    "Hext.Props.C37_print_parse"
   ],
   "note": ""
  },
  {
   "property": "C38",
   "status": "proved",
   "theorems": [
    "Hext.Props.C38_fill"
   ],
   "note": ""
  },
  {
   "property": "C39",
   "status": "proved",
   "theorems": [
    "Hext.Props.C39_message_points",
    "Hext.Props.C39_caret",
    "Hext.Props.C39_first_bad_byte"
   ],
   "note": ""
  },
  {
   "property": "C40",
   "status": "proved",
   "theorems": [
    "Hext.Props.C40_signedness",
    "Hext.Props.C40_same_path",
    "Hext.Props.C40_exact"
   ],
   "note": ""
  },
  {
   "property": "C41",
   "status": "partial",
   "theorems": [
    "Hext.Props.C41_own_options_partial",
    "Hext.Props.C41_options_leak",
    "Hext.Props.C41_reaching_options"
   ],
   "note": "the full claim is false of the code: the options of :type-matches and of a pipe that is not the last one apply to later regular expressions as well (C41_options_leak); C41_reaching_options says for every hext which options reach which regular expressions"
  },
  {
   "property": "C42",
   "status": "partial",
   "theorems": [
    "Hext.Props.C42_presented_alike_partial",
    "Hext.Props.C42_node_loses_proto",
    "Hext.Props.C42_node_reorders",
    "Hext.Props.C42_nul_truncates",
    "Hext.Props.C42_python_raises",
    "Hext.Props.C42_php_lookup",
    "Hext.Props.C42_node_object",
    "Hext.Props.C42_every_map"
   ],
   "note": "proved for maps without NUL, in valid UTF-8, and for Node without the key __proto__ and up to the order of integer-like keys; the full claim is false of the code, see the witnesses; C42_node_object says for every UTF-8 map what the object of Node is, with __proto__ and array indices; C42_every_map says for every map, with any bytes, what Ruby, PHP, Python and htmlext make of it"
  },
  {
   "property": "C43",
   "status": "partial",
   "theorems": [
    "Hext.Props.C43_filter",
    "Hext.Props.C43_filter_lines_partial",
    "Hext.Props.C43_filter_lines_iff",
    "Hext.Props.C43_filter_ambiguous"
   ],
   "note": "exactly the values are printed, each followed by a line break; they are one line each if and only if they contain no line break (C43_filter_lines_iff)"
  },
  {
   "property": "C44",
   "status": "partial",
   "theorems": [
    "Hext.Props.C44_objects",
    "Hext.Props.C44_array_partial",
    "Hext.Props.C44_array_iff",
    "Hext.Props.C44_array_empty"
   ],
   "note": "the array is printed for every rule and document, except for empty results, for which nothing is printed; C44_array_iff says exactly when the whole output is one array"
  },
  {
   "property": "C45",
   "status": "partial",
   "theorems": [
    "Hext.Props.C45_node_limit_partial",
    "Hext.Props.C45_python_limit",
    "Hext.Props.C45_node_limit_wraps",
    "Hext.Props.C45_node_limit_iff"
   ],
   "note": "the full claim is false of the code: the Node binding takes the limit modulo 2^32; C45_node_limit_iff says for exactly which limits it is right"
  },
  {
   "property": "C46",
   "status": "partial",
   "theorems": [
    "Hext.HtmlMem.C46_documents_partial",
    "Hext.HtmlMem.C46_main",
    "Hext.HtmlMem.C46_main_reads",
    "Hext.HtmlMem.C46_wrapper",
    "Hext.HtmlMem.C46_move_ub",
    "Hext.HtmlMem.C46_main_needs_reserve",
    "Hext.HtmlMem.C46_ub_iff"
   ],
   "note": "the full claim is false of the code: every program that moves an Html and destroys all has undefined behaviour; proved for programs without moves, which includes htmlext and the bindings; C46_ub_iff: undefined behaviour exactly if the program moves"
  },
  {
   "property": "C47",
   "status": "proved",
   "theorems": [
    "Hext.Hist.rules_are_values",
    "Hext.Hist.no_leak",
    "Hext.Hist.append_move_defined_iff"
   ],
   "note": ""
  },
  {
   "property": "C48",
   "status": "partial",
   "theorems": [
    "Hext.Hist.move_extracts_same",
    "Hext.Hist.move_assign_extracts_same_partial",
    "Hext.Hist.move_assign_defined_iff",
    "Hext.Hist.move_assign_from_part_ub",
    "Hext.Hist.move_assign_to_part_leaks",
    "Hext.Hist.move_assign_self_loses"
   ],
   "note": "proved for any two rules that can be reached, including sub-rules, if neither is the other or a part of the other (move_assign_defined_iff); there the full claim is false of the code: moving a part of a rule to the rule is undefined behaviour, moving a rule to a part of itself leaks, and moving a rule to itself loses nested rules, matches and captures"
  },
  {
   "property": "C49",
   "status": "partial",
   "theorems": [
    "Hext.Mem.assign_attribute_capture_partial",
    "Hext.Mem.assign_function_capture_partial",
    "Hext.Mem.assign_capture_without_pipe_ub",
    "Hext.Mem.assign_function_capture_without_pipe_ub",
    "Hext.Mem.C49_assign_iff",
    "Hext.Mem.C49_move_assign"
   ],
   "note": "the full claim is false of the code: assigning a capture without a pipe dereferences a null pointer; C49_assign_iff says exactly when the assignment is defined (and then it is right), C49_move_assign that move assignment always is right for different captures"
  },
  {
   "property": "C50",
   "status": "proved",
   "theorems": [
    "Hext.Props.C50_success"
   ],
   "note": "What reading a file gives is an input here; C109 is about how ReadFileOrThrow arrives at it."
  },
  {
   "property": "C51",
   "status": "proved",
   "theorems": [
    "Hext.Props.C51_failure",
    "Hext.Props.C51_rejected"
   ],
   "note": ""
  },
  {
   "property": "C52",
   "status": "proved",
   "theorems": [
    "Hext.Props.C52_lint"
   ],
   "note": "What reading a file gives is an input here; C109 is about how ReadFileOrThrow arrives at it."
  },
  {
   "property": "C53",
   "status": "proved",
   "theorems": [
    "Hext.Props.C53_json_per_line"
   ],
   "note": "for documents of Gumbo and safe hexts, see Reliable"
  },
  {
   "property": "C54",
   "status": "partial",
   "theorems": [
    "Hext.Props.C54_crash_iff",
    "Hext.Props.C54_always_exits_partial",
    "Hext.Props.C54_crashes"
   ],
   "note": "the full claim is false of the code: a byte from 128 to 254 in a rejected hext is passed to isprint where char is signed; C54_crash_iff says exactly in which runs this happens, and that all other runs end with an exit code; for the depth of recursion see C66"
  },
  {
   "property": "C55",
   "status": "partial",
   "theorems": [
    "Hext.Props.C55_rule_iff",
    "Hext.Props.C55_node_rule_iff",
    "Hext.Props.C55_rule_partial",
    "Hext.Props.C55_node_rule_partial",
    "Hext.Props.C55_ruby_extract",
    "Hext.Props.C55_php_extract",
    "Hext.Props.C55_python_extract",
    "Hext.Props.C55_node_extract",
    "Hext.Props.C55_rule_terminates"
   ],
   "note": "the full claim is false of the code: std::out_of_range from a large number is not caught; C55_rule_iff and C55_node_rule_iff say exactly for which hexts constructing a rule returns, raises, ends the process or is undefined"
  },
  {
   "property": "C56",
   "status": "proved",
   "theorems": [
    "Hext.Props.same_content_same_result",
    "Hext.Props.C56_hext"
   ],
   "note": "functions passed in by a C++ caller get the address of the node and are excluded; hexts cannot use such"
  },
  {
   "property": "C57",
   "status": "proved",
   "theorems": [
    "Hext.Props.captures_do_not_influence_matching",
    "Hext.Props.C57_hext"
   ],
   "note": "also for functions passed in by a C++ caller"
  },
  {
   "property": "C58",
   "status": "partial",
   "theorems": [
    "Hext.Props.comments_do_not_matter_partial",
    "Hext.Props.C58_hext_partial",
    "Hext.Props.comment_fills_empty_element",
    "Hext.Props.any_matches_comments",
    "Hext.Props.comments_cost_searches",
    "Hext.Props.C58_limit_partial"
   ],
   "note": "the full claim is false of the code: a comment in an otherwise empty element decides whether a rule with only optional child rules matches, rules for any tag match comments, and comments count towards the limit; each is shown by a witness. Proved for rules that have a mandatory rule among their child or nested rules, no rule for any tag and no @inner-html"
  },
  {
   "property": "C59",
   "status": "proved",
   "theorems": [
    "Hext.Props.attribute_order_does_not_matter",
    "Hext.Props.C59_hext"
   ],
   "note": "without @inner-html, as stated"
  },
  {
   "property": "C60",
   "status": "proved",
   "theorems": [
    "Hext.Props.sole_rule_optional",
    "Hext.Props.C60_hext"
   ],
   "note": ""
  },
  {
   "property": "C61",
   "status": "proved",
   "theorems": [
    "Hext.Props.no_captures_no_results",
    "Hext.Props.C61_hext"
   ],
   "note": ""
  },
  {
   "property": "C62",
   "status": "proved",
   "theorems": [
    "Hext.Props.C62_link",
    "Hext.Props.C62_order"
   ],
   "note": ""
  },
  {
   "property": "C63",
   "status": "proved",
   "theorems": [
    "Hext.Props.extract_outcome",
    "Hext.Props.C63_meaning",
    "Hext.Props.C63_total"
   ],
   "note": "the specification (Spec/Syntax, Spec/Conditions, Spec/Extract, Spec/Meaning) mentions neither the evaluation functions nor the heap"
  },
  {
   "property": "C64",
   "status": "proved",
   "theorems": [
    "Hext.Props.C64_enough_searches",
    "Hext.Props.C64_hext"
   ],
   "note": "counts searches as the engine counts them against max_searches (one for each list of sibling nodes a rule is searched in), not machine time"
  },
  {
   "property": "C65",
   "status": "proved",
   "theorems": [
    "Hext.Props.C65_output",
    "Hext.Props.C65_output_limited",
    "Hext.Props.C65_succeeds",
    "Hext.Props.C65_json",
    "Hext.Props.C65_filter"
   ],
   "note": "what Boost makes of the arguments and what Gumbo makes of a text are parameters; hexts have no ten digits in a row (C20, C35)"
  },
  {
   "property": "C66",
   "status": "proved",
   "theorems": [
    "Hext.Props.C66_enough_stack",
    "Hext.Props.C66_hext",
    "Hext.Props.C66_stack_needed",
    "Hext.Props.C66_overflow"
   ],
   "note": "counts the calls of the functions of RuleMatching.cpp that call each other; calls of conditions and containers below them are not counted, nor is the size of a frame"
  },
  {
   "property": "C67",
   "status": "proved",
   "theorems": [
    "Hext.Props.C67_throws_or_same",
    "Hext.Props.C67_hext",
    "Hext.Props.C67_no_reason",
    "Hext.Props.C67_not_swallowed",
    "Hext.Props.C67_htmlext",
    "Hext.Props.C67_exit_zero"
   ],
   "note": "for the matching functions, conditions, tests, pipes and captures of the library; which exception is thrown is not modelled"
  },
  {
   "property": "C68",
   "status": "proved",
   "theorems": [
    "Hext.Props.C68_destroy",
    "Hext.Props.C68_destroyed",
    "Hext.Props.C68_copy",
    "Hext.Props.C68_copied",
    "Hext.Props.C68_hext",
    "Hext.Props.C68_overflow"
   ],
   "note": "frames of the constructors and destructors are counted; their size is not modelled"
  },
  {
   "property": "C69",
   "status": "proved",
   "theorems": [
    "Hext.Props.C69_exact",
    "Hext.Props.C69_enough",
    "Hext.Props.C69_overflow"
   ],
   "note": "frames of NodeText, NodeInnerHtml, StripTags, SerializeNode and SerializeElement are counted; their size is not modelled"
  },
  {
   "property": "C70",
   "status": "proved",
   "theorems": [
    "Hext.Props.C70_options",
    "Hext.Props.C70_unambiguous",
    "Hext.Props.C70_main",
    "Hext.Props.C70_rejected",
    "Hext.Props.C70_output",
    "Hext.Props.C70_order"
   ],
   "note": "Boost.Program_options is modelled (Model/Options.lean) and trusted; its messages are open"
  },
  {
   "property": "C71",
   "status": "partial",
   "theorems": [
    "Hext.Props.C71_spelling_partial",
    "Hext.Props.C71_lint_spelling",
    "Hext.Props.C71_spelling_iff"
   ],
   "note": "the full claim is false of the code: only the literal spellings -l and --lint disable positional arguments, so that --lint a.hext is refused and --lin a.hext checks the file; the witness is a theorem; C71_spelling_iff says exactly when the spelling matters"
  },
  {
   "property": "C72",
   "status": "partial",
   "theorems": [
    "Hext.Mem.C72_assign_match",
    "Hext.Mem.C72_assign_test",
    "Hext.Mem.C72_assign_pipe_partial",
    "Hext.Mem.C72_own_tail",
    "Hext.Mem.C72_around",
    "Hext.Mem.C72_move_pipe_partial",
    "Hext.Mem.C72_move_own_tail",
    "Hext.Mem.C72_append_pipe",
    "Hext.Mem.C72_append_match",
    "Hext.Mem.C72_move_test",
    "Hext.Mem.C72_move_match",
    "Hext.Mem.C72_assign_pipe_iff"
   ],
   "note": "the full claim is false of the code for transformations: StringPipe::operator= deletes the old chain before it reads the other one, so assigning from a later part of the own chain is a use after free, and assigning a chain to one of its later parts drops what follows it; both are theorems; C72_assign_pipe_iff says exactly when the assignment of a transformation is right"
  },
  {
   "property": "C73",
   "status": "partial",
   "theorems": [
    "Hext.Hist.C73_programs_partial",
    "Hext.Hist.C73_enough",
    "Hext.Mem.C73_copy_rule",
    "Hext.Mem.C73_clone_match",
    "Hext.Mem.C73_clone_test",
    "Hext.Mem.C73_clone_capture",
    "Hext.Mem.C73_clone_pipe",
    "Hext.Mem.C73_assign_rule",
    "Hext.Mem.C73_assign_match",
    "Hext.Mem.C73_assign_test_partial",
    "Hext.Mem.C73_assign_words",
    "Hext.Mem.C73_assign_words_mixes",
    "Hext.Mem.C73_assign_pipe_partial",
    "Hext.Mem.C73_assign_pipe_loses",
    "Hext.Mem.C73_assign_attribute_capture_partial",
    "Hext.Mem.C73_assign_function_capture_partial",
    "Hext.Mem.C73_assign_capture_mixes",
    "Hext.Mem.C73_constructor_terminates",
    "Hext.Mem.C73_append_child",
    "Hext.Mem.C73_append_next",
    "Hext.Mem.C73_append_nested"
   ],
   "note": "the full claim is false of the code in four places, each a theorem: Rule(std::string, ...) is noexcept but copies a string, so the program is terminated; a chain of transformations, a capture and a ContainsWordsTest that are assigned are left half assigned. For everything else the claim is proved for all programs"
  },
  {
   "property": "C74",
   "status": "partial",
   "theorems": [
    "Hext.Props.C74_prefix",
    "Hext.Props.C74_exit_code",
    "Hext.Props.C74_complete_partial",
    "Hext.Props.C74_incomplete"
   ],
   "note": "the second sentence is false of the code: main.cpp never looks at the state of std::cout, so on a full disk htmlext exits with 0 after any prefix of its output (C74_incomplete); proved for devices that take everything"
  },
  {
   "property": "C75",
   "status": "partial",
   "theorems": [
    "Hext.Props.C75_ruby",
    "Hext.Props.C75_python_partial",
    "Hext.Props.C75_php_partial",
    "Hext.Props.C75_node_partial",
    "Hext.Props.C75_htmlext",
    "Hext.Props.C75_same_objects",
    "Hext.Props.C75_limit",
    "Hext.Props.C75_php_list",
    "Hext.Props.C75_limit_reached",
    "Hext.Props.C75_python_breaks",
    "Hext.Props.C75_from_files"
   ],
   "note": "false of the code in general: three scripts stop after 10000 searches and the script for Ruby does not (C75_limit), PHP prints JSON arrays for groups with the names 0, 1, ... (C75_php_list), Node loses __proto__ and reorders numbers (C42); proved for UTF-8 results without such names. The JSON encoders of the languages are parameters. C75_from_files has hypotheses on the files only, not on the outcome: by C97 and C42"
  },
  {
   "property": "C76",
   "status": "partial",
   "theorems": [
    "Hext.Props.C76_ruby",
    "Hext.Props.C76_python_partial",
    "Hext.Props.C76_php_partial",
    "Hext.Props.C76_node_partial",
    "Hext.Props.C76_arguments",
    "Hext.Props.C76_missing",
    "Hext.Props.C76_rejected_partial",
    "Hext.Props.C76_php_blank"
   ],
   "note": "proved in full for Ruby; false of PHP in general: htmlext.php prints an empty line and exits with code 0 if a result is not UTF-8 (C76_php_blank), and prints lists for the names 0, 1, ...; Python translates line ends of the files and ends strings at NUL bytes, Node loses __proto__, so these are excluded"
  },
  {
   "property": "C77",
   "status": "proved",
   "theorems": [
    "Hext.Props.C77_steps",
    "Hext.Props.C77_linear",
    "Hext.Props.C77_single",
    "Hext.Props.C77_exponential"
   ],
   "note": "steps are searches and calls of Rule::matches; the work inside one match pattern or capture pattern is not counted"
  },
  {
   "property": "C78",
   "status": "partial",
   "theorems": [
    "Hext.Props.irrelevant_parts_do_not_matter_partial",
    "Hext.Props.C78_limit_partial",
    "Hext.Props.C78_hext_partial",
    "Hext.Props.C78_fails_for_siblings",
    "Hext.Props.C78_fails_for_content",
    "Hext.Props.C78_fails_for_limits",
    "Hext.Props.C78_fails_for_optional_children"
   ],
   "note": "the full claim is false of the code: conditions about siblings or content see irrelevant nodes, irrelevant nodes cost searches, and they fill an otherwise empty element so that a rule with only optional child rules matches; each is shown by a witness. Proved for conditions and captures of tags and attributes, rules whose child rules include a mandatory one, and no limit; with a limit in one direction"
  },
  {
   "property": "C79",
   "status": "proved",
   "theorems": [
    "Hext.Props.maps_bounded",
    "Hext.Props.values_bounded",
    "Hext.Props.C79_flat",
    "Hext.Props.C79_hext",
    "Hext.Props.C79_braces"
   ],
   "note": "C79_braces shows that captures in braces can give more values than nodes, so the factor for the levels is needed"
  },
  {
   "property": "C80",
   "status": "proved",
   "theorems": [
    "Hext.Props.part_of_whole",
    "Hext.Props.C80_sole",
    "Hext.Props.C80_from_the_middle"
   ],
   "note": "C80_from_the_middle shows that with sibling rules the part must start at a first child"
  },
  {
   "property": "C81",
   "status": "proved",
   "theorems": [
    "Hext.Props.names_only_name",
    "Hext.Props.C81_values"
   ],
   "note": "C81_values is the consequence for renamings that keep different names different"
  },
  {
   "property": "C82",
   "status": "proved",
   "theorems": [
    "Hext.Props.conditions_filter",
    "Hext.Props.C82_unlimited",
    "Hext.Props.C82_siblings"
   ],
   "note": "C82_siblings shows that with sibling rules a further condition can give new results"
  },
  {
   "property": "C83",
   "status": "proved",
   "theorems": [
    "Hext.Props.C83_in_order",
    "Hext.Props.C83_same_result",
    "Hext.Props.C83_counter"
   ],
   "note": "functions that are called while the engine matches answer from the node alone (C67 is about those that throw)"
  },
  {
   "property": "C84",
   "status": "proved",
   "theorems": [
    "Hext.Props.C84_extract_href",
    "Hext.Props.C84_malformed",
    "Hext.Props.C84_base_order"
   ],
   "note": "C84_malformed shows that one malformed link suppresses all output, C84_base_order that the first base of the search need not be the first of the document"
  },
  {
   "property": "C85",
   "status": "proved",
   "theorems": [
    "Hext.Props.C85_node_programs",
    "Hext.Props.C85_meaning",
    "Hext.Props.C85_same_reply",
    "Hext.Props.C85_never_ends",
    "Hext.Props.C85_limit"
   ],
   "note": "C85_never_ends excludes the hexts that C55 excludes; the order of object keys is that of C42"
  },
  {
   "property": "C86",
   "status": "proved",
   "theorems": [
    "Hext.Props.Py.C86_python_programs",
    "Hext.Props.Py.C86_meaning",
    "Hext.Props.Py.C86_same_reply",
    "Hext.Props.Py.C86_never_ends",
    "Hext.Props.Py.C86_limit",
    "Hext.Props.Py.C86_every_map"
   ],
   "note": "C86_never_ends excludes the hexts that C55 excludes; C86_meaning is about names without NUL bytes (a quoted name may have one)"
  },
  {
   "property": "C87",
   "status": "proved",
   "theorems": [
    "Hext.Props.C87_nested",
    "Hext.Props.C87_child",
    "Hext.Props.C87_nested_filter",
    "Hext.Props.C87_child_filter"
   ],
   "note": "the child rule is the first one that is added to the rule"
  },
  {
   "property": "C88",
   "status": "partial",
   "theorems": [
    "Hext.Props.C88_concat_partial",
    "Hext.Props.C88_split_partial",
    "Hext.Props.C88_blank",
    "Hext.Props.C88_inside_partial",
    "Hext.Props.C88_type_matches",
    "Hext.Props.C88_first_part",
    "Hext.Props.C88_reaching_options",
    "Hext.Props.C88_concat_quiet"
   ],
   "note": "the full claim is false: the regex options of :type-matches get into the hext that follows (C88_type_matches is the witness, see C41), so the theorems require that the text :type-matches( does not occur in front of another part; apart from that nothing is missing; C88_reaching_options says what the concatenation is with :type-matches"
  },
  {
   "property": "C89",
   "status": "proved",
   "theorems": [
    "Hext.Props.C89_same",
    "Hext.Props.C89_safe",
    "Hext.Props.C89_any_schedule",
    "Hext.Props.C89_turns",
    "Hext.Props.C89_jobs",
    "Hext.Props.C89_schedules",
    "Hext.Props.C89_hext",
    "Hext.Props.C89_needs_untouched"
   ],
   "note": "for every number of threads and every order of their turns; C89_needs_untouched shows that the extraction is undefined if another thread frees a node of the document; C89_turns: the number of turns an extraction needs depends on the rule, the document and max_searches alone, and it ends iff the thread gets that many"
  },
  {
   "property": "C90",
   "status": "proved",
   "theorems": [
    "Hext.Props.C90_failure_iff",
    "Hext.Props.C90_codes"
   ],
   "note": "exact: exit code 1, standard output and the message, for all options, files and hexts; success is C50/C52, undefined behaviour C54"
  },
  {
   "property": "C91",
   "status": "partial",
   "theorems": [
    "Hext.Mem.C91_parse_partial",
    "Hext.Mem.C91_parse_destroy",
    "Hext.Mem.C91_parse_safe_partial",
    "Hext.Mem.C91_syntax_error_terminates"
   ],
   "note": "the parser of C34-C41 again, on the memory of C70-C74: for every hext, every number of requests that succeed and every pattern of reallocations; a fault occurs exactly if it does in C34. The full claim is false of the code in one place: the constructor of SyntaxError is noexcept but copies its message, so the program is terminated if this request fails (C91_syntax_error_terminates); C91_parse_partial is exact about this"
  },
  {
   "property": "C92",
   "status": "proved",
   "theorems": [
    "Hext.Props.C92_verdict",
    "Hext.Props.C92_fault",
    "Hext.Props.C92_surprise"
   ],
   "note": "The verdict (Spec/Complaint.lean) reads the items of a hext once and says what is wrong first; the parser accepts if nothing is, and otherwise throws a SyntaxError with exactly that text, position and number of marked bytes (C92_verdict); tags and braces at fault are reported whatever follows them (C92_fault); a byte that cannot be there is named (C92_surprise). An open tag with a bad number or regular expression gives std::out_of_range or a message with the engine's error; which of several such errors in one tag comes first is not said. Inputs of more than 2147483645 bytes are left out (the count of lines is an int)."
  },
  {
   "property": "C93",
   "status": "proved",
   "theorems": [
    "Hext.Props.C93_pretty",
    "Hext.Props.C93_default"
   ],
   "note": "the writers are RapidJSON's, modelled as its documentation describes them"
  },
  {
   "property": "C94",
   "status": "partial",
   "theorems": [
    "Hext.Props.C94_extract_partial",
    "Hext.Props.C94_complete",
    "Hext.Props.C94_no_limit",
    "Hext.Props.C94_hext",
    "Hext.Props.C94_requests"
   ],
   "note": "Proved for every way to count the requests of the steps. Not true without exception: the constructor of MaxSearchError is noexcept and copies its message, so that an extraction that exceeds its limit ends the program if this copy cannot be made (C94_extract_partial says exactly when). What the functions of the user and Boost do with an exception of theirs is assumed: they let it pass."
  },
  {
   "property": "C95",
   "status": "proved",
   "theorems": [
    "Hext.Prog.C95_programs",
    "Hext.Props.C95_chaining",
    "Hext.Props.C95_mixed"
   ],
   "note": "With enough memory. C95_programs is about every sequence of statements that has a meaning on values; C95_chaining and C95_mixed say what the two example programs print for every document. The counter of mixed.cpp is unbounded in the model."
  },
  {
   "property": "C96",
   "status": "partial",
   "theorems": [
    "Hext.Props.C96_document_order_partial",
    "Hext.Props.C96_order_iff",
    "Hext.Props.C96_same_nodes",
    "Hext.Props.C96_overtaken"
   ],
   "note": "The full claim is false of the code: all of the siblings are searched before what is below them, so that a match overtakes the matches below its earlier siblings (C96_overtaken is a witness). C96_order_iff says exactly when the matches come in the order of the document, C96_document_order_partial that the maps of the result do then."
  },
  {
   "property": "C97",
   "status": "partial",
   "theorems": [
    "Hext.Props.C97_pipe_iff",
    "Hext.Props.C97_results_partial",
    "Hext.Props.C97_plain_hext",
    "Hext.Props.C97_presented",
    "Hext.Cli.C97_output",
    "Hext.Props.C97_trim"
   ],
   "note": "The full claim is false of the code: :trim and regular expressions work on bytes and can cut a character apart (C97_trim is a witness, on which the Python binding raises). C97_pipe_iff says exactly which pipes keep UTF-8; the other theorems hold for hexts with only such pipes, in particular for all without :trim, :filter and :replace."
  },
  {
   "property": "C98",
   "status": "partial",
   "theorems": [
    "Hext.Props.C98_rearranged_partial",
    "Hext.Props.C98_hext_partial",
    "Hext.Props.C98_undefined",
    "Hext.Props.C98_options"
   ],
   "note": "The full claim is false of the code: options of :type-matches apply to the regular expressions after it (C98_options), and a condition that overflows an int is undefined behaviour unless an earlier one fails (C98_undefined). Both theorems hold for all other conditions and captures, with every nesting of :not and of rules."
  },
  {
   "property": "C99",
   "status": "proved",
   "theorems": [
    "Hext.Props.Swig.C99_programs",
    "Hext.Props.Swig.C99_same_reply",
    "Hext.Props.Swig.C99_limit",
    "Hext.Props.Swig.C99_ruby_meaning",
    "Hext.Props.Swig.C99_php_meaning",
    "Hext.Props.Swig.C99_ruby_never_ends",
    "Hext.Props.Swig.C99_php_never_ends"
   ],
   "note": "The code that SWIG generates is not in the repository: what it takes for a string or a number, and the classes of its exceptions, are parameters. Hexts that end the process (C55) are covered by C99_programs and excluded from C99_*_never_ends."
  },
  {
   "property": "C100",
   "status": "partial",
   "theorems": [
    "Hext.Props.C100_synonyms_partial",
    "Hext.Props.C100_nth",
    "Hext.Props.C100_root"
   ],
   "note": "Missing: options of :type-matches (C41) and numbers with ten digits (C18), as in C98."
  },
  {
   "property": "C101",
   "status": "partial",
   "theorems": [
    "Hext.Props.C101_recased_partial",
    "Hext.Props.C101_same_partial",
    "Hext.Props.C101_close_tags"
   ],
   "note": "The full claim is false of the code for close tags: </FOO> does not close <foo>, whereas </A> closes <a> (C101_close_tags). Proved if each name is always written in the same way, or both hexts are accepted. Missing: numbers with ten digits (C18)."
  },
  {
   "property": "C102",
   "status": "proved",
   "theorems": [
    "Hext.Props.C102_path",
    "Hext.Props.C102_rules"
   ],
   "note": "C102_path is from the text of the hext to the result, for tags with names and one captured attribute; C102_rules is for rules with any conditions and captures, neither optional nor greedy."
  },
  {
   "property": "C103",
   "status": "proved",
   "theorems": [
    "Hext.Props.C103_scan",
    "Hext.Props.C103_hext"
   ],
   "note": "C103_scan is for rule trees, C103_hext for the text of a hext. A map is determined by the values (IsMap, C15)."
  },
  {
   "property": "C104",
   "status": "proved",
   "theorems": [
    "Hext.Props.spacing_does_not_matter",
    "Hext.Props.C104_hext",
    "Hext.Props.other_functions_keep_gaps"
   ],
   "note": "The second theorem is for the text of a hext. other_functions_keep_gaps shows that @strip-tags and @inner-html do depend on the gaps."
  },
  {
   "property": "C105",
   "status": "partial",
   "theorems": [
    "Hext.Props.indentation_does_not_matter_partial",
    "Hext.Props.C105_limit_partial",
    "Hext.Props.C105_layouts_partial",
    "Hext.Props.C105_hext_partial",
    "Hext.Props.space_fills_empty_element",
    "Hext.Props.any_matches_space",
    "Hext.Props.space_between_inlines_counts"
   ],
   "note": "False in full: whitespace makes an element with only optional child rules match (space_fills_empty_element), a rule for * matches whitespace (any_matches_space), and whitespace costs searches (C105_limit_partial says that this is the only effect of a limit). Proved for rules without *, with a mandatory child rule wherever there are child rules."
  },
  {
   "property": "C106",
   "status": "proved",
   "theorems": [
    "Hext.Props.only_elements_are_looked_at",
    "Hext.Props.C106_hext"
   ],
   "note": "The second theorem is for the text of a hext."
  },
  {
   "property": "C107",
   "status": "partial",
   "theorems": [
    "Hext.Props.texts_do_not_matter_partial",
    "Hext.Props.C107_limit_partial",
    "Hext.Props.C107_hext_partial",
    "Hext.Props.texts_can_matter"
   ],
   "note": "False in full, for the same reasons as C105 (texts_can_matter). Proved for rules without *, with a mandatory child rule wherever there are child rules."
  },
  {
   "property": "C108",
   "status": "partial",
   "theorems": [
    "Hext.Props.C108_asked_partial",
    "Hext.Props.C108_limit",
    "Hext.Props.C108_unaskable",
    "Hext.Props.C108_backslash_stays",
    "Hext.Props.C108_injection"
   ],
   "note": "False in full: there are texts that fit into no quotes (C108_limit is the exact condition, C108_unaskable says which), a backslash in front of a quote becomes a part of the text (C108_backslash_stays), and a text that does not fit can change the hext around it (C108_injection). Proved for all texts that fit, all names and all five comparisons."
  },
  {
   "property": "C109",
   "status": "partial",
   "theorems": [
    "Hext.Props.C109_complete_partial",
    "Hext.Props.C109_cut",
    "Hext.Props.C109_no_complaint",
    "Hext.Props.C109_directory"
   ],
   "note": "False in full: the second check of ReadFileOrThrow looks at the wrong stream and never finds anything (C109_no_complaint), so a file that cannot be read on is taken for one that ends there, for all files, options and points of failure (C109_cut); a directory is an empty page and a valid hext (C109_directory). Proved for systems in which each file that can be opened can be read to its end."
  },
  {
   "property": "C110",
   "status": "partial",
   "theorems": [
    "Hext.Props.C110_same_partial",
    "Hext.Props.C110_lint",
    "Hext.Props.C110_one_meaning",
    "Hext.Props.C110_ignored",
    "Hext.Props.C110_refused"
   ],
   "note": "False in full for texts with NUL bytes: htmlext and Node ignore what is behind the first NUL byte (C110_ignored, C110_lint), and refuse hexts that have one within quotes or in a comment (C110_refused). Proved for all texts without NUL bytes; that no text has two meanings is proved for all texts (C110_one_meaning)."
  },
  {
   "property": "C111",
   "status": "proved",
   "theorems": [
    "Hext.Props.C111_batch",
    "Hext.Props.C111_pages",
    "Hext.Props.C111_hexts",
    "Hext.Props.C111_lint",
    "Hext.Props.C111_stdin"
   ],
   "note": "C111_stdin shows that repeatable reading is needed: standard input, given twice, is empty the second time."
  },
  {
   "property": "C112",
   "status": "proved",
   "theorems": [
    "Hext.Props.C112_wrapped",
    "Hext.Props.C112_hext",
    "Hext.Props.C112_fails_for_children",
    "Hext.Props.C112_fails_for_content"
   ],
   "note": "The C112_fails theorems show that the restrictions to hexts without tags directly inside of tags and without conditions about content are needed."
  },
  {
   "property": "C113",
   "status": "proved",
   "theorems": [
    "Hext.Props.C113_named",
    "Hext.Props.C113_hext",
    "Hext.Props.C113_fails_for_counts",
    "Hext.Props.C113_fails_for_inner_html"
   ],
   "note": "Without :attribute-count and @inner-html, as stated; the C113_fails theorems show that this is needed."
  },
  {
   "property": "C114",
   "status": "proved",
   "theorems": [
    "Hext.Props.C114_retagged",
    "Hext.Props.C114_text",
    "Hext.Props.C114_hext",
    "Hext.Props.C114_hext_text",
    "Hext.Props.C114_hext_names",
    "Hext.Props.C114_fails_for_named",
    "Hext.Props.C114_fails_for_any",
    "Hext.Props.C114_fails_for_text",
    "Hext.Props.C114_fails_for_inner_html"
   ],
   "note": "For the types that no rule names, and hexts without @inner-html, with a condition for @text, as stated; the C114_fails theorems show that this is needed."
  }
 ]
}
