{
 "claims": [
  {
   "property": "C01",
   "status": "proved",
   "theorems": [
    "Verif.Props.C01_tokens_tile"
   ],
   "note": ""
  },
  {
   "property": "C02",
   "status": "proved",
   "theorems": [
    "Verif.Props.C02_line_col_exact"
   ],
   "note": ""
  },
  {
   "property": "C03",
   "status": "proved",
   "theorems": [
    "Verif.Props.C03_token_progress",
    "Verif.Props.C03_lexing_terminates",
    "Verif.Props.C03_resumed_lexing_terminates"
   ],
   "note": ""
  },
  {
   "property": "C04",
   "status": "proved",
   "theorems": [
    "Verif.Props.C04_words"
   ],
   "note": ""
  },
  {
   "property": "C05",
   "status": "proved",
   "theorems": [
    "Verif.Props.C05_string_round_trip",
    "Verif.Props.C05_trailing_backslash_not_expressible"
   ],
   "note": "second theorem: why the trailing backslash has to be excluded"
  },
  {
   "property": "C06",
   "status": "proved",
   "theorems": [
    "Verif.Props.C06_integer_tokens",
    "Verif.Props.C06_value_unique",
    "Verif.Props.C06_integer_literals"
   ],
   "note": ""
  },
  {
   "property": "C07",
   "status": "proved",
   "theorems": [
    "Verif.Props.C07_decimal_tokens",
    "Verif.Props.C07_decimal_literals"
   ],
   "note": ""
  },
  {
   "property": "C08",
   "status": "partial",
   "theorems": [
    "Verif.Props.C08_remainder_is_truncating",
    "Verif.Props.C08_remainder_zero",
    "Verif.Props.C08_lrm_sign_rule_violated",
    "Verif.Props.C08_lrm_remainder_partial"
   ],
   "note": "the code violates the sign rule of the reference manual (sign follows the dividend); refuted by witness, proved for operands of equal sign"
  },
  {
   "property": "C09",
   "status": "proved",
   "theorems": [
    "Verif.Props.C09_round_nearest_away",
    "Verif.Props.C09_round_odd"
   ],
   "note": ""
  },
  {
   "property": "C10",
   "status": "proved",
   "theorems": [
    "Verif.Props.C10_counters",
    "Verif.Props.C10_suppression_does_not_count"
   ],
   "note": ""
  },
  {
   "property": "C100",
   "status": "proved",
   "theorems": [
    "Verif.Props.C100_run",
    "Verif.Props.C100_determined",
    "Verif.Props.C100_ignored",
    "Verif.Props.C100_types",
    "Verif.Props.C100_errors",
    "Verif.Props.C100_lint",
    "Verif.Props.C100_accepted"
   ],
   "note": "The linter is a parameter; it is required not to look at the position of the parser in a file, which holds for the model of the linter (`SkipTrlc.linter_away`). The messages on imports (`notes`) are left out of C100_lint."
  },
  {
   "property": "C101",
   "status": "proved",
   "theorems": [
    "Verif.Props.C101_trlc",
    "Verif.Props.C101_rsl",
    "Verif.Props.C101_goes_on"
   ],
   "note": "States the outcome of every recovery that ends; it always ends (C37). The hypotheses on tables (no parents, global table without imports) hold for tables made by declarations (registerAll_frame)."
  },
  {
   "property": "C11",
   "status": "proved",
   "theorems": [
    "Verif.Props.C11_names_distinct",
    "Verif.Props.C11_register",
    "Verif.Props.C11_history"
   ],
   "note": ""
  },
  {
   "property": "C12",
   "status": "proved",
   "theorems": [
    "Verif.Props.C12_lookup_iff",
    "Verif.Props.C12_lookup_error",
    "Verif.Props.C12_contains_iff",
    "Verif.Props.C12_lookup_assuming",
    "Verif.Props.C12_stable",
    "Verif.Props.C12_builtin"
   ],
   "note": ""
  },
  {
   "property": "C13",
   "status": "proved",
   "theorems": [
    "Verif.Props.C13_innermost",
    "Verif.Props.C13_push_pop",
    "Verif.Props.C13_balanced",
    "Verif.Props.C13_no_underflow"
   ],
   "note": ""
  },
  {
   "property": "C14",
   "status": "proved",
   "theorems": [
    "Verif.Props.C14_required_exact",
    "Verif.Props.C14_required_exists",
    "Verif.Props.C14_files_parsed",
    "Verif.Props.C14_imports",
    "Verif.Props.C14_declared_once",
    "Verif.Props.C14_broken_files"
   ],
   "note": "C14_declared_once: no package is declared by two rsl files; C14_broken_files: files with a broken preamble are left out (except requested rsl files whose package is known)."
  },
  {
   "property": "C15",
   "status": "partial",
   "theorems": [
    "Verif.Props.C15_enough_rounds",
    "Verif.Props.C15_imports_first",
    "Verif.Props.C15_parsed_once",
    "Verif.Props.C15_cycles_partial",
    "Verif.Props.C15_circularity_iff",
    "Verif.Props.C15_spurious_circularity"
   ],
   "note": "Importing an included package whose preamble is broken is reported as a circular import (refuted by witness). The equivalence with acyclicity is proved when every imported package has a usable file; C15_circularity_iff shows for all projects that these are the only two reasons for the error."
  },
  {
   "property": "C16",
   "status": "partial",
   "theorems": [
    "Verif.Props.C16_expression_partial",
    "Verif.Props.C16_record_check_partial",
    "Verif.Props.C16_tuple_check_partial",
    "Verif.Props.C16_record_context",
    "Verif.Props.C16_tuple_context",
    "Verif.Props.C16_index_crash",
    "Verif.Props.C16_quantifier_crash",
    "Verif.Props.C16_union_crash"
   ],
   "note": "Type soundness from the parser's type checks to evaluation. Violated in three ways, each witnessed: index equal to array length, quantifier body evaluating to null, field of a union that an extension of a member redeclares with another type. Proved: no other internal exception occurs, and none at all when these three are excluded."
  },
  {
   "property": "C17",
   "status": "proved",
   "theorems": [
    "Verif.Props.C17_short_circuit",
    "Verif.Props.C17_left_fails",
    "Verif.Props.C17_truth_table"
   ],
   "note": "For arbitrary operand expressions including failing ones."
  },
  {
   "property": "C18",
   "status": "partial",
   "theorems": [
    "Verif.Props.C18_null_rejected_partial",
    "Verif.Props.C18_null_source",
    "Verif.Props.C18_equality",
    "Verif.Props.C18_null_and_accepted",
    "Verif.Props.C18_null_oneof_accepted",
    "Verif.Props.C18_logic_right"
   ],
   "note": "Missing: the right operand of and/or/implies and the parameters of oneof, where null is accepted (C18_null_and_accepted, C18_null_oneof_accepted). C18_logic_right and C21_oneof_null say what happens then."
  },
  {
   "property": "C19",
   "status": "proved",
   "theorems": [
    "Verif.Props.C19_quantifiers",
    "Verif.Props.C19_duality",
    "Verif.Props.C19_first_decides"
   ],
   "note": "Arrays of any length; the predicate gives a Boolean for all elements, C19_first_decides covers evaluation that stops early."
  },
  {
   "property": "C20",
   "status": "proved",
   "theorems": [
    "Verif.Props.C20_range",
    "Verif.Props.C20_empty_range",
    "Verif.Props.C20_source"
   ],
   "note": "C20_source connects the source form `x in a .. b` and `x not in a .. b` through the elaboration."
  },
  {
   "property": "C21",
   "status": "partial",
   "theorems": [
    "Verif.Props.C21_oneof_partial",
    "Verif.Props.C21_oneof_null",
    "Verif.Props.C18_null_oneof_accepted"
   ],
   "note": "Proved when every parameter gives a Boolean. A null parameter is accepted and counted as false (C18_null_oneof_accepted); C21_oneof_null gives the result for all parameters."
  },
  {
   "property": "C22",
   "status": "proved",
   "theorems": [
    "Verif.Props.C22_conditional"
   ],
   "note": "Any number of branches; later conditions and other dependents unconstrained."
  },
  {
   "property": "C23",
   "status": "partial",
   "theorems": [
    "Verif.Props.C23_index_partial",
    "Verif.Props.C23_index_at_length"
   ],
   "note": "Missing: index equal to the length, which raises an internal exception for every array (C23_index_at_length)."
  },
  {
   "property": "C24",
   "status": "proved",
   "theorems": [
    "Verif.Props.C24_division",
    "Verif.Props.C24_floor_division"
   ],
   "note": "Uses the floor characterisation proved for the integer division model."
  },
  {
   "property": "C25",
   "status": "partial",
   "theorems": [
    "Verif.Props.C25_partial",
    "Verif.Props.C25_null",
    "Verif.Props.C25_unions"
   ],
   "note": "Proved for every array component with conforming elements and every expression x that has a non-null value of exactly the element type. The full claim is false: for a null x the test `x in A` is an error while the quantifier gives false (C25_null), and for a union type `x in A` is always false if x and A are declared with two separately written union types, even with the same members and the same object (C25_unions)."
  },
  {
   "property": "C26",
   "status": "partial",
   "theorems": [
    "Verif.Props.C26_reference_equality_partial",
    "Verif.Props.C26_run_partial",
    "Verif.Props.C26_empty_objects",
    "Verif.Props.C26_same_type",
    "Verif.Props.C26_run_same_type"
   ],
   "note": "Proved for objects with a component that is not frozen, also for whole runs; refuted for objects without components. C26_same_type and C26_run_same_type are exact for objects of the same type: references are equal if and only if the objects are the same or the type has no component that is not frozen."
  },
  {
   "property": "C27",
   "status": "proved",
   "theorems": [
    "Verif.Props.C27_checks_of_object",
    "Verif.Props.C27_counters"
   ],
   "note": "For every list of checks with a defined or reported outcome: messages in order, counters, fatal stops."
  },
  {
   "property": "C28",
   "status": "proved",
   "theorems": [
    "Verif.Props.C28_base_first",
    "Verif.Props.C28_performed"
   ],
   "note": "The performed list is the concatenation over the extension chain, base first, each type once, declared order."
  },
  {
   "property": "C29",
   "status": "partial",
   "theorems": [
    "Verif.Props.C29_object_partial",
    "Verif.Props.C29_nested_unchecked",
    "Verif.Props.C29_array_stops"
   ],
   "note": "Proved for tuples as components and array elements (pass/fail outcome). The claim as stated is false for the code: tuples nested in tuples are never checked, and array elements after a failing one are not evaluated; both proved as counterexamples."
  },
  {
   "property": "C30",
   "status": "proved",
   "theorems": [
    "Verif.Props.C30_test_is_extends",
    "Verif.Props.C30_partial_order",
    "Verif.Props.C30_comparable",
    "Verif.Props.C30_components",
    "Verif.Props.C30_base_first",
    "Verif.Props.C30_component_lookup"
   ],
   "note": "For all declarations in which a parent is declared before its extensions (WFDecls), which the parser guarantees by looking the parent up."
  },
  {
   "property": "C31",
   "status": "proved",
   "theorems": [
    "Verif.Props.C31_frozen"
   ],
   "note": "For whole runs of process() that return the symbol table (files of any content)."
  },
  {
   "property": "C32",
   "status": "proved",
   "theorems": [
    "Verif.Props.C32_object_complete",
    "Verif.Props.C32_all_complete",
    "Verif.Props.C32_mandatory",
    "Verif.Props.C32_run"
   ],
   "note": "C32_run: for whole runs of process() from the text of the files, without assumptions on the declarations."
  },
  {
   "property": "C33",
   "status": "partial",
   "theorems": [
    "Verif.Props.C33_array_bounds_partial",
    "Verif.Props.C33_upper_bound_zero"
   ],
   "note": "Proved except for an upper bound of 0, which the code does not enforce (counterexample proved)."
  },
  {
   "property": "C34",
   "status": "partial",
   "theorems": [
    "Verif.Props.C34_separators_partial",
    "Verif.Props.C34_separator_missing",
    "Verif.Props.C34_either",
    "Verif.Props.C34_accepted",
    "Verif.Props.C34_exactly_partial"
   ],
   "note": "What has the form of the reference manual is accepted, for all types (C34_accepted). The converse is false: the separator in front of a required field may be missing (C34_separator_missing); C34_either shows for all types that this is the only deviation. If all fields after the first are optional, the claim holds exactly (C34_exactly_partial). Required in front of words that do not begin with a separator of the type."
  },
  {
   "property": "C35",
   "status": "proved",
   "theorems": [
    "Verif.Props.C35_resolved_iff",
    "Verif.Props.C35_references",
    "Verif.Props.C35_target_unique",
    "Verif.Props.C35_heap",
    "Verif.Props.C35_run"
   ],
   "note": "Exact characterisation of success of reference resolution; C35_run for whole runs of process()."
  },
  {
   "property": "C36",
   "status": "proved",
   "theorems": [
    "Verif.Props.C36_sound",
    "Verif.Props.C36_complete",
    "Verif.Props.C36_exact",
    "Verif.Props.C36_one_meaning",
    "Verif.Props.C36_no_mixing",
    "Verif.Props.C36_no_chaining",
    "Verif.Props.C36_ends"
   ],
   "note": "The whole recursive descent (expression, relation, simple_expression, term, factor, primary, quantified, conditional, builtin calls, names) on tokens, against the relational grammar of Spec/Grammar.lean; soundness, completeness, uniqueness, no mixing and no chaining of logical operators, termination. Not modelled: locations attached to nodes."
  },
  {
   "property": "C37",
   "status": "proved",
   "theorems": [
    "Verif.Props.C37_file_terminates",
    "Verif.Props.C37_run_terminates",
    "Verif.Props.C37_progress",
    "Verif.Props.C37_run"
   ],
   "note": "C37_run: rsl and trlc files, in whole runs of process(): the fuel standing for loops and recursion is never exhausted."
  },
  {
   "property": "C38",
   "status": "partial",
   "theorems": [
    "Verif.Props.C38_compatible",
    "Verif.Props.C38_fields",
    "Verif.Props.C38_rejected",
    "Verif.Props.C38_missing_null",
    "Verif.Props.C38_extension_clash",
    "Verif.Props.C38_equal_arrays_conflict"
   ],
   "note": "Compatibility, accepted and rejected fields and the null for missing fields are proved in full, each as an equivalence. The common type does not cover extensions of member types: C38_extension_clash gives well-formed declarations and objects where an Integer field access yields a String."
  },
  {
   "property": "C39",
   "status": "partial",
   "theorems": [
    "Verif.Props.C39_none_reported",
    "Verif.Props.C39_table_partial",
    "Verif.Props.C39_violated"
   ],
   "note": "None is returned only after a reported error (full). The converse is violated by the code: unresolvable imports and a few non-fatal errors are reported although a table is returned (C39_violated); C39_table_partial shows that these are the only kinds."
  },
  {
   "property": "C40",
   "status": "proved",
   "theorems": [
    "Verif.Props.C40_exit",
    "Verif.Props.C40_counters"
   ],
   "note": "On the model of the command line tool's handling of the result; crash outcomes are excluded by hypothesis (C85 says when they happen)."
  },
  {
   "property": "C41",
   "status": "proved",
   "theorems": [
    "Verif.Props.C41_progress"
   ],
   "note": ""
  },
  {
   "property": "C42",
   "status": "partial",
   "theorems": [
    "Verif.Props.C42_common_root_partial",
    "Verif.Props.C42_root_iff",
    "Verif.Props.C42_unique",
    "Verif.Props.C42_root_not_common"
   ],
   "note": "Holds when no registered directory is a proper prefix of another. Violated otherwise: registering a directory that is a prefix of the current root leaves the root unchanged, so the result depends on the order (witness C42_root_not_common). The prefix is on characters, not path components. C42_root_iff: exactly if a file is in a directory above the root; in all cases each common prefix is a prefix of the root."
  },
  {
   "property": "C43",
   "status": "partial",
   "theorems": [
    "Verif.Props.C43_end_location_partial",
    "Verif.Props.C43_end_location_iff",
    "Verif.Props.C43_early_newline_wrong_column"
   ],
   "note": "Violated for ranges that end in a line break and if the last line break before the end is at offset 0 or 1 of the text (a wrong column is witnessed). C43_end_location_iff shows that these are exactly the cases."
  },
  {
   "property": "C44",
   "status": "proved",
   "theorems": [
    "Verif.Props.C44_context_lines"
   ],
   "note": ""
  },
  {
   "property": "C45",
   "status": "partial",
   "theorems": [
    "Verif.Props.C45_triple_value",
    "Verif.Props.C45_first_line_trailing_space_kept",
    "Verif.Props.C45_lrm_value_partial",
    "Verif.Props.C45_lrm_iff"
   ],
   "note": "Trailing white space of the first line is kept (witness); C45_lrm_iff shows that this is the only deviation from the reference manual, for all texts."
  },
  {
   "property": "C46",
   "status": "partial",
   "theorems": [
    "Verif.Props.C46_triple_string_partial",
    "Verif.Props.C46_closed_at_eof_rejected"
   ],
   "note": "Holds when something follows the string. Violated for every triple-quoted string that is closed exactly at the end of the file: it is rejected as unterminated (proved for all such strings)."
  },
  {
   "property": "C47",
   "status": "partial",
   "theorems": [
    "Verif.Props.C47_in_text",
    "Verif.Props.C47_simple",
    "Verif.Props.C47_triple_partial",
    "Verif.Props.C47_first_line_column"
   ],
   "note": "Violated: a token on the first line of a triple-quoted string is reported at the column of the first character of the string (C47_first_line_column). Everything else holds: offsets and lines of all tokens, columns in ordinary strings and on later lines."
  },
  {
   "property": "C48",
   "status": "proved",
   "theorems": [
    "Verif.Props.C48_markup_strings",
    "Verif.Props.C48_rejected",
    "Verif.Props.C48_text"
   ],
   "note": "Acceptance and the references, for all texts; rejection by a message if the imports of the file were resolved (otherwise the assertion of is_visible fails)."
  },
  {
   "property": "C49",
   "status": "proved",
   "theorems": [
    "Verif.Props.C49_registration_order",
    "Verif.Props.C49_same_parse",
    "Verif.Props.C49_sorted",
    "Verif.Props.C49_run",
    "Verif.Props.C49_run_table",
    "Verif.Props.C49_run_exit",
    "Verif.Props.C49_run_includes"
   ],
   "note": "`C49_run` is about the whole run of the command line tool on the text of the files. Files with different names (a file given twice is registered once, C55). Lexical errors in files of include directories do not stop the run and are reported in the order in which the files are found, so `C49_run_includes` is about files without such errors."
  },
  {
   "property": "C50",
   "status": "partial",
   "theorems": [
    "Verif.Props.C50_objects",
    "Verif.Props.C50_all_packages",
    "Verif.Props.C50_titles_partial",
    "Verif.Props.C50_second_iteration_has_no_titles"
   ],
   "note": "a second iteration yields no titles (witness)"
  },
  {
   "property": "C51",
   "status": "proved",
   "theorems": [
    "Verif.Props.C51_mentioned_only",
    "Verif.Props.C51_no_names",
    "Verif.Props.C51_reachable_only"
   ],
   "note": "Outcome (value, error or internal exception) depends only on the mentioned components, and only on record objects reachable from the context. Evaluation is a pure function in the model, so it has no effect on the object."
  },
  {
   "property": "C52",
   "status": "proved",
   "theorems": [
    "Verif.Props.C52_qualified_names",
    "Verif.Props.C52_references"
   ],
   "note": ""
  },
  {
   "property": "C53",
   "status": "partial",
   "theorems": [
    "Verif.Props.C53_crash_iff_partial",
    "Verif.Props.C53_dangling_quote_crash"
   ],
   "note": "Exact characterisation: an internal exception occurs iff the text ahead is white space followed by one of four dangling quotes ending the file; three concrete crashing files are given."
  },
  {
   "property": "C54",
   "status": "proved",
   "theorems": [
    "Verif.Props.C54_delimiters"
   ],
   "note": ""
  },
  {
   "property": "C55",
   "status": "partial",
   "theorems": [
    "Verif.Props.C55_included_once_partial",
    "Verif.Props.C55_include_after_file"
   ],
   "note": "Proved for include directories registered before the files (what the command line tool does), with files distinct and spellings unambiguous. In the other order the run ends in a failing assertion (same spelling) or the file is registered twice (other spelling), see C55_include_after_file."
  },
  {
   "property": "C56",
   "status": "proved",
   "theorems": [
    "Verif.Props.C56_integer_arithmetic",
    "Verif.Props.C56_decimal_arithmetic",
    "Verif.Props.C56_comparisons"
   ],
   "note": "For all operands; integers and decimals."
  },
  {
   "property": "C57",
   "status": "proved",
   "theorems": [
    "Verif.Props.C57_strings",
    "Verif.Props.C57_array_length"
   ],
   "note": "All strings and arrays."
  },
  {
   "property": "C58",
   "status": "partial",
   "theorems": [
    "Verif.Props.C58_own_partial",
    "Verif.Props.C58_inherited_rejected",
    "Verif.Props.C58_through_union",
    "Verif.Props.C58_witness"
   ],
   "note": "Proved for components declared in the type itself. For inherited components the claim is false in all cases: C58_inherited_rejected proves that every such access is rejected (the constructor compares the static type of the prefix with the declaring type by identity). Access through a union type works."
  },
  {
   "property": "C59",
   "status": "partial",
   "theorems": [
    "Verif.Props.C59_partial",
    "Verif.Props.C59_logic",
    "Verif.Props.C59_tuple_field",
    "Verif.Props.C59_record_field",
    "Verif.Props.C59_union_field",
    "Verif.Props.C59_universal_field"
   ],
   "note": "Proved for expressions whose value is not passed on from and/or/implies or from a field access. Witnesses show the claim is false for these. C59_universal_field: for fields of unions can_be_null is false exactly if every member has the field."
  },
  {
   "property": "C60",
   "status": "proved",
   "theorems": [
    "Verif.Props.C60_equivalence"
   ],
   "note": "Hypothesis: tuple types have distinct field names and dictionaries have distinct keys."
  },
  {
   "property": "C61",
   "status": "proved",
   "theorems": [
    "Verif.Props.C61_objects_written",
    "Verif.Props.C61_run"
   ],
   "note": "C61_run: for whole runs of process(), from the text of the files, including preambles, package membership, imports and selection of files."
  },
  {
   "property": "C62",
   "status": "proved",
   "theorems": [
    "Verif.Props.C62_independent"
   ],
   "note": "Hypothesis: no object crashes (C63 shows this for accepted checks)."
  },
  {
   "property": "C63",
   "status": "partial",
   "theorems": [
    "Verif.Props.C63_all_checks_partial",
    "Verif.Props.C63_passes_iff",
    "Verif.Props.C63_run",
    "Verif.Props.C63_no_crash_partial",
    "Verif.Props.C63_violated"
   ],
   "note": "The characterisation of success is complete (C63_passes_iff, C63_run). Absence of internal exceptions is violated by the code (C63_violated); C63_no_crash_partial shows which checks can be responsible."
  },
  {
   "property": "C64",
   "status": "proved",
   "theorems": [
    "Verif.Props.C64_comments"
   ],
   "note": "Also shows that unclosed block comments are accepted silently and that /*/ is a closed comment."
  },
  {
   "property": "C65",
   "status": "proved",
   "theorems": [
    "Verif.Props.C65_rules",
    "Verif.Props.C65_check",
    "Verif.Props.C65_one_type",
    "Verif.Props.C65_tokens",
    "Verif.Props.C65_no_shadowing",
    "Verif.Props.C65_null_operand",
    "Verif.Props.C65_membership_of_other_type"
   ],
   "note": "Exact (both directions), from syntax trees and from tokens. The rule for membership in arrays is weaker than the reference manual (kind of type instead of type); C65_membership_of_other_type shows the consequence. The rule for fields of records is the one the code has (only components declared by the type itself, see C58)."
  },
  {
   "property": "C66",
   "status": "proved",
   "theorems": [
    "Verif.Props.C66_meaning",
    "Verif.Props.C66_one_value",
    "Verif.Props.C66_check",
    "Verif.Props.C66_markup_membership"
   ],
   "note": "Spec/Meaning.lean gives the meaning by recursion over syntax trees, without the model's evaluator; the theorem is an equivalence between evaluation of the elaborated expression and that meaning, for every value. C66_markup_membership records a surprise: a Markup_String is never in an array of String."
  },
  {
   "property": "C67",
   "status": "partial",
   "theorems": [
    "Verif.Props.C67_uses_field_access",
    "Verif.Props.C67_assumptions",
    "Verif.Props.C67_partial",
    "Verif.Props.C67_violated"
   ],
   "note": "Violated: the verification first goes through the checks that do not follow references, the evaluation follows the order of declaration, so a fatal check that comes later is assumed for an earlier one (C67_violated, division by zero). Proved for lists in which fatal checks without field access come before checks with field access; uses_field_access is proved exact."
  },
  {
   "property": "C68",
   "status": "proved",
   "theorems": [
    "Verif.Props.C68_string_tokens"
   ],
   "note": "All tokens of all texts; C05 and C46 are the converse."
  },
  {
   "property": "C69",
   "status": "proved",
   "theorems": [
    "Verif.Props.C69_declarations",
    "Verif.Props.C69_checks"
   ],
   "note": "For whole runs of process() that return the symbol table."
  },
  {
   "property": "C70",
   "status": "proved",
   "theorems": [
    "Verif.Props.C70_report",
    "Verif.Props.C70_tags"
   ],
   "note": "For lint mode without verification. LintReport: every relevant type contributes once (messages of one type are themselves distinct unless a union repeats a member), then the abstract leaf types, each once."
  },
  {
   "property": "C71",
   "status": "partial",
   "theorems": [
    "Verif.Props.C71_crash_partial",
    "Verif.Props.C71_crash",
    "Verif.Props.C71_violated"
   ],
   "note": "The code violates this: a tuple type with separator x or b after an Integer field followed by a further separator runs into a failing assertion; followed by a field of an enumeration type (directly or nested) it runs into an AttributeError in get_example_value. C71_crash_partial and C71_crash show that these are exactly the cases."
  },
  {
   "property": "C72",
   "status": "proved",
   "theorems": [
    "Verif.Props.C72_run",
    "Verif.Props.C72_project",
    "Verif.Props.C72_file",
    "Verif.Props.C15_all_parsed"
   ],
   "note": "Grammar of declarations and check blocks in Spec/RslText.lean, stated without the parser; expressions of checks by the grammar of C36 and the typing rules of C65; frozen values by the grammar of C34. Locations, descriptions and the details text of checks are not part of the model. The converse (every text of the grammar is accepted) is C73."
  },
  {
   "property": "C73",
   "status": "proved",
   "theorems": [
    "Verif.Props.C73_rsl_file",
    "Verif.Props.C73_rsl_unique",
    "Verif.Props.C73_rsl_files",
    "Verif.Props.C73_trlc_files",
    "Verif.Props.C73_trlc_accepted"
   ],
   "note": "The grammar (Spec/RslText, Spec/Written, Spec/References) is stated without the parser. Where the grammar of TRLC is ambiguous (a tuple value with an optional field missing, followed by an identifier equal to its separator) the rules say which reading counts, see WrittenSep in Spec/Written and DESIGN.md. Acceptance of the preambles and of whole runs is C74."
  },
  {
   "property": "C74",
   "status": "proved",
   "theorems": [
    "Verif.Props.C74_registered",
    "Verif.Props.C74_preambles",
    "Verif.Props.C74_run",
    "Verif.Props.C74_required"
   ],
   "note": "Project, NoCycle, PkgWanted (Spec/Project) speak about the texts of the files only. C74_run: the hypothesis on the linter is needed because it can fail with an internal exception (C71). That the files have to be written in the language is C72/C73."
  },
  {
   "property": "C75",
   "status": "partial",
   "theorems": [
    "Verif.Props.C75_dict",
    "Verif.Props.C75_exported_partial",
    "Verif.Props.C75_violated",
    "Verif.Props.C75_as_checked",
    "Verif.Props.C75_implicit_null",
    "Verif.Props.C75_dump_partial",
    "Verif.Props.C75_dump_violated"
   ],
   "note": "The entries are right whenever the export returns (C75_dict, C75_as_checked). False of the code: a Decimal of 2^1024 or more raises OverflowError (C75_violated); it is the only exception and values up to the largest double are exported (C75_exported_partial). The debug API dump is keyed by unqualified names and loses objects (C75_dump_violated); it is complete when names are different (C75_dump_partial). is_component_implicit_null returns true exactly when the component is not an implicit null (C75_implicit_null)."
  },
  {
   "property": "C76",
   "status": "partial",
   "theorems": [
    "Verif.Props.C76_record_partial",
    "Verif.Props.C76_always_true_partial",
    "Verif.Props.C76_tuple_partial",
    "Verif.Props.C76_object_partial",
    "Verif.Props.C76_run_partial",
    "Verif.Props.C76_tuple_error",
    "Verif.Props.C76_violated"
   ],
   "note": "Proved for the translation of all expression kinds, for single objects and for whole runs of the tool (C76_run_partial), under stated conditions that nothing in the code ensures: fatal checks come first in the order of the analysis too (C67), tuple checks assumed by the analysis hold, no array type has an upper bound of 0 (C33), enumerations are not empty. That values have the form the analysis relies on (keys, numbering, lengths, order of nulls, frozen values) is proved from the parser, not assumed, in C76_run_partial. False of the code without the conditions: tuple checks of severity error are assumed but do not stop the evaluation (C76_tuple_error, C76_violated). The meaning of solver terms is Spec/Solver.lean; pyvcg and the solver are trusted to decide it (hypothesis Answers)."
  },
  {
   "property": "C77",
   "status": "proved",
   "theorems": [
    "Verif.Props.C77_reports",
    "Verif.Props.C77_silent",
    "Verif.Props.C77_always_true",
    "Verif.Props.C77_messages",
    "Verif.Props.C77_tag_always_true"
   ],
   "note": "Exact for the loop over verification conditions; `Answers` says that the solver's answers are right for the terms as Spec/Solver.lean reads them and that pyvcg enumerates the paths of the graph."
  },
  {
   "property": "C78",
   "status": "partial",
   "theorems": [
    "Verif.Props.C78_partial",
    "Verif.Props.C78_report",
    "Verif.Props.C78_violated"
   ],
   "note": "Exact description of what holds: an internal exception needs a type whose quantifier bodies or tuple checks contain a division, remainder, index, range test or oneof (or the linter's own C71). Such checks do crash the code: C78_violated exhibits `(forall x in a => x in 1 .. 5)`. C78_report gives the messages of successful runs, and a warning only for types with quantifiers nested in such places or frozen aggregates. Sorts of solver terms (assertions of pyvcg) and the text of counterexamples are not modelled."
  },
  {
   "property": "C79",
   "status": "proved",
   "theorems": [
    "Verif.Props.C79_integer",
    "Verif.Props.C79_decimal",
    "Verif.Props.C79_references"
   ],
   "note": "For all integers and rationals; the literals are those of the independent specification used for C06/C07. Values that are not fractions (algebraic numbers) are shown as a comment by the code and not covered. Names of packages and types contain no period (lexer)."
  },
  {
   "property": "C80",
   "status": "partial",
   "theorems": [
    "Verif.Props.C80_exactly",
    "Verif.Props.C80_lines",
    "Verif.Props.C80_partial",
    "Verif.Props.C80_violated",
    "Verif.Props.C80_violated_quote",
    "Verif.Props.C80_violated_backslash",
    "Verif.Props.C80_violated_lines"
   ],
   "note": "The full claim is false. C80_exactly says for every string whether it reads back: a string on one line does if and only if it has no quote and does not end in a backslash; a string with line breaks does if and only if it does not contain the closing quotes and the layout rules for triple-quoted strings (C45) leave it unchanged. C80_lines spells out sufficient conditions for the second case. The violations: quotes are not escaped, a final backslash escapes the closing quote, and white space at the ends of multi-line strings and of their lines gets lost."
  },
  {
   "property": "C81",
   "status": "partial",
   "theorems": [
    "Verif.Props.C81_partial",
    "Verif.Props.C81_violated",
    "Verif.Props.C81_quoted_as_another",
    "Verif.Props.C81_quoted_as_none",
    "Verif.Props.C81_package_lost",
    "Verif.Props.C81_decimal"
   ],
   "note": "Holds for all expressions in which no operand has to be put in brackets and which contain no literal that is printed differently (booleans, decimals, strings, enumerations of other packages, `not in`); Spec/Quote.lean says which. The code violates the rest: `(1 + 2) * 3 == 9` is quoted as `1 + 2 * 3 == 9`, `1.5 > 1.0` as `3/2 > 1`, both with the opposite value; others are quoted as text that is not accepted."
  },
  {
   "property": "C82",
   "status": "partial",
   "theorems": [
    "Verif.Props.C82_trlc_partial",
    "Verif.Props.C82_rsl_partial",
    "Verif.Props.C82_violated"
   ],
   "note": "Holds for all files in which no markup string inside an array or a tuple refers to the package. For these the code is wrong: the strings inside arrays and tuples have no link from a token, so the check does not see their references; the import is reported as unused, but without it the file is rejected (C82_violated). Removing is modelled on the parsed preamble: the tokens behind it stay as they are."
  },
  {
   "property": "C83",
   "status": "proved",
   "theorems": [
    "Verif.Props.C83_same",
    "Verif.Props.C83_table",
    "Verif.Props.C83_clean",
    "Verif.Props.C83_trlc",
    "Verif.Props.C83_rsl",
    "Verif.Props.C83_exit"
   ],
   "note": "Only the first error is common to both runs of a project: without recovery, files that need a declaration behind the first error get errors that are not reported with recovery (example beside the theorems)."
  },
  {
   "property": "C84",
   "status": "proved",
   "theorems": [
    "Verif.Props.C84_same",
    "Verif.Props.C84_recovery",
    "Verif.Props.C84_exit",
    "Verif.Props.C84_start",
    "Verif.Props.C84_between",
    "Verif.Props.C84_end",
    "Verif.Props.C84_words",
    "Verif.Props.C84_reformatted",
    "Verif.Props.C84_reformatted_recovery"
   ],
   "note": "What is outside the model (regular expressions, the linter, hints) is assumed to be the same up to locations (`SameOutside`); for the linter without verification of checks this is shown beside the theorems. `C84_words`: any change of white space and complete comments between words, at the start or at the end of a file leaves the words as they are; after a word white space has to come first (a comment directly after `/` reads differently)."
  },
  {
   "property": "C85",
   "status": "partial",
   "theorems": [
    "Verif.Props.C85_exceptions_partial",
    "Verif.Props.C85_exit_partial",
    "Verif.Props.C85_exceptions"
   ],
   "note": "It fails in eight situations, which are listed (`Excuse`), and which happen (`C85_exceptions`, C53, C16/C63, C71): a file that ends with an open quote; a file that ends after `..` of array bounds, after the comma behind the text of a check, or before a tuple with separators; a type of another package used though the imports of the file are wrong (an error was reported before); `Integer(1, 2)`; `x in null`; a quantifier in an exponent or pattern; checks with `[]` etc. (C63); lint mode with certain tuple types (C71). The theorem shows that there are no others. The linter is the one without verification of checks."
  },
  {
   "property": "C86",
   "status": "proved",
   "theorems": [
    "Verif.Props.C86_leads_to",
    "Verif.Props.C86_identifies"
   ],
   "note": "`os.path.abspath` and `os.path.relpath` are modelled as they are on POSIX systems, for paths that do not start with exactly two slashes. References to builtin types and functions have no line; their \"file\" `<builtin>` is treated like the name of a file."
  },
  {
   "property": "C87",
   "status": "partial",
   "theorems": [
    "Verif.Props.C87_brief_partial",
    "Verif.Props.C87_marks",
    "Verif.Props.C87_text_partial",
    "Verif.Props.C87_prefix",
    "Verif.Props.C87_colon"
   ],
   "note": "Violated in two ways, which the theorems leave out: the prefix given to `--log` is removed from names that have it, so that `lib/a.rsl` looks like `a.rsl` (`C87_prefix`); file names can have colons (`C87_colon`). A tag (category) is part of the text of a message."
  },
  {
   "property": "C88",
   "status": "proved",
   "theorems": [
    "Verif.Props.C88_order",
    "Verif.Props.C88_success",
    "Verif.Props.C88_hundred",
    "Verif.Props.C88_early"
   ],
   "note": "`C88_success` holds if trlc files are registered only when they are to be parsed, as `register_file` sees to. In a failing run 100 can be seen before the last file (`C88_early`): rsl files with an error in their preamble are not counted but parsed."
  },
  {
   "property": "C89",
   "status": "partial",
   "theorems": [
    "Verif.Props.C89_partial",
    "Verif.Props.SortsSample.C89_violated",
    "Verif.Props.SortsSample.C89_violated_in"
   ],
   "note": "In full it does not hold: `Integer(x)` of an Integer and `Decimal(x)` of a Decimal are accepted and translated as conversions from the other number type (`C89_violated`); the operator `in` accepts a value of one enumeration or tuple type and an array of another, which are different sorts (`C89_violated_in`). `C89_partial` excludes these two cases and nothing else. Declarations of sorts and functions themselves are not modelled."
  },
  {
   "property": "C90",
   "status": "partial",
   "theorems": [
    "Verif.Props.C90_partial",
    "Verif.Props.UnneededSample.C90_violated"
   ],
   "note": "In full it does not hold: every package is declared in a table that is visible everywhere, so a type or object whose name looks like that of an unneeded package is refused (`C90_violated`). `C90_partial` requires that no word in the given files looks like the name of a package that is only declared in the additional files. The run is without lint messages, and loading succeeds in both cases (an unneeded file that cannot be lexed or whose preamble is wrong is reported)."
  },
  {
   "property": "C91",
   "status": "proved",
   "theorems": [
    "Verif.Props.C91_numbers",
    "Verif.Props.C91_issues",
    "Verif.Props.C91_counts",
    "Verif.Props.C91_file_list",
    "Verif.Props.C91_file_list_printed"
   ],
   "note": "Files count as processed if they are given or needed; if an rsl file is refused then the trlc files are counted although they were not parsed. `C91_counts` and `C91_file_list` are about preambles without errors, `C91_file_list_printed` about all runs in which the list is printed. With --skip-trlc-files the number of trlc files is not printed, so `C91_numbers` then assumes it."
  },
  {
   "property": "C92",
   "status": "proved",
   "theorems": [
    "Verif.Props.C92_moved",
    "Verif.Props.C92_moved_iff"
   ],
   "note": "The structure `Moved` says what moving is: the texts have no lexical errors, the preambles are read without message and name the packages in the same order of first use, the same rsl files are parsed in the same order, and the trlc files that are parsed have the same declarations. Declarations are told apart by their braces only (`ObjectShape`), not by what the parser makes of them. 'Values' includes references by package and name; `MoveSample` applies the theorem to four objects in two files."
  },
  {
   "property": "C93",
   "status": "partial",
   "theorems": [
    "Verif.Props.C93_outcome",
    "Verif.Props.C93_partial",
    "Verif.Props.C93_depth",
    "Verif.Props.C93_same",
    "Verif.Props.C93_outline",
    "Verif.Props.C93_objects",
    "Verif.Props.C93_once",
    "Verif.Props.C93_records",
    "Verif.Props.C93_values",
    "Verif.Props.C93_enums",
    "Verif.Props.C93_tuples",
    "Verif.Props.C93_components",
    "Verif.Props.C93_checks",
    "Verif.Props.C93_anchors",
    "Verif.Props.C93_sections",
    "Verif.Props.DumpSample.C93_violated"
   ],
   "note": "It does not end if a check of a record type quantifies over an array of records of the same type, as the type of the variable of a quantifier is dumped with all its checks (ast.py:2393-2396, 2938-2951): `DumpSample.C93_violated` is a run on such a project. `C93_partial` proves that it ends exactly if no type reaches itself along such quantifiers, `C93_depth` that otherwise the depth is at most the number of record and tuple types, `C93_outcome` that no other exception occurs. The other theorems are on what is printed. `C93_values` shows that the printed lines determine the values up to the packages of referenced objects, which are not printed."
  },
  {
   "property": "C94",
   "status": "proved",
   "theorems": [
    "Verif.Props.C94_removed",
    "Verif.Props.C94_removed_iff"
   ],
   "note": "The hypotheses (`Alike`, `Thinned`) say that the same rsl files are parsed, the preambles are read without message, and the trlc files of the second project consist of some of the declarations of the first, found by their braces only. `SelfContained` is on the values of the objects of the first run. `RemoveSample` applies both theorems, to an object nobody refers to and to one that is referred to."
  },
  {
   "property": "C95",
   "status": "proved",
   "theorems": [
    "Verif.Props.C95_checks_removed"
   ],
   "note": "The hypotheses (`ChecksRemoved`) say that the preambles are read without message, that the rsl files are parsed in the same order and have the same blocks apart from some blocks that start with `checks`, and that the trlc files have the same declarations in any arrangement. Blocks are found by their braces only. Errors include failing checks with severity error; warnings of removed checks disappear. `UncheckSample` applies the theorem, with one of two check blocks removed."
  },
  {
   "property": "C96",
   "status": "proved",
   "theorems": [
    "Verif.Props.C96_sections",
    "Verif.Props.C96_sections_iff"
   ],
   "note": "The hypotheses say that the same rsl files are parsed, the preambles are read without message, and the trlc files of the second project consist of the declarations of the first (`RearrangedBy SameDecl`), found by their braces only. Which sections the objects are then in is C61. `SectionSample` applies the theorem."
  },
  {
   "property": "C97",
   "status": "partial",
   "theorems": [
    "Verif.Props.C97_order_partial",
    "Verif.Props.C97_order_iff_partial",
    "Verif.Props.C97_order_matters"
   ],
   "note": "`C97_order_matters` shows that the code violates the property: with a tuple type whose second component is optional and written behind a separator that is a name `x`, `{ x = 2 t = 1 }` is accepted but `{ t = 1 x = 2 }` is not, since `x` is read as the separator. The partial theorems cover all other objects: those in which no component assigned has the name of a separator. `OrderSample` applies the theorem."
  },
  {
   "property": "C98",
   "status": "proved",
   "theorems": [
    "Verif.Props.C98_lint",
    "Verif.Props.C98_exit"
   ],
   "note": "What is not modelled (regular expressions, locations, hints of the parser, warnings on imports) is assumed to be the same in both runs, apart from warnings (`SameApart`). If the linter raises an internal exception nothing is claimed; C71 and C78 say when that happens."
  },
  {
   "property": "C99",
   "status": "proved",
   "theorems": [
    "Verif.Props.C99_run",
    "Verif.Props.C99_parse_order"
   ],
   "note": "The sets of packages in build_graph and parse_rsl_files. The other sets of the code are only asked for membership, not iterated (imports are iterated only to make another set of graph edges, which C99_parse_order covers); all_names returns a set to the caller."
  }
 ]
}
