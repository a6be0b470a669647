{
 "claims": [
  {
   "property": "C01",
   "status": "proved",
   "theorems": [
    "Rbe.C01_deriv_matches_iff_lang"
   ],
   "note": ""
  },
  {
   "property": "C02",
   "status": "partial",
   "theorems": [
    "Rbe.C02_refuted",
    "Rbe.C02_refuted_each_kind",
    "Rbe.C02_deriv_matches_iff_lang_partial",
    "Rbe.C02_accepted"
   ],
   "note": "False of the code: {0,0} groups, min>max groups and empty choices are mishandled; proved for all other expressions, and what is accepted is characterised for every expression."
  },
  {
   "property": "C03",
   "status": "proved",
   "theorems": [
    "Rbe.C03_deriv_order_irrelevant"
   ],
   "note": "For closed matching, with no condition on the expression."
  },
  {
   "property": "C09",
   "status": "partial",
   "theorems": [
    "Rbe.C09_nullable_iff_partial",
    "Rbe.C09_refuted",
    "Rbe.C09_cond_nullable_iff"
   ],
   "note": "False for an empty choice inside a sequence; proved for well-formed expressions."
  },
  {
   "property": "C04",
   "status": "proved",
   "theorems": [
    "Rbe.C04_interval_matches_iff_lang"
   ],
   "note": ""
  },
  {
   "property": "C05",
   "status": "proved",
   "theorems": [
    "Rbe.C05_interval_sound"
   ],
   "note": ""
  },
  {
   "property": "C06",
   "status": "partial",
   "theorems": [
    "Rbe.C06_refuted",
    "Rbe.C06_interval_complete_partial"
   ],
   "note": "False in general (nested bounded repetition); proved for the fragment in the theorem."
  },
  {
   "property": "C07",
   "status": "proved",
   "theorems": [
    "Rbe.C07_algorithms_agree"
   ],
   "note": ""
  },
  {
   "property": "C08",
   "status": "proved",
   "theorems": [
    "Rbe.C08_flag_truthful"
   ],
   "note": ""
  },
  {
   "property": "C10",
   "status": "proved",
   "theorems": [
    "Rbe.C10_infeasible_no_member",
    "Rbe.C10_single_occurrence",
    "Rbe.C10_zero_lower",
    "Rbe.C10_refuted_shared_symbols"
   ],
   "note": "Holds when symbols with a positive lower bound occur once; refuted without that condition."
  },
  {
   "property": "C14",
   "status": "partial",
   "theorems": [
    "Rbe.C14_refuted",
    "Rbe.C14_order_refuted",
    "Rbe.C14_open_ignores_foreign_partial",
    "Rbe.C14_foreign_irrelevant_partial",
    "Rbe.C14_interval_ignores_foreign"
   ],
   "note": "False for expressions with an empty sequence or min=0 groups in open mode."
  },
  {
   "property": "C11",
   "status": "proved",
   "theorems": [
    "Rbe.C11_precheck_never_hides_match"
   ],
   "note": "For expressions with min<=max in groups and no empty choice."
  },
  {
   "property": "C12",
   "status": "partial",
   "theorems": [
    "Rbe.C12_every_assignment_found",
    "Rbe.C12_success_from_assignment_partial",
    "Rbe.C12_success_iff",
    "Rbe.C12_refuted"
   ],
   "note": "False when every triple is unplaceable and the expression is nullable: the code answers an empty success; exact otherwise."
  },
  {
   "property": "C13",
   "status": "proved",
   "theorems": [
    "Rbe.C13_error_item_excludes_success",
    "Rbe.C13_error_item_iff"
   ],
   "note": ""
  },
  {
   "property": "C15",
   "status": "proved",
   "theorems": [
    "Rbe.C15_violations_true",
    "Rbe.C15_violations_complete",
    "Rbe.C15_conjunction_explained",
    "Rbe.C15_table_violations_true",
    "Rbe.C15_report_iff_rejected"
   ],
   "note": ""
  },
  {
   "property": "C16",
   "status": "partial",
   "theorems": [
    "Rbe.C16_refuted",
    "Rbe.C16_code_language",
    "Rbe.C16_star_means_zero_or_two",
    "Rbe.C16_conditioned_match_partial"
   ],
   "note": "False of the code: the derivative of a starred body is followed by one mandatory copy of the body. Proved: exact characterisation of what is accepted, and correctness without Star and Plus."
  },
  {
   "property": "C17",
   "status": "proved",
   "theorems": [
    "Part.C17_kpartitions_exact",
    "Part.C17_drain_complete"
   ],
   "note": "For every item list and predicate list the iterator stops and yields exactly one partition per assignment whose groups satisfy their predicates."
  },
  {
   "property": "C18",
   "status": "proved",
   "theorems": [
    "Part.C18_class_partitions"
   ],
   "note": "Tables made through the public interface; any hash-map order. The completeness half needs each expression to have satisfiable repetition bounds and non-empty disjunctions (the conditions under which the feasibility pre-check is definitive, C10/C11)."
  },
  {
   "property": "C19",
   "status": "proved",
   "theorems": [
    "Part.C19_every_arrangement_once",
    "Part.C19_step_is_successor"
   ],
   "note": "Lexicographic successor; from the sorted arrangement every arrangement once, then stop."
  },
  {
   "property": "C20",
   "status": "proved",
   "theorems": [
    "Shex.C20_prove_iff_greatest",
    "Shex.C20_prove_iff_stratified",
    "Shex.C20_schema_greatest",
    "Shex.C20_schema_stratified",
    "Shex.C20_refuted_reference_with_action"
   ],
   "note": "For definitions that ask only about declared references; at schema level for plain references without EXTENDS. Refuted outside that scope: a reference that carries a semantic action is never explored."
  },
  {
   "property": "C21",
   "status": "proved",
   "theorems": [
    "Shex.C21_history_independent",
    "Shex.C21_queries_total",
    "Shex.C21_schema_history_independent",
    "Shex.C21_refuted_reference_with_action"
   ],
   "note": "Same scope as C20, extended to stratified negation; refuted for references with semantic actions."
  },
  {
   "property": "C22",
   "status": "partial",
   "theorems": [
    "Shex.C22_terminates_partial",
    "Shex.C22_depth_at_most_pairs",
    "Shex.C22_schema_terminates_partial",
    "Shex.C22_cyclic_extends_diverges"
   ],
   "note": "Proved for acyclic EXTENDS hierarchies; false of the code when EXTENDS is cyclic."
  },
  {
   "property": "C23",
   "status": "proved",
   "theorems": [
    "Shex.C23_boolean_combinations"
   ],
   "note": "For indices that are not extended by others."
  },
  {
   "property": "C25",
   "status": "partial",
   "theorems": [
    "Shex.C25_check_iff_meaning",
    "Shex.C25_closed",
    "Shex.C25_extra_tolerated_partial",
    "Shex.C25_matching_value_assigned",
    "Shex.C25_refuted"
   ],
   "note": "Toleration of EXTRA values is false of the code when the constraint is a shape reference; everything else proved."
  },
  {
   "property": "C51",
   "status": "proved",
   "theorems": [
    "Shex.C51_inheritance_closure"
   ],
   "note": ""
  },
  {
   "property": "C24",
   "status": "partial",
   "theorems": [
    "Shex.C24_reported_is_cycle",
    "Shex.C24_reported_schema",
    "Shex.C24_negative_cycle_iff_partial",
    "Shex.C24_refuted_both_polarities",
    "Shex.C24_refuted_not_reported",
    "Shex.C24_refuted_equal_contents",
    "Shex.C24_refuted_reference_with_action",
    "Shex.C24_refuted_extends"
   ],
   "note": "No false alarms, in full. Detection is exact when no shape refers to the same shape with both polarities; false of the code otherwise (edges are overwritten, equal contents skipped) and for references inside conjunctions or through EXTENDS."
  },
  {
   "property": "C26",
   "status": "proved",
   "theorems": [
    "Shex.C26_every_combination",
    "Shex.C26_merge",
    "Shex.C26_alternatives_nonempty",
    "Shex.C26_empty_disjunction_panics"
   ],
   "note": "When every parent has an alternative, which holds without empty disjunctions; with one, the code panics."
  },
  {
   "property": "C52",
   "status": "partial",
   "theorems": [
    "Shex.C52_partition_search",
    "Shex.C52_several_alternatives",
    "Shex.C52_single_alternative_partial",
    "Shex.C52_refuted_overlap",
    "Shex.C52_refuted_conjunction",
    "Shex.C52_any_constraint",
    "Shex.C52_conjunction_parents_partial",
    "Shex.C52_refuted_ignored"
   ],
   "note": "Exact when some parent has several alternatives, with any constraints beside them, and for the search itself. With one alternative per parent: sound when parents are shapes, exact when predicates are disjoint; for conjunctions as parents acceptance gives a sharing that meets node constraints, shapes and references of every ancestor. False of the code for siblings with overlapping predicates, for ancestors behind a conjunction, and for negations, disjunctions and nested conjunctions in a parent, which are not looked at."
  },
  {
   "property": "C53",
   "status": "proved",
   "theorems": [
    "Shex.C53_alternatives",
    "Shex.C53_constraints"
   ],
   "note": ""
  },
  {
   "property": "C54",
   "status": "proved",
   "theorems": [
    "Shex.C54_hierarchy_greatest",
    "Shex.C54_hierarchy_stratified"
   ],
   "note": ""
  },
  {
   "property": "C27",
   "status": "partial",
   "theorems": [
    "Prefix.C27_round_trip_iff_partial",
    "Prefix.C27_prefixed_name_iff",
    "Prefix.C27_turtle_iff",
    "Prefix.C27_whole_never_returns",
    "Prefix.C27_refuted"
   ],
   "note": "The exact condition under which the IRI comes back. False of the code for a colon in the rest, for namespaces that end in neither slash nor hash, and for IRIs shown whole."
  },
  {
   "property": "C28",
   "status": "proved",
   "theorems": [
    "Prefix.C28_longest_namespace",
    "Prefix.C28_length"
   ],
   "note": ""
  },
  {
   "property": "C29",
   "status": "proved",
   "theorems": [
    "Prefix.C29_last_declaration",
    "Prefix.C29_remove_and_merge",
    "Prefix.C29_equality"
   ],
   "note": ""
  },
  {
   "property": "C30",
   "status": "proved",
   "theorems": [
    "Prefix.C30_indices_stable"
   ],
   "note": ""
  },
  {
   "property": "C55",
   "status": "proved",
   "theorems": [
    "Prefix.C55_serialisation"
   ],
   "note": ""
  },
  {
   "property": "C56",
   "status": "proved",
   "theorems": [
    "Prefix.C56_relative",
    "Prefix.C56_equal_without_fragment"
   ],
   "note": ""
  },
  {
   "property": "C47",
   "status": "proved",
   "theorems": [
    "Lit.C47_equivalence_and_hash",
    "Lit.C47_by_value",
    "Lit.C47_large_differ"
   ],
   "note": ""
  },
  {
   "property": "C48",
   "status": "partial",
   "theorems": [
    "Lit.C48_always",
    "Lit.C48_convertible_partial",
    "Lit.C48_refuted"
   ],
   "note": "Transitivity and agreement with the partial comparison fail for integers that do not fit a decimal (witness proved); proved for all numbers that do. Irreflexivity and asymmetry hold for all."
  },
  {
   "property": "C49",
   "status": "partial",
   "theorems": [
    "Lit.C49_round_trip_partial",
    "Lit.C49_refuted"
   ],
   "note": "False of the code for zero in binary formats and for bounds of 2^63 and more (witness proved); proved for the rest."
  },
  {
   "property": "C57",
   "status": "partial",
   "theorems": [
    "Lit.C57_fraction_digits",
    "Lit.C57_total_digits_partial",
    "Lit.C57_refuted"
   ],
   "note": "Total digits of decimals strictly between -1 and 1 count the zero before the point (witness proved); everything else proved."
  },
  {
   "property": "C58",
   "status": "proved",
   "theorems": [
    "Lit.C58_matching"
   ],
   "note": ""
  },
  {
   "property": "C59",
   "status": "partial",
   "theorems": [
    "Lit.C59_integer_texts_partial",
    "Lit.C59_refuted"
   ],
   "note": "False of the code for repeated signs, numbers beyond 128 bits and -0 of unsigned types (witnesses proved); proved for the rest."
  },
  {
   "property": "C60",
   "status": "proved",
   "theorems": [
    "Lit.C60_conversion",
    "Lit.C60_texts"
   ],
   "note": "Under contracts of the language-tag and date-time crates stated as hypotheses."
  },
  {
   "property": "C61",
   "status": "partial",
   "theorems": [
    "Lit.C61_term_equality_partial",
    "Lit.C61_refuted"
   ],
   "note": "False of the code for derived integer types, which are compared by value (witness proved); proved for plain and tagged texts, integer, decimal, double, float and unknown datatypes."
  },
  {
   "property": "C62",
   "status": "partial",
   "theorems": [
    "Lit.C62_comparison_partial",
    "Lit.C62_refuted",
    "Lit.C62_equal_but_different",
    "Lit.C62_meaning"
   ],
   "note": "Transitivity is false of the code with ill-formed numbers (witness proved); proved otherwise. The swap law holds for all."
  },
  {
   "property": "C31",
   "status": "partial",
   "theorems": [
    "Value.C31_value_sets_partial",
    "Value.C31_refuted"
   ],
   "note": "Stem ranges with a wildcard accept terms of other kinds (witness proved); everything else proved."
  },
  {
   "property": "C32",
   "status": "proved",
   "theorems": [
    "Value.C32_language_stems"
   ],
   "note": ""
  },
  {
   "property": "C63",
   "status": "proved",
   "theorems": [
    "Value.C63_node_constraints"
   ],
   "note": ""
  },
  {
   "property": "C64",
   "status": "partial",
   "theorems": [
    "Value.C64_numeric_facets_partial",
    "Value.C64_refuted"
   ],
   "note": "False of the code for numbers that do not fit a decimal and for total digits of values below one (witnesses proved); proved for the rest."
  },
  {
   "property": "C65",
   "status": "partial",
   "theorems": [
    "Value.C65_length_facets_partial",
    "Value.C65_refuted"
   ],
   "note": "The code counts bytes (witness proved); proved for texts where bytes and characters agree."
  },
  {
   "property": "C50",
   "status": "partial",
   "theorems": [
    "Shapemap.C50_result_map_partial",
    "Shapemap.C50_refuted"
   ],
   "note": "Recording both verdicts for one pair, or anything beside an inconsistent one, panics (witness proved; panics characterised exactly); proved for all other histories."
  },
  {
   "property": "C33",
   "status": "partial",
   "theorems": [
    "Shacl.C33_paths_partial",
    "Shacl.C33_paths_without_literals",
    "Shacl.C33_refuted"
   ],
   "note": "Refuted as stated: a closure that reaches a literal is an error and the inverse of a path that is not a predicate panics. Proved: exactly when evaluation fails or panics, and that otherwise the result is the path relation without repetitions; in particular for data without literals."
  },
  {
   "property": "C34",
   "status": "proved",
   "theorems": [
    "Shacl.C34_terminates"
   ],
   "note": ""
  },
  {
   "property": "C35",
   "status": "proved",
   "theorems": [
    "Shacl.C35_levels",
    "Shacl.C35_target_levels"
   ],
   "note": ""
  },
  {
   "property": "C36",
   "status": "partial",
   "theorems": [
    "Shacl.C36_cached_results_partial",
    "Shacl.C36_refuted",
    "Shacl.C36_refuted_objects"
   ],
   "note": "False of the code for property shapes with nested property shapes and for terms with equal objects (witnesses proved); proved for all other non-recursive schemas."
  },
  {
   "property": "C37",
   "status": "partial",
   "theorems": [
    "Shacl.C37_schedules_partial",
    "Shacl.C37_groupings_partial",
    "Shacl.C37_progress_partial",
    "Shacl.C37_refuted"
   ],
   "note": "False of the code for nested property shapes (witness proved); proved for all other non-recursive schemas, all schedules and all groupings in levels, with progress under every fair schedule."
  },
  {
   "property": "C38",
   "status": "proved",
   "theorems": [
    "Shacl.C38_and",
    "Shacl.C38_or",
    "Shacl.C38_not",
    "Shacl.C38_xone",
    "Shacl.C38_node",
    "Shacl.C38_qualified",
    "Shacl.C38_failures"
   ],
   "note": "C38_failures says what happens when validating a listed shape fails."
  },
  {
   "property": "C66",
   "status": "partial",
   "theorems": [
    "Shacl.C66_meaning_partial",
    "Shacl.C66_paths_partial",
    "Shacl.C66_value_nodes",
    "Shacl.C66_literal_refuted"
   ],
   "note": "Missing: property shapes with property shapes of their own and terms with equal objects, where C36_refuted shows it to be false; a property shape reports nothing about a literal (witness proved)."
  },
  {
   "property": "C67",
   "status": "partial",
   "theorems": [
    "Shacl.C67_validation_terminates",
    "Shacl.C67_accepted_terminates_partial",
    "Shacl.C67_refuted"
   ],
   "note": "False of the code: references to sibling shapes are not in the dependency graph (witness proved). Proved for schemas without siblings, and for all schemas whose references including siblings go down in a rank."
  },
  {
   "property": "C68",
   "status": "proved",
   "theorems": [
    "Shacl.C68_recursion_rejected"
   ],
   "note": "petgraph's cycle search is taken by its contract."
  },
  {
   "property": "C69",
   "status": "partial",
   "theorems": [
    "Shacl.C69_negative_cycles_partial",
    "Shacl.C69_refuted",
    "Shacl.C69_numbering_refuted"
   ],
   "note": "False of the code: a later traversal overwrites the polarity of edges, so some negative cycles are missed and the verdict depends on the numbering of shapes (witnesses proved). Proved: no negative cycle is reported for schemas without sh:not."
  },
  {
   "property": "C39",
   "status": "partial",
   "theorems": [
    "Shacl.C39_report_equality_partial",
    "Shacl.C39_refuted"
   ],
   "note": "False of the code: not symmetric when a report has a result twice (witness proved). Proved: reflexive and transitive; symmetric, and the same up to order, if one report has no result twice."
  },
  {
   "property": "C40",
   "status": "partial",
   "theorems": [
    "Shacl.C40_class_targets_partial",
    "Shacl.C40_shallow_partial",
    "Shacl.C40_refuted"
   ],
   "note": "False of the code: class targets look at no subclasses, and shapes that are classes at one level only (witness proved). Proved: exactly what is selected, with and without the index, and that it is right without deeper subclasses."
  },
  {
   "property": "C41",
   "status": "partial",
   "theorems": [
    "Shacl.C41_closed_partial",
    "Shacl.C41_equals_partial",
    "Shacl.C41_disjoint_partial",
    "Shacl.C41_less_than_partial",
    "Shacl.C41_closed_refuted",
    "Shacl.C41_literal_focus_refuted",
    "Shacl.C41_disjoint_refuted",
    "Shacl.C41_less_than_refuted"
   ],
   "note": "False of the code in four ways (witnesses proved): sh:closed looks at focus nodes instead of value nodes, literals as focus nodes are skipped or panic, sh:disjoint compares by value, sh:lessThan compares IRIs. Proved outside these cases."
  },
  {
   "property": "C70",
   "status": "proved",
   "theorems": [
    "Shacl.C70_focus_nodes"
   ],
   "note": ""
  },
  {
   "property": "C71",
   "status": "partial",
   "theorems": [
    "Shacl.C71_ranges_partial",
    "Shacl.C71_refuted"
   ],
   "note": "False of the code: derived integer datatypes are not comparable with xsd:integer, decimals and floats (witness proved). Proved when value and bound are both or neither of derived datatypes, for integers below 2^96 and finite floats."
  },
  {
   "property": "C72",
   "status": "partial",
   "theorems": [
    "Shacl.C72_counts_and_constants_partial",
    "Shacl.C72_refuted"
   ],
   "note": "False of the code for constants that the conversion to an object changes, and negative counts (witness proved). Proved for all others."
  },
  {
   "property": "C73",
   "status": "partial",
   "theorems": [
    "Shacl.C73_node_kinds",
    "Shacl.C73_datatypes_partial",
    "Shacl.C73_refuted"
   ],
   "note": "False of the code for -0 in unsigned datatypes (witness proved). Node kinds proved in full; datatypes proved for texts of integers the code has room for."
  },
  {
   "property": "C74",
   "status": "partial",
   "theorems": [
    "Shacl.C74_patterns",
    "Shacl.C74_lengths_partial",
    "Shacl.C74_refuted"
   ],
   "note": "False of the code: lengths are in bytes (witness proved). Patterns proved in full for any matcher; lengths proved for ASCII."
  },
  {
   "property": "C75",
   "status": "proved",
   "theorems": [
    "Shacl.C75_languages"
   ],
   "note": "The normal form of language tags is taken by a contract: a change of case, equal for tags that differ in case."
  },
  {
   "property": "C76",
   "status": "partial",
   "theorems": [
    "Shacl.C76_class_partial",
    "Shacl.C76_refuted"
   ],
   "note": "False of the code for subclasses of subclasses (witness proved). Proved: exactly what is reported, and that it is right without deeper subclasses."
  },
  {
   "property": "C77",
   "status": "partial",
   "theorems": [
    "Shacl.C77_equal_reports_partial",
    "Shacl.C77_counts",
    "Shacl.C39_refuted"
   ],
   "note": "Conformance proved for all equal reports; counts of severities proved if one report has no result twice, and false otherwise (witness in C39_refuted)."
  },
  {
   "property": "C42",
   "status": "proved",
   "theorems": [
    "Pg.C42_record_conformance",
    "Pg.C42_open_records"
   ],
   "note": "Matching of regular expressions is a parameter."
  },
  {
   "property": "C43",
   "status": "partial",
   "theorems": [
    "Pg.C43_never_open",
    "Pg.C43_open_refuted",
    "Pg.C43_open_partial"
   ],
   "note": "False of the code: combining records drops the flag, so no node type is ever open (proved for all schemas). Proved: an open property list taken by itself tolerates further properties."
  },
  {
   "property": "C44",
   "status": "partial",
   "theorems": [
    "Pg.C44_union_refuted",
    "Pg.C44_union_partial"
   ],
   "note": "False of the code: a union mixes the labels of one side with the content of the other (witness proved). Proved: what the union accepts exactly, that it accepts what either accepts, and that it is right when labels or contents agree."
  },
  {
   "property": "C45",
   "status": "proved",
   "theorems": [
    "Pg.C45_type_map",
    "Pg.C45_missing"
   ],
   "note": "Scope: schemas whose references have no cycles, where validation terminates."
  },
  {
   "property": "C46",
   "status": "partial",
   "theorems": [
    "Pg.C46_intersection_refuted",
    "Pg.C46_range_intersection_refuted",
    "Pg.C46_intersection_partial"
   ],
   "note": "False of the code for several pairs of cardinalities (witnesses proved). Proved: the intersection contains every count in both, is exact for two bounded or two unbounded ranges, and for other pairs exactly when the chosen one lies inside the other."
  },
  {
   "property": "C78",
   "status": "proved",
   "theorems": [
    "Pg.C78_value_types"
   ],
   "note": ""
  },
  {
   "property": "C79",
   "status": "partial",
   "theorems": [
    "Pg.C79_conditions_refuted",
    "Pg.C79_conditions_partial"
   ],
   "note": "False of the code: a disjunction fails if one part does not apply to the value (witness proved). Proved when all parts apply."
  },
  {
   "property": "C80",
   "status": "partial",
   "theorems": [
    "Pg.C80_properties_refuted",
    "Pg.C80_properties_partial"
   ],
   "note": "False of the code: an empty part makes a conjunction accept nothing (witness proved). Proved without empty parts."
  },
  {
   "property": "C81",
   "status": "partial",
   "theorems": [
    "Pg.C81_node_types_refuted",
    "Pg.C81_node_types_partial",
    "Pg.C81_no_label",
    "Pg.C81_cyclic"
   ],
   "note": "False of the code for types without labels and for unions (witnesses proved). Proved for labelled types without unions; cyclic references recurse forever (proved)."
  },
  {
   "property": "C82",
   "status": "proved",
   "theorems": [
    "Pg.C82_edges",
    "Pg.C82_edge_errors"
   ],
   "note": ""
  },
  {
   "property": "C83",
   "status": "partial",
   "theorems": [
    "Pg.C83_expected",
    "Pg.C83_duplicates_refuted"
   ],
   "note": "False of the code when one element is associated with one type twice with different expectations (witness proved). Proved otherwise."
  },
  {
   "property": "C84",
   "status": "proved",
   "theorems": [
    "Pg.C84_merge",
    "Pg.C84_edge_names",
    "Pg.C84_built",
    "Pg.C84_shadowed_refuted"
   ],
   "note": "Scope: graphs in which a name is given to one node only, as the statement says; a witness shows the panic otherwise."
  },
  {
   "property": "C85",
   "status": "proved",
   "theorems": [
    "Pg.C85_add_node_type",
    "Pg.C85_add_edge_type"
   ],
   "note": ""
  },
  {
   "property": "C86",
   "status": "partial",
   "theorems": [
    "Pg.C86_third_type_refuted",
    "Pg.C86_unlabelled_refuted",
    "Pg.C86_escape_refuted",
    "Pg.C86_schema_text_partial",
    "Pg.C86_edge_text_partial",
    "Pg.C86_undeclared",
    "Pg.C86_accepted",
    "Pg.C86_edges_kept",
    "Pg.C86_graph_type_panics"
   ],
   "note": "False of the code for types of three or more parts, for properties without labels and for escaped quotes (witnesses proved). Proved for texts without these: exactly without | between labels, completeness with it. Acceptance is characterised; a graph type panics."
  },
  {
   "property": "C87",
   "status": "partial",
   "theorems": [
    "Pg.C87_edge_ends_refuted",
    "Pg.C87_nodes_partial",
    "Pg.C87_edges_partial",
    "Pg.C87_accepted",
    "Pg.C87_type_map"
   ],
   "note": "False of the code when a name is declared again after an edge (witness proved). Proved otherwise, for texts without escaped quotes."
  },
  {
   "property": "C88",
   "status": "partial",
   "theorems": [
    "Rbe.C88_queries",
    "Rbe.C88_iterators",
    "Rbe.C88_pop_partial",
    "Rbe.C88_drain_partial",
    "Rbe.C88_pop_refuted"
   ],
   "note": "pop panics on a pair without a key, such as from_pair makes (witness proved). Everything else is proved for all maps of the interface, and pop for maps in which every pair has a key."
  },
  {
   "property": "C89",
   "status": "partial",
   "theorems": [
    "Tap.C89_tables_partial",
    "Tap.C89_refuted"
   ],
   "note": "Proved for tables whose rows have a cell in each column. False of the code otherwise, which the default configuration allows: a label is carried over from the shape before (witness proved)."
  },
  {
   "property": "C90",
   "status": "proved",
   "theorems": [
    "Tap.C90_column_order",
    "Tap.C90_header_case"
   ],
   "note": ""
  },
  {
   "property": "C91",
   "status": "partial",
   "theorems": [
    "Tap.C91_statements",
    "Tap.C91_generated_distinct_partial",
    "Tap.C91_refuted"
   ],
   "note": "Proved for rows with the same placeholder, with the place of every statement in the result. A generated name may be one that the table has (witness proved)."
  },
  {
   "property": "C92",
   "status": "partial",
   "theorems": [
    "Tap.C92_sheet_partial",
    "Tap.C92_sheet_shift",
    "Tap.C92_refuted",
    "Tap.C92_lines"
   ],
   "note": "Proved for sheets in use from the first row and column; for all others the shift is characterised, and it loses rows (witness proved). Every error and statement shows line 1."
  },
  {
   "property": "C93",
   "status": "partial",
   "theorems": [
    "Tap.C93_names",
    "Tap.C93_begins",
    "Tap.C93_absolute_refuted"
   ],
   "note": "Names with aliases and names after the base are characterised. False of the code for absolute IRIs, which are refused (witness proved)."
  },
  {
   "property": "C94",
   "status": "partial",
   "theorems": [
    "Tap.C94_cardinality",
    "Tap.C94_missing_refuted"
   ],
   "note": "Proved for every statement; a missing column counts as mandatory, an empty cell does not (witness proved)."
  },
  {
   "property": "C95",
   "status": "partial",
   "theorems": [
    "Tap.C95_succeeds_iff",
    "Tap.C95_declarations",
    "Tap.C95_values",
    "Tap.C95_values_partial",
    "Tap.C95_datatype_refuted",
    "Tap.C95_nodetype_refuted",
    "Tap.C95_delimiter_refuted"
   ],
   "note": "Success and declarations are characterised. False of the code for statements with exactly one datatype, whose datatype and pick list are dropped, and for node kinds, which are ignored (witnesses proved). Proved otherwise."
  },
  {
   "property": "C96",
   "status": "proved",
   "theorems": [
    "Value.C96_pattern_facet"
   ],
   "note": "For every regular expression engine: the engine is a parameter that compiles a pattern into a test on texts."
  },
  {
   "property": "C97",
   "status": "proved",
   "theorems": [
    "Comp.C97_typings",
    "Comp.C97_determined",
    "Comp.C97_labels"
   ],
   "note": "For every schema which the compiler accepts, every graph and every typing. Node constraints, semantic actions, retrieval of imports and external shapes are parameters."
  },
  {
   "property": "C98",
   "status": "proved",
   "theorems": [
    "Comp.C98_greatest"
   ],
   "note": "For every accepted schema without negation."
  },
  {
   "property": "C99",
   "status": "proved",
   "theorems": [
    "Comp.C99_validate",
    "Comp.C99_validate_stratified"
   ],
   "note": "The compiler joined with the engine, for the fragment named in the statement (the one in which the engine is exact, see C20); the verdict is the one of a run that ends."
  },
  {
   "property": "C100",
   "status": "proved",
   "theorems": [
    "Comp.C100_compiles_iff",
    "Comp.C100_compiled_well_formed",
    "Comp.C100_depth_irrelevant"
   ],
   "note": "The equivalence supposes that what is retrieved for an IRI does not depend on the importing schema; one direction holds without."
  },
  {
   "property": "C101",
   "status": "partial",
   "theorems": [
    "Comp.C101_refuted",
    "Comp.C101_compile_ends_partial"
   ],
   "note": "False of the code: a triple expression which includes itself inside its value is compiled without end (witness proved). Proved when no labelled triple expression includes itself."
  },
  {
   "property": "C102",
   "status": "proved",
   "theorems": [
    "Comp.C102_imports_and_labels"
   ],
   "note": "For every schema which the compiler accepts, with cycles of imports."
  },
  {
   "property": "C103",
   "status": "partial",
   "theorems": [
    "Comp.C103_start_refuted",
    "Comp.C103_value_refuted",
    "Comp.C103_import_refuted",
    "Comp.C103_well_formed_partial"
   ],
   "note": "False of the code for inclusions in the start expression, labels inside values, and labelled triple expressions in a schema that is imported back (witnesses proved). Proved otherwise."
  },
  {
   "property": "C104",
   "status": "partial",
   "theorems": [
    "Shexc.C104_ends",
    "Shexc.C104_no_panic_partial",
    "Shexc.C104_refuted"
   ],
   "note": "It always ends. False of the code for panics: five texts panic (witnesses proved). Proved for texts of one-byte characters without &, numeric escapes and extends."
  },
  {
   "property": "C105",
   "status": "partial",
   "theorems": [
    "Shexc.C105_names_partial",
    "Shexc.C105_start_partial",
    "Shexc.C105_unresolved_partial",
    "Shexc.C105_refuted"
   ],
   "note": "Proved for namespaces that end in / or #. False of the code for other namespaces, which get a slash, and for prefixed names in stems, exclusions and imports, which are left as written (witnesses proved)."
  },
  {
   "property": "C106",
   "status": "partial",
   "theorems": [
    "Shexc.C106_strings_partial",
    "Shexc.C106_names_partial",
    "Shexc.C106_labels_partial",
    "Shexc.C106_literals_partial",
    "Shexc.C106_integers_partial",
    "Shexc.C106_numbers_partial",
    "Shexc.C106_languages",
    "Shexc.C106_patterns_partial",
    "Shexc.C106_cardinalities_partial",
    "Shexc.C106_code",
    "Shexc.C106_gaps",
    "Shexc.C106_refuted"
   ],
   "note": "Proved for the words of SpecText.lean. False of the code for long strings with quotes inside, some decimal numbers in facets, cardinalities of more than 32 bits or with spaces, prefixes with dots and escapes in local names (witnesses proved)."
  },
  {
   "property": "C107",
   "status": "partial",
   "theorems": [
    "Shexc.C107_statements_partial",
    "Shexc.C107_expressions_partial",
    "Shexc.C107_unambiguous",
    "Shexc.C107_layout_partial",
    "Shexc.C107_schema_partial",
    "Shexc.C107_refuted",
    "Shexc.C107_misread_refuted",
    "Shexc.C107_accepted_refuted"
   ],
   "note": "Proved for the grammar of SpecGram.lean, at any depth of brackets. False of the code for texts that are refused or read as something else (witnesses proved), which that grammar leaves out."
  },
  {
   "property": "C108",
   "status": "partial",
   "theorems": [
    "Shexc.C108_round_trip_partial",
    "Shexc.C108_written_partial",
    "Shexc.C108_injective_partial",
    "Shexc.C108_panics_iff",
    "Shexc.C108_refuted",
    "Shexc.C108_negation_refuted"
   ],
   "note": "Proved for the schemas of SpecPrint.lean. False of the code for others: the text is refused or read as another schema (witnesses proved), as there are no brackets, no escapes, and several things are not written. When the printer panics is proved for all schemas."
  },
  {
   "property": "C109",
   "status": "partial",
   "theorems": [
    "Shexc.C109_read",
    "Shexc.C109_unambiguous",
    "Shexc.C109_ends",
    "Shexc.C109_no_panic_partial",
    "Shexc.C109_refuted"
   ],
   "note": "Reading as written, unambiguity and termination are proved for all texts of SpecMap.lean. False of the code: some texts make it panic, a string right before @ is refused, and names that begin with focus are misread (witnesses proved); no panic is proved for tame texts."
  },
  {
   "property": "C110",
   "status": "partial",
   "theorems": [
    "Shexc.C110_names_partial",
    "Shexc.C110_absolute",
    "Shexc.C110_refuted"
   ],
   "note": "False of the code for namespaces that do not end in / or #, which get a / (witness proved); proved when they all do."
  },
  {
   "property": "C111",
   "status": "partial",
   "theorems": [
    "Shexc.C111_roundtrip_partial",
    "Shexc.C111_many_refused",
    "Shexc.C111_panics",
    "Shexc.C111_refuted"
   ],
   "note": "Proved for one association whose names, strings and queries need no escapes. With two or more the text is always refused (proved); when the printer panics is proved for all shape maps; strings in colours and escapes are refuted by witnesses."
  },
  {
   "property": "C112",
   "status": "partial",
   "theorems": [
    "Shexc.C112_subjects_partial",
    "Shexc.C112_objects_partial",
    "Shexc.C112_pairs",
    "Shexc.C112_read",
    "Shexc.C112_refuted"
   ],
   "note": "Triple patterns: proved for IRIs, wildcards and strings that need no escapes; false of the code for other literals, which change or spoil the query (witnesses proved). Pairs, failures and panics are proved for all."
  },
  {
   "property": "C113",
   "status": "partial",
   "theorems": [
    "Conv.C113_converts_iff",
    "Conv.C113_panics",
    "Conv.C113_errors",
    "Conv.C113_meaning",
    "Conv.C113_no_target",
    "Conv.C113_preserved_partial",
    "Conv.C113_refuted"
   ],
   "note": "When there is a conversion and what its shapes mean is characterised for all schemas and all data. The same meaning as in SHACL is proved for nodes with one value for each path, different paths, one component at most, and data without second types and superclasses; false of the code without any of these."
  },
  {
   "property": "C114",
   "status": "partial",
   "theorems": [
    "Mat.C114_graph_iff",
    "Mat.C114_one_graph",
    "Mat.C114_recursive",
    "Mat.C114_failures",
    "Mat.C114_triples",
    "Mat.C114_conforms_partial",
    "Mat.C114_refuted"
   ],
   "note": "When there is a graph, that there is one, what the failures say and where the triples come from is proved for all schemas and maps; for recursive schemas the computation never ends (proved). That the graph conforms is proved for schemas that the map covers, and false of the code for choices, missing values, other cardinalities and a given blank node with the name of a new one."
  },
  {
   "property": "C115",
   "status": "partial",
   "theorems": [
    "Cmp.C115_compare",
    "Cmp.C115_symmetric",
    "Cmp.C115_converts_iff",
    "Cmp.C115_panics",
    "Cmp.C115_group",
    "Cmp.C115_single",
    "Cmp.C115_tells_partial",
    "Cmp.C115_refuted"
   ],
   "note": "The comparison of models, its symmetry, which shapes have a model, the panics and the models of groups are proved for all. That the comparison tells the properties is proved for shapes with groups; false of the code for shapes with a single triple constraint, whose model is empty (proved for all of them), and for what is said of the values."
  },
  {
   "property": "C116",
   "status": "partial",
   "theorems": [
    "Rd.C116_reads",
    "Rd.C116_ends",
    "Rd.C116_ways",
    "Rd.C116_rejects_partial",
    "Rd.C116_refuted"
   ],
   "note": "That lists are read, that the reading ends and exactly what can be read at any node is proved for all graphs and orders. That everything else is an error is proved for graphs whose cells have at most one member and rest; false of the code for others, where the result depends on the order of a hash set."
  },
  {
   "property": "C117",
   "status": "partial",
   "theorems": [
    "Rd.C117_reads",
    "Rd.C117_ends",
    "Rd.C117_exact_partial",
    "Rd.C117_refuted"
   ],
   "note": "All well-formed paths are read, and the reading ends if no way down is infinite. That only paths are read is proved for tidy graphs; false of the code for broken lists, as the focus is not put back, and the reading of circular paths never ends."
  },
  {
   "property": "C118",
   "status": "partial",
   "theorems": [
    "Rd.C118_components_partial",
    "Rd.C118_ignored",
    "Rd.C118_refuted"
   ],
   "note": "Exactly the declared components are read, malformed values are errors and nothing else is, for all nodes without sh:ignoredProperties. With sh:ignoredProperties the last four kinds (hasValue, in, sparql, deactivated) are read at rdf:nil (proved for all lists), so declared components are lost; and language lists with an IRI or a bad tag are a panic (proved)."
  },
  {
   "property": "C119",
   "status": "partial",
   "theorems": [
    "Rd.C119_schema",
    "Rd.C119_reads",
    "Rd.C119_rejects_partial",
    "Rd.C119_refuted"
   ],
   "note": "Which nodes have entries, that the entries of good nodes are what the graph says and that graphs of good shapes are read is proved for all graphs. That malformed shapes are errors is proved for property shapes and for lists of shapes; false of the code for node shapes, where the focus is not put back and another node may be read; nodes that only have constraints are not read."
  },
  {
   "property": "C120",
   "status": "partial",
   "theorems": [
    "Rd.C120_round_trip_partial",
    "Rd.C120_panics",
    "Rd.C120_unreadable",
    "Rd.C120_lost",
    "Rd.C120_refuted"
   ],
   "note": "The round trip is proved for all simple schemas (any number of shapes with 22 kinds of components, texts as literals, predicate paths). For others it is false of the code: exactly when the writer panics is proved for all schemas; schemas with sh:and, sh:or or sh:xone are written so that reading them is an error, and node kinds, lists, typed ranges and reifiers are never read back. SPARQL constraints are written in the model but not in the round trip."
  },
  {
   "property": "C121",
   "status": "partial",
   "theorems": [
    "Store.C121_contents",
    "Store.C121_matching",
    "Store.C121_reading",
    "Store.C121_base",
    "Store.C121_base_failed",
    "Store.C121_atomic_refuted",
    "Store.C121_atomic_partial",
    "Store.C121_snapshot",
    "Store.C121_queries_refuted",
    "Store.C121_queries_partial",
    "Store.C121_blank_nodes",
    "Store.C121_fresh_refuted",
    "Store.C121_fresh_partial"
   ],
   "note": "The triples of the graph and of lists of matching triples are proved for all sequences of operations. False of the code, with witnesses: queries see the triples of the moment at which the store was made (proved which, for all sequences); a document that is rejected leaves what was read before the mistake; new blank nodes may be in the graph already. The partial theorems say when these hold."
  },
  {
   "property": "C122",
   "status": "partial",
   "theorems": [
    "Store.C122_service",
    "Store.C122_remembered",
    "Store.C122_fresh_answer_refuted",
    "Store.C122_blank_refuted",
    "Store.C122_matching",
    "Store.C122_triples",
    "Store.C122_outgoing_partial",
    "Store.C122_remainder_refuted",
    "Store.C122_engine_graph",
    "Store.C122_engine_data_partial",
    "Store.C122_closed_ignored",
    "Store.C122_closed_refuted",
    "Store.C122_closed_partial"
   ],
   "note": "The arcs are proved for graphs, services and their combination, for all histories of calls, when the triples of services do not change and the node is not blank; without these it is false of the code. The remainder is false of the code for empty lists of predicates and for services, so CLOSED is ignored there: proved for all data and shapes, with a shape that is accepted over RdfData and rejected over its graph."
  },
  {
   "property": "C123",
   "status": "partial",
   "theorems": [
    "Act.C123_test",
    "Act.C123_map",
    "Act.C123_registry",
    "Act.C123_constraint",
    "Act.C123_matched_refuted",
    "Act.C123_matched_partial",
    "Act.C123_not_attached",
    "Act.C123_start_fails",
    "Act.C123_start_passes",
    "Act.C123_start_once_refuted"
   ],
   "note": "What codes are accepted, what they print and bind, which extension is run and what a constraint with actions gives is proved for all codes, registries and states. False of the code: actions are run for values that do not match as well, and actions at the start are run for each pair rather than once."
  },
  {
   "property": "C124",
   "status": "proved",
   "theorems": [
    "Act.C124_rewriting",
    "Act.C124_dispatch",
    "Act.C124_latest",
    "Act.C124_named",
    "Act.C124_spec"
   ],
   "note": "For all chains of resolvers and all schemas. The statement is about declarations whose whole expression is EXTERNAL."
  },
  {
   "property": "C125",
   "status": "partial",
   "theorems": [
    "Shacl.C125_node_kinds",
    "Shacl.C125_ranges_partial",
    "Shacl.C125_strings_partial",
    "Shacl.C125_class_partial",
    "Shacl.C125_equals_partial",
    "Shacl.C125_disjoint_partial",
    "Shacl.C125_less_than_partial",
    "Shacl.C125_closed",
    "Shacl.C125_text_refuted",
    "Shacl.C125_errors_refuted",
    "Shacl.C125_class_refuted",
    "Shacl.C125_class_blank",
    "Shacl.C125_blank_refuted",
    "Shacl.C125_less_refuted"
   ],
   "note": "Node kinds and closed shapes are proved for all terms, the others for terms that are not blank nodes and literals that the conversion leaves alone. False of the code, with witnesses: blank nodes in patterns are variables, in expressions an error; subclasses of blank nodes one level deep; literals are written after the conversion."
  },
  {
   "property": "C126",
   "status": "partial",
   "theorems": [
    "Shacl.C126_targets",
    "Shacl.C126_modes_partial",
    "Shacl.C126_modes_refuted",
    "Shacl.C126_targets_refuted"
   ],
   "note": "The focus nodes are proved for classes that are IRIs. The agreement is proved for IRIs as focus nodes, value nodes that are not blank, ASCII texts, flat subclasses and stores that compare literals by their numbers; each condition that is left out has a witness of a difference."
  },
  {
   "property": "C127",
   "status": "partial",
   "theorems": [
    "Shacl.C127_terms",
    "Shacl.C127_paths_partial",
    "Shacl.C127_paths_refuted"
   ],
   "note": "Terms are proved for all literals and all IRIs with characters that SPARQL has in IRIs. Paths are proved without empty alternatives and sequences, which are written as `()` and are not read."
  },
  {
   "property": "C128",
   "status": "partial",
   "theorems": [
    "Shacl.C128_inject_partial",
    "Shacl.C128_inject_refuted",
    "Shacl.C128_path",
    "Shacl.C128_results_partial",
    "Shacl.C128_results_refuted",
    "Shacl.C128_errors",
    "Shacl.C128_deactivated"
   ],
   "note": "The place of the focus node is proved for queries with ASCII texts and the keyword before the first brace; without the keyword, with it in a comment or with letters that get longer in upper case it is wrong, with witnesses. Results are proved for solutions without a message and, for property shapes, with a value; the others differ from SHACL."
  },
  {
   "property": "C129",
   "status": "proved",
   "theorems": [
    "Gen.C129_order"
   ],
   "note": "For all dependency graphs and all orders of iteration. The order that is returned has a shape before those it depends on, which is the reverse of what its name suggests; self references are errors."
  },
  {
   "property": "C130",
   "status": "partial",
   "theorems": [
    "Gen.C130_counts_partial",
    "Gen.C130_counts_refuted",
    "Gen.C130_shares",
    "Gen.C130_relations"
   ],
   "note": "The number of values is proved for bounds that the limits of the code allow; a minimum above five without a maximum, or above one if the maximum is absent, gives too few values or a panic. Shares and links are proved for all."
  },
  {
   "property": "C131",
   "status": "partial",
   "theorems": [
    "Gen.C131_data_partial",
    "Gen.C131_extracted",
    "Gen.C131_references_refuted",
    "Gen.C131_kinds_refuted",
    "Gen.C131_texts_refuted",
    "Gen.C131_oneOf_refuted"
   ],
   "note": "Proved for shapes without references whose properties have datatypes that are kept, if texts of values are different. False of the code in general: references get two values where one is asked for, other datatypes become xsd:string, few texts give few values, and all alternatives are made. Each of these is proved for all schemas of that kind."
  },
  {
   "property": "C132",
   "status": "partial",
   "theorems": [
    "Gen.C132_bounds_partial",
    "Gen.C132_bounds_refuted",
    "Gen.C132_no_loss_partial",
    "Gen.C132_values_refuted",
    "Gen.C132_flags_refuted",
    "Gen.C132_iris_refuted",
    "Gen.C132_shex",
    "Gen.C132_kinds",
    "Gen.C132_constraint",
    "Gen.C132_references",
    "Gen.C132_groups_refuted",
    "Gen.C132_shacl_bounds",
    "Gen.C132_shacl_represented",
    "Gen.C132_shacl_values_partial",
    "Gen.C132_hasValue_refuted"
   ],
   "note": "Proved for literals and constraints other than those refuted: an absent maximum becomes no limit; empty value sets, flags, alternatives and references to triple expressions lose their meaning with no loss told; IRIs fail facets on lengths; sh:hasValue is asked of all values."
  },
  {
   "property": "C133",
   "status": "partial",
   "theorems": [
    "Gen.C133_valid_partial",
    "Gen.C133_missing_refuted",
    "Gen.C133_types_refuted",
    "Gen.C133_generated_partial",
    "Gen.C133_kinds"
   ],
   "note": "Proved up to minimal numbers, which the metric does not look at, for graphs where nodes have one type. Data that are generated are proved to be fully valid if properties have a datatype, no references, and texts that satisfy the other constraints (see C134 for when they do)."
  },
  {
   "property": "C134",
   "status": "partial",
   "theorems": [
    "Gen.C134_choice",
    "Gen.C134_registered",
    "Gen.C134_texts",
    "Gen.C134_bounds_partial",
    "Gen.C134_bounds_refuted",
    "Gen.C134_wrap_refuted",
    "Gen.C134_fraction_refuted",
    "Gen.C134_ignored_refuted",
    "Gen.C134_panic_refuted"
   ],
   "note": "The choice of generators and the lexical spaces are proved in full; bounds are proved for the last bound of each side if it is an integer of 32 bits. Earlier bounds, larger numbers, fractions and all other constraints are refuted."
  },
  {
   "property": "C135",
   "status": "partial",
   "theorems": [
    "Gen.C135_pattern_partial",
    "Gen.C135_whole",
    "Gen.C135_colour",
    "Gen.C135_alternative_refuted",
    "Gen.C135_group_refuted",
    "Gen.C135_negated_refuted",
    "Gen.C135_repeated_refuted",
    "Gen.C135_zero_refuted",
    "Gen.C135_empty_refuted",
    "Gen.C135_inside_refuted",
    "Gen.C135_at_refuted"
   ],
   "note": "Proved for sequences of atoms with quantifiers, with or without anchors, where letters and digits that stand for themselves are not repeated, no number is zero, not all parts are optional and no known pattern is inside; and for nine known patterns and colours as the whole. Alternatives, groups, negated classes, repeated letters, {0}, empty texts and known patterns inside others are refuted."
  },
  {
   "property": "C136",
   "status": "proved",
   "theorems": [
    "Shexj.C136_read_back",
    "Shexj.C136_final",
    "Shexj.C136_references",
    "Shexj.C136_blank_inside",
    "Shexj.C136_objects",
    "Shexj.C136_integers",
    "Shexj.C136_ranges_refused",
    "Shexj.C136_facets_refused",
    "Shexj.C136_nesting_refused",
    "Shexj.C136_unchanged_refuted"
   ],
   "note": "Proved under the conditions in the statement, with the form in which a schema comes back; for references and objects of annotations the conditions are proved to be necessary. Outside them: IRIs with `_:` in references become blank nodes, literals with the datatype of integers become numbers, ranges without exclusions, two facets of a kind and nesting beyond 127 are refused. Dates and literals found to be wrong are not modelled, numbers are 64 bit integers, decimals and doubles."
  },
  {
   "property": "C137",
   "status": "proved",
   "theorems": [
    "Select.C137_made",
    "Select.C137_patterns",
    "Select.C137_once",
    "Select.C137_numbered",
    "Select.C137_answers",
    "Select.C137_answers_of_label",
    "Select.C137_answers_have",
    "Select.C137_optional_refuted",
    "Select.C137_choice_refuted",
    "Select.C137_shared_refuted",
    "Select.C137_converse_refuted",
    "Select.C137_circle",
    "Select.C137_text",
    "Select.C137_names",
    "Select.C137_text_refuted",
    "Select.C137_prefixed_refuted"
   ],
   "note": "Proved under the conditions in the statement; each condition is shown to be needed by a schema and a graph for which a node conforms and is no answer. Shown beside it: answers need not conform, references in a circle are followed without end, and the text is no query if the schema has no prefix map or a predicate is a prefixed name."
  },
  {
   "property": "C138",
   "status": "proved",
   "theorems": [
    "Uml.C138_made",
    "Uml.C138_drawn",
    "Uml.C138_once",
    "Uml.C138_closed",
    "Uml.C138_closed_refuted",
    "Uml.C138_cardinality",
    "Uml.C138_cardinality_text",
    "Uml.C138_cardinality_refuted",
    "Uml.C138_neighbours",
    "Uml.C138_not_refuted",
    "Uml.C138_group_refuted",
    "Uml.C138_lost_refuted",
    "Uml.C138_redeclared_refuted",
    "Uml.C138_alias_refuted",
    "Uml.C138_again"
   ],
   "note": "Proved for every schema, with the readings of declarations as a relation of the specification that is a function. Shown beside it, with witnesses: other cardinalities are refused or shown wrongly, undeclared shapes have links but no class, choices, nested groups and inclusions panic, negated datatypes are refused, and directions, signs, bounds of groups and facets in disjunctions leave no trace. The text of PlantUML is not modelled but for cardinalities."
  },
  {
   "property": "C139",
   "status": "partial",
   "theorems": [
    "Cache.C139_written",
    "Cache.C139_read_iff",
    "Cache.C139_again",
    "Cache.C139_same_partial",
    "Cache.C139_same_refuted",
    "Cache.C139_zero_refuted",
    "Cache.C139_bool_refuted",
    "Cache.C139_labels",
    "Cache.C139_strict",
    "Cache.C139_cut",
    "Cache.C139_trailing",
    "Cache.C139_magic",
    "Cache.C139_struct"
   ],
   "note": "Proved for every compiled schema, at the level of bytes, with the exact condition under which it can be read and what comes back. That everything written comes back is refuted: an upper bound of zero makes the reader panic, a boolean is written as a text and refused, and the label of a blank node comes back with `_:` before it. Simplified: petgraph's own form of graphs, and integers of 128 bits have no bound."
  },
  {
   "property": "C140",
   "status": "proved",
   "theorems": [
    "Inspect.C140_outgoing",
    "Inspect.C140_incoming",
    "Inspect.C140_walks",
    "Inspect.C140_made",
    "Inspect.C140_zero",
    "Inspect.C140_defaults",
    "Inspect.C140_incoming_refuted",
    "Inspect.C140_text",
    "Inspect.C140_text_idem",
    "Inspect.C140_text_refuted"
   ],
   "note": "Proved as stated. The refuted theorems record that predicates asked for do not restrict incoming arcs, and that literals and queries with an IRI in them get brackets too."
  },
  {
   "property": "C141",
   "status": "proved",
   "theorems": [
    "Visual.C141_made",
    "Visual.C141_nodes",
    "Visual.C141_numbers",
    "Visual.C141_edges",
    "Visual.C141_counts",
    "Visual.C141_text",
    "Visual.C141_distinct",
    "Visual.C141_merged_refuted",
    "Visual.C141_asserted_refuted",
    "Visual.C141_iri_refuted",
    "Visual.C141_quotes_refuted"
   ],
   "note": "Proved as stated. The refuted theorems record that literals of one value become one node, that a triple term whose object is read as another literal is drawn as not asserted, that an IRI has a second node as predicate of a triple term, and that quotation marks are not escaped."
  },
  {
   "property": "C142",
   "status": "partial",
   "theorems": [
    "Sd.C142_reads",
    "Sd.C142_succeeds",
    "Sd.C142_errors",
    "Sd.C142_no_panic_partial",
    "Sd.C142_dataset_refuted",
    "Sd.C142_mie",
    "Sd.C142_classes_refuted",
    "Sd.C142_panic_refuted"
   ],
   "note": "Proved, except that reading never panics, which holds if no literal is given for sd:availableGraphs or sd:graph, and is refuted otherwise. The other refuted theorems record that a default dataset with a nameless named graph is dropped without an error, and that the property partitions of a class partition are sought with void:property, so that they are lost."
  },
  {
   "property": "C143",
   "status": "proved",
   "theorems": [
    "Answers.C143_find",
    "Answers.C143_convert",
    "Answers.C143_csv",
    "Answers.C143_csv_iff",
    "Answers.C143_table",
    "Answers.C143_json",
    "Answers.C143_select",
    "Answers.C143_ask",
    "Answers.C143_construct",
    "Answers.C143_formats",
    "Answers.C143_run",
    "Answers.C143_describe_refuted",
    "Answers.C143_markdown_refuted",
    "Answers.C143_columns_refuted",
    "Answers.C143_empty_refuted"
   ],
   "note": "Proved for answers with the same variables in the same order, at least one; the writer of the crate csv with its default settings is part of the model. The refuted theorems record that answers of sources with another order of variables are shown in wrong columns, that Markdown is written as the default drawing, that no answers are written as a text that reads as a header, and that queries that describe panic."
  },
  {
   "property": "C144",
   "status": "partial",
   "theorems": [
    "Html.C144_made",
    "Html.C144_pages",
    "Html.C144_closed",
    "Html.C144_complete",
    "Html.C144_label_partial",
    "Html.C144_label_refuted",
    "Html.C144_landing",
    "Html.C144_files",
    "Html.C144_files_refuted",
    "Html.C144_cardinality",
    "Html.C144_cardinality_refuted",
    "Html.C144_direction_refuted"
   ],
   "note": "Proved, except that labels are kept, which holds for declarations whose name is not declared or mentioned earlier and is refuted otherwise. The other refuted theorems record that two shapes of a schema can have the same file, that two to three makes a page that cannot be written while two or more and exactly two are refused, and that the direction of a constraint is not shown."
  },
  {
   "property": "C145",
   "status": "partial",
   "theorems": [
    "Load.C145_merged",
    "Load.C145_replaced",
    "Load.C145_replaced_refuted",
    "Load.C145_property_graphs",
    "Load.C145_endpoint",
    "Load.C145_address_refuted",
    "Load.C145_unchanged",
    "Load.C145_failed_partial",
    "Load.C145_atomic_refuted",
    "Load.C145_override_refuted",
    "Load.C145_panic"
   ],
   "note": "Proved for every surroundings, except that a failure leaves the data as they were, which holds for the failures listed in C145_unchanged and is refuted in general; C145_failed_partial says what is left instead. The other refuted theorems record that with replacement only the last input is left, that letters of the path of an endpoint count as equal in both cases, and that an endpoint does not override inputs as documented."
  },
  {
   "property": "C146",
   "status": "proved",
   "theorems": [
    "Load.C146_source",
    "Load.C146_source_refuted",
    "Load.C146_declaration",
    "Load.C146_keyword_refuted",
    "Load.C146_header",
    "Load.C146_held_back",
    "Load.C146_header_refuted"
   ],
   "note": "Proved as stated. The refuted theorems record that files with other characters in their names become strings and words that name no file are refused, against the documentation; that PREFIX becomes part of the name declared; and that a declaration inside a literal holds a default back."
  },
  {
   "property": "C147",
   "status": "partial",
   "theorems": [
    "Gen.C147_parts",
    "Gen.C147_once",
    "Gen.C147_single",
    "Gen.C147_statistics",
    "Gen.C147_failure",
    "Gen.C147_count",
    "Gen.C147_list_partial",
    "Gen.C147_list_refuted",
    "Gen.C147_total_refuted",
    "Gen.C147_empty_refuted"
   ],
   "note": "Proved, except for the list of files, which is right if no file with the name of a part was there before. Files of earlier runs are kept and listed, the number that is announced is the one configured, and data without triples change no file: these are refuted."
  },
  {
   "property": "C148",
   "status": "partial",
   "theorems": [
    "Regex.C148_flags",
    "Regex.C148_set",
    "Regex.C148_shacl_partial",
    "Regex.C148_quoted",
    "Regex.C148_shex",
    "Regex.C148_quoted_refuted",
    "Regex.C148_comment_refuted",
    "Regex.C148_return_refuted",
    "Regex.C148_end_refuted",
    "Regex.C148_shex_quoted_refuted",
    "Regex.C148_shex_repeated_refuted"
   ],
   "note": "Errors for flags and quoted patterns without x are proved in full for SHACL. Matching is proved where, with x, the pattern has no number sign and only white space of XML that is not escaped, texts have no carriage return without s, and with m do not end with a line feed; ShEx agrees with SHACL for different flags without q. The other cases are refuted: q with x, comments, carriage returns, line feeds at the end, and in ShEx q and repeated flags, with which nothing matches."
  },
  {
   "property": "C149",
   "status": "partial",
   "theorems": [
    "Shexr.C149_read_partial",
    "Shexr.C149_no_errors",
    "Shexr.C149_lost",
    "Shexr.C149_values_lost",
    "Shexr.C149_literals_lost",
    "Shexr.C149_one",
    "Shexr.C149_contents_lost",
    "Shexr.C149_no_end",
    "Shexr.C149_read_refuted"
   ],
   "note": "the full statement (C149_read_refuted states and refutes it) is false: values beside a node kind are lost; the partial theorem covers conjunctions and disjunctions of shapes without contents and simple node constraints; the others say for all graphs what becomes of the rest"
  },
  {
   "property": "C150",
   "status": "partial",
   "theorems": [
    "Qlever.C150_words_partial",
    "Qlever.C150_words_refuted",
    "Qlever.C150_command_partial",
    "Qlever.C150_colon_refuted",
    "Qlever.C150_error",
    "Qlever.C150_mounts",
    "Qlever.C150_once",
    "Qlever.C150_run"
   ],
   "note": "the full statement is false of the code: empty arguments vanish (C150_words_refuted) and directories with a colon are not mounted (C150_colon_refuted); the rest is proved for all inputs without these"
  },
  {
   "property": "C151",
   "status": "partial",
   "theorems": [
    "Qlever.C151_served_partial",
    "Qlever.C151_stream",
    "Qlever.C151_one_byte",
    "Qlever.C151_text",
    "Qlever.C151_reused",
    "Qlever.C151_directory_refuted",
    "Qlever.C151_written_refuted",
    "Qlever.C151_graph_refuted"
   ],
   "note": "the full statement is false of the code: indexes in a given directory are reused for other inputs, files written later are not indexed again, and names of graphs are hashed without separators; collisions of the hash are excluded by hypothesis"
  },
  {
   "property": "C152",
   "status": "partial",
   "theorems": [
    "Qlever.C152_removed",
    "Qlever.C152_files_partial",
    "Qlever.C152_files_refuted",
    "Qlever.C152_indexes",
    "Qlever.C152_made_again"
   ],
   "note": "what is removed is characterised for all cases; that files which were there before are kept is false when a directory is given (C152_files_refuted)"
  },
  {
   "property": "C153",
   "status": "partial",
   "theorems": [
    "Qlever.C153_served_partial",
    "Qlever.C153_files",
    "Qlever.C153_stem_refuted",
    "Qlever.C153_format_refuted",
    "Qlever.C153_files_refuted"
   ],
   "note": "the full statement is false of the code: files with the same name are converted to the same file (C153_stem_refuted), and a given format is ignored for compressed files (C153_format_refuted)"
  },
  {
   "property": "C154",
   "status": "partial",
   "theorems": [
    "Qlever.C154_settings_partial",
    "Qlever.C154_token_refuted",
    "Qlever.C154_injective"
   ],
   "note": "the full statement is false of the code: an empty text is quoted as nothing, so the next flag is taken as its value (C154_token_refuted)"
  },
  {
   "property": "C155",
   "status": "partial",
   "theorems": [
    "Qlever.OneShot.C155_plain",
    "Qlever.OneShot.C155_fed_partial",
    "Qlever.OneShot.C155_fed_refuted",
    "Qlever.OneShot.C155_success",
    "Qlever.OneShot.C155_error",
    "Qlever.OneShot.C155_stderr",
    "Qlever.OneShot.C155_left_partial",
    "Qlever.OneShot.C155_left_refuted"
   ],
   "note": "the full statement is false of the code: a decompressor that had to be killed is taken for a success (C155_fed_refuted), and containers that cannot be started or fed are left (C155_left_refuted)"
  },
  {
   "property": "C156",
   "status": "partial",
   "theorems": [
    "Qlever.OneShot.C156_whole_partial",
    "Qlever.OneShot.C156_truncated_refuted"
   ],
   "note": "the full statement is false of the code: the index of a file that could not be decompressed to its end is kept and served by the next load (C156_truncated_refuted)"
  },
  {
   "property": "C157",
   "status": "partial",
   "theorems": [
    "Qlever.Probe.C157_first",
    "Qlever.Probe.C157_none",
    "Qlever.Probe.C157_absolute_partial",
    "Qlever.Probe.C157_absolute_refuted"
   ],
   "note": "which program is found is proved in full; that its path is absolute is false for relative directories in PATH (C157_absolute_refuted)"
  },
  {
   "property": "C158",
   "status": "partial",
   "theorems": [
    "Qlever.Size.C158_sizes",
    "Qlever.Size.C158_errors",
    "Qlever.Size.C158_limits",
    "Qlever.Size.C158_docker_refuted"
   ],
   "note": "units of the code are proved in full for whole numbers whose product has an f64; fractions are left to the standard library; sizes such as 512b, which Docker takes, are errors (C158_docker_refuted)"
  },
  {
   "property": "C159",
   "status": "proved",
   "theorems": [
    "Qlever.Wait.C159_ends",
    "Qlever.Wait.C159_ok",
    "Qlever.Wait.C159_timeout"
   ],
   "note": "the loop has fuel; that ten turns for each second and two more are enough is part of the theorems; a timeout so large that the deadline is no instant is not modelled"
  },
  {
   "property": "C160",
   "status": "partial",
   "theorems": [
    "Qlever.C160_served_partial",
    "Qlever.C160_files",
    "Qlever.C160_directory_refuted"
   ],
   "note": "the full statement is false of the code: with a directory given for the index, a second stream is served with the data of the first (C160_directory_refuted); collisions of the hash are excluded by a hypothesis"
  },
  {
   "property": "C161",
   "status": "partial",
   "theorems": [
    "Qlever.C161_paths_partial",
    "Qlever.C161_format_refuted",
    "Qlever.C161_compressed_refuted",
    "Qlever.C161_reader_lost"
   ],
   "note": "the full statement is false of the code: prefixes are lost when the format is given and differs from the name (C161_format_refuted), for compressed files (C161_compressed_refuted), and always for streams (C161_reader_lost)"
  },
  {
   "property": "C162",
   "status": "partial",
   "theorems": [
    "Mcp.C162_origin",
    "Mcp.C162_guards",
    "Mcp.C162_panics",
    "Mcp.C162_panic_refuted",
    "Mcp.C162_host_refuted"
   ],
   "note": "proved for origins as browsers write them; the full statement is false of the code: the header `][` makes the guard panic (C162_panic_refuted, and C162_panics says exactly which do), and URLs of other hosts pass when the user or the path looks like an allowed host (C162_host_refuted)"
  },
  {
   "property": "C163",
   "status": "partial",
   "theorems": [
    "Mcp.Log.C163_levels",
    "Mcp.Log.C163_window_partial",
    "Mcp.Log.C163_window_refuted",
    "Mcp.Log.C163_dropped",
    "Mcp.Log.C163_text",
    "Mcp.Log.C163_fields_refuted",
    "Mcp.Log.C163_message_refuted"
   ],
   "note": "the full statement is false of the code: twice the allowed number may be sent around the end of a window (C163_window_refuted), fields are not cut (C163_fields_refuted) and may replace the message (C163_message_refuted)"
  },
  {
   "property": "C164",
   "status": "partial",
   "theorems": [
    "Mcp.State.C164_saved_partial",
    "Mcp.State.C164_kept_partial",
    "Mcp.State.C164_full_refuted",
    "Mcp.State.C164_ok_refuted",
    "Mcp.State.C164_lost_partial",
    "Mcp.State.C164_small",
    "Mcp.State.C164_tmp_refuted",
    "Mcp.State.C164_shared_refuted"
   ],
   "note": "the full statement is false of the code: the writer is not flushed, so that on a full disk a truncated state replaces the good one and Ok is returned (C164_full_refuted, C164_ok_refuted); a path with extension tmp is its own temporary file (C164_tmp_refuted)"
  },
  {
   "property": "C165",
   "status": "proved",
   "theorems": [
    "Mcp.Pages.C165_follow",
    "Mcp.Pages.C165_cursor"
   ],
   "note": "lists have less than 2^64 items"
  },
  {
   "property": "C166",
   "status": "partial",
   "theorems": [
    "Mcp.Pages.C166_preview_partial",
    "Mcp.Pages.C166_fence_refuted"
   ],
   "note": "the full statement is false of the code: a line of three backticks in the text ends the block (C166_fence_refuted)"
  },
  {
   "property": "C167",
   "status": "partial",
   "theorems": [
    "Mcp.Loading.C167_loaded_partial",
    "Mcp.Loading.C167_unread",
    "Mcp.Loading.C167_nothing",
    "Mcp.Loading.C167_count",
    "Mcp.Loading.C167_endpoint",
    "Mcp.Loading.C167_endpoint_refuted"
   ],
   "note": "the full statement is false of the code: a call with an endpoint always fails, since the list of sources is passed on even when it is empty and the loader refuses both (C167_endpoint, C167_endpoint_refuted)"
  },
  {
   "property": "C168",
   "status": "partial",
   "theorems": [
    "Mcp.Loading.C168_kept_partial",
    "Mcp.Loading.C168_restart",
    "Mcp.Loading.C168_race_refuted",
    "Mcp.Loading.C168_failed_refuted"
   ],
   "note": "the full statement is false of the code: the lock is released before the state is saved, so that an older text may be saved last (C168_race_refuted); a call that fails at a later source changes the data and saves nothing (C168_failed_refuted)"
  },
  {
   "property": "C169",
   "status": "partial",
   "theorems": [
    "Mcp.Asking.C169_kind",
    "Mcp.Asking.C169_kind_partial",
    "Mcp.Asking.C169_select_refuted",
    "Mcp.Asking.C169_describe_refuted",
    "Mcp.Asking.C169_format",
    "Mcp.Asking.C169_answer",
    "Mcp.Asking.C169_refused"
   ],
   "note": "the full statement is false of the code: the kind of a query is that of the first word that is a keyword (C169_kind), so that a comment may make a SELECT query be refused (C169_select_refuted) and a DESCRIBE query is run if no white space follows the keyword (C169_describe_refuted)"
  },
  {
   "property": "C170",
   "status": "partial",
   "theorems": [
    "Mcp.Asking.C170_fenced_partial",
    "Mcp.Asking.C170_plain",
    "Mcp.Asking.C170_refuted"
   ],
   "note": "the full statement is false of the code: fences stay in the query if anything stands before them (C170_refuted); the end of lines with a carriage return is not modelled"
  },
  {
   "property": "C171",
   "status": "partial",
   "theorems": [
    "Mcp.Mapping.C171_shape_partial",
    "Mcp.Mapping.C171_start_partial",
    "Mcp.Mapping.C171_given",
    "Mcp.Mapping.C171_strict_refuted",
    "Mcp.Mapping.C171_literal_refuted",
    "Mcp.Mapping.C171_summary_partial",
    "Mcp.Mapping.C171_summary_refuted"
   ],
   "note": "the full statement is false of the code: with strict IRIs a node without brackets has the shape map fetched from the network instead of an error (C171_strict_refuted), a literal with an IRI in it becomes an IRI (C171_literal_refuted), and a map that was given is said to be generated (C171_summary_refuted)"
  },
  {
   "property": "C172",
   "status": "partial",
   "theorems": [
    "Mcp.Arcs.C172_arcs_partial",
    "Mcp.Arcs.C172_depth_partial",
    "Mcp.Arcs.C172_depth_refuted",
    "Mcp.Arcs.C172_lines_refuted",
    "Mcp.Arcs.C172_distinct"
   ],
   "note": "the full statement is false of the code: an arc below one that is the last of its siblings gets the depth of an arc of the node itself (C172_depth_refuted), and a literal of two lines loses the second (C172_lines_refuted)"
  }
 ]
}
