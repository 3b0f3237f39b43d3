{
 "claims": [
  {
   "property": "C01",
   "status": "proved",
   "theorems": [
    "Verif.C01_allowsValue_exact",
    "Verif.C01_fromRange_exact",
    "Verif.C01_fromRange_exact_values",
    "Verif.C01_fromValue_exact",
    "Verif.C01_fromMask_exact",
    "Verif.C01_fromMaxBit_exact",
    "Verif.C01_fromMaxBit_defined",
    "Verif.C01_unconstrained_exact",
    "Verif.C01_isUnconstrained_sound"
   ],
   "note": ""
  },
  {
   "property": "C02",
   "status": "proved",
   "theorems": [
    "Verif.C02_combineSum_sound"
   ],
   "note": ""
  },
  {
   "property": "C03",
   "status": "proved",
   "theorems": [
    "Verif.C03_combineProduct_sound",
    "Verif.C03_square_sound"
   ],
   "note": ""
  },
  {
   "property": "C04",
   "status": "proved",
   "theorems": [
    "Verif.C04_conjunction_sound",
    "Verif.C04_disjunction_sound",
    "Verif.C04_isDisjoint_sound"
   ],
   "note": ""
  },
  {
   "property": "C05",
   "status": "proved",
   "theorems": [
    "Verif.C05_multiple_sound",
    "Verif.C05_neg_sound"
   ],
   "note": ""
  },
  {
   "property": "C06",
   "status": "proved",
   "theorems": [
    "Verif.C06_width_exact",
    "Verif.C06_width_upper_bound",
    "Verif.C06_tryToSingleValue_sound",
    "Verif.C06_allowedValues_exact",
    "Verif.C06_allowedValues_defined"
   ],
   "note": ""
  },
  {
   "property": "C07",
   "status": "proved",
   "theorems": [
    "Verif.C07_arithmetic",
    "Verif.C07_arithmetic_polynomial",
    "Verif.C07_decompositions",
    "Verif.C07_transformVars"
   ],
   "note": ""
  },
  {
   "property": "C08",
   "status": "proved",
   "theorems": [
    "Verif.C08_substKnown",
    "Verif.C08_substSimple",
    "Verif.C08_substKnownMulti",
    "Verif.C08_subst",
    "Verif.C08_no_new_variables"
   ],
   "note": ""
  },
  {
   "property": "C09",
   "status": "proved",
   "theorems": [
    "Verif.C09_wf_invariant",
    "Verif.C09_queries_exact",
    "Verif.C09_queries_sound"
   ],
   "note": ""
  },
  {
   "property": "C10",
   "status": "proved",
   "theorems": [
    "Verif.C10_rangeConstraint_sound"
   ],
   "note": ""
  },
  {
   "property": "C11",
   "status": "proved",
   "theorems": [
    "Verif.C11_degree_bounds_totalDegree",
    "Verif.C11_degreeOf_bounds_degreeOf",
    "Verif.C11_degree_operations",
    "Verif.C11_affine_substitution",
    "Verif.C11_degreeOf_zero",
    "Verif.C11_degree_zero_one"
   ],
   "note": ""
  },
  {
   "property": "C12",
   "status": "proved",
   "theorems": [
    "Verif.C12_toFactors_product",
    "Verif.C12_toFactors_zero"
   ],
   "note": ""
  },
  {
   "property": "C13",
   "status": "proved",
   "theorems": [
    "Verif.C13_effects_hold",
    "Verif.C13_complete"
   ],
   "note": ""
  },
  {
   "property": "C14",
   "status": "proved",
   "theorems": [
    "Verif.C14_contradiction_real",
    "Verif.C14_no_panic"
   ],
   "note": ""
  },
  {
   "property": "C15",
   "status": "proved",
   "theorems": [
    "Verif.C15_trySolveFor",
    "Verif.C15_trySolveFor_complete",
    "Verif.C15_trySolveForExpr"
   ],
   "note": ""
  },
  {
   "property": "C16",
   "status": "proved",
   "theorems": [
    "Verif.C16_effects_hold",
    "Verif.C16_error_real",
    "Verif.C16_no_panic",
    "Verif.C16_default_handler"
   ],
   "note": ""
  },
  {
   "property": "C17",
   "status": "proved",
   "theorems": [
    "Verif.Splitter.C17_split_equivalent",
    "Verif.Splitter.C17_parts_wf",
    "Verif.Splitter.C17_no_panic"
   ],
   "note": ""
  },
  {
   "property": "C18",
   "status": "proved",
   "theorems": [
    "Verif.C18_no_new_variable",
    "Verif.C18_boolean_variable",
    "Verif.C18_boolean_unique",
    "Verif.C18_variables"
   ],
   "note": ""
  },
  {
   "property": "C19",
   "status": "proved",
   "theorems": [
    "Verif.C19_sound",
    "Verif.C19_complete",
    "Verif.C19_projection",
    "Verif.C19_affine",
    "Verif.C19_reuse",
    "Verif.C19_internal_versions",
    "Verif.C19_assignments_applied"
   ],
   "note": ""
  },
  {
   "property": "C20",
   "status": "proved",
   "theorems": [
    "Verif.C20_search_sound",
    "Verif.C20_contradiction_real",
    "Verif.C20_contradiction_reported",
    "Verif.C20_no_panic",
    "Verif.C20_candidates",
    "Verif.C20_concrete_values",
    "Verif.C20_concrete_values_no_panic"
   ],
   "note": ""
  },
  {
   "property": "C21",
   "status": "proved",
   "theorems": [
    "Verif.C21_answers_correct",
    "Verif.C21_queries_correct",
    "Verif.C21_error_unsatisfiable",
    "Verif.C21_no_panic",
    "Verif.C21_solve_system",
    "Verif.C21_retained"
   ],
   "note": ""
  },
  {
   "property": "C22",
   "status": "proved",
   "theorems": [
    "Verif.C22_solutions",
    "Verif.C22_messages",
    "Verif.C22_derived",
    "Verif.C22_projection",
    "Verif.C22_eliminated",
    "Verif.C22_degree",
    "Verif.C22_terminates",
    "Verif.C22_terminates_degree_bound",
    "Verif.C22_degree_estimate"
   ],
   "note": ""
  },
  {
   "property": "C23",
   "status": "proved",
   "theorems": [
    "Verif.C23_lookup_complete",
    "Verif.C23_lookup_exact_initially",
    "Verif.C23_subst_everywhere",
    "Verif.C23_substs_everywhere",
    "Verif.C23_substs_expressions",
    "Verif.C23_substKnown_everywhere",
    "Verif.C23_retain_exact",
    "Verif.C23_queue_complete",
    "Verif.C23_queue_drained",
    "Verif.C23_updated_is_queued",
    "Verif.C23_queue_no_panic"
   ],
   "note": ""
  },
  {
   "property": "C24",
   "status": "proved",
   "theorems": [
    "Verif.C24_reachable_exact",
    "Verif.C24_reachable_terminates",
    "Verif.C24_split_contents",
    "Verif.C24_split_satisfied",
    "Verif.C24_split_independent",
    "Verif.C24_split_terminates"
   ],
   "note": ""
  },
  {
   "property": "C25",
   "status": "proved",
   "theorems": [
    "Verif.C25_equal_zero",
    "Verif.C25_expression_range",
    "Verif.C25_variable_range",
    "Verif.C25_assignment",
    "Verif.C25_equivalence",
    "Verif.C25_exactly_one"
   ],
   "note": ""
  },
  {
   "property": "C26",
   "status": "proved",
   "theorems": [
    "Verif.C26_equivalent_within_ranges",
    "Verif.C26_unsound_if_range_is_implied_by_removed"
   ],
   "note": ""
  },
  {
   "property": "C27",
   "status": "proved",
   "theorems": [
    "Verif.C27_zero_sum",
    "Verif.C27_unsound_for_goldilocks"
   ],
   "note": ""
  },
  {
   "property": "C28",
   "status": "proved",
   "theorems": [
    "Verif.C28_conservative",
    "Verif.C28_computed"
   ],
   "note": ""
  },
  {
   "property": "C29",
   "status": "proved",
   "theorems": [
    "Verif.C29_pattern",
    "Verif.C29_complete",
    "Verif.C29_computed",
    "Verif.C29_sound",
    "Verif.C29_range_check_needed"
   ],
   "note": ""
  },
  {
   "property": "C30",
   "status": "proved",
   "theorems": [
    "Verif.C30_batch",
    "Verif.C30_rest_unchanged",
    "Verif.C30_degree_does_not_grow",
    "Verif.C30_degree_within_bound",
    "Verif.C30_keeps_solution",
    "Verif.C30_adds_no_solution"
   ],
   "note": ""
  },
  {
   "property": "C31",
   "status": "proved",
   "theorems": [
    "Verif.C31_handler_sound"
   ],
   "note": ""
  },
  {
   "property": "C32",
   "status": "proved",
   "theorems": [
    "Verif.C32_pure_exact",
    "Verif.C32_too_many_bits_inexact"
   ],
   "note": ""
  },
  {
   "property": "C33",
   "status": "proved",
   "theorems": [
    "Verif.C33_never_relaxes",
    "Verif.C33_make_exact",
    "Verif.C33_made_unconditional",
    "Verif.C33_too_many_bits_accepted"
   ],
   "note": ""
  },
  {
   "property": "C34",
   "status": "proved",
   "theorems": [
    "Verif.C34_same_solutions",
    "Verif.C34_openvm",
    "Verif.C34_degree"
   ],
   "note": ""
  },
  {
   "property": "C35",
   "status": "proved",
   "theorems": [
    "Verif.C35_balance",
    "Verif.C35_valid_executions",
    "Verif.C35_nothing_else",
    "Verif.C35_solver",
    "Verif.C35_no_memory_bus"
   ],
   "note": ""
  },
  {
   "property": "C36",
   "status": "proved",
   "theorems": [
    "Verif.C36_to_grouped",
    "Verif.C36_to_algebraic",
    "Verif.C36_round_trip",
    "Verif.C36_constraint",
    "Verif.C36_variables",
    "Verif.C36_degree",
    "Verif.C36_machine_to_system",
    "Verif.C36_system_to_machine",
    "Verif.C36_machine_round_trip"
   ],
   "note": ""
  },
  {
   "property": "C37",
   "status": "proved",
   "theorems": [
    "Verif.C37_active",
    "Verif.C37_padding",
    "Verif.C37_inactive",
    "Verif.C37_boolean",
    "Verif.C37_column",
    "Verif.C37_no_panic"
   ],
   "note": ""
  },
  {
   "property": "C38",
   "status": "proved",
   "theorems": [
    "Verif.C38_run",
    "Verif.C38_complete",
    "Verif.C38_earliest"
   ],
   "note": ""
  },
  {
   "property": "C39",
   "status": "proved",
   "theorems": [
    "Verif.C39_history",
    "Verif.C39_no_panic",
    "Verif.C39_waits",
    "Verif.C39_extract",
    "Verif.C39_abort",
    "Verif.C39_confirmed",
    "Verif.C39_not_maximal"
   ],
   "note": ""
  },
  {
   "property": "C40",
   "status": "proved",
   "theorems": [
    "Verif.C40_from_iter",
    "Verif.C40_to_classes",
    "Verif.C40_roundtrip",
    "Verif.C40_intersect",
    "Verif.C40_many",
    "Verif.C40_parallel",
    "Verif.C40_combine",
    "Verif.C40_map",
    "Verif.C40_equality"
   ],
   "note": ""
  },
  {
   "property": "C41",
   "status": "proved",
   "theorems": [
    "Verif.C41_no_panic",
    "Verif.C41_terminates",
    "Verif.C41_returns",
    "Verif.C41_limits",
    "Verif.C41_greedy",
    "Verif.C41_maximal",
    "Verif.C41_caller"
   ],
   "note": ""
  },
  {
   "property": "C42",
   "status": "proved",
   "theorems": [
    "Verif.C42_terminates",
    "Verif.C42_find",
    "Verif.C42_unique",
    "Verif.C42_uses",
    "Verif.C42_update",
    "Verif.C42_length",
    "Verif.C42_execution",
    "Verif.C42_monotone"
   ],
   "note": ""
  },
  {
   "property": "C43",
   "status": "proved",
   "theorems": [
    "Verif.C43_blocks",
    "Verif.C43_partition",
    "Verif.C43_inside",
    "Verif.C43_border",
    "Verif.C43_targets",
    "Verif.C43_starts"
   ],
   "note": ""
  },
  {
   "property": "C44",
   "status": "proved",
   "theorems": [
    "Verif.C44_follows",
    "Verif.C44_runs",
    "Verif.C44_run",
    "Verif.C44_execution",
    "Verif.C44_deterministic",
    "Verif.C44_detect",
    "Verif.C44_program"
   ],
   "note": ""
  },
  {
   "property": "C45",
   "status": "proved",
   "theorems": [
    "Verif.Goldilocks.C45_ring_operations",
    "Verif.Goldilocks.C45_reduce128",
    "Verif.Goldilocks.C45_inverse",
    "Verif.Goldilocks.C45_division",
    "Verif.Goldilocks.C45_power",
    "Verif.Goldilocks.C45_conversions",
    "Verif.Goldilocks.C45_checked_from",
    "Verif.Goldilocks.C45_signed",
    "Verif.Goldilocks.C45_canonical_unique",
    "Verif.Goldilocks.C45_moduli_prime"
   ],
   "note": ""
  },
  {
   "property": "C46",
   "status": "proved",
   "theorems": [
    "Verif.C46_round_trip",
    "Verif.C46_injective",
    "Verif.C46_accepts",
    "Verif.C46_equality"
   ],
   "note": ""
  },
  {
   "property": "C47",
   "status": "proved",
   "theorems": [
    "Verif.C47_ids",
    "Verif.C47_disjoint",
    "Verif.C47_fresh",
    "Verif.C47_from_machine",
    "Verif.C47_issue",
    "Verif.C47_substitutions"
   ],
   "note": ""
  },
  {
   "property": "C48",
   "status": "proved",
   "theorems": [
    "Verif.C48_solutions_kept",
    "Verif.C48_projection",
    "Verif.C48_linear_field",
    "Verif.C48_bus_counterexample"
   ],
   "note": ""
  },
  {
   "property": "C49",
   "status": "proved",
   "theorems": [
    "Verif.C49_solutions_kept",
    "Verif.C49_projection",
    "Verif.C49_kept_part"
   ],
   "note": ""
  },
  {
   "property": "C50",
   "status": "proved",
   "theorems": [
    "Verif.C50_trivial",
    "Verif.C50_equal_bus",
    "Verif.C50_redundant",
    "Verif.C50_redundant_no_panic",
    "Verif.C50_derived",
    "Verif.C50_trivial_simplifications",
    "Verif.C50_trivial_removed"
   ],
   "note": ""
  },
  {
   "property": "C51",
   "status": "proved",
   "theorems": [
    "Verif.C51_sound",
    "Verif.C51_complete"
   ],
   "note": ""
  },
  {
   "property": "C52",
   "status": "proved",
   "theorems": [
    "Verif.C52_complete",
    "Verif.C52_sound",
    "Verif.C52_openvm",
    "Verif.C52_degree",
    "Verif.C52_operand_not_byte",
    "Verif.C52_ambiguous_panics"
   ],
   "note": ""
  },
  {
   "property": "C53",
   "status": "proved",
   "theorems": [
    "Verif.C53_combine",
    "Verif.C53_conservative",
    "Verif.C53_for_block",
    "Verif.C53_threshold",
    "Verif.C53_filtered",
    "Verif.C53_generate",
    "Verif.C53_references",
    "Verif.C53_filtered_twice"
   ],
   "note": ""
  },
  {
   "property": "C54",
   "status": "proved",
   "theorems": [
    "Verif.C54_execution",
    "Verif.C54_vm_error",
    "Verif.C54_rows",
    "Verif.C54_disjoint",
    "Verif.C54_cover"
   ],
   "note": ""
  },
  {
   "property": "C55",
   "status": "proved",
   "theorems": [
    "Verif.C55_defined",
    "Verif.C55_interactions",
    "Verif.C55_rows",
    "Verif.C55_balance",
    "Verif.C55_odd",
    "Verif.C55_block"
   ],
   "note": ""
  },
  {
   "property": "C56",
   "status": "proved",
   "theorems": [
    "Verif.C56_lookup",
    "Verif.C56_injective",
    "Verif.C56_initial",
    "Verif.C56_next_free",
    "Verif.C56_iter"
   ],
   "note": ""
  },
  {
   "property": "C57",
   "status": "proved",
   "theorems": [
    "Verif.C57_keeps_solution",
    "Verif.C57_derived",
    "Verif.C57_adds_no_solution",
    "Verif.C57_messages",
    "Verif.C57_extends",
    "Verif.C57_single_occurrence"
   ],
   "note": ""
  },
  {
   "property": "C58",
   "status": "proved",
   "theorems": [
    "Verif.C58_block",
    "Verif.C58_exists",
    "Verif.C58_derived"
   ],
   "note": ""
  },
  {
   "property": "C59",
   "status": "proved",
   "theorems": [
    "Verif.C59_convert",
    "Verif.C59_convert_derived"
   ],
   "note": ""
  },
  {
   "property": "C60",
   "status": "proved",
   "theorems": [
    "Verif.C60_complete",
    "Verif.C60_derived",
    "Verif.C60_sound"
   ],
   "note": ""
  },
  {
   "property": "C61",
   "status": "proved",
   "theorems": [
    "Verif.C61_sound",
    "Verif.C61_complete"
   ],
   "note": ""
  },
  {
   "property": "C62",
   "status": "proved",
   "theorems": [
    "Verif.C62_complete",
    "Verif.C62_extends",
    "Verif.C62_sound",
    "Verif.C62_openvm"
   ],
   "note": ""
  },
  {
   "property": "C63",
   "status": "proved",
   "theorems": [
    "Verif.C63_detect",
    "Verif.C63_zero_segments",
    "Verif.C63_no_block"
   ],
   "note": ""
  },
  {
   "property": "C64",
   "status": "proved",
   "theorems": [
    "Verif.C64_matrix",
    "Verif.C64_columns",
    "Verif.C64_not_called",
    "Verif.C64_panics",
    "Verif.C64_satisfied"
   ],
   "note": ""
  },
  {
   "property": "C65",
   "status": "proved",
   "theorems": [
    "Verif.C65_instructions",
    "Verif.C65_complete",
    "Verif.C65_sound",
    "Verif.C65_copied",
    "Verif.C65_trace"
   ],
   "note": ""
  },
  {
   "property": "C66",
   "status": "proved",
   "theorems": [
    "Verif.C66_panic",
    "Verif.C66_entered",
    "Verif.C66_follows",
    "Verif.C66_calls"
   ],
   "note": ""
  },
  {
   "property": "C67",
   "status": "proved",
   "theorems": [
    "Verif.C67_panic",
    "Verif.C67_accepts",
    "Verif.C67_restricted"
   ],
   "note": ""
  },
  {
   "property": "C68",
   "status": "proved",
   "theorems": [
    "Verif.C68_right",
    "Verif.C68_literals",
    "Verif.C68_collision",
    "Verif.C68_found",
    "Verif.C68_has"
   ],
   "note": ""
  },
  {
   "property": "C69",
   "status": "proved",
   "theorems": [
    "Verif.C69_air",
    "Verif.C69_width",
    "Verif.C69_counts",
    "Verif.C69_balanced"
   ],
   "note": ""
  },
  {
   "property": "C70",
   "status": "proved",
   "theorems": [
    "Verif.C70_placed",
    "Verif.C70_execution",
    "Verif.C70_superblocks",
    "Verif.C70_cells",
    "Verif.C70_by_length",
    "Verif.C70_by_instructions",
    "Verif.C70_gap",
    "Verif.C70_wrap"
   ],
   "note": ""
  },
  {
   "property": "C71",
   "status": "proved",
   "theorems": [
    "Verif.C71_prime",
    "Verif.C71_mul",
    "Verif.C71_linear",
    "Verif.C71_normalize",
    "Verif.C71_tests",
    "Verif.C71_bytes",
    "Verif.C71_from_u64",
    "Verif.C71_inverse",
    "Verif.C71_sqrt",
    "Verif.C71_sqrt_masked",
    "Verif.C71_inverse_bytes",
    "Verif.C71_reverse",
    "Verif.C71_translation"
   ],
   "note": ""
  },
  {
   "property": "C72",
   "status": "proved",
   "theorems": [
    "Verif.C72_exact",
    "Verif.C72_value",
    "Verif.C72_overflow",
    "Verif.C72_emits",
    "Verif.C72_wraps"
   ],
   "note": ""
  },
  {
   "property": "C73",
   "status": "proved",
   "theorems": [
    "Verif.C73_plan",
    "Verif.C73_matrix",
    "Verif.C73_runs",
    "Verif.C73_copied"
   ],
   "note": ""
  },
  {
   "property": "C74",
   "status": "proved",
   "theorems": [
    "Verif.C74_counters",
    "Verif.C74_missing"
   ],
   "note": ""
  },
  {
   "property": "C75",
   "status": "proved",
   "theorems": [
    "Verif.C75_entry",
    "Verif.C75_jumps",
    "Verif.C75_calls",
    "Verif.C75_references",
    "Verif.C75_loaded",
    "Verif.C75_addresses",
    "Verif.C75_dynamic",
    "Verif.C75_sections",
    "Verif.C75_opcodes",
    "Verif.C75_openvm",
    "Verif.C75_bigint",
    "Verif.C75_blocks",
    "Verif.C75_static"
   ],
   "note": ""
  },
  {
   "property": "C76",
   "status": "proved",
   "theorems": [
    "Verif.C76_lifting",
    "Verif.C76_bytes",
    "Verif.C76_syscalls",
    "Verif.C76_starts",
    "Verif.C76_la",
    "Verif.C76_compressed"
   ],
   "note": ""
  },
  {
   "property": "C77",
   "status": "proved",
   "theorems": [
    "Verif.C77_destinations",
    "Verif.C77_whole",
    "Verif.C77_bytes",
    "Verif.C77_base"
   ],
   "note": ""
  },
  {
   "property": "C78",
   "status": "proved",
   "theorems": [
    "Verif.C78_static",
    "Verif.C78_dynamic"
   ],
   "note": ""
  },
  {
   "property": "C79",
   "status": "proved",
   "theorems": [
    "Verif.C79_machine",
    "Verif.C79_supported",
    "Verif.C79_unsupported",
    "Verif.C79_unsupported_only",
    "Verif.C79_opcodes",
    "Verif.C79_unique",
    "Verif.C79_allowed",
    "Verif.C79_total",
    "Verif.C79_cost",
    "Verif.C79_buses",
    "Verif.C79_buses_total",
    "Verif.C79_sample",
    "Verif.C79_same_name"
   ],
   "note": ""
  },
  {
   "property": "C80",
   "status": "proved",
   "theorems": [
    "Verif.C80_some",
    "Verif.C80_answered",
    "Verif.C80_single",
    "Verif.C80_equal",
    "Verif.C80_shared"
   ],
   "note": ""
  },
  {
   "property": "C81",
   "status": "proved",
   "theorems": [
    "Verif.C81_operations",
    "Verif.C81_division",
    "Verif.C81_division_panic",
    "Verif.C81_numbers",
    "Verif.C81_known",
    "Verif.C81_symbol",
    "Verif.C81_substitute",
    "Verif.C81_changed",
    "Verif.C81_eliminated",
    "Verif.C81_renaming",
    "Verif.C81_renamed",
    "Verif.C81_expression",
    "Verif.C81_no_division",
    "Verif.C81_sample"
   ],
   "note": ""
  },
  {
   "property": "C82",
   "status": "proved",
   "theorems": [
    "Verif.C82_read",
    "Verif.C82_terminates",
    "Verif.C82_distinct",
    "Verif.C82_entries",
    "Verif.C82_unchanged",
    "Verif.C82_renamed",
    "Verif.C82_lookup",
    "Verif.C82_all",
    "Verif.C82_labels",
    "Verif.C82_collision",
    "Verif.C82_preceding",
    "Verif.C82_table",
    "Verif.C82_sample"
   ],
   "note": ""
  },
  {
   "property": "C83",
   "status": "proved",
   "theorems": [
    "Verif.C83_locations",
    "Verif.C83_panic",
    "Verif.C83_statements",
    "Verif.C83_sample",
    "Verif.C83_search"
   ],
   "note": ""
  },
  {
   "property": "C84",
   "status": "proved",
   "theorems": [
    "Verif.C84_expression",
    "Verif.C84_distinct",
    "Verif.C84_machine",
    "Verif.C84_denotes",
    "Verif.C84_unique",
    "Verif.C84_grouped",
    "Verif.C84_system",
    "Verif.C84_numbers"
   ],
   "note": ""
  },
  {
   "property": "C85",
   "status": "proved",
   "theorems": [
    "Verif.C85_print_parse",
    "Verif.C85_decimal",
    "Verif.C85_radix",
    "Verif.C85_bytes",
    "Verif.C85_from_bytes",
    "Verif.C85_unsigned",
    "Verif.C85_signed",
    "Verif.C85_to_signed",
    "Verif.C85_injective"
   ],
   "note": ""
  },
  {
   "property": "C86",
   "status": "proved",
   "theorems": [
    "Verif.C86_unambiguous",
    "Verif.C86_expression",
    "Verif.C86_value",
    "Verif.C86_distinct",
    "Verif.C86_symbolic",
    "Verif.C86_grouped",
    "Verif.C86_machine",
    "Verif.C86_render_total",
    "Verif.C86_render",
    "Verif.C86_columns"
   ],
   "note": ""
  },
  {
   "property": "C87",
   "status": "proved",
   "theorems": [
    "Verif.C87_prepared",
    "Verif.C87_not_prepared",
    "Verif.C87_prepare_total",
    "Verif.C87_states",
    "Verif.C87_superblock",
    "Verif.C87_block",
    "Verif.C87_step",
    "Verif.C87_metered",
    "Verif.C87_executors"
   ],
   "note": ""
  },
  {
   "property": "C88",
   "status": "proved",
   "theorems": [
    "Verif.C88_executors",
    "Verif.C88_wired",
    "Verif.C88_tables",
    "Verif.C88_own",
    "Verif.C88_metrics",
    "Verif.C88_columns",
    "Verif.C88_sums",
    "Verif.C88_limit"
   ],
   "note": ""
  },
  {
   "property": "C89",
   "status": "proved",
   "theorems": [
    "Verif.C89_words",
    "Verif.C89_limbs",
    "Verif.C89_words_overflow",
    "Verif.C89_limbs_overflow",
    "Verif.C89_ranges",
    "Verif.C89_queries",
    "Verif.C89_fields"
   ],
   "note": ""
  },
  {
   "property": "C90",
   "status": "proved",
   "theorems": [
    "Verif.CsvTable.C90_cell",
    "Verif.CsvTable.C90_read",
    "Verif.CsvTable.C90_write",
    "Verif.CsvTable.C90_roundtrip",
    "Verif.CsvTable.C90_signed"
   ],
   "note": ""
  },
  {
   "property": "C91",
   "status": "proved",
   "theorems": [
    "Verif.AlgExpr.C91_visit",
    "Verif.AlgExpr.C91_all_children",
    "Verif.AlgExpr.C91_references",
    "Verif.AlgExpr.C91_post",
    "Verif.AlgExpr.C91_substitute_value",
    "Verif.AlgExpr.C91_substitute",
    "Verif.AlgExpr.C91_substitute_endless",
    "Verif.SymMachine.C91_names",
    "Verif.SymMachine.C91_names_distinct"
   ],
   "note": ""
  },
  {
   "property": "C92",
   "status": "proved",
   "theorems": [
    "Verif.C92_solve_ends",
    "Verif.C92_other_calls_end",
    "Verif.C92_history_ends",
    "Verif.C92_solve_system_ends"
   ],
   "note": ""
  },
  {
   "property": "C93",
   "status": "proved",
   "theorems": [
    "Verif.C93_rounds_bounded",
    "Verif.C93_no_infinite_run",
    "Verif.C93_last_round",
    "Verif.C93_facts_finite"
   ],
   "note": ""
  },
  {
   "property": "C94",
   "status": "proved",
   "theorems": [
    "Verif.C94_degrees",
    "Verif.C94_assertions_hold",
    "Verif.C94_openvm"
   ],
   "note": ""
  },
  {
   "property": "C95",
   "status": "proved",
   "theorems": [
    "Verif.C95_steps_are_runs",
    "Verif.C95_pass_exists",
    "Verif.C95_no_panic",
    "Verif.C95_ambiguous",
    "Verif.C95_result",
    "Verif.C95_completes"
   ],
   "note": ""
  },
  {
   "property": "C96",
   "status": "proved",
   "theorems": [
    "Verif.C96_no_panic",
    "Verif.C96_invariant",
    "Verif.C96_completes",
    "Verif.C96_rules",
    "Verif.C96_openvm_no_panic",
    "Verif.C96_openvm_completes",
    "Verif.C96_openvm_buses",
    "Verif.C96_solver",
    "Verif.C96_openvm_solver"
   ],
   "note": ""
  },
  {
   "property": "C97",
   "status": "proved",
   "theorems": [
    "Verif.C97_block",
    "Verif.C97_empirical",
    "Verif.C97_exec",
    "Verif.C97_start",
    "Verif.C97_no_panic",
    "Verif.C97_completes",
    "Verif.C97_finish"
   ],
   "note": ""
  },
  {
   "property": "C98",
   "status": "proved",
   "theorems": [
    "Verif.C98_polynomial",
    "Verif.C98_guards",
    "Verif.C98_guards_fit",
    "Verif.C98_guards_panic",
    "Verif.C98_precompile",
    "Verif.C98_within",
    "Verif.C98_openvm"
   ],
   "note": ""
  },
  {
   "property": "C99",
   "status": "proved",
   "theorems": [
    "Verif.C99_affine",
    "Verif.C99_determined",
    "Verif.C99_equated",
    "Verif.C99_assignments",
    "Verif.C99_fixpoint",
    "Verif.C99_again",
    "Verif.C99_system"
   ],
   "note": ""
  },
  {
   "property": "C100",
   "status": "proved",
   "theorems": [
    "Verif.C100_sum",
    "Verif.C100_sum_ranges",
    "Verif.C100_neg",
    "Verif.C100_multiple",
    "Verif.C100_product",
    "Verif.C100_square",
    "Verif.C100_conjunction",
    "Verif.C100_disjoint",
    "Verif.C100_disjunction",
    "Verif.C100_recognised",
    "Verif.C100_expression"
   ],
   "note": ""
  },
  {
   "property": "C101",
   "status": "proved",
   "theorems": [
    "Verif.C101_contradiction",
    "Verif.C101_transfer",
    "Verif.C101_settled"
   ],
   "note": ""
  },
  {
   "property": "C102",
   "status": "proved",
   "theorems": [
    "Verif.C102_product",
    "Verif.C102_boolean",
    "Verif.C102_settled",
    "Verif.C102_settled_boolean"
   ],
   "note": ""
  },
  {
   "property": "C103",
   "status": "proved",
   "theorems": [
    "Verif.C103_first_last",
    "Verif.C103_at_most_two"
   ],
   "note": ""
  },
  {
   "property": "C104",
   "status": "proved",
   "theorems": [
    "Verif.C104_complete",
    "Verif.C104_occurs",
    "Verif.C104_no_linear_left"
   ],
   "note": ""
  },
  {
   "property": "C105",
   "status": "proved",
   "theorems": [
    "Verif.C105_idempotent",
    "Verif.C105_factors",
    "Verif.C105_products",
    "Verif.C105_rest"
   ],
   "note": ""
  },
  {
   "property": "C106",
   "status": "proved",
   "theorems": [
    "Verif.C106_tight",
    "Verif.C106_value",
    "Verif.C106_contradiction",
    "Verif.C106_openvm"
   ],
   "note": ""
  },
  {
   "property": "C107",
   "status": "proved",
   "theorems": [
    "Verif.C107_disconnected",
    "Verif.C107_split",
    "Verif.C107_ranges"
   ],
   "note": ""
  },
  {
   "property": "C108",
   "status": "proved",
   "theorems": [
    "Verif.C108_candidate",
    "Verif.C108_field"
   ],
   "note": ""
  },
  {
   "property": "C109",
   "status": "proved",
   "theorems": [
    "Verif.C109_kept",
    "Verif.C109_exact",
    "Verif.C109_removed"
   ],
   "note": ""
  },
  {
   "property": "C110",
   "status": "proved",
   "theorems": [
    "Verif.C110_stable",
    "Verif.C110_constraints",
    "Verif.C110_interactions",
    "Verif.C110_openvm"
   ],
   "note": ""
  },
  {
   "property": "C111",
   "status": "proved",
   "theorems": [
    "Verif.C111_assignments",
    "Verif.C111_solve_system"
   ],
   "note": ""
  },
  {
   "property": "C112",
   "status": "proved",
   "theorems": [
    "Verif.C112_precompile",
    "Verif.C112_columns",
    "Verif.C112_count",
    "Verif.C112_openvm"
   ],
   "note": ""
  },
  {
   "property": "C113",
   "status": "proved",
   "theorems": [
    "Verif.C113_precompile",
    "Verif.C113_disjoint",
    "Verif.C113_methods",
    "Verif.C113_fresh",
    "Verif.C113_rules",
    "Verif.C113_openvm"
   ],
   "note": ""
  },
  {
   "property": "C114",
   "status": "proved",
   "theorems": [
    "Verif.C114_precompile",
    "Verif.C114_fillable",
    "Verif.C114_kept",
    "Verif.C114_columns",
    "Verif.C114_used",
    "Verif.C114_rules",
    "Verif.C114_inliner",
    "Verif.C114_solver",
    "Verif.C114_round"
   ],
   "note": ""
  }
 ]
}