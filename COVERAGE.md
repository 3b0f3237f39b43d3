# Which functions of the code are modelled

Generated by `tools/gen_coverage.py`. A function counts as modelled if a definition in `lean/Verif/Model` cites
lines of it; the comment of that definition says what is simplified. Functions of test modules are left out.

## autoprecompiles/src/adapter.rs (2 of 8)

* in Compile: `PgoAdapter::filter_blocks_and_create_apcs_with_pgo`, `PgoAdapter::execution_profile`
* not modelled: `ApcWithStats::new`, `ApcWithStats::into_parts`, `ApcWithStats::apc`, `ApcWithStats::stats`, `ApcWithStats::evaluation_result`, `PgoAdapter::pc_execution_count`

## autoprecompiles/src/blocks/detection.rs (1 of 1)

* in Blocks: `collect_basic_blocks`

## autoprecompiles/src/blocks/mod.rs (14 of 22)

* in Blocks: `BasicBlock::pcs`, `Program::instruction_index_to_pc`, `find_non_overlapping`, `detect_execution_bb_runs`, `count_superblocks_in_run`, `count_superblocks_in_execution`, `detect_superblocks`
* in Blocks, Build: `BasicBlock::instructions`
* in Compile: `SuperBlock::try_as_basic_block`, `ExecutionBlocks::new_without_pgo`
* in Empirical: `SuperBlock::instruction_indexed_start_pcs`, `SuperBlock::pcs`
* in Build: `SuperBlock::instructions`
* in Interpret: `SuperBlock::par_instructions`
* not modelled: `From for SuperBlock::from`, `From for SuperBlock::from`, `SuperBlock::is_basic_block`, `SuperBlock::start_pcs`, `SuperBlock::blocks`, `SuperBlock::map_instructions`, `Display for SuperBlock::fmt`, `Display for BasicBlock::fmt`

## autoprecompiles/src/bus_map.rs (3 of 5)

* in Extraction: `BusMap::from_id_type_pairs`
* in OpenVm: `BusMap::bus_type`, `BusMap::get_bus_id`
* not modelled: `std::fmt::Display for BusType::fmt`, `BusMap::all_types_by_id`

## autoprecompiles/src/constraint_optimizer.rs (16 of 17)

* in Optimizer, OptimizerSteps: `optimize_constraints`
* in ConstraintOptimizer: `substitute_bus_interaction_fields`, `trivial_simplifications`, `solver_based_optimization`, `try_replace_by_number`, `remove_free_variables`, `can_always_be_satisfied_via_free_variable`, `remove_disconnected_columns`, `variables_in_stateful_bus_interactions`, `SimplifiedExpression::update`, `simplify_constraints_using_exhaustive_search`, `remove_trivial_constraints`, `remove_equal_bus_interactions`, `remove_redundant_constraints`, `remove_duplicate_factors`, `remove_unreferenced_derived_variables`
* not modelled: `From for Error::from`

## autoprecompiles/src/empirical_constraints.rs (12 of 15)

* in Empirical: `EmpiricalConstraints::combine_with`, `EmpiricalConstraints::for_block`, `EmpiricalConstraints::apply_pc_threshold`, `BlockEmpiricalConstraints::filtered`, `DebugInfo::combine_with`, `merge_maps`, `ConstraintGenerator::get_algebraic_reference`, `ConstraintGenerator::generate_constraints`, `ConstraintGenerator::range_constraints`, `ConstraintGenerator::equivalence_constraints`
* in Build, Empirical: `From for AlgebraicExpression::from`, `From for SymbolicConstraint::from`
* not modelled: `DebugInfo::take`, `BlockCell::new`, `ConstraintGenerator::new`

## autoprecompiles/src/equivalence_classes.rs (9 of 11)

* in Partition: `FromIterator for Partition::from_iter`, `Partition::to_classes`, `Partition::intersect_many`, `Partition::intersected_with`, `Partition::combine`, `Partition::map_elements`, `Partition::parallel_intersect`, `PartialEq for Partition::eq`, `Partition::to_canonical`
* not modelled: `Serialize for Partition::serialize`, `Deserialize for Partition::deserialize`

## autoprecompiles/src/evaluation.rs (4 of 6)

* in Extraction: `AirStats::new`, `Add for AirStats::add`, `Sum for AirStats::sum`, `evaluate_apc`
* not modelled: `Display for EvaluationResult::fmt`, `render_stat`

## autoprecompiles/src/execution/ast.rs (5 of 8)

* in Evaluator: `Children<OptimisticExpression<A, V>> for OptimisticConstraint<A, V>::children`, `Children<OptimisticExpression<A, V>> for OptimisticConstraint<A, V>::children_mut`, `unique_references`, `From for LocalFetch::from`, `LocalFetch::get`
* not modelled: `AllChildren<OptimisticExpression<A, V>> for OptimisticExpression<A, V>::all_children`, `OptimisticExpression::children`, `From for Fetch::from`

## autoprecompiles/src/execution/candidates.rs (8 of 10)

* in Evaluator: `ApcCandidates::new`, `ApcCandidates::check_conditions`, `ApcCandidates::abort_in_progress`, `ApcCandidates::extract_calls`, `ApcCandidates::try_insert`, `ApcCandidates::candidate_range`, `ApcCandidates::ranges_overlap`, `Ord for CandidateRank::cmp`
* not modelled: `PartialOrd for CandidateRank::partial_cmp`, `Clocked::new`

## autoprecompiles/src/execution/evaluator.rs (7 of 11)

* in Evaluator: `OptimisticConstraints::from_constraints`, `OptimisticConstraintEvaluator::new`, `OptimisticConstraintEvaluator::try_next_execution_step`, `StepOptimisticConstraintEvaluator::evaluate_constraint`, `StepOptimisticConstraintEvaluator::evaluate_expression`, `StepOptimisticConstraintEvaluator::evaluate_literal`, `StepOptimisticConstraintEvaluator::fetch`
* not modelled: `OptimisticConstraints::empty`, `Default for OptimisticConstraintEvaluator<A, V>::default`, `OptimisticConstraintEvaluator::instruction_index`, `StepOptimisticConstraintEvaluator::new`

## autoprecompiles/src/expression.rs (11 of 20)

* in Printed: `std::fmt::Display for AlgebraicReference::fmt`
* in Expression, Reference: `PartialOrd for AlgebraicReference::partial_cmp`, `Ord for AlgebraicReference::cmp`, `PartialEq for AlgebraicReference::eq`
* in Expression: `Hash for AlgebraicReference::hash`
* in Reference, Saved: `Serialize for AlgebraicReference::serialize`
* in Numerals, Reference, Saved: `Deserialize for AlgebraicReference::deserialize`
* in Extraction: `try_convert`
* in Periphery: `AlgebraicEvaluator::eval_expr`, `AlgebraicEvaluator::eval_bus_interaction`, `AlgebraicEvaluator<F, E> for WitnessEvaluator<'_, V, F, E>::eval_var`
* not modelled: `AlgebraicEvaluator::eval_constraint`, `RowEvaluator::new`, `AlgebraicEvaluator<F, F> for RowEvaluator<'_, F>::eval_const`, `AlgebraicEvaluator<F, F> for RowEvaluator<'_, F>::eval_var`, `MappingRowEvaluator::new`, `AlgebraicEvaluator<F, F> for MappingRowEvaluator<'_, F>::eval_const`, `AlgebraicEvaluator<F, F> for MappingRowEvaluator<'_, F>::eval_var`, `WitnessEvaluator::new`, `AlgebraicEvaluator<F, E> for WitnessEvaluator<'_, V, F, E>::eval_const`

## autoprecompiles/src/expression_conversion.rs (4 of 4)

* in Expression: `algebraic_to_grouped_expression`, `grouped_expression_to_algebraic`, `field_element_to_algebraic_expression`, `extract_negation_if_possible`

## autoprecompiles/src/lib.rs (11 of 19)

* in Compile: `PowdrConfig::new`
* in Machine: `Apc::new`, `ColumnAllocator::from_max_poly_id_of_machine`, `ColumnAllocator::issue_next_poly_id`, `ColumnAllocator::is_known_id`, `satisfies_zero_witness`, `add_guards_constraint`, `canonicalize`, `add_guards`
* in Build, Optimistic: `build`
* in Optimistic: `superblock_pc_constraints`
* not modelled: `PowdrConfig::with_superblocks`, `PowdrConfig::with_apc_candidates_dir`, `PowdrConfig::with_optimistic_precompiles`, `Clone for VmConfig<'a, M, B, C>::clone`, `Apc::subs`, `Apc::machine`, `Apc::instructions`, `Apc::start_pcs`

## autoprecompiles/src/low_degree_bus_interaction_optimizer.rs (7 of 8)

* in LowDegree: `optimize`, `try_replace_bus_interaction`, `symbolic_function_candidates_with_small_domain`, `has_few_possible_values`, `find_low_degree_function`, `concrete_input_output_pairs`, `hypotheses`
* not modelled: `new`

## autoprecompiles/src/memory_optimizer.rs (3 of 4)

* in Memory: `optimize_memory`, `MemoryContent::from_bus_interaction`, `redundant_memory_interactions_indices`
* not modelled: `From for Address<T, V>::from`

## autoprecompiles/src/optimistic/algebraic_references.rs (1 of 3)

* in Empirical: `BlockCellAlgebraicReferenceMapper::new`
* not modelled: `BlockCellAlgebraicReferenceMapper::get_algebraic_reference`, `BlockCellAlgebraicReferenceMapper::has_block_cell`

## autoprecompiles/src/optimistic/execution_constraint_generator.rs (2 of 2)

* in Literals: `generate_execution_constraints`, `get_optimistic_expression`

## autoprecompiles/src/optimistic/execution_literals.rs (4 of 4)

* in Literals: `optimistic_literals`, `extract_concrete_memory_accesses`, `try_extract_concrete_memory_access`, `generate_limb_mapping`

## autoprecompiles/src/optimizer.rs (2 of 3)

* in Build, Literals, Optimizer, OptimizerSteps: `optimize`
* in ExecBus: `optimize_exec_bus`
* not modelled: `Display for Variable::fmt`

## autoprecompiles/src/pgo/cell/mod.rs (2 of 6)

* in Compile, Selection: `PgoAdapter for CellPgo<A, C>::create_apcs_with_pgo`, `PgoAdapter for CellPgo<A, C>::execution_profile`
* not modelled: `CellPgo::with_pgo_data_and_max_columns`, `JsonExport::new`, `try_generate_candidate`, `apc_candidate_json_export`

## autoprecompiles/src/pgo/cell/selection.rs (8 of 10)

* in Compile: `BlockCandidate::new`
* in Selection: `BlockCandidate::value`, `BlockCandidate::cost`, `BlockCandidate::density`, `Ord for Density::cmp`, `select_blocks_greedy`
* in Blocks: `count_and_update_run`, `count_and_update_execution`
* not modelled: `PartialEq for Density::eq`, `PartialOrd for Density::partial_cmp`

## autoprecompiles/src/pgo/instruction.rs (2 of 3)

* in Compile: `PgoAdapter for InstructionPgo::create_apcs_with_pgo`, `PgoAdapter for InstructionPgo::execution_profile`
* not modelled: `InstructionPgo::with_pgo_data`

## autoprecompiles/src/pgo/mod.rs (1 of 3)

* in Compile: `create_apcs_for_all_blocks`
* not modelled: `PgoConfig::pc_execution_count`, `pgo_config`

## autoprecompiles/src/pgo/none.rs (1 of 1)

* in Compile: `PgoAdapter for NonePgo::create_apcs_with_pgo`

## autoprecompiles/src/powdr.rs (7 of 7)

* in Machine: `make_refs_zero`, `make_bool`, `globalize_references`
* in Visitors: `substitute_subexpressions`, `globalize_reference_names`
* in Expression, Printed, TraceGen, Visitors: `UniqueReferences::unique_references`
* in Expression: `offset_reference_ids`

## autoprecompiles/src/range_constraint_optimizer.rs (3 of 3)

* in RangeOptimizer: `optimize_range_constraints`
* in OpenVm: `RangeConstraintHandler::range_constraint_to_num_bits`, `RangeConstraintHandler::filter_byte_constraints`

## autoprecompiles/src/symbolic_machine.rs (17 of 20)

* in Expression: `From for SymbolicConstraint::from`, `Children for SymbolicConstraint::children`, `Children for SymbolicBusInteraction::children`, `SymbolicMachine::concatenate`, `SymbolicMachine::degree`, `Children for SymbolicMachine::children`, `symbolic_machine_to_constraint_system`, `constraint_system_to_symbolic_machine`, `symbolic_bus_interaction_to_bus_interaction`, `bus_interaction_to_symbolic_bus_interaction`
* in Visitors: `Children for SymbolicConstraint::children_mut`, `Children for SymbolicBusInteraction::children_mut`
* in Printed: `Display for SymbolicBusInteraction::fmt`, `Display for SymbolicMachine::fmt`, `SymbolicMachine::render`
* in Extraction, Printed: `SymbolicMachine::main_columns`
* in Machine, Visitors: `Children for SymbolicMachine::children_mut`
* not modelled: `IntoIterator for SymbolicInstructionStatement::into_iter`, `Display for SymbolicConstraint::fmt`, `SymbolicBusInteraction::try_multiplicity_to_number`

## autoprecompiles/src/symbolic_machine_generator.rs (7 of 8)

* in Expression: `convert_machine_field_type`, `convert_symbolic_constraint`, `convert_bus_interaction`, `convert_expression`
* in Machine: `statements_to_symbolic_machine`, `statements_to_symbolic_machines`, `exec_receive`
* not modelled: `convert_apc_field_type`

## autoprecompiles/src/trace_handler.rs (1 of 1)

* in TraceGen: `generate_trace`

## constraint-solver/src/algebraic_constraint/mod.rs (2 of 12)

* in RangeOptimizer: `AlgebraicConstraint::assert_bool`
* in ConstraintOptimizer, Reachability: `AlgebraicConstraint::is_redundant`
* not modelled: `From for AlgebraicConstraint::from`, `AlgebraicConstraint::assert_zero`, `AlgebraicConstraint::as_ref`, `AlgebraicConstraint::cloned`, `AlgebraicConstraint::assert_eq`, `substitute_by_known`, `degree`, `Display for AlgebraicConstraint::fmt`, `AlgebraicConstraint::referenced_unknown_variables`, `AlgebraicConstraint::referenced_unknown_variables`

## constraint-solver/src/algebraic_constraint/solve.rs (11 of 12)

* in Solve: `ProcessResult::empty`, `AlgebraicConstraint::solve`, `AlgebraicConstraint::try_solve_for`, `AlgebraicConstraint::try_solve_for_expr`, `AlgebraicConstraint::solve_affine`, `AlgebraicConstraint::transfer_constraints`, `AlgebraicConstraint::solve_quadratic`, `combine_to_conditional_assignment`, `effect_to_range_constraint`, `combine_range_constraints`, `assignment_if_satisfies_range_constraints`
* not modelled: `ProcessResult::complete`

## constraint-solver/src/bus_interaction_handler.rs (2 of 2)

* in ConstraintSystem: `BusInteractionHandler::handle_bus_interaction_checked`, `BusInteractionHandler for DefaultBusInteractionHandler::handle_bus_interaction`

## constraint-solver/src/constraint_system.rs (13 of 18)

* in ConstraintSystem, Inliner: `ConstraintSystem::referenced_unknown_variables`
* in ConstraintSystem: `ConstraintSystem::extend`, `BusInteraction::fields`, `FromIterator for BusInteraction::from_iter`, `BusInteraction::to_range_constraints`, `solve`, `BusInteraction::referenced_unknown_variables`
* in Saved: `Serialize for DerivedVariable<T, V, E>::serialize`, `Deserialize for DerivedVariable<T, V, E>::deserialize`
* in Indexed: `ComputationMethod::referenced_unknown_variables`, `substitute_by_known`, `substitute_by_unknown`
* in Reachability: `ConstraintRef::referenced_unknown_variables`
* not modelled: `Display for ConstraintSystem<T, V>::fmt`, `DerivedVariable::new`, `Display for ComputationMethod<T, E>::fmt`, `BusInteraction::fields_mut`, `Display for BusInteraction::fmt`

## constraint-solver/src/grouped_expression.rs (45 of 58)

* in GroupedExpression: `From<GroupedExpressionComponent<T, V>> for GroupedExpression<T, V>::from`, `GroupedExpression::from_number`, `Zero for GroupedExpression<T, V>::zero`, `Zero for GroupedExpression<T, V>::is_zero`, `One for GroupedExpression<T, V>::one`, `One for GroupedExpression<T, V>::is_one`, `GroupedExpression::from_runtime_constant`, `GroupedExpression::from_unknown_variable`, `GroupedExpression::try_to_known`, `GroupedExpression::is_affine`, `GroupedExpression::try_to_number`, `GroupedExpression::try_to_simple_unknown`, `GroupedExpression::to_factors`, `GroupedExpression::try_split_head_tail`, `GroupedExpression::constant_offset`, `GroupedExpression::degree`, `GroupedExpression::degree_of_variable`, `GroupedExpression::coefficient_of_variable_in_affine_part`, `GroupedExpression::try_extract_affine_var`, `GroupedExpression::range_constraint`, `GroupedExpression::substitute_simple`, `GroupedExpression::substitute_by_known`, `GroupedExpression::substitute_by_known_multi`, `GroupedExpression::substitute_by_unknown`, `GroupedExpression::referenced_unknown_variables`, `try_transform_var_type`, `AddAssign::add_assign`, `combine_removing_zeros`, `remove_quadratic_terms_adding_to_zero`, `quadratic_terms_add_to_zero`, `Sub for &GroupedExpression<T, V>::sub`, `Sub for GroupedExpression<T, V>::sub`, `GroupedExpression::negate`, `MulAssign for GroupedExpression<T, V>::mul_assign`, `Sum for GroupedExpression<T, V>::sum`, `Mul for GroupedExpression<T, V>::mul`
* in ConstraintOptimizer, GroupedExpression: `GroupedExpression::is_quadratic`, `GroupedExpression::try_as_single_product`
* in Rules: `GroupedExpression::into_summands`
* in Printed: `Display for GroupedExpression<T, V>::fmt`, `GroupedExpression::to_signed_string`, `GroupedExpression::symbolic_expression_to_signed_string`
* in Saved: `Serialize::serialize`, `Serialize for SumSerializer<'a, I>::serialize`, `Serialize::serialize`
* not modelled: `GroupedExpression::from_known_symbol`, `GroupedExpression::linear_components`, `GroupedExpression::quadratic_components`, `RangeConstraintProvider<T, V> for &R::get`, `RangeConstraintProvider::get`, `RangeConstraintProvider<T, V> for NoRangeConstraints::get`, `Add for GroupedExpression<T, V>::add`, `Add for &GroupedExpression<T, V>::add`, `Neg for GroupedExpression<T, V>::neg`, `Neg for &GroupedExpression<T, V>::neg`, `Mul for GroupedExpression<T, V>::mul`, `Mul for GroupedExpression<T, V>::mul`, `SumSerializer::new`

## constraint-solver/src/indexed_constraint_system.rs (32 of 41)

* in Indexed: `apply_substitutions`, `apply_substitutions_to_expressions`, `ConstraintSystemItem::flat_constraint_id`, `ConstraintSystemItem::is_derived_variable`, `ConstraintSystemItem::try_to_constraint_ref`, `From::from`, `IndexedConstraintSystem::retain_algebraic_constraints`, `IndexedConstraintSystem::retain_bus_interactions`, `IndexedConstraintSystem::retain_derived_variables`, `retain`, `IndexedConstraintSystem::add_algebraic_constraints`, `IndexedConstraintSystem::add_bus_interactions`, `IndexedConstraintSystem::extend`, `IndexedConstraintSystem::constraints_referencing_variables`, `substitute_by_known`, `substitute_by_unknown`, `apply_substitutions`, `substitute_by_known_in_item`, `substitute_by_unknown_in_item`, `From::from`, `IndexedConstraintSystemWithQueue::pop_front`, `IndexedConstraintSystemWithQueue::variable_updated`, `IndexedConstraintSystemWithQueue::substitute_by_unknown`, `IndexedConstraintSystemWithQueue::add_algebraic_constraints`, `IndexedConstraintSystemWithQueue::add_bus_interactions`, `IndexedConstraintSystemWithQueue::retain_algebraic_constraints`, `IndexedConstraintSystemWithQueue::retain_bus_interactions`, `ConstraintSystemQueue::new`, `ConstraintSystemQueue::push`, `ConstraintSystemQueue::pop_front`
* in Reachability: `IndexedConstraintSystem::variables`
* in Indexed, Reachability: `variable_occurrences`
* not modelled: `ConstraintSystemItem::index`, `From::from`, `IndexedConstraintSystem::system`, `IndexedConstraintSystem::algebraic_constraints`, `IndexedConstraintSystem::bus_interactions`, `IndexedConstraintSystem::referenced_unknown_variables`, `Display::fmt`, `IndexedConstraintSystemWithQueue::system`, `Display::fmt`

## constraint-solver/src/inliner.rs (5 of 5)

* in Indexed, Inliner: `replace_constrained_witness_columns`
* in Inliner: `inline_everything_below_degree_bound`, `substitution_would_not_violate_degree_bound`, `find_inlinable_variables`, `expression_degree_with_virtual_substitution`

## constraint-solver/src/range_constraint.rs (23 of 29)

* in FixedInt, RangeConstraint: `RangeConstraint::from_max_bit`, `RangeConstraint::from_mask`, `RangeConstraint::from_value`, `RangeConstraint::from_range`, `RangeConstraint::unconstrained`, `RangeConstraint::is_unconstrained`, `RangeConstraint::range_width`, `RangeConstraint::allows_value`, `RangeConstraint::combine_sum`, `RangeConstraint::combine_product`, `RangeConstraint::square`, `RangeConstraint::conjunction`, `RangeConstraint::disjunction`, `RangeConstraint::multiple`, `RangeConstraint::try_to_single_value`, `RangeConstraint::is_disjoint`, `RangeConstraint::allowed_values`, `range_width`, `mask_from_bits`, `range_multiple`, `interval_intersection`, `ops::Neg for RangeConstraint::neg`
* in FixedInt, LowDegree: `RangeConstraint::size_estimate`
* not modelled: `RangeConstraint::mask`, `RangeConstraint::range`, `Default for RangeConstraint::default`, `shifted_interval`, `Display for RangeConstraint::fmt`, `format_negated`

## constraint-solver/src/reachability.rs (2 of 2)

* in Reachability: `reachable_variables`, `reachable_variables_except_blocked`

## constraint-solver/src/rule_based_optimizer/driver.rs (8 of 9)

* in RuleDriver, Rules: `rule_based_optimization`
* in RuleDriver: `undo_variable_transform_and_recreate_new_variables`, `is_replacement_within_degree_bound`, `batch_replace_algebraic_constraints`, `transform_constraint_system`, `transform_variables`, `undo_variable_transform`, `undo_variable_transform_in_computation_method`
* not modelled: `ReplacementAction::new`

## constraint-solver/src/rule_based_optimizer/environment.rs (5 of 22)

* in Rules: `Environment::new_var`, `Environment::single_occurrence_variables`, `Environment::affine_var_count`, `Environment::try_to_affine`, `Environment::differ_in_exactly_one_variable`
* not modelled: `PartialEq for Environment::eq`, `PartialOrd for Environment::partial_cmp`, `Ord for Environment::cmp`, `Hash for Environment::hash`, `Environment::new`, `Environment::terminate`, `Environment::insert`, `Environment::insert_owned`, `Environment::extract`, `Environment::try_split_into_head_tail`, `Environment::try_to_number`, `Environment::on_expr`, `Environment::try_as_single_product`, `Environment::substitute_by_known`, `Environment::substitute_by_var`, `Environment::format_expr`, `Environment::format_var`

## constraint-solver/src/rule_based_optimizer/item_db.rs (7 of 8)

* in ItemDB: `FromIterator for ItemDB<Item, Ident>::from_iter`, `Index for ItemDB<Item, Ident>::index`, `ItemDB::insert_owned_new`, `ItemDB::insert`, `ItemDB::id`, `ItemDB::iter`, `ItemDB::next_free_id`
* not modelled: `ItemDB::insert_owned`

## constraint-solver/src/rule_based_optimizer/new_var_generator.rs (2 of 3)

* in Rules: `NewVarGenerator::new`, `NewVarGenerator::generate`
* not modelled: `NewVarGenerator::requests`

## constraint-solver/src/rule_based_optimizer/rules.rs (1 of 1)

* in RuleDriver, Rules: `extend_by_none`

## constraint-solver/src/runtime_constant.rs (5 of 14)

* in SymbolicValue: `RuntimeConstant:::is_known_zero`, `RuntimeConstant:::is_known_one`, `RuntimeConstant:::is_known_minus_one`
* in GroupedExpression, SymbolicValue: `RuntimeConstant:::is_known_nonzero`
* in Solver: `VarTransformable::transform_var_type`
* not modelled: `RuntimeConstant:::field_div`, `RuntimeConstant:::from_u64`, `RuntimeConstant for T::try_to_number`, `RuntimeConstant for T::range_constraint`, `RuntimeConstant for T::field_div`, `RuntimeConstant for T::field_inverse`, `Substitutable for T::substitute`, `VarTransformable<V1, V2> for T::transform_var_type`, `VarTransformable<V1, V2> for T::try_transform_var_type`

## constraint-solver/src/solver.rs (2 of 2)

* in Solver: `solve_system`, `new_solver`

## constraint-solver/src/solver/base.rs (25 of 29)

* in Solver: `BaseSolver::new`, `RangeConstraintProvider<T, V> for BaseSolver<T, V, BusInter, VD>::get`, `Solver::solve`, `Solver::add_algebraic_constraints`, `Solver::add_bus_interactions`, `Solver::add_range_constraint`, `Solver::retain_variables`, `Solver::range_constraint_for_expression`, `Solver::try_to_equivalent_constant`, `Solver::are_expressions_known_to_be_different`, `BaseSolver::try_extract_boolean`, `BaseSolver::linearize_constraint`, `BaseSolver::linearize_bus_interaction`, `BaseSolver::loop_until_no_progress`, `BaseSolver::solve_in_isolation`, `BaseSolver::exhaustive_search`, `BaseSolver::equivalent_expressions`, `BaseSolver::apply_effect`, `BaseSolver::apply_range_constraint_update`, `BaseSolver::apply_assignment`, `BaseSolver::add_algebraic_constraints_if_new`, `BaseSolver::contains_algebraic_constraint`, `try_to_simple_equivalence`, `RangeConstraintProvider::get`, `RangeConstraints::update`
* not modelled: `VarDispenser for VarDispenserImpl::next_boolean`, `VarDispenser for VarDispenserImpl::next_linear`, `VarDispenser for VarDispenserImpl::all_linearized_vars`, `Display::fmt`

## constraint-solver/src/solver/boolean_extractor.rs (3 of 3)

* in BooleanExtractor: `BooleanExtractor::try_extract_boolean`, `try_to_abs_u64`, `BooleanExtractor::apply_assignments`

## constraint-solver/src/solver/constraint_splitter.rs (9 of 12)

* in Splitter: `try_split_constraint`, `group_components_by_coefficients`, `find_solution`, `recombine_components`, `Component::normalize`, `Div for Component<T, V>::div`, `From<Component<T, V>> for GroupedExpression<T, V>::from`, `Zero for Component<T, V>::zero`, `Zero for Component<T, V>::is_zero`
* not modelled: `Display for Component<T, V>::fmt`, `TryFrom<(&'a V, &'a T)> for Component<T, V>::try_from`, `Add for Component<T, V>::add`

## constraint-solver/src/solver/exhaustive_search.rs (5 of 5)

* in ExhaustiveSearch: `exhaustive_search_on_variable_set`, `get_brute_force_candidates`, `is_candidate_for_exhaustive_search`, `has_small_max_range_constraint_size`, `derive_new_range_constraints`

## constraint-solver/src/solver/linearizer.rs (6 of 7)

* in Linearizer: `Linearizer::linearize_expression`, `Linearizer::try_linearize_existing`, `Linearizer::substitute_by_var`, `Linearizer::try_substitute_by_existing_var`, `Linearizer::internalized_versions_of_expression`, `Linearizer::apply_assignments`
* not modelled: `Linearizer::linearize_and_substitute_by_var`

## constraint-solver/src/solver/var_transformation.rs (11 of 17)

* in Solver: `Variable::try_to_original`, `RangeConstraintProvider<T, V> for VarTransformation<T, V, S>::get`, `Solver<T, V> for VarTransformation<T, V, S>::solve`, `Solver<T, V> for VarTransformation<T, V, S>::add_algebraic_constraints`, `Solver<T, V> for VarTransformation<T, V, S>::add_bus_interactions`, `Solver<T, V> for VarTransformation<T, V, S>::add_range_constraint`, `Solver<T, V> for VarTransformation<T, V, S>::retain_variables`, `Solver<T, V> for VarTransformation<T, V, S>::range_constraint_for_expression`, `Solver<T, V> for VarTransformation<T, V, S>::try_to_equivalent_constant`, `Solver<T, V> for VarTransformation<T, V, S>::are_expressions_known_to_be_different`, `transform_expr`
* not modelled: `From for Variable::from`, `From for Variable::from`, `Display for Variable::fmt`, `VarTransformation::new`, `Display for VarTransformation<T, V, S>::fmt`, `transform_constraint`

## constraint-solver/src/symbolic_expression.rs (18 of 31)

* in SymbolicValue: `SymbolicExpression::children`, `SymbolicExpression::all_children`, `SymbolicExpression::from_symbol`, `SymbolicExpression::compute_substitution`, `SymbolicExpression::substitute`, `ExpressionConvertible<T, V> for SymbolicExpression<T, V>::try_to_expression`, `VarTransformable::try_transform_var_type`, `Add for &SymbolicExpression<T, V>::add`, `Sub for &SymbolicExpression<T, V>::sub`, `Neg for &SymbolicExpression<T, V>::neg`, `Mul for &SymbolicExpression<T, V>::mul`, `RuntimeConstant for SymbolicExpression<T, V>::try_to_number`, `RuntimeConstant for SymbolicExpression<T, V>::range_constraint`, `RuntimeConstant for SymbolicExpression<T, V>::field_div`, `RuntimeConstant for SymbolicExpression<T, V>::field_inverse`, `Substitutable for SymbolicExpression<T, V>::substitute`
* in Printed: `Display for SymbolicExpression<T, V>::fmt`, `Display for BinaryOperator::fmt`
* not modelled: `Display for UnaryOperator::fmt`, `From for SymbolicExpression<T, V>::from`, `Add for SymbolicExpression<T, V>::add`, `AddAssign for SymbolicExpression<T, V>::add_assign`, `Sub for SymbolicExpression<T, V>::sub`, `Neg for SymbolicExpression<T, V>::neg`, `Mul for SymbolicExpression<T, V>::mul`, `MulAssign for SymbolicExpression<T, V>::mul_assign`, `Zero for SymbolicExpression<T, V>::zero`, `Zero for SymbolicExpression<T, V>::is_zero`, `One for SymbolicExpression<T, V>::one`, `One for SymbolicExpression<T, V>::is_one`, `RuntimeConstant for SymbolicExpression<T, V>::from_u64`

## constraint-solver/src/system_splitter.rs (1 of 1)

* in Reachability: `split_system`

## constraint-solver/src/utils.rs (3 of 3)

* in ExhaustiveSearch: `has_few_possible_assignments`, `get_all_possible_assignments`, `possible_concrete_values`

## expression/src/display.rs (5 of 7)

* in Printed: `Precedence for AlgebraicBinaryOperator::precedence`, `Precedence for AlgebraicExpression<T, R>::precedence`, `Display for AlgebraicBinaryOperation<T, R>::fmt`, `Display for AlgebraicUnaryOperation<T, R>::fmt`, `Display for AlgebraicBinaryOperator::fmt`
* not modelled: `Precedence for AlgebraicUnaryOperator::precedence`, `Display for AlgebraicUnaryOperator::fmt`

## expression/src/lib.rs (4 of 13)

* in Visitors: `AlgebraicExpression::children`, `AlgebraicExpression::children_mut`
* in Expression: `AlgebraicExpression::degree`
* in Expression, Periphery: `ExpressionConvertible<T, R> for AlgebraicExpression<T, R>::to_expression`
* not modelled: `AlgebraicExpression::new_binary`, `AlgebraicExpression::new_unary`, `ops::Add for AlgebraicExpression<T, R>::add`, `ops::Sub for AlgebraicExpression<T, R>::sub`, `ops::Neg for AlgebraicExpression<T, R>::neg`, `ops::Mul for AlgebraicExpression<T, R>::mul`, `From for AlgebraicExpression<T, R>::from`, `serialize_unary_operation`, `serialize_binary_operation`

## expression/src/visitors.rs (7 of 8)

* in Visitors: `ExpressionVisitable::pre_visit_expressions_mut`, `ExpressionVisitable::post_visit_expressions_mut`, `ExpressionVisitable for C::visit_expressions_mut`, `AllChildren for C::all_children`, `ExpressionVisitable<AlgebraicExpression<T, R>> for AlgebraicExpression<T, R>::visit_expressions_mut`, `ExpressionVisitable<AlgebraicExpression<T, R>> for AlgebraicExpression<T, R>::visit_expressions`, `AllChildren<AlgebraicExpression<T, R>> for AlgebraicExpression<T, R>::all_children`
* not modelled: `ExpressionVisitable for C::visit_expressions`

## number/src/goldilocks.rs (44 of 59)

* in Goldilocks: `GoldilocksField::try_inverse`, `GoldilocksField::square`, `GoldilocksField::exp_power_of_2`, `GoldilocksField::from_canonical_u64`, `GoldilocksField::from_noncanonical_i64`, `Neg for GoldilocksField::neg`, `Add for GoldilocksField::add`, `Sub for GoldilocksField::sub`, `Mul for GoldilocksField::mul`, `Div for GoldilocksField::div`, `add_no_canonicalize_trashing_input`, `reduce128`, `exp_acc`, `assume`, `FieldElement for GoldilocksField::pow`
* in FieldText, Goldilocks: `wrap`, `FieldElement for GoldilocksField::checked_from`, `From for GoldilocksField::from`
* in CsvTable: `SubAssign for GoldilocksField::sub_assign`
* in FieldText: `FieldElement for GoldilocksField::modulus`, `FieldElement for GoldilocksField::to_bytes_le`, `FieldElement for GoldilocksField::from_bytes_le`, `FieldElement for GoldilocksField::from_str_radix`, `LowerHex for GoldilocksField::fmt`, `From for GoldilocksField::from`, `From for GoldilocksField::from`, `From for GoldilocksField::from`, `From for GoldilocksField::from`, `FromStr for GoldilocksField::from_str`
* in Field, FieldText, Goldilocks: `FieldElement for GoldilocksField::is_in_lower_half`
* in FixedInt: `From for GoldilocksField::from`, `LargeInt for GLLargeInt::to_arbitrary_integer`, `LargeInt for GLLargeInt::one`, `LargeInt for GLLargeInt::is_one`, `LargeInt for GLLargeInt::try_into_u64`, `LargeInt for GLLargeInt::try_into_u32`, `LargeInt for GLLargeInt::from_hex`, `From for GLLargeInt::from`, `From for GLLargeInt::from`, `Zero for GLLargeInt::zero`, `Zero for GLLargeInt::is_zero`, `LowerHex for GLLargeInt::fmt`, `Not for GLLargeInt::not`
* in Field, FixedInt: `LargeInt for GLLargeInt::num_bits`
* not modelled: `GoldilocksField::to_canonical_u64`, `AddAssign for GoldilocksField::add_assign`, `MulAssign for GoldilocksField::mul_assign`, `add_no_canonicalize_trashing_input`, `split`, `branch_hint`, `FieldElement for GoldilocksField::to_degree`, `FieldElement for GoldilocksField::to_integer`, `FieldElement for GoldilocksField::known_field`, `FieldElement for GoldilocksField::has_direct_repr`, `From for GoldilocksField::from`, `Zero for GoldilocksField::zero`, `Zero for GoldilocksField::is_zero`, `One for GoldilocksField::one`, `One for GoldilocksField::is_one`

## number/src/lib.rs (1 of 1)

* in Field: `log2_exact`

## number/src/macros.rs (42 of 61)

* in FixedInt: `fmt::Display for LargeIntImpl::fmt`, `fmt::LowerHex for LargeIntImpl::fmt`, `LargeIntImpl::new`, `From for LargeIntImpl::from`, `From for LargeIntImpl::from`, `Shl for LargeIntImpl::shl`, `Shr for LargeIntImpl::shr`, `BitAnd for LargeIntImpl::bitand`, `BitOr for LargeIntImpl::bitor`, `BitXor for LargeIntImpl::bitxor`, `BitOrAssign for LargeIntImpl::bitor_assign`, `BitAndAssign for LargeIntImpl::bitand_assign`, `Not for LargeIntImpl::not`, `SubAssign for LargeIntImpl::sub_assign`, `Sub for LargeIntImpl::sub`, `Zero for LargeIntImpl::zero`, `Zero for LargeIntImpl::is_zero`, `TryFrom for LargeIntImpl::try_from`, `LargeInt for LargeIntImpl::to_arbitrary_integer`, `LargeInt for LargeIntImpl::num_bits`, `LargeInt for LargeIntImpl::one`, `LargeInt for LargeIntImpl::is_one`, `LargeInt for LargeIntImpl::try_into_u64`, `LargeInt for LargeIntImpl::try_into_u32`, `LargeInt for LargeIntImpl::from_hex`, `From for $name::from`
* in FixedInt, Rules: `AddAssign for LargeIntImpl::add_assign`, `Add for LargeIntImpl::add`
* in FieldText: `From for $name::from`, `From for $name::from`, `From for $name::from`, `From for $name::from`, `From for $name::from`, `FromStr for $name::from_str`, `fmt::LowerHex for $name::fmt`, `FieldElement for $name::from_str_radix`, `FieldElement for $name::checked_from`, `FieldElement for $name::modulus`, `FieldElement for $name::to_bytes_le`, `FieldElement for $name::from_bytes_le`, `FieldElement for $name::is_in_lower_half`, `fmt::Display for $name::fmt`
* not modelled: `From for $name::from`, `FieldElement for $name::known_field`, `FieldElement for $name::to_degree`, `FieldElement for $name::to_integer`, `FieldElement for $name::pow`, `FieldElement for $name::has_direct_repr`, `From for $name::from`, `std::ops::Add for $name::add`, `AddAssign for $name::add_assign`, `std::ops::Sub for $name::sub`, `SubAssign for $name::sub_assign`, `std::ops::Mul for $name::mul`, `std::ops::MulAssign for $name::mul_assign`, `std::ops::Div for $name::div`, `std::ops::Neg for $name::neg`, `Zero for $name::zero`, `Zero for $name::is_zero`, `One for $name::one`, `One for $name::is_one`

## number/src/plonky3_macros.rs (28 of 52)

* in FieldText: `$name::from_canonical_u32`, `FieldElement for $name::modulus`, `FieldElement for $name::to_bytes_le`, `FieldElement for $name::from_bytes_le`, `FieldElement for $name::from_str_radix`, `FieldElement for $name::checked_from`, `FieldElement for $name::is_in_lower_half`, `LowerHex for $name::fmt`, `From for $name::from`, `From for $name::from`, `From for $name::from`, `From for $name::from`, `FromStr for $name::from_str`
* in FieldText, Saved: `From for $name::from`
* in FixedInt: `From for $name::from`, `LargeInt for BBLargeInt::to_arbitrary_integer`, `LargeInt for BBLargeInt::num_bits`, `LargeInt for BBLargeInt::one`, `LargeInt for BBLargeInt::is_one`, `LargeInt for BBLargeInt::try_into_u64`, `LargeInt for BBLargeInt::try_into_u32`, `LargeInt for BBLargeInt::from_hex`, `From for BBLargeInt::from`, `From for BBLargeInt::from`, `Zero for BBLargeInt::zero`, `Zero for BBLargeInt::is_zero`, `LowerHex for BBLargeInt::fmt`, `Not for BBLargeInt::not`
* not modelled: `From for u32::from`, `$name::to_canonical_u32`, `$name::into_inner`, `$name::from_inner`, `FieldElement for $name::to_degree`, `FieldElement for $name::to_integer`, `FieldElement for $name::pow`, `FieldElement for $name::known_field`, `FieldElement for $name::has_direct_repr`, `From for $name::from`, `Zero for $name::zero`, `Zero for $name::is_zero`, `One for $name::one`, `One for $name::is_one`, `Neg for $name::neg`, `Add for $name::add`, `AddAssign for $name::add_assign`, `Sub for $name::sub`, `SubAssign for $name::sub_assign`, `Mul for $name::mul`, `MulAssign for $name::mul_assign`, `Div for $name::div`, `JsonSchema for $name::schema_name`, `JsonSchema for $name::json_schema`

## number/src/serialize.rs (2 of 7)

* in CsvTable: `write_polys_csv_file`, `read_polys_csv_file`
* not modelled: `buffered_write_file`, `ReadWrite for T::read`, `ReadWrite for T::write`, `ark_se`, `ark_de`

## number/src/traits.rs (1 of 5)

* in FieldText, Goldilocks: `FieldElement:::to_signed_integer`
* not modelled: `KnownField::field_size`, `Display for KnownField::fmt`, `FieldElement:::to_arbitrary_integer`, `int_from_hex_str`

## openvm-bus-interaction-handler/src/bitwise_lookup.rs (2 of 2)

* in OpenVm: `handle_bitwise_lookup`, `bitwise_lookup_pure_range_constraints`

## openvm-bus-interaction-handler/src/bus_map.rs (1 of 2)

* in OpenVm: `default_openvm_bus_map`
* not modelled: `Display for OpenVmBusType::fmt`

## openvm-bus-interaction-handler/src/lib.rs (7 of 8)

* in OpenVm: `OpenVmBusInteractionHandler::new`, `OpenVmBusInteractionHandler::tuple_range_checker_sizes`, `BusInteractionHandler for OpenVmBusInteractionHandler::handle_bus_interaction`, `byte_constraint`
* in OpenVm, RangeOptimizer: `IsBusStateful for OpenVmBusInteractionHandler::is_stateful`, `RangeConstraintHandler for OpenVmBusInteractionHandler::pure_range_constraints`, `RangeConstraintHandler for OpenVmBusInteractionHandler::batch_make_range_constraints`
* not modelled: `Default for OpenVmBusInteractionHandler::default`

## openvm-bus-interaction-handler/src/memory.rs (1 of 1)

* in OpenVm: `handle_memory`

## openvm-bus-interaction-handler/src/memory_bus_interaction.rs (1 of 6)

* in Memory: `MemoryBusInteraction::try_from_bus_interaction`
* not modelled: `IntoIterator for OpenVmAddress<T, V>::into_iter`, `MemoryBusInteraction::addr`, `MemoryBusInteraction::data`, `MemoryBusInteraction::timestamp_limbs`, `MemoryBusInteraction::op`

## openvm-bus-interaction-handler/src/tuple_range_checker.rs (3 of 4)

* in OpenVm: `TupleRangeCheckerHandler::tuple_range_checker_ranges`, `TupleRangeCheckerHandler::handle_bus_interaction`, `TupleRangeCheckerHandler::pure_range_constraints`
* not modelled: `TupleRangeCheckerHandler::new`

## openvm-bus-interaction-handler/src/variable_range_checker.rs (2 of 2)

* in OpenVm: `handle_variable_range_checker`, `variable_range_checker_pure_range_constraints`

## openvm-riscv/extensions/hints-circuit/src/executors.rs (4 of 4)

* in Hints: `PhantomSubExecutor for ReverseBytesSubEx::phantom_execute`, `PhantomSubExecutor for K256InverseFieldSubEx::phantom_execute`, `PhantomSubExecutor for K256InverseField10x26SubEx::phantom_execute`, `PhantomSubExecutor for K256SqrtField10x26SubEx::phantom_execute`

## openvm-riscv/extensions/hints-circuit/src/field10x26_k256.rs (23 of 28)

* in K256Field: `FieldElement10x26::from_bytes_unchecked`, `FieldElement10x26::from_bytes`, `FieldElement10x26::from_u64`, `FieldElement10x26::to_bytes`, `FieldElement10x26::add_modulus_correction`, `FieldElement10x26::subtract_modulus_approximation`, `FieldElement10x26::get_overflow`, `FieldElement10x26::normalize_weak`, `FieldElement10x26::normalize`, `FieldElement10x26::normalizes_to_zero`, `FieldElement10x26::is_zero`, `FieldElement10x26::is_odd`, `FieldElement10x26::max_magnitude`, `FieldElement10x26::negate`, `FieldElement10x26::add`, `FieldElement10x26::mul_single`, `FieldElement10x26::mul_inner`, `FieldElement10x26::mul`, `FieldElement10x26::square`, `FieldElement10x26::pow2k`, `FieldElement10x26::invert`, `FieldElement10x26::sqrt`, `ConditionallySelectable for FieldElement10x26::conditional_select`
* not modelled: `FieldBytesEncoding for U256::decode_field_bytes`, `FieldBytesEncoding for U256::encode_field_bytes`, `Default for FieldElement10x26::default`, `ConstantTimeEq for FieldElement10x26::ct_eq`, `Zeroize for FieldElement10x26::zeroize`

## openvm-riscv/extensions/hints-circuit/src/lib.rs (1 of 3)

* in Hints: `VmExecutionExtension for HintsExtension::extend_execution`
* not modelled: `VmCircuitExtension for HintsExtension::extend_circuit`, `VmProverExtension<E, RA, HintsExtension> for HintsProverExt::extend_prover`

## openvm-riscv/extensions/hints-guest/src/lib.rs (11 of 11)

* in Hints: `insn_reverse_bytes`, `insn_k256_inverse_field`, `insn_k256_inverse_field_10x26`, `insn_k256_sqrt_field_10x26`, `read_hint_u32`, `read_hint_buffer`, `hint_reverse_bytes`, `hint_k256_inverse_field`, `ensure_weakly_normalized_10x26`, `hint_k256_inverse_field_10x26`, `hint_k256_sqrt_field_10x26`

## openvm-riscv/extensions/hints-transpiler/src/lib.rs (1 of 1)

* in Hints: `TranspilerExtension for HintsTranspilerExtension::process_custom`

## openvm-riscv/src/isa/mod.rs (2 of 11)

* in Elf: `OpenVmISA for RiscvISA::get_jump_destinations`, `add_extra_targets`
* not modelled: `From for SpecializedExecutor<F, RiscvISA>::from`, `OpenVmISA for RiscvISA::branching_opcodes`, `OpenVmISA for RiscvISA::format`, `OpenVmISA for RiscvISA::allowed_opcodes`, `OpenVmISA for RiscvISA::create_original_chip_complex`, `OpenVmISA for RiscvISA::get_symbol_table`, `OpenVmISA for RiscvISA::create_dummy_airs`, `OpenVmISA for RiscvISA::create_dummy_chip_complex_cpu`, `OpenVmISA for RiscvISA::create_dummy_chip_complex_gpu`

## openvm-riscv/src/isa/opcode.rs (3 of 3)

* in Elf: `instruction_allowlist`, `branch_opcodes_bigint_set`, `branch_opcodes_set`

## openvm/src/customize_exe.rs (15 of 25)

* in Interpret: `From::from`, `ExecutionState for OpenVmExecutionState<'a, F, ISA>::pc`, `ExecutionState for OpenVmExecutionState<'a, F, ISA>::reg`, `ExecutionState for OpenVmExecutionState<'a, F, ISA>::value_limb`, `ExecutionState for OpenVmExecutionState<'a, F, ISA>::global_clk`
* in Compile: `Adapter for BabyBearOpenVmApcAdapter<'a, ISA>::apc_stats`, `Adapter for BabyBearOpenVmApcAdapter<'a, ISA>::is_allowed`, `Adapter for BabyBearOpenVmApcAdapter<'a, ISA>::is_branching`, `PcStep for Instr<F, ISA>::pc_step`, `compile_apcs_with_adapter`, `ApcCandidate::cost_before_opt`, `ApcCandidate::cost_after_opt`, `ApcCandidate::value_per_use`
* in Assemble, Compile: `compile_apcs`, `setup`
* not modelled: `Adapter for BabyBearOpenVmApcAdapter<'a, ISA>::into_field`, `Adapter for BabyBearOpenVmApcAdapter<'a, ISA>::from_field`, `From for Instr<F, ISA>::from`, `Clone for Instr<F, ISA>::clone`, `Display for Instr<F, ISA>::fmt`, `Instruction for Instr<F, ISA>::pc_lookup_row`, `OvmApcStats::new`, `ApcCandidate::create`, `ApcCandidate::inner`, `ApcCandidate::into_inner`

## openvm/src/empirical_constraints.rs (11 of 15)

* in Detection: `Trace::rows_by_pc`, `Trace::rows_sorted_by_time`, `detect_empirical_constraints`, `detect_empirical_constraints_from_input`, `take_complete_blocks`, `ConcreteBlock::equivalence_classes`, `ConstraintDetector::process_trace`, `ConstraintDetector::detect_column_ranges_by_pc`, `ConstraintDetector::detect_column_ranges`, `ConstraintDetector::generate_equivalence_classes_by_block`, `ConstraintDetector::get_blocks`
* not modelled: `Trace::take`, `ConstraintDetector::new`, `ConstraintDetector::is_basic_block_start`, `ConstraintDetector::finalize`

## openvm/src/extraction_utils.rs (23 of 36)

* in Extraction: `InstructionHandler for OriginalAirs<F, ISA>::get_instruction_air_and_id`, `InstructionHandler for OriginalAirs<F, ISA>::get_instruction_air_stats`, `OriginalAirs::insert_opcode`, `OriginalAirs::get_instruction_metrics`, `OriginalAirs::allow_list`, `OriginalAirs::with_degree_bound`, `Deref for ChipComplexGuard::deref`, `OriginalVmConfig::new`, `OriginalVmConfig::config_mut`, `OriginalVmConfig::chip_complex`, `OriginalVmConfig::airs`, `OriginalVmConfig::bus_map`, `get_columns`, `get_air_metrics`
* in TraceGen: `record_arena_dimension_by_air_name_per_apc_call`
* in Assemble: `OriginalVmConfig::chip_inventory_air_metrics`, `Add for AirWidths::add`, `Sub for AirWidths::sub`, `AirWidths::total`, `AirWidthsDiff::new`, `AirWidthsDiff::columns_saved`, `Add for AirWidthsDiff::add`, `Sum for AirWidthsDiff::sum`
* not modelled: `InstructionHandler for OriginalAirs<F, ISA>::degree_bound`, `OriginalAirs::airs_by_name`, `OriginalAirs::get_air_machine`, `VmCircuitConfig for OriginalVmConfig::create_airs`, `VmExecutionConfig for OriginalVmConfig::create_executors`, `AsRef for OriginalVmConfig::as_ref`, `AsMut for OriginalVmConfig::as_mut`, `OriginalVmConfig::config`, `get_name`, `get_constraints`, `symbolic_builder`, `Sum for AirWidths::sum`, `std::fmt::Display for AirWidths::fmt`

## openvm/src/lib.rs (18 of 23)

* in Assemble: `VmBuilder for SpecializedConfigGpuBuilder::create_chip_complex`, `VmBuilder for SpecializedConfigCpuBuilder::create_chip_complex`, `extend_prover`, `VmProverExtension::extend_prover`, `get_periphery_bus_ids`, `TranspilerConfig for SpecializedConfig::transpiler`, `InitFileGenerator for SpecializedConfig::generate_init_file_contents`, `InitFileGenerator for SpecializedConfig::write_to_init_file`, `AsRef for SpecializedConfig::as_ref`, `AsMut for SpecializedConfig::as_mut`, `From for SpecializedExecutor<F, ISA>::from`, `VmCircuitConfig for SpecializedConfig::create_airs`, `VmExecutionConfig for SpecializedConfig::create_executors`, `Add for AirMetrics::add`, `Sum for AirMetrics::sum`, `AirMetrics::total_width`, `CompiledProgram::air_metrics`
* in Assemble, Extraction: `From for AirStats::from`
* not modelled: `default_powdr_openvm_config`, `format_fe`, `SpecializedConfig::new`, `execute`, `execution_profile_from_guest`

## openvm/src/powdr_extension/chip.rs (4 of 6)

* in Assemble: `PowdrChipCpu::new`, `PowdrChipGpu::new`
* in Assemble, Periphery: `PowdrAir::new`
* in Periphery: `Air for PowdrAir::eval`
* not modelled: `ColumnsAir for PowdrAir::columns`, `BaseAir for PowdrAir::width`

## openvm/src/powdr_extension/executor/mod.rs (24 of 26)

* in TraceGen: `OriginalArenas::ensure_initialized`, `InitializedOriginalArenas::new`, `InitializedOriginalArenas::arena_mut_by_index`, `InitializedOriginalArenas::real_arena_mut_by_index`, `InitializedOriginalArenas::dummy_arena_mut_by_index`, `InitializedOriginalArenas::take_real_arena`
* in Interpret: `InterpreterExecutor for PowdrExecutor::pre_compute_size`, `InterpreterExecutor for PowdrExecutor::pre_compute`, `InterpreterExecutor for PowdrExecutor::handler`, `InterpreterMeteredExecutor for PowdrExecutor::metered_pre_compute_size`, `InterpreterMeteredExecutor for PowdrExecutor::metered_pre_compute`, `InterpreterMeteredExecutor for PowdrExecutor::metered_handler`, `AotExecutor for PowdrExecutor::is_aot_supported`, `AotExecutor for PowdrExecutor::generate_x86_asm`, `AotMeteredExecutor for PowdrExecutor::is_aot_metered_supported`, `AotMeteredExecutor for PowdrExecutor::generate_x86_metered_asm`, `PowdrExecutor::pre_compute_impl`, `PowdrExecutor::pre_compute_impl`, `execute_e12_impl`, `execute_e1_impl`, `execute_e2_impl`, `PreflightExecutor<BabyBear, DenseRecordArena> for PowdrExecutor::execute`
* in Interpret, TraceGen: `PreflightExecutor::execute`
* in Assemble, Interpret, TraceGen: `PowdrExecutor::new`
* not modelled: `PreflightExecutor::get_opcode_name`, `PreflightExecutor<BabyBear, DenseRecordArena> for PowdrExecutor::get_opcode_name`

## openvm/src/powdr_extension/opcode.rs (3 of 3)

* in Assemble: `LocalOpcode for PowdrOpcode::from_usize`, `LocalOpcode for PowdrOpcode::local_usize`, `LocalOpcode for PowdrOpcode::global_opcode`

## openvm/src/powdr_extension/trace_generator/cpu/mod.rs (1 of 6)

* in Periphery, TraceGen: `PowdrTraceGeneratorCpu::generate_witness`
* not modelled: `TraceTrait for SharedCpuTrace::width`, `TraceTrait for SharedCpuTrace::values`, `From for SharedCpuTrace::from`, `Chip::generate_proving_ctx`, `PowdrTraceGeneratorCpu::new`

## openvm/src/powdr_extension/trace_generator/cpu/periphery.rs (1 of 5)

* in Periphery: `SharedPeripheryChipsCpu::apply`
* not modelled: `PowdrPeripheryInstancesCpu::new`, `extend_execution`, `VmCircuitExtension::extend_circuit`, `VmProverExtension::extend_prover`

## openvm/src/powdr_extension/trace_generator/cuda/mod.rs (5 of 7)

* in Gpu: `emit_expr`, `emit_expr_span`, `compile_derived_to_gpu`, `compile_bus_to_gpu`, `PowdrTraceGeneratorGpu::try_generate_witness`
* not modelled: `PowdrTraceGeneratorGpu::new`, `Chip::generate_proving_ctx`

## openvm/src/powdr_extension/vm.rs (3 of 18)

* in Assemble: `PowdrPrecompile::new`, `VmExecutionExtension for PowdrExtension<BabyBear, ISA>::extend_execution`, `VmCircuitExtension for PowdrExtension, ISA>::extend_circuit`
* not modelled: `PowdrExtension::new`, `openvm_circuit::arch::AnyEnum for PowdrExtensionExecutor::as_any_kind`, `openvm_circuit::arch::AnyEnum for PowdrExtensionExecutor::as_any_kind_mut`, `openvm_circuit::arch::InterpreterExecutor::pre_compute_size`, `openvm_circuit::arch::InterpreterExecutor::pre_compute`, `openvm_circuit::arch::InterpreterExecutor::handler`, `openvm_circuit::arch::InterpreterMeteredExecutor::metered_pre_compute_size`, `openvm_circuit::arch::InterpreterMeteredExecutor::metered_pre_compute`, `openvm_circuit::arch::InterpreterMeteredExecutor::metered_handler`, `openvm_circuit::arch::AotExecutor for PowdrExtensionExecutor::is_aot_supported`, `openvm_circuit::arch::AotExecutor for PowdrExtensionExecutor::generate_x86_asm`, `openvm_circuit::arch::AotMeteredExecutor::is_aot_metered_supported`, `openvm_circuit::arch::AotMeteredExecutor::generate_x86_metered_asm`, `openvm_circuit::arch::PreflightExecutor::execute`, `openvm_circuit::arch::PreflightExecutor::get_opcode_name`

## openvm/src/program.rs (3 of 7)

* in Compile: `OriginalCompiledProgram::collect_basic_blocks`, `Program<Instr<F, ISA>> for Prog<'a, F>::base_pc`, `Program<Instr<F, ISA>> for Prog<'a, F>::instructions`
* not modelled: `OriginalCompiledProgram::new`, `OriginalCompiledProgram::compiled_program`, `From<&'a OpenVmProgram for Prog<'a, F>::from`, `Program<Instr<F, ISA>> for Prog<'a, F>::length`

## openvm/src/utils.rs (3 of 7)

* in Extraction: `TryFrom for AlgebraicReference::try_from`, `symbolic_to_algebraic`, `openvm_bus_interaction_to_powdr`
* not modelled: `fmt::Display for OpenVmReference::fmt`, `get_pil`, `format_bus_interaction`, `format_expr`

## riscv-elf/src/debug_info.rs (12 of 22)

* in Symbols: `DebugInfo::new`, `filter_locations_in_text`, `find_first_idx`, `SymbolTable::new`, `SymbolTable::default_label`, `SymbolTable::try_get_one`, `SymbolTable::get_one`, `SymbolTable::get_all`, `SymbolTable::try_get_one_or_preceding`, `read_symbol_table`, `dedup_names`, `dedup_names_pass`
* not modelled: `read_source_locations`, `read_unit_symbols`, `load_dwarf_sections`, `find_attr`, `as_str`, `get_static_var_address`, `get_function_start`, `SymbolTable::table`, `SymbolTable::into_table`, `SymbolTable::from_table`

## riscv-elf/src/lib.rs (18 of 37)

* in Elf: `load_elf_from_buffer`, `pie_relocate_data_sections`, `static_relocate_data_sections`, `AddressMap::is_in_data_section`, `AddressMap::is_in_text_section`, `AddressMap::get_section_of_addr`, `load_data_section`, `UnimpOrInstruction::len`, `Default for HighLevelArgs::default`, `InstructionLifter::composed_immediate`, `TwoOrOneMapper<MaybeInstruction, HighLevelInsn> for InstructionLifter::try_map_two`, `TwoOrOneMapper<MaybeInstruction, HighLevelInsn> for InstructionLifter::map_one`, `lift_instructions`, `RiscVInstructionIterator::new`, `Iterator for RiscVInstructionIterator::next`, `to_32bit_equivalent`, `try_map_two_by_two`
* in Symbols: `RiscVProgram for ElfProgram::take_executable_statements`
* not modelled: `load_elf`, `ElfProgram::debug_info`, `ElfProgram::text_labels`, `RiscVProgram for ElfProgram::take_source_files_info`, `RiscVProgram for ElfProgram::take_initial_mem`, `RiscVProgram for ElfProgram::prover_data_bounds`, `RiscVProgram for ElfProgram::start_function`, `InstructionArgs for WrappedArgs::l`, `InstructionArgs for WrappedArgs::r`, `InstructionArgs for WrappedArgs::rri`, `InstructionArgs for WrappedArgs::rrr`, `InstructionArgs for WrappedArgs::rrr2`, `InstructionArgs for WrappedArgs::ri`, `InstructionArgs for WrappedArgs::rr`, `InstructionArgs for WrappedArgs::rrl`, `InstructionArgs for WrappedArgs::rl`, `InstructionArgs for WrappedArgs::rro`, `InstructionArgs for WrappedArgs::empty`, `search_text_addrs`

## riscv-elf/src/rv64.rs (2 of 3)

* in Rv64: `compute_jumpdests_from_buffer`, `scan_for_jump_targets`
* not modelled: `compute_jumpdests`

## syscalls/src/lib.rs (6 of 6)

* in Elf: `Syscall::name`, `Syscall::arity`, `core::fmt::Display for Syscall::fmt`, `core::str::FromStr for Syscall::from_str`, `From for u8::from`, `core::convert::TryFrom for Syscall::try_from`

## Files without modelled functions

* autoprecompiles/src/execution_profile.rs (7)
* autoprecompiles/src/export.rs (19): debug output
* autoprecompiles/src/optimistic/config.rs (1): environment variables
* autoprecompiles/src/stats_logger.rs (7): debug output
* cli-openvm-riscv/src/main.rs (16): command line
* constraint-solver/src/effect.rs (4): data types and conversions; only used with numbers
* constraint-solver/src/rule_based_optimizer/tests.rs (18): tests
* constraint-solver/src/rule_based_optimizer/types.rs (1): type aliases
* constraint-solver/src/test_utils.rs (4): tests
* isa-utils/src/lib.rs (2): type declarations
* number/src/expression_convertible.rs (3): trait for conversion
* openvm-riscv/guest-ecc-manual/src/main.rs (1): guest programs
* openvm-riscv/guest-ecc-powdr-affine-hint/src/main.rs (1): guest programs
* openvm-riscv/guest-ecc-projective/src/main.rs (1): guest programs
* openvm-riscv/guest-ecrecover-manual/src/main.rs (1): guest programs
* openvm-riscv/guest-ecrecover/src/main.rs (1): guest programs
* openvm-riscv/guest-hints-test/src/main.rs (1): guest programs
* openvm-riscv/guest-keccak-manual-precompile/src/main.rs (1): guest programs
* openvm-riscv/guest-keccak/src/main.rs (1): guest programs
* openvm-riscv/guest-matmul/src/main.rs (4): guest programs
* openvm-riscv/guest-pairing-manual-precompile/src/main.rs (1): guest programs
* openvm-riscv/guest-pairing/src/main.rs (1): guest programs
* openvm-riscv/guest-sha256-manual-precompile/src/main.rs (1): guest programs
* openvm-riscv/guest-sha256/src/main.rs (1): guest programs
* openvm-riscv/guest-u256-manual-precompile/src/main.rs (4): guest programs
* openvm-riscv/guest-u256/src/main.rs (4): guest programs
* openvm-riscv/guest/src/main.rs (1): guest programs
* openvm-riscv/src/isa/instruction_formatter.rs (2): output for people
* openvm-riscv/src/isa/trace_generator/common.rs (1): wiring of OpenVM chips
* openvm-riscv/src/isa/trace_generator/cpu.rs (1): wiring of OpenVM chips
* openvm-riscv/src/isa/trace_generator/cuda.rs (1): wiring of OpenVM chips
* openvm-riscv/src/lib.rs (9)
* openvm/build.rs (1): build script
* openvm/src/air_builder.rs (2): wiring of the symbolic builder of OpenVM
* openvm/src/cuda_abi.rs (3)
* openvm/src/powdr_extension/trace_generator/cuda/periphery.rs (4)
* openvm/src/test_utils.rs (3): tests
* openvm/src/trace_generation.rs (4)
* riscv-elf/src/bin/elf-labels.rs (3): command line
* riscv-types/src/lib.rs (5): trait declarations
