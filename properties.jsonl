{"id": "C01", "title": "Range constraint constructors are exact", "statement": "A range constraint built from a value, from a [min,max] range (possibly wrapping around the modulus), from a bit mask or from a maximal bit index allows exactly the values described: the single value, the (cyclic) interval, the values whose set bits lie in the mask, the values below 2^(k+1); the unconstrained one allows every field element.", "quantifier": "every prime field, every value, every min/max pair including min > max, every mask", "why_tests_cant": "The claim is about every field element and every mask; wrap-around intervals and masks larger than the modulus are the rare corners.", "anchors": ["constraint-solver/src/range_constraint.rs: from_value, from_range, from_mask, from_max_bit, unconstrained, allows_value"]}
{"id": "C02", "title": "Range constraint of a sum is sound", "statement": "If x is allowed by a and y is allowed by b then x + y (field addition) is allowed by a.combine_sum(b).", "quantifier": "every prime field, every pair of range constraints, every allowed x and y", "why_tests_cant": "Masks and wrap-around ranges interact; failing inputs are a measure-zero corner (carry bits, ranges crossing the modulus).", "anchors": ["constraint-solver/src/range_constraint.rs: combine_sum, from_range, range_width"]}
{"id": "C03", "title": "Range constraint of a product and of a square is sound", "statement": "If x is allowed by a and y is allowed by b then x * y is allowed by a.combine_product(b); and x * x is allowed by a.square().", "quantifier": "every prime field, every pair of range constraints, every allowed x and y", "why_tests_cant": "Overflow decisions depend on exact bit lengths and on the modulus; sampling cannot cover all thresholds.", "anchors": ["constraint-solver/src/range_constraint.rs: combine_product, square"]}
{"id": "C04", "title": "Conjunction, disjunction and disjointness of range constraints are sound", "statement": "Every value allowed by both a and b is allowed by a.conjunction(b); every value allowed by a or by b is allowed by a.disjunction(b); if a.is_disjoint(b) then no value is allowed by both.", "quantifier": "every prime field, every pair of range constraints (wrapping or not), every value", "why_tests_cant": "Interval intersection on a cycle has many case splits (two wrapping intervals may intersect in two pieces).", "anchors": ["constraint-solver/src/range_constraint.rs: conjunction, disjunction, is_disjoint, interval_intersection, shifted_interval"]}
{"id": "C05", "title": "Scaling a range constraint is sound", "statement": "If x is allowed by a then f * x is allowed by a.multiple(f) for every factor f, and -x is allowed by -a.", "quantifier": "every prime field, every range constraint, every factor (lower and upper half, powers of two, zero), every allowed value", "why_tests_cant": "Negative factors flip the interval and power-of-two factors shift the mask; thresholds sit at the modulus.", "anchors": ["constraint-solver/src/range_constraint.rs: multiple, range_multiple, Neg"]}
{"id": "C06", "title": "Range constraint size and single-value queries are right", "statement": "range_width is the number of elements of the (cyclic) interval; try_to_single_value returns v only if v is the only value the interval admits or the mask forces it; allowed_values lists exactly the allowed values, each once.", "quantifier": "every prime field, every range constraint", "why_tests_cant": "Off-by-one at wrap-around and at the full range is only visible for specific min/max pairs.", "anchors": ["constraint-solver/src/range_constraint.rs: range_width, size_estimate, try_to_single_value, allowed_values"]}
{"id": "C07", "title": "Expression arithmetic means field arithmetic", "statement": "For grouped expressions built by addition, subtraction, negation, multiplication, scaling by a constant and conversion from numbers and variables, evaluating the result under any variable assignment equals the field operation applied to the evaluations of the operands.", "quantifier": "every prime field, every expression of any size and nesting, every assignment", "why_tests_cant": "Cancellation of quadratic terms, zero-coefficient removal and the sum-size cut-off only trigger on particular shapes.", "anchors": ["constraint-solver/src/grouped_expression.rs: AddAssign, Sub, Neg, Mul, combine_removing_zeros, remove_quadratic_terms_adding_to_zero"]}
{"id": "C08", "title": "Substitution means evaluation in the updated assignment", "statement": "Substituting a variable by a constant, by a known value or by an expression yields an expression that evaluates, under any assignment, to the original evaluated with that variable set to the evaluation of the substitute; afterwards the variable no longer occurs (unless the substitute contains it).", "quantifier": "every expression, every variable, every substitute, every assignment", "why_tests_cant": "Substitution restructures quadratic terms into linear ones or constants in place; arbitrary nesting matters.", "anchors": ["constraint-solver/src/grouped_expression.rs: substitute_simple, substitute_by_known, substitute_by_known_multi, substitute_by_unknown"]}
{"id": "C09", "title": "Expressions keep their structural invariant", "statement": "No expression reachable through the public API stores a linear term with coefficient zero or a quadratic term with a constant factor, so is_zero / try_to_number / is_affine answer correctly for the represented form.", "quantifier": "every sequence of expression-building operations", "why_tests_cant": "It is an invariant over all operation histories.", "anchors": ["constraint-solver/src/grouped_expression.rs: GroupedExpression, add_assign, mul, substitute_by_known, substitute_by_unknown, is_affine, try_to_number"]}
{"id": "C10", "title": "Range constraint of an expression is sound", "statement": "If every variable's value is allowed by the range constraint the provider gives for it, then the value of the expression is allowed by expr.range_constraint(provider).", "quantifier": "every expression of any nesting, every provider, every assignment within the provider's ranges", "why_tests_cant": "Recursion through quadratic terms combines all range operations.", "anchors": ["constraint-solver/src/grouped_expression.rs: range_constraint"]}
{"id": "C11", "title": "Degree reports an upper bound that substitution respects", "statement": "degree() bounds the polynomial degree: degree of a sum is at most the maximum, of a product at most the sum; substituting v by an affine expression does not raise the degree; degree_of_variable(v) is zero exactly when v does not occur.", "quantifier": "every expression, every variable", "why_tests_cant": "Holds for all shapes; degree bounds are what keeps the circuit provable.", "anchors": ["constraint-solver/src/grouped_expression.rs: degree, degree_of_variable", "constraint-solver/src/inliner.rs: DegreeBound"]}
{"id": "C12", "title": "Factorisation preserves the zero set", "statement": "The product of to_factors(e) is zero under an assignment exactly if e is zero.", "quantifier": "every expression, every assignment, every prime field", "why_tests_cant": "Normalisation of constants in nested products is shape dependent.", "anchors": ["constraint-solver/src/grouped_expression.rs: to_factors, try_as_single_product"]}
{"id": "C13", "title": "Solving an algebraic constraint yields only consequences", "statement": "Every effect returned by solve(e = 0, ranges) (assignment, range constraint) holds in every assignment that is within the known ranges and satisfies e = 0.", "quantifier": "every constraint, every range provider, every satisfying assignment", "why_tests_cant": "Soundness ranges over all field elements; a wrong effect silently changes the circuit.", "anchors": ["constraint-solver/src/algebraic_constraint/solve.rs: solve, solve_affine, solve_quadratic, transfer_constraints, combine_to_conditional_assignment, combine_range_constraints"]}
{"id": "C14", "title": "A reported contradiction is real", "statement": "If solve returns an error then no assignment within the known ranges satisfies the constraint.", "quantifier": "every constraint, every range provider", "why_tests_cant": "A false contradiction aborts compilation of a satisfiable block only on specific inputs.", "anchors": ["constraint-solver/src/algebraic_constraint/solve.rs: solve, solve_affine, solve_quadratic", "constraint-solver/src/algebraic_constraint/mod.rs"]}
{"id": "C15", "title": "Solving for a variable returns an equivalent definition", "statement": "If try_solve_for(v) on e = 0 returns s then v does not occur in s and, for every assignment, e = 0 holds exactly if v equals s; likewise try_solve_for_expr.", "quantifier": "every expression, every variable, every assignment", "why_tests_cant": "Requires the coefficient to be invertible for every assignment of the remaining variables.", "anchors": ["constraint-solver/src/algebraic_constraint/solve.rs: try_solve_for, try_solve_for_expr, try_to_simple_equivalence"]}
{"id": "C16", "title": "Bus interaction handling is sound relative to the bus", "statement": "If the handler's answer covers every tuple the bus admits, every range constraint obtained from handling a bus interaction whose fields are expressions holds for each variable in every assignment in which the interaction is admissible, and an error is returned only if there is no such assignment.", "quantifier": "every bus interaction, every sound handler, every assignment", "why_tests_cant": "Quantifies over all handlers and all tuples.", "anchors": ["constraint-solver/src/constraint_system.rs: BusInteraction::solve", "constraint-solver/src/bus_interaction_handler.rs: handle_bus_interaction_checked"]}
{"id": "C17", "title": "Constraint splitting preserves solutions", "statement": "If a constraint is split into several constraints then, for every assignment within the known ranges, the original constraint holds exactly if all parts hold.", "quantifier": "every affine-in-components constraint, every provider, every in-range assignment", "why_tests_cant": "Depends on absence of wrap-around and on divisibility modulo the smallest coefficient; counterexamples are isolated.", "anchors": ["constraint-solver/src/solver/constraint_splitter.rs: try_split_constraint"]}
{"id": "C18", "title": "Boolean extraction is a conservative extension", "statement": "Replacing a quadratic constraint by an affine one with a fresh boolean variable preserves the set of solutions projected to the original variables.", "quantifier": "every quadratic constraint of the recognised form, every assignment", "why_tests_cant": "Existential over the fresh variable, for all assignments.", "anchors": ["constraint-solver/src/solver/boolean_extractor.rs: BooleanExtractor::try_extract_boolean"]}
{"id": "C19", "title": "Linearisation is a conservative extension", "statement": "Replacing non-linear sub-expressions by fresh variables with defining constraints preserves the set of solutions projected to the original variables, and equal sub-expressions get the same variable.", "quantifier": "every sequence of constraints, every assignment", "why_tests_cant": "Quantifies over all constraint histories and all assignments.", "anchors": ["constraint-solver/src/solver/linearizer.rs: Linearizer"]}
{"id": "C20", "title": "Exhaustive search derives only consequences", "statement": "Assignments and range constraints concluded by brute force over a small set of variables hold in every solution of the system within the known ranges; a contradiction is reported only if there is no such solution.", "quantifier": "every system, every chosen variable set, every handler", "why_tests_cant": "Quantifies over all systems and all solutions.", "anchors": ["constraint-solver/src/solver/exhaustive_search.rs", "constraint-solver/src/utils.rs: get_all_possible_assignments"]}
{"id": "C21", "title": "The solver's accumulated knowledge is always implied", "statement": "After any sequence of add-constraint, add-range-constraint and solve operations, every reported assignment and every range constraint holds in every solution of the constraints added.", "quantifier": "every history of solver operations", "why_tests_cant": "History-quantified invariant.", "anchors": ["constraint-solver/src/solver/base.rs: BaseSolver", "constraint-solver/src/solver.rs"]}
{"id": "C22", "title": "Inlining preserves solutions and the degree bound", "statement": "After replacing a variable by its definition and dropping the defining constraint, a valuation of the remaining variables extends to a solution of the original system exactly if it solves the new one; no constraint exceeds the degree bound unless it did before.", "quantifier": "every system, every admissible inlining order", "why_tests_cant": "Quantifies over systems and substitution orders.", "anchors": ["constraint-solver/src/inliner.rs: replace_constrained_witness_columns, substitution_would_not_violate_degree_bound"]}
{"id": "C23", "title": "Indexed constraint system stays consistent with its index", "statement": "After any history of adding, removing and substituting, looking up the constraints that reference a variable returns all constraints in which it occurs, and substitution through the index gives the same system as substituting everywhere.", "quantifier": "every history of operations", "why_tests_cant": "History-quantified invariant.", "anchors": ["constraint-solver/src/indexed_constraint_system.rs: IndexedConstraintSystem, IndexedConstraintSystemWithQueue, ConstraintSystemQueue"]}
{"id": "C24", "title": "Reachability and system splitting are exact", "statement": "The variables reported reachable are exactly the least set containing the start variables and closed under sharing a constraint (not crossing blocking variables); splitting a system yields parts on disjoint variables whose conjunction is the original for all constraints that mention a variable.", "quantifier": "every system, every start and blocking set", "why_tests_cant": "Graph closure over unbounded systems.", "anchors": ["constraint-solver/src/reachability.rs: reachable_variables", "constraint-solver/src/system_splitter.rs: split_system"]}
{"id": "C25", "title": "Datalog rules derive only valid facts", "statement": "Every fact the rule system derives (expression is zero, range constraint on an expression or variable, assignment, variable equivalence) holds in every solution of the system within the known ranges.", "quantifier": "every system over a field whose integer type can hold the sum of two field elements (all shipped fields but Goldilocks, for which C27 shows a failure), every derivation of any depth, every solution", "why_tests_cant": "Derivations are unbounded; facts must hold for all solutions.", "anchors": ["constraint-solver/src/rule_based_optimizer/rules.rs"]}
{"id": "C26", "title": "Combining products with non-negative factors preserves solutions within the known ranges", "statement": "Replacing x*a = 0 and x*b = 0 by x*(a+b) = 0 when a and b are known non-negative without overflow leaves the set of solutions within the known ranges unchanged. It can add solutions if a range is known only because of a constraint that is being removed (a concrete system shows this).", "quantifier": "every system, every expression triple, every derivation of the range constraints", "why_tests_cant": "Failure needs the range constraint to be implied only by the constraints being removed.", "anchors": ["constraint-solver/src/rule_based_optimizer/rules.rs: ReplaceAlgebraicConstraintsBy (541-553)"]}
{"id": "C27", "title": "Zero-sum rule is sound exactly for the fields whose integers do not wrap around", "statement": "If head + tail = 0 and the rule's range test succeeds, then head and tail are both zero, for each field type shipped with the library except Goldilocks. For Goldilocks the sum of the maxima wraps around in the 64-bit integer type and the rule claims that nonzero expressions are zero (a concrete system shows this).", "quantifier": "every supported field and integer width, every pair of range constraints", "why_tests_cant": "Depends on machine integer overflow at the modulus.", "anchors": ["constraint-solver/src/rule_based_optimizer/rules.rs: EntailsZeroHeadAndTail (571-589)", "number/src/goldilocks.rs: GLLargeInt"]}
{"id": "C28", "title": "Merging single-use inverse variables is a conservative extension", "statement": "Replacing two once-occurring variables v1, v2 in x*v1 + y*v2 = r by a single fresh one over the combined coefficient preserves the solutions projected to the other variables. The computation method recorded for the fresh variable gives a value for which the replacement holds.", "quantifier": "every expression and every in-range assignment", "why_tests_cant": "Existential over fresh variables, universal over assignments.", "anchors": ["constraint-solver/src/rule_based_optimizer/rules.rs: 324-408"]}
{"id": "C29", "title": "Equal-to-zero gadget replacement preserves solutions", "statement": "The ten-constraint comparison pattern, together with the range check of the difference, implies the replacement pair result*sum = 0 and result + inv*sum = 1 for some inv; conversely every solution of the pair becomes one of the ten constraints by recomputing markers and difference. Without the range check of the difference the first direction fails. If the result is right, the computation method recorded for inv gives a value for which the pair holds.", "quantifier": "every system in which no two comparisons share a result, every assignment within the known ranges", "why_tests_cant": "Universal over field assignments in the byte ranges.", "anchors": ["constraint-solver/src/rule_based_optimizer/rules.rs: 412-537"]}
{"id": "C30", "title": "Batch replacement changes exactly the requested constraints within the degree bound", "statement": "Applying a batch of replacements removes only constraints claimed by an accepted replacement, adds exactly their replacements, never raises the degree beyond the bound, and preserves solutions if each replacement does.", "quantifier": "every system and every list of replacements in any order", "why_tests_cant": "Quantifies over batches with conflicts and duplicates.", "anchors": ["constraint-solver/src/rule_based_optimizer/driver.rs: batch_replace_algebraic_constraints, is_replacement_within_degree_bound"]}
{"id": "C31", "title": "OpenVM bus handlers are sound", "statement": "For every tuple that the bitwise lookup, variable range checker, tuple range checker or memory bus admits and that lies in the given input ranges, the tuple lies in the ranges the handler returns.", "quantifier": "every tuple and every input range constraint, every bus", "why_tests_cant": "The tuple space is the whole field to the power of the payload length.", "anchors": ["openvm-bus-interaction-handler/src/bitwise_lookup.rs", "openvm-bus-interaction-handler/src/variable_range_checker.rs", "openvm-bus-interaction-handler/src/tuple_range_checker.rs", "openvm-bus-interaction-handler/src/memory.rs", "openvm-bus-interaction-handler/src/lib.rs: handle_bus_interaction"]}
{"id": "C32", "title": "Pure range constraints characterise the lookup exactly", "statement": "When a bus interaction is reported to be a pure range constraint, an interaction that is sent is admissible exactly if every listed expression is allowed by its listed range constraint. The exception is an interaction with the variable range checker with a constant bit count above 25: it is reported to be a satisfiable range constraint although the table contains no such tuple.", "quantifier": "every payload and every assignment", "why_tests_cant": "An if-and-only-if over the field.", "anchors": ["openvm-bus-interaction-handler/src/bitwise_lookup.rs: bitwise_lookup_pure_range_constraints", "openvm-bus-interaction-handler/src/variable_range_checker.rs: variable_range_checker_pure_range_constraints", "openvm-bus-interaction-handler/src/tuple_range_checker.rs"]}
{"id": "C33", "title": "Re-made range checks enforce exactly the requested ranges", "statement": "If batch_make_range_constraints succeeds, the returned bus interactions never relax a request: if they are all admissible, every requested expression is allowed by its requested range constraint. The converse holds too unless a range of exactly 26 to 29 bits is requested, for which the call succeeds although the interaction it returns is never admissible.", "quantifier": "every list of requested range constraints, every assignment", "why_tests_cant": "Pairing of byte checks with other checks depends on list lengths.", "anchors": ["openvm-bus-interaction-handler/src/lib.rs: batch_make_range_constraints", "autoprecompiles/src/range_constraint_optimizer.rs: utils"]}
{"id": "C34", "title": "Range constraint optimisation preserves the system", "statement": "Replacing the pure range-check interactions of a system by a re-made set, dropping those implied by the rest and turning bit checks into polynomial constraints leaves the set of solutions unchanged, and the new polynomial constraints are within the degree bound.", "quantifier": "every system, every exact handler", "why_tests_cant": "Universal over systems and assignments.", "anchors": ["autoprecompiles/src/range_constraint_optimizer.rs: optimize_range_constraints"]}
{"id": "C35", "title": "Memory optimisation preserves the memory bus balance and valid executions", "statement": "When the memory optimisation removes pairs of memory bus interactions and adds constraints, then for every assignment that satisfies the constraints of the result the balance (sum of multiplicities) of every bus and every message is the same as before. In every valid execution, in which the interactions of the block in order set contents only where there is none and fetch only contents that are there, the added constraints hold, and the remaining interactions lead from the same memory to the same memory. Constraints are only added, interactions are only removed, only on the memory bus. The solver handed on knows only what holds in all valid executions.", "quantifier": "every block, every assignment, any number of memory interactions", "why_tests_cant": "Depends on address aliasing over all assignments.", "anchors": ["autoprecompiles/src/memory_optimizer.rs: optimize_memory, redundant_memory_interactions_indices"]}
{"id": "C36", "title": "Expression conversion preserves meaning", "statement": "Converting a symbolic expression to a grouped expression and back preserves its value under every assignment, and stripping the outer sign of a constraint preserves its zero set.", "quantifier": "every expression tree, every assignment", "why_tests_cant": "Universal over trees.", "anchors": ["autoprecompiles/src/expression_conversion.rs: algebraic_to_grouped_expression, grouped_expression_to_algebraic", "autoprecompiles/src/symbolic_machine.rs: SymbolicConstraint::from"]}
{"id": "C37", "title": "Guarding makes padding rows harmless and keeps active rows unchanged", "statement": "After adding guards: the all-zero row satisfies every constraint; in a row with is_valid = 1 the constraints and multiplicities are those of the input machine; in a row with is_valid = 0 every bus multiplicity is zero.", "quantifier": "every machine, every row", "why_tests_cant": "Universal over rows and machine shapes.", "anchors": ["autoprecompiles/src/lib.rs: add_guards, add_guards_constraint, satisfies_zero_witness", "autoprecompiles/src/powdr.rs: make_bool, make_refs_zero"]}
{"id": "C38", "title": "Optimistic constraints are evaluated exactly", "statement": "Stepping the evaluator over the states of an execution succeeds up to step n exactly if every constraint whose latest referenced step is at most n holds when read directly off the states; a value needed later is always available.", "quantifier": "every constraint list, every execution of any length", "why_tests_cant": "Quantifies over executions; look-back values must have been stored in time.", "anchors": ["autoprecompiles/src/execution/evaluator.rs: OptimisticConstraints::from_constraints, OptimisticConstraintEvaluator, StepOptimisticConstraintEvaluator"]}
{"id": "C39", "title": "Extracted calls never overlap", "statement": "In every history, the calls returned by extract_calls so far are runs of their blocks (as many steps as cycles, snapshots of both ends, all optimistic constraints hold) in pairwise disjoint parts of the trace. Nothing is returned while a candidate is in progress; a discarded candidate overlapped one that is preferred (priority, length, age), so the best-ranked candidate is always returned. A candidate is confirmed exactly if all its constraints hold. The choice is not maximal: a candidate can be discarded because of one that is discarded itself.", "quantifier": "every set of candidates, every history of steps", "why_tests_cant": "Quantifies over all candidate sets and orders.", "anchors": ["autoprecompiles/src/execution/candidates.rs: ApcCandidates, extract_calls"]}
{"id": "C40", "title": "Partition operations compute exactly the common equivalences", "statement": "Two elements are equivalent in the intersection of a non-empty list of partitions exactly if they are equivalent in every one, and the parallel intersection gives the same result as the sequential one for any number of partitions and any iteration order of the hash maps (both panic on an empty list). Combining partitions panics exactly if they share an element, and otherwise keeps exactly the equivalences of both; renaming panics exactly if two elements get the same name, and otherwise keeps exactly the equivalences. A partition built from classes panics exactly if an element is listed twice; writing the classes and reading them back preserves it, and equality of partitions means the same equivalence.", "quantifier": "every list of partitions of any size", "why_tests_cant": "Universal over partitions; class ids depend on hash iteration order.", "anchors": ["autoprecompiles/src/equivalence_classes.rs: Partition"]}
{"id": "C41", "title": "Greedy selection respects its limits", "statement": "Greedy selection ends without a panic, whichever entry of highest priority the queue returns. The selected candidates are different, their total cost is within the budget, and there are at most as many as requested (but one if zero are requested; the caller handles this case and returns none). If costs are positive and the initial counts are not below the number of uses in the execution, each choice is greedy: among the candidates that fit the remaining budget, none has more value per cost in what remains of the execution after removing the blocks selected before. If fewer are selected than requested, every other candidate does not fit or is not used any more.", "quantifier": "every candidate list, every execution profile, every budget", "why_tests_cant": "Priority queue re-insertion loop over unbounded inputs.", "anchors": ["autoprecompiles/src/pgo/cell/selection.rs: select_blocks_greedy, count_and_update_execution"]}
{"id": "C42", "title": "Counting block runs conserves executed blocks", "statement": "Counting and removing occurrences of a non-empty sub-sequence returns occurrences that do not overlap, from left to right; their number is the largest possible one. The run is the returned pieces with the sub-sequence between them, no piece contains the sub-sequence, and the total length of the pieces plus count times the length is the original length. The same holds for an execution of runs with multiplicities, and removing a block never increases the number of uses of another one. For an empty sub-sequence the search does not end.", "quantifier": "every run, every sub-sequence", "why_tests_cant": "Universal over lists.", "anchors": ["autoprecompiles/src/pgo/cell/selection.rs: count_and_update_run", "autoprecompiles/src/blocks/mod.rs: find_non_overlapping"]}
{"id": "C43", "title": "Basic blocks partition the program", "statement": "Basic block detection returns non-empty runs of consecutive instructions with their program counters that contain every instruction of the program exactly once, in order. Two neighbouring instructions are in the same block exactly if the first does not branch, the second is not a jump target and both are allowed in a precompile. So every jump target starts a block, a branch is the last instruction of its block, and an instruction that is not allowed has a block of its own. Different blocks have different start addresses.", "quantifier": "every program, every jump target set", "why_tests_cant": "Universal over programs.", "anchors": ["autoprecompiles/src/blocks/detection.rs: collect_basic_blocks"]}
{"id": "C44", "title": "Superblock generation counts real executions", "statement": "If the execution is a sequence of basic blocks, the returned runs are the longest sequences of blocks with more than one instruction, each with the number of its occurrences; an execution that starts at a block, follows the program order except for jumps of branching instructions to jump targets, and does not stop inside a block, is such a sequence. A superblock is returned exactly if it is a contiguous non-empty sequence, no longer than the limit, of blocks of a run that has few enough instructions and is used often enough, where its count is the largest number of occurrences in the runs that do not overlap. The result does not depend on how the work is distributed to threads.", "quantifier": "every set of runs, every maximum length", "why_tests_cant": "Universal over execution histories.", "anchors": ["autoprecompiles/src/blocks/mod.rs: detect_superblocks, count_superblocks_in_run, count_superblocks_in_execution, detect_execution_bb_runs"]}
{"id": "C45", "title": "Goldilocks arithmetic is arithmetic modulo p", "statement": "Addition, subtraction, negation, multiplication, power and inversion on canonical 64-bit representations return the canonical representation of the result modulo 2^64 - 2^32 + 1, without overflow in any intermediate step.", "quantifier": "every pair of canonical 64-bit values (2^128 inputs)", "why_tests_cant": "The borrow and double-carry paths occur with probability about 2^-32.", "anchors": ["number/src/goldilocks.rs: add, sub, mul, reduce128, neg, pow, try_inverse"]}
{"id": "C46", "title": "Column reference serialisation round-trips", "statement": "Deserialising the serialised form of a column reference returns the same name and id for every name, including names containing the separator.", "quantifier": "every name, every id", "why_tests_cant": "Universal over strings.", "anchors": ["autoprecompiles/src/expression.rs: AlgebraicReference serialize/deserialize"]}
{"id": "C47", "title": "Column ids stay unique", "statement": "Columns of different instructions are mapped to disjoint id ranges, ids issued later are fresh, and the recorded substitution maps each original column to its id.", "quantifier": "every number of instructions and every machine", "why_tests_cant": "Universal over machines and histories.", "anchors": ["autoprecompiles/src/powdr.rs: globalize_references", "autoprecompiles/src/lib.rs: ColumnAllocator, Apc::new"]}
{"id": "C48", "title": "Removing free variables preserves the remaining solutions", "statement": "Dropping constraints that can be satisfied through a variable occurring nowhere else keeps every solution and the messages on stateful buses, and every solution of the rest extends to a solution of the full system with the same messages, provided that each dropped bus interaction is admissible for some value of its free variable whatever the other values are. This holds for a field `k * x + e` with constant `k != 0`, but the code also drops interactions with a field like `y * x`, for which a solution with `y = 0` may not extend.", "quantifier": "every system and every assignment of the remaining variables", "why_tests_cant": "Existential over the dropped variable, universal over the rest.", "anchors": ["autoprecompiles/src/constraint_optimizer.rs: remove_free_variables, can_always_be_satisfied_via_free_variable"]}
{"id": "C49", "title": "Removing disconnected columns preserves the connected part", "statement": "If the dropped part of the system is satisfiable on its own, a valuation of the kept variables solves the kept system exactly if it extends to a solution of the full one, with the same messages on stateful buses. What is kept are exactly the stateful bus interactions and the constraints connected to one.", "quantifier": "every system, every satisfiable disconnected part", "why_tests_cant": "Universal over systems.", "anchors": ["autoprecompiles/src/constraint_optimizer.rs: remove_disconnected_columns"]}
{"id": "C50", "title": "Removing redundant constraints preserves solutions", "statement": "Removing constraints whose factors include all factors of another constraint, duplicate factors, trivial constraints and duplicate stateless bus interactions leaves the set of solutions unchanged.", "quantifier": "every system, every assignment", "why_tests_cant": "Mutual redundancy must not delete both copies.", "anchors": ["autoprecompiles/src/constraint_optimizer.rs: remove_redundant_constraints, remove_duplicate_factors, remove_trivial_constraints, remove_equal_bus_interactions"]}
{"id": "C51", "title": "Simplification by exhaustive search preserves solutions", "statement": "Replacing a sub-expression by one it always equals, together with the added equality, leaves the set of solutions unchanged.", "quantifier": "every system, every assignment", "why_tests_cant": "Universal over systems and assignments.", "anchors": ["autoprecompiles/src/constraint_optimizer.rs: simplify_constraints_using_exhaustive_search, SimplifiedExpression::update"]}
{"id": "C52", "title": "Low-degree replacement of lookups preserves solutions", "statement": "Replacing a stateless lookup by output = f(inputs) plus range checks on the inputs keeps every solution, for any sound handler, and adds none if the handler decides the lookup (it answers a concrete input with exactly the admissible output, or with an error if there is none); messages on stateful buses are the same and new constraints are within the degree bound. For the OpenVM handlers the solutions are exactly the same if the solver knows that operands of bitwise lookups are bytes. Otherwise a constant operand such as 65535, for which the lookup is never admissible, is not rejected and the replacement adds solutions. If an operand is not a constant but is known to have only one value, several candidate functions fit and the optimizer panics (concrete systems show both).", "quantifier": "every lookup, every small input domain, every assignment", "why_tests_cant": "Universal over handlers and tables.", "anchors": ["autoprecompiles/src/low_degree_bus_interaction_optimizer.rs: try_replace_bus_interaction, find_low_degree_function, concrete_input_output_pairs"]}
{"id": "C53", "title": "Empirical constraints combine conservatively", "statement": "Combining statistics of several executions panics exactly if their debug information disagrees. Otherwise every recorded column range is inside the combined one, whose bounds were recorded; an equality of cells is kept exactly if it is in all the statistics that have the block; counts are added. The statistics of a superblock are those of its blocks at shifted instruction indices; a threshold keeps exactly what was executed often enough; filtering the statistics of a block keeps a range exactly if the predicate holds for the column at all instructions with that program counter and an equality if it holds for both cells (a second filtering tests other columns); the generated constraints hold exactly if all constant columns have their value and cells recorded as equal are equal.", "quantifier": "every list of execution statistics in any order", "why_tests_cant": "Universal over histories.", "anchors": ["autoprecompiles/src/empirical_constraints.rs: combine_with, for_block, apply_pc_threshold, filtered, ConstraintGenerator"]}
{"id": "C54", "title": "Trace assembly reads each original row exactly once", "statement": "Every call executes the original instructions in order with the same effect as without the precompile, and adds one record per instruction to the arena of its chip. For every call and every instruction of the precompile, the row slice read from the original chip's trace is the row that this call's instruction produced; slices of different (call, instruction) pairs on the same chip are disjoint and together cover the trace.", "quantifier": "every number of calls, every instruction sequence", "why_tests_cant": "Index arithmetic over unbounded sizes.", "anchors": ["autoprecompiles/src/trace_handler.rs: generate_trace"]}
{"id": "C55", "title": "Execution bus cancellation preserves the balance", "statement": "Removing the intermediate execution-bus sends and receives succeeds exactly if there are at least two execution-bus interactions and each send has as many fields as the following receive. It keeps the first receive and the last send and all other interactions; the rows of the result are exactly the rows of the machine in which each receive gets the previously sent state, and on those rows every tuple on every bus has the same balance, for machines made of receive/send pairs with cancelling multiplicities (such as those generated for a block). With an odd number of interactions the last state is sent once too often.", "quantifier": "every block length, every assignment", "why_tests_cant": "Telescoping over unbounded block length.", "anchors": ["autoprecompiles/src/optimizer.rs: optimize_exec_bus"]}
{"id": "C56", "title": "Item database identifiers are stable and invertible", "statement": "After any sequence of insertions, looking up an identifier returns the item it was issued for, inserting an item again returns the same identifier, and different items get different identifiers.", "quantifier": "every history of insertions", "why_tests_cant": "History-quantified.", "anchors": ["constraint-solver/src/rule_based_optimizer/item_db.rs: ItemDB"]}
{"id": "C57", "title": "The rule-based optimizer preserves solutions", "statement": "After any number of rounds of the rule-based optimizer, with the requested actions applied in any order, new variables, and batches of replacements: a solution of the original system within the given ranges, in which the new variables have the values of their computation methods, solves the result and satisfies all returned assignments, provided that the bus interaction handler is sound and comparisons to zero found by the rules have the right result. All derived variables of the result have the values of their computation methods. A solution of the result that satisfies the returned assignments solves the original system if no batch of replacements adds solutions. Under the returned assignments the messages on all buses are the same. Every solution of the result extends to a solution of the original system by changing only assigned variables and those changed by undoing a batch.", "quantifier": "every system, every sound handler, every number of rounds, every order of actions, every assignment", "why_tests_cant": "History-quantified: the actions of one round are computed before any of them is applied.", "anchors": ["constraint-solver/src/rule_based_optimizer/driver.rs: rule_based_optimization"]}
{"id": "C58", "title": "The block machine is the conjunction of its instructions", "statement": "A row satisfies the machine generated for a block exactly if its parts at the recorded columns satisfy the machines of the instructions, with each instruction executed once and the pc lookup equal to the instruction's row of the program; the messages are those of the instructions in order. The machine exists exactly if each instruction has dense column ids, two interactions with the execution bus and one pc lookup of the right width. Computed columns of the instructions are taken over unchanged, with their ids not shifted.", "quantifier": "every block, every field conversion, every row", "why_tests_cant": "Universal over blocks and rows.", "anchors": ["autoprecompiles/src/symbolic_machine_generator.rs: statements_to_symbolic_machine, exec_receive", "autoprecompiles/src/powdr.rs: globalize_references"]}
{"id": "C59", "title": "Field type conversion preserves a machine", "statement": "Converting all numbers of a machine by a field homomorphism maps satisfying rows to satisfying rows (exactly, if it is injective) and messages to messages.", "quantifier": "every machine, every homomorphism, every row", "why_tests_cant": "Universal over machines.", "anchors": ["autoprecompiles/src/symbolic_machine_generator.rs: convert_machine_field_type, convert_expression"]}
{"id": "C60", "title": "Using the results of the solver preserves solutions", "statement": "Substituting the assignments found by the solver and replacing bus fields with a single possible value by that value (adding the equality): a solution the solver was made for satisfies all assignments and, if it solves the system, solves the result; every solution of the result extends, by changing only assigned variables, to a solution of the original system. Messages on stateful buses are the same.", "quantifier": "every system, every history of the solver, every choice of iteration orders, every assignment", "why_tests_cant": "Depends on everything the solver has derived.", "anchors": ["autoprecompiles/src/constraint_optimizer.rs: solver_based_optimization, try_replace_by_number"]}
{"id": "C61", "title": "Replacing bus fields by constants preserves solutions", "statement": "Replacing each field of a bus interaction the solver knows to be constant by the constant, adding the equality, keeps the solutions the solver was made for; each solution of the result solves the original system with the same messages.", "quantifier": "every system, every history of the solver, every assignment", "why_tests_cant": "Depends on everything the solver has derived.", "anchors": ["autoprecompiles/src/constraint_optimizer.rs: substitute_bus_interaction_fields"]}
{"id": "C62", "title": "The optimizer as a whole preserves executions", "statement": "For every run of the optimizer (any number of rounds, any order of iteration): every execution of the original system (a solution whose memory operations lead from one memory to another) extends, by computing the new columns introduced by the rules with their computation methods, to an execution of the optimized system with the same memory before and after and the same messages on all other stateful buses, in which all derived columns have the values of their computation methods; comparisons to zero found by the rules must have the right result. Every solution of the optimized system comes from an assignment that satisfies all constraints and lookups of the original system and has the same balance for every message on every stateful bus, if what the passes assume holds: batches of replacements add no solutions, dropped lookups can be satisfied by a variable that occurs nowhere else, disconnected parts can be satisfied, and the handler decides the lookups that are replaced by functions.", "quantifier": "every system, every run, every sound handler, every assignment", "why_tests_cant": "Composition of all passes over unbounded rounds.", "anchors": ["autoprecompiles/src/optimizer.rs: optimize", "autoprecompiles/src/constraint_optimizer.rs: optimize_constraints"]}
{"id": "C63", "title": "Detected empirical constraints describe the recorded executions", "statement": "For inputs whose recorded traces, in the order of time, follow the blocks of the program: detection ends with statistics in which a block occurs exactly if it was executed; two cells of a block are equal exactly if they had the same value in every run of the block of every input, no matter where the segments end; the counts are the numbers of executions; every column of an executed instruction has a range whose bounds it took and below (above) which it was in at most one percent of the executions. It panics if the maximal number of segments is zero, or if no block starts in the rows at hand when the trace is cut.", "quantifier": "every program, every list of inputs, every cut into segments, every limit on the number of segments", "why_tests_cant": "The result must not depend on how a trace is cut into segments or on the order of the rows inside the chips.", "anchors": ["openvm/src/empirical_constraints.rs: detect_empirical_constraints, ConstraintDetector, take_complete_blocks, detect_column_ranges_by_pc, get_blocks, generate_equivalence_classes_by_block"]}
{"id": "C64", "title": "The trace of a precompile is what its rows require", "statement": "After a segment with any number of calls, the matrix of a precompile has one row for each call, in order, with the values of the original rows in the copied columns and the computed values in the others, followed by zero rows up to a power of two; its columns are those of the machine in increasing order of ids. The messages replayed are those of the machine on these rows. If the original rows satisfy the optimized machine, all rows, including the padding, satisfy the machine with guards, and the padding sends nothing. A precompile that is not called has an empty matrix. A computed column that does not occur in the machine makes trace generation panic.", "quantifier": "every number of calls, every instruction sequence, every machine, every state", "why_tests_cant": "Universal over executions; index arithmetic over unbounded sizes.", "anchors": ["openvm/src/powdr_extension/trace_generator/cpu/mod.rs: generate_witness", "autoprecompiles/src/trace_handler.rs: generate_trace", "openvm/src/powdr_extension/executor/mod.rs: PowdrExecutor::execute, InitializedOriginalArenas"]}
{"id": "C65", "title": "A generated precompile has the same effect as its block", "statement": "For every successful generation of a precompile from a (super)block, with or without empirical constraints: given rows of the original instructions that are an execution of the block and satisfy the empirical constraints, there is a row of the precompile that copies the recorded columns from these rows, computes the other columns by their computation methods, satisfies the constraints with admissible messages, leads from the same memory to the same memory and has the same balance on every other stateful bus (in particular on the execution bus). Conversely, a row that satisfies the precompile either is inactive and sends nothing, or there are rows of the original instructions that are an execution of the block, satisfy the empirical constraints, have admissible lookups and the same balance on every stateful bus, under the assumptions of the optimizer (C62). The columns copied from original rows are columns of the precompile, each from one place. If the precompile is called any number of times in a segment, each time with rows that are an execution of the block, and all its columns can be filled (C64), trace generation does not panic and gives a matrix with such a row for each call, followed by rows that satisfy the precompile and send nothing.", "quantifier": "every block, every statistics, every run of the optimizer, every row", "why_tests_cant": "Composition of all steps of the generation for unbounded blocks.", "anchors": ["autoprecompiles/src/lib.rs: build, add_guards, Apc::new", "autoprecompiles/src/optimizer.rs: optimize, optimize_exec_bus", "autoprecompiles/src/symbolic_machine_generator.rs: statements_to_symbolic_machine", "autoprecompiles/src/empirical_constraints.rs: ConstraintGenerator"]}
{"id": "C66", "title": "Optimistic constraints of a superblock check the path taken", "statement": "The optimistic constraints generated for a superblock say that each of its basic blocks is entered at its start; generation panics exactly if the start of a block is not a value of the machine. The evaluator accepts a run of states exactly if this is so. If execution goes straight on inside of basic blocks and no block is empty, it accepts exactly the runs in which the program counters are those of the superblock, in order; every call of a precompile found in a trace replaces exactly the instructions of its superblock.", "quantifier": "every superblock, every run of states, every trace and set of precompiles", "why_tests_cant": "Universal over executions and blocks.", "anchors": ["autoprecompiles/src/lib.rs: superblock_pc_constraints, build", "autoprecompiles/src/execution/ast.rs", "autoprecompiles/src/execution/candidates.rs"]}
{"id": "C67", "title": "Execution constraints accept exactly the runs that satisfy the empirical constraints", "statement": "Turning equality constraints into execution constraints panics exactly if a column has no literal or a number has more than 32 bits. If all literals are right for a run, the evaluator accepts it exactly if the equality constraints hold for the values of the columns. If the empirical constraints of a block are restricted to columns with literals, and recorded values and program counters have 32 bits, there is no panic, and a run is accepted exactly if the rows of the instructions satisfy the restricted empirical constraints.", "quantifier": "every list of constraints, every literals, every block and statistics, every run", "why_tests_cant": "Universal over executions and statistics.", "anchors": ["autoprecompiles/src/optimistic/execution_constraint_generator.rs: generate_execution_constraints", "autoprecompiles/src/lib.rs: build"]}
{"id": "C68", "title": "Optimistic literals name the value of their column", "statement": "The literals found for a block are exactly those of the limbs of memory accesses of the optimized instructions with a constant address, all of whose limbs are columns: in the state before the instruction for a read, after it for a write. For every execution of the block whose states agree with the memory, the literal of a column of the instruction it was found in has the value of the column, if no two reads and no two writes of an optimized instruction can be at the same address. The same holds for all columns if the limbs found are columns of the instruction; columns that the optimizer introduces in an instruction other than the last one are not recognised, since the first one has the id of the first column of the next instruction.", "quantifier": "every block, every run of the optimizer, every execution", "why_tests_cant": "Universal over executions; depends on the optimizer.", "anchors": ["autoprecompiles/src/optimistic/execution_literals.rs: optimistic_literals, try_extract_concrete_memory_access, generate_limb_mapping"]}
{"id": "C69", "title": "The lookups of a precompile are balanced", "statement": "The AIR of a precompile, on a row of the right width, has as constraints and interactions the values of the constraints and bus interactions of its machine, with the columns in increasing order of ids; a row of another width makes it panic. After a segment with any number of calls whose rows satisfy the machine and send only messages that the buses allow: trace generation does not panic, all constraints of the AIR are zero on all rows of the matrix including the padding, and the multiplicity of every entry of every lookup table grows by exactly the sum of the multiplicities with which the AIR sends it.", "quantifier": "every machine, every number of calls, every instruction sequence, every table entry", "why_tests_cant": "Universal over executions; a single missed or doubled count makes a proof impossible.", "anchors": ["openvm/src/powdr_extension/chip.rs: PowdrAir", "openvm/src/powdr_extension/trace_generator/cpu/periphery.rs: SharedPeripheryChipsCpu::apply", "openvm/src/powdr_extension/trace_generator/cpu/mod.rs: generate_witness", "autoprecompiles/src/expression.rs: AlgebraicEvaluator, RowEvaluator, WitnessEvaluator"]}
{"id": "C70", "title": "Precompiles stand for the code they replace", "statement": "Compiling a program without missing instructions, with superblocks of one block only: at most the requested number of precompiles is chosen; the program keeps its instructions, and the k-th precompile gets opcode 0x10ff + k at the first instruction of a basic block that is exactly the instructions it was generated for: at least two, all of them allowed, none but the last one branching and none but the first one a destination of a jump. No two precompiles share code. A step of execution with precompiles is one or more steps of the original program, and every state that the original program reaches at an instruction not allowed in precompiles (as at its end) is reached. Without a profile the longest blocks are chosen first, with instruction profile those with the most executed instructions (if the products have 32 bits), in the order of the program if equal; the limit of columns is kept if it is not below the number of columns of the other chips, otherwise there is practically no limit. A superblock of several blocks makes setup panic; missing instructions shift the blocks after them.", "quantifier": "every program, every configuration and profile, every outcome of the generation of precompiles, every execution", "why_tests_cant": "Universal over programs and executions; a precompile at the wrong place changes the program that is proved.", "anchors": ["openvm/src/customize_exe.rs: compile_apcs, compile_apcs_with_adapter, setup", "openvm/src/program.rs: OriginalCompiledProgram, Prog", "autoprecompiles/src/adapter.rs: filter_blocks_and_create_apcs_with_pgo", "autoprecompiles/src/pgo/instruction.rs", "autoprecompiles/src/pgo/none.rs", "autoprecompiles/src/pgo/cell/mod.rs"]}
{"id": "C71", "title": "Hints about the field of secp256k1", "statement": "For every element of magnitude at most 8 (ten limbs, any of its representations) at the address in the register of the instruction: the inverse hint gives the guest the normalized limbs of its inverse modulo the prime (zero for zero), unchanged by the masks of the guest; the square root hint says whether it is a square and gives a root of it, or of three times it if it is not, and never panics. No operation overflows and no assertion fails. The host's root can have 27 bits in the third limb: the guest receives the root itself exactly if that limb has 26 bits, and otherwise a number that is smaller by 2^78 and not a root (unless the root is 2^77); this happens to the square 338398. Products, sums, negatives, small multiples, normalization and the encoding as bytes are those of the field, up to the stated magnitudes. The hint for bytes gives the 32 bytes of the inverse of their value, zeros for multiples of the prime; the reversing hint gives the same in the virtual machine and outside of it. Exactly the words with the opcode and function codes of a hint are translated, to an instruction that has an executor and reads the register of the word.", "quantifier": "every memory, every register, every element and representation up to the magnitude, every instruction word", "why_tests_cant": "The domain has 2^256 elements with many representations each; carries are rare events (one in 2^16 for the lost bit).", "anchors": ["openvm-riscv/extensions/hints-circuit/src/field10x26_k256.rs: FieldElement10x26", "openvm-riscv/extensions/hints-circuit/src/executors.rs: K256InverseField10x26SubEx, K256SqrtField10x26SubEx, K256InverseFieldSubEx, ReverseBytesSubEx", "openvm-riscv/extensions/hints-guest/src/lib.rs: hint_k256_inverse_field_10x26, hint_k256_sqrt_field_10x26, ensure_weakly_normalized_10x26", "openvm-riscv/extensions/hints-transpiler/src/lib.rs: process_custom"]}
{"id": "C72", "title": "Bytecode for the GPU has the value of the expression", "statement": "The bytecode of an expression can be made if and only if its columns are columns of the matrix. Wherever it is in the bytecode, and if the expression does not need more than 16 values at a time and the matrix has at most 2^32 cells, the device evaluates it to the value of the expression on the row. If it needs more values, the kernel stops. On larger matrices offsets are reduced to 32 bits: with 2^20 rows, column 4096 is read as column 0.", "quantifier": "every expression, every bytecode before and after it, every matrix and row", "why_tests_cant": "Universal over expressions; the limits are reached only by unusual ones.", "anchors": ["openvm/src/powdr_extension/trace_generator/cuda/mod.rs: emit_expr, emit_expr_span, OpCode", "openvm/cuda/src/expr_eval.cuh: eval_expr, eval_arg", "openvm/src/cuda_abi.rs: ExprSpan"]}
{"id": "C73", "title": "The GPU fills the same matrix as the CPU", "statement": "If the CPU generates a witness for at least one call, and the chips of the original instructions give the GPU the same matrices: what is sent to the device can be made, and for every order in which the AIRs are visited, every order in which the threads make their steps, and up to 2^32 cells and instructions of bytecode, the kernels do not stop and the matrix is that of the CPU: copied cells, computed columns and padding rows. This needs that expressions do not need more than 16 values at a time and that no column is copied from two places; the latter holds for every generated precompile.", "quantifier": "every machine, every number of calls, every record, every schedule of the threads", "why_tests_cant": "Universal over schedules; no GPU is available in tests.", "anchors": ["openvm/src/powdr_extension/trace_generator/cuda/mod.rs: PowdrTraceGeneratorGpu::try_generate_witness, compile_derived_to_gpu", "openvm/cuda/src/apc_tracegen.cu: apc_tracegen_kernel, apc_apply_derived_expr_kernel", "openvm/src/cuda_abi.rs: apc_tracegen, apc_apply_derived_expr"]}
{"id": "C74", "title": "The GPU counts the same lookups as the CPU", "statement": "If in addition all messages of the CPU are ones the buses allow, the table of ranges has a bin for every value of up to the maximal number of bits and the tables have less than 2^32 entries: the threads that apply the lookups do not stop, and for every order of their atomic increments, if the counters on the device agree modulo 2^32 with those of the CPU before, they agree afterwards, and all other counters keep their values. Without a tuple range checker or without a bitwise lookup the GPU panics, although the CPU does not need them.", "quantifier": "every machine, every number of calls, every schedule of the threads, every table entry", "why_tests_cant": "Universal over schedules and table entries.", "anchors": ["openvm/src/powdr_extension/trace_generator/cuda/mod.rs: compile_bus_to_gpu, PowdrTraceGeneratorGpu::try_generate_witness", "openvm/cuda/src/apc_apply_bus.cu: apc_apply_bus_kernel", "openvm/src/cuda_abi.rs: apc_apply_bus"]}
{"id": "C75", "title": "Every jump of a RISC-V program goes to a known destination", "statement": "If a 32-bit ELF file loads (segments at different addresses, decoder with operands according to the formats): the entry point is a label; after any jump or branch with a fixed offset, in any executable segment and any state, the machine is at the next instruction or at a label; after a call through auipc and jalr (register not 0, even destination) it is at a label; all addresses of code in lifted instructions and in the initial memory, and all those that dynamic relocations write, are labels. Two instructions at an address with a relocation load an address of code only if it is a label. A loaded constant is taken for an address only if it comes from auipc, or from lui at an address with a relocation of its upper part. Words of the data that static relocations relocate and that are addresses of code are labels. The opcodes on which blocks end and those that precompiles may cover are exactly the branches, jumps and the listed classes of OpenVM. An address counts as code exactly if its segment is executable, where the address one past the end of a segment still counts as in it. The destinations of OpenVM are exactly the labels and, for each branch on big integers, its address plus its operand as a number below the characteristic: the destination if the offset is not negative, but for negative offsets the destination plus the characteristic, so that the destination itself can be missing. A label that is the address of an instruction starts a basic block.", "quantifier": "every file, every decoder, every state of the machine, every program of OpenVM", "why_tests_cant": "Universal over programs; a missed destination lets a precompile cover code that is entered in the middle.", "anchors": ["riscv-elf/src/lib.rs: load_elf_from_buffer, AddressMap, InstructionLifter, lift_instructions, pie_relocate_data_sections, static_relocate_data_sections", "openvm-riscv/src/isa/mod.rs: get_jump_destinations, add_extra_targets", "openvm-riscv/src/isa/opcode.rs"]}
{"id": "C76", "title": "Lifted instructions do what the machine code does", "statement": "If a file loads: wherever a lifted instruction begins, executing it has the effect of one or of two steps of the machine, for every state and every meaning of the instructions that are not changed; after a tail call the scratch register 6 may differ. This is for code that loads an address of code through one register and calls even addresses through a register other than 0. If an address of code is loaded through two registers, the register that should hold it keeps its old value. At every label that is the address of an instruction a lifted instruction begins, unless the instruction is the second part of a loaded address, a call, a load or a system call. A compressed instruction becomes an instruction with the same effect and of size 2. The instruction at an address is decoded from the two or four bytes of the segment there, the least significant first. A number stands for a system call exactly if it is in the table.", "quantifier": "every file, every decoder, every state, every instruction", "why_tests_cant": "Universal over programs and states.", "anchors": ["riscv-elf/src/lib.rs: InstructionLifter::composed_immediate, InstructionLifter::try_map_two, InstructionLifter::map_one, try_map_two_by_two, to_32bit_equivalent, RiscVInstructionIterator", "syscalls/src/lib.rs: Syscall"]}
{"id": "C77", "title": "Destinations of jumps in 64-bit programs", "statement": "If they can be computed, every executable segment is a sequence of 32-bit instructions, and the destinations are exactly the entry point, the symbols other than 0 in executable segments and the destinations of jumps and branches with a fixed offset. The destination of a call through auipc and jalr is not found. Instruction k of a segment is decoded from its bytes 4k to 4k+3, the least significant first, and the base is the lowest address of an executable segment.", "quantifier": "every 64-bit file, every decoder with operands according to the formats", "why_tests_cant": "Universal over programs.", "anchors": ["riscv-elf/src/rv64.rs: compute_jumpdests_from_buffer, scan_for_jump_targets"]}
{"id": "C78", "title": "The initial memory is the content of the file", "statement": "If a file loads whose data segments do not overlap: in a statically linked file, every word of a data segment has the value it has in the file (little-endian, the last word filled with zeros), where addresses of code keep their value, and all other words are zero. In a dynamically linked file, a word with a relocation is the addend of the last one, and the others are as before.", "quantifier": "every file and every address", "why_tests_cant": "Universal over files.", "anchors": ["riscv-elf/src/lib.rs: load_data_section, pie_relocate_data_sections, static_relocate_data_sections"]}
{"id": "C79", "title": "The machine of an instruction is its AIR", "statement": "An AIR of the virtual machine can be turned into a machine exactly if it only looks at the current row of its main trace (and has one name per column, if it has names); one that also looks at the next row or at selectors is reported as unsupported, and all others stop the program. The machine has the same columns, for every assignment it is satisfied by the same rows and sends the same messages, and the reported numbers of columns, constraints and interactions are those of the AIR. The machine given for an allowed opcode is that of the first AIR, in the order of the allowed opcodes, that has the name of the AIR of the opcode: its own AIR if different AIRs have different names, but otherwise possibly another one. The opcodes with a machine are exactly the allowed ones with an executor. The cost a precompile is compared with is the sum over the instructions of its block. The map of buses gives every bus the type it was registered with and exists exactly if no bus is registered with two types.", "quantifier": "every AIR, every assignment, every inventory of executors and AIRs, every list of opcodes, every block", "why_tests_cant": "Universal over AIRs and assignments.", "anchors": ["openvm/src/utils.rs: symbolic_to_algebraic, openvm_bus_interaction_to_powdr, get_pil", "openvm/src/extraction_utils.rs: OriginalAirs, OriginalVmConfig::airs, OriginalVmConfig::bus_map, get_columns, get_air_metrics", "autoprecompiles/src/expression.rs: try_convert", "autoprecompiles/src/evaluation.rs: AirStats, evaluate_apc", "autoprecompiles/src/bus_map.rs: BusMap::from_id_type_pairs"]}
{"id": "C80", "title": "The cached chip complex belongs to a configuration", "statement": "After any sequence of clones, changes through config_mut and requests, a request for the chip complex is answered, and with the complex made from the present configuration of one of the clones. If there are no clones, or all have the same configuration, it is the one made from the configuration asked about. Otherwise it need not be: after a clone is changed and asked, the original answers with the complex of the clone.", "quantifier": "every sequence of operations on any number of clones, every function that makes a complex", "why_tests_cant": "Universal over histories.", "anchors": ["openvm/src/extraction_utils.rs: OriginalVmConfig::new, OriginalVmConfig::config_mut, OriginalVmConfig::chip_complex"]}
{"id": "C81", "title": "Values known at run time are simplified without changing them", "statement": "For symbolic values with range annotations: if the annotations of the operands allow their values, then sums, differences, negations and products have the values they should have, and so do quotients and inverses if the divisor is not zero, and the annotations of all parts of the result allow their values. Operations on numbers give numbers; only a division by the number 0 panics. What is said to be known (a number, a range, that the value is 0, 1, -1 or not 0) is right. A substitution does not panic, has the value of the expression with the value of the substitution for the symbol, reports a change exactly if the symbol occurs, and removes the symbol if the substitution does not have it. Renaming symbols succeeds exactly if all have a new name, and keeps the value. Conversion to another kind of expression does not panic and keeps the value, and succeeds if there is no division.", "quantifier": "every expression, every assignment of the symbols, every prime, every target of a conversion", "why_tests_cant": "Universal over expressions and values.", "anchors": ["constraint-solver/src/symbolic_expression.rs: SymbolicExpression", "constraint-solver/src/runtime_constant.rs: RuntimeConstant"]}
{"id": "C82", "title": "Names of addresses are different", "statement": "The symbols of a file are its functions and variables with a name. Making their names different ends after finitely many passes; then no name occurs twice, every name is that of a symbol at the same address with the address appended zero or more times, every symbol is there, and a name that no symbol at another address has or can get is not changed, while one that symbols at two addresses have is changed for both. A lookup gives the first name at the address, in the order of names, or none exactly if there is no symbol; the list of labels has all names at the address, or a default name. No label belongs to two addresses, except if a symbol is called like the default name of an address without symbols. The preceding symbol is the nearest one that is not later, with the distance; addresses with more than 32 bits are a panic.", "quantifier": "every symbol table, every address", "why_tests_cant": "Universal over symbol tables; names that clash only after an address is appended are rare.", "anchors": ["riscv-elf/src/debug_info.rs: SymbolTable, read_symbol_table, dedup_names, dedup_names_pass"]}
{"id": "C83", "title": "Statements of a program are in order", "statement": "If segments do not overlap and the binary search is correct, the locations that are kept are those in a segment (of code or data) and those after the end of the last one. Listing the statements of a program with at least one instruction does not panic exactly if every location is inside of an instruction or after the last, and every label is the address of an instruction or after the last. Then the list has, for each instruction in order: all names of its address if it has a label, the locations in it, and the instruction; and at the end the locations and names after the last instruction.", "quantifier": "every list of segments, locations, labels and instructions, every correct search", "why_tests_cant": "Universal over programs.", "anchors": ["riscv-elf/src/debug_info.rs: filter_locations_in_text, find_first_idx", "riscv-elf/src/lib.rs: take_executable_statements"]}
{"id": "C84", "title": "Saved precompiles are read back unchanged", "statement": "Saving an expression or a machine as JSON and reading it again gives the same expression or machine, with the ids and the names of its columns, whatever characters the names have, if the ids have 64 bits. Different expressions are saved differently, and a saved form denotes one value, that of the expression. The saved form of a grouped expression denotes its value; reading it gives an expression with the same values. A saved constraint system whose bus ids are constants is read as a machine with the same constraints, bus interactions and derived columns. Numbers that are not below the characteristic make the reader of 31-bit fields panic or fail, while for Goldilocks every 64-bit number is stored as it is.", "quantifier": "every expression, machine, constraint system, name, field of up to 64 bits, assignment", "why_tests_cant": "Universal over expressions, names and values.", "anchors": ["autoprecompiles/src/expression.rs: AlgebraicReference (Serialize, Deserialize)", "expression/src/lib.rs: AlgebraicExpression (Serialize, Deserialize)", "constraint-solver/src/grouped_expression.rs: GroupedExpression (Serialize)", "autoprecompiles/src/symbolic_machine.rs: SymbolicMachine", "number/src/plonky3_macros.rs: Deserialize", "number/src/goldilocks.rs: Deserialize"]}
{"id": "C85", "title": "Field elements survive conversion to text, bytes and integers", "statement": "For every field of the code base: reading a printed element (decimal or hexadecimal) or its bytes gives the element; different elements have different text, bytes and signed form. Decimal numerals (with an optional plus) are accepted exactly for numbers below the characteristic, and never panic. Numerals with a radix are accepted exactly for these numbers as well; 31-bit fields panic on other numbers of 32 bits, everything else is an error. Bytes are little-endian; 31-bit and large fields need the exact number of bytes and a number below the characteristic, Goldilocks reduces every number of 64 bits. Unsigned and signed integers are mapped to their residues; 31-bit fields panic unless the number is below the characteristic and at least its negative. The signed form is the residue of smallest absolute value and is converted back to the element.", "quantifier": "every element, every text, every list of bytes, every machine integer, every radix", "why_tests_cant": "Universal over elements and texts.", "anchors": ["number/src/plonky3_macros.rs: From, FromStr, FieldElement", "number/src/goldilocks.rs: From, FromStr, FieldElement", "number/src/macros.rs: From, FromStr, FieldElement", "number/src/traits.rs: FieldElement::to_signed_integer"]}
{"id": "C86", "title": "Printed expressions and machines say what they mean", "statement": "By the usual rules of arithmetic a text has at most one reading. A printed expression is read as the expression itself, so it has its value, and different expressions are printed differently, if the names are names. A printed symbolic value can be read and has its value, or none where it divides by zero; a printed grouped expression can be read and has its value, also with the signs and parentheses that were moved. Two machines with the same printed form have the same constraints and the same bus interactions in the same order. Rendering a machine panics exactly if a bus of an interaction has no type; machines that are rendered in the same way have the same constraints and, for every bus, the same interactions, in the same order; the text begins with the number of columns and their names, each column once, ordered by id.", "quantifier": "every expression, machine, assignment, every choice of different names without special characters, every map of bus types", "why_tests_cant": "Universal over expressions; a missing pair of parentheses shows in few of them.", "anchors": ["expression/src/display.rs: AlgebraicBinaryOperation (Display), AlgebraicUnaryOperation (Display)", "constraint-solver/src/grouped_expression.rs: GroupedExpression (Display)", "constraint-solver/src/symbolic_expression.rs: SymbolicExpression (Display)", "autoprecompiles/src/symbolic_machine.rs: SymbolicMachine (Display), SymbolicMachine::render"]}
{"id": "C87", "title": "Interpreting a precompile executes its instructions", "statement": "Preparing a precompile succeeds exactly if its instruction has only zero operands and every instruction of its blocks can be prepared at its own program counter; otherwise the result is an error of one of these kinds. Executing it does not panic and ends in a state exactly if calling the prepared instructions one after the other ends in this state and the optimistic constraints hold in all states on the way. For a precompile generated for blocks of the program, it ends in a running state exactly if the program without precompiles goes to this state executing exactly the instructions of the blocks; so a jump to another place inside of a superblock is a panic, not a wrong result. With one basic block and the start as program counter there is no check that can fail: it has the effect of the instructions. Metered execution reports the change of height of the chip once and is otherwise the same. Preflight execution uses the same executor for each instruction.", "quantifier": "every virtual machine, program, superblock, state and set of constraints", "why_tests_cant": "Universal over programs and states; a jump that is not taken as in the profile is rare.", "anchors": ["openvm/src/powdr_extension/executor/mod.rs: pre_compute_impl, execute_e12_impl, execute_e1_impl, execute_e2_impl, PowdrExecutor::new", "openvm/src/customize_exe.rs: OpenVmExecutionState", "autoprecompiles/src/lib.rs: superblock_pc_constraints"]}
{"id": "C88", "title": "The specialised VM is the original one with its precompiles", "statement": "The executors of the specialised VM can be assembled exactly if no opcode of a precompile is used twice or by the original VM; the opcodes given to precompiles always are, if those of the original VM are below 0x10ff. Then all other opcodes have the executor they had, and for each precompile its opcode, the executor, the chip of the executor and the AIR of the chip are those of the same precompile: its block, its machine, one row per call, and the arena from which the chip takes its records is the one the executor writes to and no other executor does. AIRs and chips of the original VM come first, unchanged. The chips use the first lookup table of each kind, with the bus of its AIR; without range checker there is a panic. The metrics of a precompile come with its own widths, in the order of the precompiles, unless an original AIR has a name starting with PowdrAir. The columns of the original VM subtracted from the limit are those of all its extension AIRs if their names are different, and then the limit holds for the assembled VM; of AIRs with the same name only one is counted. Sums of metrics add each number, the total width counts preprocessed and main columns, and the columns saved are those before minus those after, with a panic exactly if one kind has become more.", "quantifier": "every original VM, every list of precompiles, CPU and GPU, every limit", "why_tests_cant": "Universal over VMs and precompiles; mixing up two precompiles shows only if there are several.", "anchors": ["openvm/src/powdr_extension/vm.rs: extend_execution, extend_circuit, PowdrPrecompile::new", "openvm/src/powdr_extension/opcode.rs: PowdrOpcode", "openvm/src/lib.rs: create_airs, create_executors, create_chip_complex, extend_prover, get_periphery_bus_ids, CompiledProgram::air_metrics, AirMetrics", "openvm/src/extraction_utils.rs: AirWidths, AirWidthsDiff, chip_inventory_air_metrics", "openvm/src/powdr_extension/chip.rs: PowdrChipCpu::new", "openvm/src/customize_exe.rs: setup, compile_apcs"]}
{"id": "C89", "title": "The integers of the fields have a fixed width, and range constraints never leave it", "statement": "The integers of the small fields (32 bits), of Goldilocks (64 bits) and of BN254 (four limbs) behave like numbers below 2^width: each number has one representation, and addition, subtraction, shifts, bit operations, comparison, number of bits and conversions agree with the numbers as long as the result is below 2^width. Beyond that a word panics or wraps around depending on the build and loses bits on a shift to the left; limbs wrap around but panic on a shift to the left. Any computation with range constraints, in any order and number of operations, stays within this: with machine integers it gives the same range constraint as with unbounded masks and never panics, except for from_max_bit with a bit the integer does not have; a mask that is passed in is cut to the width. The questions about range constraints have the same answers, and only allowed_values can panic, exactly if the range has 2^32 or more elements.", "quantifier": "every field below the width, every integer, every computation with range constraints, overflow checks on or off", "why_tests_cant": "Universal over integers and sequences of operations; overflows show only at the upper end of 32, 64 or 256 bits.", "anchors": ["number/src/traits.rs: LargeInt", "number/src/goldilocks.rs: GLLargeInt", "number/src/plonky3_macros.rs: BBLargeInt", "number/src/macros.rs: LargeIntImpl", "constraint-solver/src/range_constraint.rs: RangeConstraint, mask_from_bits"]}
{"id": "C90", "title": "Tables of field elements survive being written to a CSV file and read again", "statement": "A table can be written exactly if it has a column and no column is called Row. Reading the file gives back the same columns, names, order, values and lengths, in every mode, if no column is longer than the characteristic of the field; otherwise reading panics, because the row numbers are read as field elements as well. Any file is read as follows: every record has as many cells as the header, a blank cell adds nothing to its column, any other cell is a hexadecimal numeral after 0x, a decimal numeral or one after a minus, of a number below the characteristic, and the reader panics on everything else; the columns called Row are left out. The mode called signed writes the same text as the unsigned one.", "quantifier": "every field, every table, every mode; every file for the reader", "why_tests_cant": "Universal over tables and files; the limit on the number of rows needs a table longer than the characteristic.", "anchors": ["number/src/serialize.rs: write_polys_csv_file, read_polys_csv_file, CsvRenderMode"]}
{"id": "C91", "title": "A visitor of expressions sees and replaces exactly the parts it should", "statement": "A visitor calls its function on the expression and all its parts, each occurrence once, before or after the parts as asked for and from left to right, until the function breaks; all_children lists the same parts. A visitor that changes expressions ends and changes each reference exactly once if it only turns references into references or numbers, and, if it goes after the parts, for every function. The substitution of subexpressions keeps the value of the expression if the replacements have the value of what they replace; it ends, having replaced the outermost matches only, if no replacement has a proper part to be replaced; it does not end if a replacement contains what it replaces directly below its top. Giving the names of an instruction its number as a suffix never panics, keeps ids and everything else, gives references with the same id the same name, and keeps names of different columns and different instructions apart.", "quantifier": "every expression, every function of a visitor, every set of replacements, every machine, every suffix", "why_tests_cant": "Universal over expressions and closures; termination depends on what the closure produces.", "anchors": ["expression/src/visitors.rs: ExpressionVisitable, AllChildren", "expression/src/lib.rs: all_children", "autoprecompiles/src/powdr.rs: substitute_subexpressions, globalize_reference_names, unique_references, make_refs_zero"]}
{"id": "C92", "title": "The solver always ends", "statement": "After every history of calls on a new solver, a call of solve ends: there is a number of iterations that its loops do not exceed, whatever the iteration order of hash maps, and the same holds of solve_system on every constraint system. With a sound bus interaction handler that does not panic and in a field of more than two and at most 2^64 elements, solve_system returns assignments or an error. The other calls have no unbounded loop.", "quantifier": "every history of calls, every constraint system, every iteration order of hash maps, every bus interaction handler that keeps the number of fields (sound or not)", "why_tests_cant": "The solver adds constraints and variables while it works (boolean extraction, linearization, splitting), so no run shows that it stops on the next input; it needs a well-founded measure.", "anchors": ["constraint-solver/src/solver/base.rs: loop_until_no_progress, solve_in_isolation, exhaustive_search, apply_assignment", "constraint-solver/src/solver.rs: solve_system", "constraint-solver/src/solver/constraint_splitter.rs: try_split_constraint", "constraint-solver/src/solver/boolean_extractor.rs: try_extract_boolean"]}
{"id": "C93", "title": "The rule driver always ends", "statement": "On every constraint system the main loop of the rule-based optimizer ends: the number of rounds that make progress is bounded by a number that depends only on the system and the initial range constraints, whatever the rule system requests within its rules, in whatever order the requested actions are applied and whatever degree bound is set. In each round only finitely many facts can be derived. A round without progress leaves constraints, assignments and ranges as they are.", "quantifier": "every constraint system, every provider of range constraints, every bus interaction handler, every order of actions and replacements, every degree bound", "why_tests_cant": "The rules introduce new variables and new constraints and substitute variables by each other, so the loop might go back and forth on inputs not in the tests; it needs a measure that every round decreases.", "anchors": ["constraint-solver/src/rule_based_optimizer/driver.rs: rule_based_optimization, batch_replace_algebraic_constraints", "constraint-solver/src/rule_based_optimizer/rules.rs"]}
{"id": "C94", "title": "The optimizer keeps the degree bound", "statement": "If the constraints of the input have at most the degree configured for constraints and all fields of its bus interactions at most the degree configured for bus interactions, then so have the constraints and bus interactions of the optimized system, whatever passes are executed in the loop and however often: the assertions on degrees at the end of the optimizer never fail. Inputs of higher degree do not get worse.", "quantifier": "every constraint system, every degree bound whose bound for bus interactions is at most the one for constraints, every correct handler, every sequence of passes and every choice made in them", "why_tests_cant": "Each of the ten passes rewrites expressions in its own way - by solutions, by inlining, by functions found by enumeration, by products of factors, by new range checks - and each checks degrees at a different place or not at all; tests only see the degrees of the blocks in the snapshots.", "anchors": ["autoprecompiles/src/optimizer.rs: optimize", "constraint-solver/src/inliner.rs: inline_everything_below_degree_bound", "autoprecompiles/src/low_degree_bus_interaction_optimizer.rs: LowDegreeBusInteractionOptimizer::optimize", "autoprecompiles/src/range_constraint_optimizer.rs: optimize_range_constraints"]}
{"id": "C95", "title": "The optimizer does not panic on systems that have an execution", "statement": "If the constraint system has an execution, the ids of its buses are constants and its memory accesses have the usual form, then no pass of the optimizer panics or runs forever, whatever passes have been executed before and whatever choices were made in them, and it can be completed from every state, with two exceptions: the low-degree optimizer panics if a lookup agrees with two of the functions that it tries, which is only possible if the solver has just found out the value of a field of the lookup, and the range optimizer panics if the handler cannot make the range checks that it found.", "quantifier": "every constraint system with an execution, every correct handler that accepts all interactions, every sequence of passes, every choice in every pass", "why_tests_cant": "The optimizer unwraps the results of the solver, of the memory conversion, of the inliner and of the search in every round; each unwrap relies on an invariant that the passes before it established together.", "anchors": ["autoprecompiles/src/optimizer.rs: optimize", "autoprecompiles/src/constraint_optimizer.rs: optimize_constraints", "autoprecompiles/src/low_degree_bus_interaction_optimizer.rs: LowDegreeBusInteractionOptimizer::optimize", "autoprecompiles/src/range_constraint_optimizer.rs: optimize_range_constraints", "autoprecompiles/src/memory_optimizer.rs: optimize_memory"]}
{"id": "C96", "title": "OpenVM's optimizer does not panic on well-formed systems that have an execution", "statement": "If all bus interactions of a constraint system are sent to known buses with a constant bus id, have the number of fields of their bus, the operation of each bitwise lookup is the constant 0 or 1, each memory access has a constant address space and the number of data fields of that address space, and the system has an execution, then the optimizer with OpenVM's bus handlers does not panic or run forever in any pass and can be completed from every state, except that the low-degree optimizer panics if a lookup agrees with two of the functions that it tries. In particular OpenVM's handler is always able to make the range checks that the optimizer asks for, and all systems between the passes keep this form. The solver does not panic on such systems whatever the order of the calls, even if they have no execution.", "quantifier": "every assignment of ids to OpenVM's buses that has all range checkers, with a tuple range checker for a byte and a power of two, every field between 2^26 and 2^32, every constraint system of that form with an execution, every sequence of passes, every choice in every pass; every handler that accepts a class of interactions closed under substitution", "why_tests_cant": "OpenVM's handlers panic on malformed interactions, e.g. on a bitwise lookup whose operation is found to be 2, and the optimizer calls them on every partially solved interaction; only a closure property of the set of interactions shows that none of the calls is malformed.", "anchors": ["openvm-bus-interaction-handler/src/lib.rs: OpenVmBusInteractionHandler::handle_bus_interaction, pure_range_constraints, batch_make_range_constraints, is_stateful", "autoprecompiles/src/optimizer.rs: optimize", "autoprecompiles/src/range_constraint_optimizer.rs: optimize_range_constraints"]}
{"id": "C97", "title": "The ways in which the generation of a precompile for OpenVM can fail", "statement": "Let the instructions of a block be well-formed: columns numbered without gaps, one state received and one sent, one program lookup, known buses with the arguments they expect, degrees within the bound. If the statistics are about columns that the instructions have, then all steps before the optimizer succeed, whatever the iteration order of the maps. If the block has an execution that satisfies the empirical constraints, then no pass of the optimizer panics or runs forever, except that the low-degree optimizer panics if a lookup agrees with two of the functions it tries. If the optimizer reaches its end, its assertions about degrees hold and the conversion to a machine succeeds. So a precompile is generated unless one of three assertions fails: only one function fits, no program lookup is left, and the guards do not change the degree.", "quantifier": "every assignment of ids to OpenVM's buses, every field between 2^26 and 2^32, every set of well-formed instructions, every basic block and superblock, all statistics, every execution, every sequence of passes and every choice in every pass", "why_tests_cant": "The steps are connected by conditions that no single step checks: ids that the allocator knows, arguments that the bus handler accepts after every substitution, columns that exist in the block. A test sees the connection only for the blocks it builds.", "anchors": ["autoprecompiles/src/lib.rs: build", "autoprecompiles/src/symbolic_machine_generator.rs: statements_to_symbolic_machine", "autoprecompiles/src/empirical_constraints.rs: for_block, filtered, ConstraintGenerator::generate_constraints", "autoprecompiles/src/optimizer.rs: optimize, optimize_exec_bus", "openvm-bus-interaction-handler/src/lib.rs: OpenVmBusInteractionHandler"]}
{"id": "C98", "title": "A generated precompile respects the degree bound", "statement": "The degree of an expression, as it is compared with the configured bounds, is at least the degree of its polynomial. Whatever the bus interaction handlers do, a generated precompile with a bus interaction has constraints of at most the configured degree for identities (or two, because of the constraint that makes the guard boolean), and the same bound holds for what its bus interactions send. If the instructions respect the bounds and the handlers are correct, then the arguments of bus interactions stay within the bound for bus interactions and multiplicities exceed it by at most one, because of the guard. Guards can be added without a panic if every multiplicity has a lower degree than the machine and this degree is reached by an argument or, as a polynomial, by a constraint. They cannot be added, and the generation panics, if the polynomial of a multiplicity that is not zero on the all-zero row has the degree of the machine.", "quantifier": "every field, every machine, every basic block and superblock, all instructions, all degree bounds, every sequence of passes and every choice in every pass", "why_tests_cant": "The prover rejects or mishandles a machine above its degree. The degree depends on all substitutions and on the guards added last; a test sees it for the blocks it compiles.", "anchors": ["autoprecompiles/src/lib.rs: add_guards, add_guards_constraint, canonicalize, build", "autoprecompiles/src/optimizer.rs: optimize", "expression/src/lib.rs: AlgebraicExpression::degree", "autoprecompiles/src/symbolic_machine.rs: SymbolicMachine::degree", "constraint-solver/src/inliner.rs: DegreeBound"]}
{"id": "C99", "title": "The solver settles what a single constraint tells", "statement": "For every history of calls on a solver: when solve returns, no constraint and no bus interaction of the solver gives anything new if it is processed again, no constraint just equates two variables, and the exhaustive search finds nothing; a second solve returns no assignment and changes nothing that is known. If the assignments that range constraints determined were fetched before, then substituting the returned assignments, one after the other, in a constraint without products that was added since leaves zero, or an expression with at least two variables that is not a multiple of the difference of two variables. In particular a variable in a constraint a * x + b = 0 is resolved to its value, and two variables in a constraint x = y are resolved to the same. Every returned assignment gives a variable the value of a constant or of a smaller variable.", "quantifier": "every prime field, every history of calls, every sound bus interaction handler, every iteration order, all constraints", "why_tests_cant": "The solver works through a queue that is refilled when a constraint or a range changes. A missed refill loses a deduction only in certain orders of processing, and the result is still correct, only weaker, so tests that compare solutions do not see it.", "anchors": ["constraint-solver/src/solver/base.rs: solve, loop_until_no_progress, solve_in_isolation, apply_assignment, apply_range_constraint_update", "constraint-solver/src/indexed_constraint_system.rs: IndexedConstraintSystemWithQueue", "constraint-solver/src/solver/var_transformation.rs: solve", "constraint-solver/src/solver.rs: solve_system"]}
{"id": "C100", "title": "Range constraints lose nothing that an interval can express", "statement": "The interval of a sum of range constraints consists exactly of the sums of values in the two intervals, that of a negation exactly of the negated values, and that of an expression without products whose coefficients are 1 or -1 exactly of the values the expression can take. A multiple that does not go around the field has the multiples of the ends as ends and is no longer than the distance between them; a product of constraints that do not wrap and have more than one value, with products below the modulus, allows exactly the values from the product of the minima to that of the maxima; a square of a constraint that wraps, exactly the values from zero to the largest square. A conjunction allows exactly the common values if there is one and the intersection of the intervals is an interval, and otherwise no value outside both. Disjoint intervals and masks are found to be disjoint, a constraint that allows everything is recognised as none, and one with a single value as that value; a disjunction of constraints that do not wrap is no larger than from the smaller minimum to the larger maximum.", "quantifier": "every prime field, every pair of range constraints (wrapping or not), every expression of that form", "why_tests_cant": "A range that is too large is still correct, and the optimizer just finds less; the cases where intervals wrap or overflow by one are not in the tests.", "anchors": ["constraint-solver/src/range_constraint.rs: combine_sum, multiple, combine_product, square, conjunction, interval_intersection, disjunction, is_disjoint, is_unconstrained, try_to_single_value", "constraint-solver/src/grouped_expression.rs: range_constraint"]}
{"id": "C101", "title": "Solving one linear constraint finds all that its ranges imply", "statement": "For every linear constraint of at least two variables whose coefficients are equal up to sign: solving it under known range constraints deduces for each variable the interval that consists exactly of the values for which the constraint can be satisfied with the other variables in their intervals, or nothing if every value is such, and it deduces nothing else. A linear constraint with coefficients 1 and -1 that cannot be satisfied with the variables in their intervals is reported as a contradiction, and if the ranges are plain intervals, exactly then. After solve, in every history of calls, if such a constraint of the solver has a solution in the known ranges and the values it supports in the interval of a variable form an interval, then every value the solver still allows for the variable is supported.", "quantifier": "every prime field, every linear constraint with coefficients equal up to sign, all range constraints, every history of calls of the solver", "why_tests_cant": "Deductions that are correct but wider than necessary pass every test of soundness; that nothing is lost is a statement about all constraints, all intervals (also those that wrap around) and all values.", "anchors": ["constraint-solver/src/grouped_expression.rs: solve, solve_affine, transfer_constraints, try_solve_for, range_constraint", "constraint-solver/src/range_constraint.rs: combine_sum, multiple, conjunction", "constraint-solver/src/solver/base.rs: solve, apply_range_constraint_update"]}
{"id": "C102", "title": "A product of linear factors in one variable is solved for its roots", "statement": "For every constraint that is a product of linear factors in one variable, in any nesting, and all known range constraints whose mask contains all or none of the bits of each root in the interval: solving reports a contradiction exactly if no root is allowed; otherwise it has one effect, about that variable, which is the assignment of the only root that is allowed, or a range constraint that allows exactly the values between two allowed roots whose bits are bits of allowed roots. For x * (x - 1) = 0 there is no condition on the masks, and what is deduced allows exactly those of 0 and 1 that were allowed. After solve, in every history of calls, a variable with such a constraint in the solver has only values with bits of its allowed roots, and between them if its interval does not wrap around; a variable with x * (x - 1) = 0 is 0 or 1.", "quantifier": "every prime field, every product of linear factors in one variable, all range constraints, every history of calls of the solver", "why_tests_cant": "Which roots remain depends on the field, on intervals that wrap around and on masks. Lost or added roots only show for particular combinations.", "anchors": ["constraint-solver/src/algebraic_constraint/solve.rs: solve, solve_quadratic, combine_to_conditional_assignment, combine_range_constraints", "constraint-solver/src/range_constraint.rs: disjunction, conjunction, is_disjoint", "constraint-solver/src/solver/base.rs: solve"]}
{"id": "C103", "title": "Of the accesses to a register only the first receive and the last send remain", "statement": "For every system whose bus interactions have known bus ids, whose memory accesses are sends or receives in known address spaces, and for every cell of an address space in which all pointers are known (such as a register): if sends and receives to that cell alternate, then after memory optimisation exactly the first access remains, if it is a receive, and the last, if it is a send. So at most two accesses to each register remain, however many instructions use it. This holds in every state of the solver, and with accesses at unknown pointers in other address spaces in between.", "quantifier": "every prime field but the one with two elements, every system, every address, every solver state", "why_tests_cant": "How accesses interleave is unbounded, and a missed pair only makes the result larger; tests compare a few blocks.", "anchors": ["autoprecompiles/src/memory_optimizer.rs: optimize_memory, redundant_memory_interactions_indices", "openvm-bus-interaction-handler/src/memory_bus_interaction.rs: try_from_bus_interaction", "constraint-solver/src/solver/base.rs: are_expressions_known_to_be_different"]}
{"id": "C104", "title": "Inlining goes on until nothing more can be inlined", "statement": "For every system, after any history of operations, and every result of inlining below a degree bound: the constraints that remain are original constraints in which all returned substitutions have been made, and whenever one of them is linear in a variable (coefficient times variable, plus a rest without it), replacing that variable by its value from the constraint would exceed the bound in some constraint or bus interaction. If the system was within the bound, that place contains the variable, and no linear constraint with a variable is left at all.", "quantifier": "every prime field, every system and history, every degree bound, every callback that refuses only what exceeds the bound", "why_tests_cant": "A loop that stops one pass too early, or a candidate that is skipped, leaves a correct but larger system; which candidates appear depends on the substitutions made before.", "anchors": ["constraint-solver/src/inliner.rs: replace_constrained_witness_columns, inline_everything_below_degree_bound, find_inlinable_variables, substitution_would_not_violate_degree_bound", "constraint-solver/src/algebraic_constraint/solve.rs: try_solve_for"]}
{"id": "C105", "title": "The trivial simplifications leave nothing to simplify", "statement": "Whenever the trivial simplifications of a well-formed system succeed, running them again succeeds and changes nothing. In the result no constraint is constant, none has the same factor twice, no constraint appears twice, for any two constraints neither has all factors of the other, and so none is the product of another one and a non-constant expression; no bus interaction has multiplicity zero, none appears twice on a bus without state, and every derived variable is mentioned. Multiples by a constant are found only as far as factors are normalized: a sum of several products without linear part and constant is not.", "quantifier": "every prime field, every well-formed system, every assignment of state to buses", "why_tests_cant": "Which constraints are redundant depends on all pairs of constraints and on their order; a comparison that is strict in the wrong place keeps both of two equal constraints or removes both.", "anchors": ["autoprecompiles/src/constraint_optimizer.rs: trivial_simplifications, remove_trivial_constraints, remove_equal_bus_interactions, remove_redundant_constraints, remove_duplicate_factors, remove_unreferenced_derived_variables", "constraint-solver/src/grouped_expression.rs: to_factors"]}
{"id": "C106", "title": "Exhaustive search finds everything the searched constraints imply", "statement": "If the search over a set of variables succeeds, some combination of values in their known ranges satisfies all constraints and bus interactions that mention only these variables, and for each of the variables the two ends of the reported range (or of the known one, if none is reported) are values in such combinations, and each bit of its mask is set in one of them. In particular a variable that has the same value in all of them is determined, and if there is no such combination the search does not succeed. This needs a bus interaction handler that reports a violation whenever all fields are known and forbidden; the handler of OpenVM does, except for lookups of an exclusive or whose operands are not both bytes.", "quantifier": "every prime field, every well-formed system after every history of modifications, every set of variables, every range environment, every handler that rejects forbidden known interactions, every OpenVM bus map", "why_tests_cant": "A combination that is skipped or wrongly kept widens or narrows one of the ranges; a test sees only the combinations of one system.", "anchors": ["constraint-solver/src/solver/exhaustive_search.rs: exhaustive_search_on_variable_set, derive_new_range_constraints", "constraint-solver/src/utils.rs: get_all_possible_assignments", "openvm-bus-interaction-handler/src/lib.rs: handle_bus_interaction", "openvm-bus-interaction-handler/src/bitwise_lookup.rs: handle_bitwise_lookup", "constraint-solver/src/bus_interaction_handler.rs: handle_bus_interaction_checked"]}
{"id": "C107", "title": "Results do not depend on arbitrary orders of iteration", "statement": "Removing disconnected columns has the same outcome (the same system and solver, or the same failure) whatever the iteration orders of the hash sets it uses. A system is split into the same parts in the same order; only the order of the constraints inside a part may differ. The value ranges detected for the columns of each instruction do not depend on the order in which the rows were recorded.", "quantifier": "every prime field, every system after every history of modifications, every two iteration orders, every solver state, every permutation of the recorded rows", "why_tests_cant": "The iteration order of a hash set changes from run to run; a test sees one order, and proving keys have to be the same in all of them.", "anchors": ["autoprecompiles/src/constraint_optimizer.rs: remove_disconnected_columns", "constraint-solver/src/reachability.rs: reachable_variables", "constraint-solver/src/system_splitter.rs: split_system", "openvm/src/empirical_constraints.rs: detect_column_ranges_by_pc, rows_by_pc"]}
{"id": "C108", "title": "Simplification by exhaustive search finds every constant field", "statement": "If the algebraic constraints can be satisfied within the known ranges, then simplification by exhaustive search does not overlook a bus field whose value is determined: for every field that mentions variables, each with at most 5 possible values and all together with at most 1024 combinations, and that has the same value in every combination consistent with the algebraic constraints over its variables, the search over its variables finds the substitution by this value, and in the resulting system the field is replaced (by this value, or by a result of a later search for the same field) and mentions no new variable.", "quantifier": "every prime field, every system after every history of modifications, every assignment of ranges, every bus field and every value", "why_tests_cant": "A missed simplification breaks nothing a test could observe as an error; the proof covers all systems, ranges and fields.", "anchors": ["autoprecompiles/src/constraint_optimizer.rs: simplify_constraints_using_exhaustive_search, SimplifiedExpression", "constraint-solver/src/solver/exhaustive_search.rs: get_brute_force_candidates"]}
{"id": "C109", "title": "Exactly the constraints of free variables are removed", "statement": "The step that removes free variables removes a constraint only if it mentions a variable that occurs in no other constraint and that can be chosen to satisfy it: an algebraic constraint that has the variable as a linear term and nowhere else, or a product with such a factor, or a stateless bus interaction whose payload has exactly one field that is not a number, of degree at most one in the variable. If the index was built from the system, all these constraints are removed and none of these variables is left; the other constraints keep their order.", "quantifier": "every prime field, every system, every history of modifications (for the first part), every handler, every set of stateful buses", "why_tests_cant": "A test shows that some free variable is removed from some system; that none is overlooked and nothing else is removed concerns all systems.", "anchors": ["autoprecompiles/src/constraint_optimizer.rs: remove_free_variables, can_always_be_satisfied_via_free_variable"]}
{"id": "C110", "title": "An optimized machine has no redundant parts", "statement": "In every result of the optimizer, no constraint is a constant, none appears twice, and none is the product of another constraint and an expression that is not constant; no bus interaction has multiplicity zero, none looks up a program counter, and none appears twice on a stateless bus; every column that is to be computed is mentioned by a constraint or a bus interaction. Simplifying the result once more neither panics nor changes anything. OpenVM meets the assumptions.", "quantifier": "every prime field, every well-formed system, every configuration with a correct handler, every run of the optimizer", "why_tests_cant": "A test shows one optimized machine; that no run of all passes ends with a redundant constraint concerns all systems.", "anchors": ["autoprecompiles/src/optimizer.rs: optimize", "autoprecompiles/src/constraint_optimizer.rs: trivial_simplifications"]}
{"id": "C111", "title": "The solver assigns known variables, and only to numbers and other known variables", "statement": "Whatever calls are made on a solver, every assignment it returns is for a variable that occurred in a constraint, bus interaction or range constraint added before, and its value is a number or a different such variable. The variables the solver introduces internally are never returned. Solving a system assigns only variables of the system, and only to numbers and other variables of the system.", "quantifier": "every prime field, every sound bus interaction handler, every history of calls, every iteration order", "why_tests_cant": "A test sees the assignments of one system; that no internal variable can leak through substitutions, splitting, linearization and exhaustive search concerns all histories.", "anchors": ["constraint-solver/src/solver/base.rs: solve, apply_assignment", "constraint-solver/src/solver/var_transformation.rs: solve", "constraint-solver/src/solver.rs: solve_system"]}
{"id": "C112", "title": "Optimized systems mention no columns from nowhere", "statement": "Every column that occurs in a constraint or bus interaction of the output of the optimizer occurs in its input or is one of the new columns which the rules created, each together with a method to compute it. In particular the number of columns grows at most by the number of these new columns.", "quantifier": "every prime field, every correct configuration, every input, every choice of iteration orders and rule applications, every number of rounds", "why_tests_cant": "A column that is neither in the input nor created with a method to compute it cannot be filled by the prover; a test only sees whether it happens for one block.", "anchors": ["autoprecompiles/src/optimizer.rs: optimize", "autoprecompiles/src/constraint_optimizer.rs: optimize_constraints", "constraint-solver/src/rule_based_optimizer/driver.rs: rule_based_optimization"]}
{"id": "C113", "title": "Computation methods refer to no columns from nowhere", "statement": "Every column with a computation method in the output of the optimizer has one in the input or was created by the rules during this run. Every column whose value such a method needs occurs in the input, in a constraint, a bus interaction or a computation method, or was itself created by the rules. If the input records no methods, the methods in the output belong to created columns only and need only columns of the input and created ones.", "quantifier": "every prime field, every correct configuration, every input, every choice of iteration orders and rule applications, every number of rounds", "why_tests_cant": "The prover evaluates the methods to fill the created columns; a method that needs an internal variable of the solver or a column of another block cannot be evaluated. The methods are rewritten by every substitution of every later pass, so no test covers all histories.", "anchors": ["autoprecompiles/src/optimizer.rs: optimize", "constraint-solver/src/rule_based_optimizer/driver.rs: rule_based_optimization", "constraint-solver/src/constraint_system.rs: ComputationMethod", "constraint-solver/src/inliner.rs: replace_constrained_witness_columns"]}
{"id": "C114", "title": "Recorded computation methods are kept as long as their columns are used", "statement": "The rules, the inliner and the substitution of the assignments found by the solver keep the computation methods of all columns, in order; the rules add one for every column they create. A round of the constraint optimizer removes exactly the methods of columns which the simplified system no longer mentions. In the output of the optimizer every column that had a method in the input or was created by the rules still has one, unless it dropped out of the system in an earlier round and came back, and only columns in use have one.", "quantifier": "every prime field, every correct configuration, every input, every choice of iteration orders and rule applications, every number of rounds", "why_tests_cant": "A created column whose method is lost cannot be filled by the prover, and nothing in the constraint system shows that it is missing; a test notices only if it generates a witness for a block where it happens.", "anchors": ["autoprecompiles/src/optimizer.rs: optimize", "autoprecompiles/src/constraint_optimizer.rs: remove_unreferenced_derived_variables", "constraint-solver/src/rule_based_optimizer/driver.rs: rule_based_optimization", "constraint-solver/src/inliner.rs: replace_constrained_witness_columns"]}
