# Formal model of powdr in Lean 4

The model lives in `lean/Verif/`. `Model/*` holds definitions only, each citing
the Rust lines it models. `Proofs/*` holds helper lemmas. `Props/*` holds the
property theorems, one section per property id of `properties.jsonl`, each with
an `example` showing that its hypotheses are met by a concrete case.

## Common modelling decisions

* **Field.** `ZMod p` for an arbitrary prime `p`. The order and the integer
  value of an element are those of its canonical representative (`ZMod.val`),
  as in `FieldElement::to_integer` and the derived `Ord`. The machine integer
  type behind a field is a natural number; where its width matters (Goldilocks,
  rule 571-589) the width is explicit.
* **Expressions.** `T` in `GroupedExpression<T, V>` is the field itself
  (`RuntimeConstant for FieldElement`). `BTreeMap` is an association list kept
  sorted by key.
* **Semantics.** `eval : (V -> F) -> F`. A constraint `e = 0` holds in an
  assignment if `e` evaluates to zero. A bus is an arbitrary predicate on
  tuples (stateless lookup) or a multiset of tuples (stateful bus). Soundness
  of a pass is a statement about sets of solutions.
* **Panics** are `none` / `Except.error`.
* **Hash iteration order** is modelled by quantifying over orders or by
  statements that do not depend on it.

## Plan per property

| id | what is modelled | how it is proved |
|----|------------------|------------------|
| C01-C06 | `RangeConstraint` with all operations | interval and bit lemmas on `Nat`, `ZMod.val` |
| C07-C12 | `GroupedExpression` with all operations | structural induction on expressions |
| C13-C15 | `solve`, `try_solve_for`, ... | case analysis over C01-C12 lemmas |
| C16 | `BusInteraction::solve`, `handle_bus_interaction_checked` | handler is a parameter with a soundness hypothesis |
| C17 | `try_split_constraint` | modular arithmetic without wrap-around |
| C18, C19 | `BooleanExtractor`, `Linearizer` | construction of the witness for fresh variables |
| C20 | `exhaustive_search_on_variable_set` | induction over the list of assignments |
| C21 | `BaseSolver` as a transition system | invariant by induction over operations |
| C22 | inliner | solution projection per step, induction over the loop |
| C23 | indexed system, queue | invariant by induction over operations |
| C24 | `reachable_variables`, `split_system` | least fixed point |
| C25-C30 | Datalog rules as an inductive derivation relation, driver | rule induction; C26 and C27 are expected to fail: negation with witness |
| C31-C34 | OpenVM handlers, range constraint optimiser | bit lemmas, C01-C06 |
| C35, C55 | memory and execution bus optimisation | multiset balance |
| C36, C37 | conversions, guards | induction on expression trees |
| C38 | `from_constraints` and the evaluator of optimistic constraints | invariant over steps: the memory has all values needed later |
| C39 | the tracker of candidates: insertion, checks, abort, extraction, as histories | invariant over histories: every candidate is a place in the trace; induction over the pairs of candidates |
| C40 | `Partition` | refinement to a partial equivalence relation |
| C41-C44 | PGO selection, counting, blocks | list induction, termination measure |
| C45 | Goldilocks arithmetic on 64-bit naturals with explicit wrap | `omega`/modular arithmetic |
| C46, C47, C56 | serialisation (`Model/Reference`), allocator, item database | list induction |
| C54, C64 | preflight execution, record arenas, `generate_trace`, `generate_witness` (`Model/TraceGen`); the chips are any functions that write one row per record in order (`WritesRows`) | invariant over the instructions of all calls; counting argument for the offsets |
| C57 | the main loop of the rule driver as a relation: rounds of requested actions in any order, new variables with computation methods, then a batch of replacements | invariant over rounds; replacements keep solutions by C25, C26, C28, C29 with the computed values of new variables; C23 links the plain system to the indexed one |
| C58, C59 | block machine generator, field conversion | list induction over the instructions |
| C48-C52 | passes of `constraint_optimizer.rs`, low-degree optimiser | solution-set equality |
| C52 | low-degree bus interaction optimizer, with the OpenVM handlers | values of the tested hypotheses on all inputs, exactness of the handler on concrete values |
| C62 | `optimize_constraints` and `optimize` as runs: a record of the results of all passes, any number of rounds | composition of C22, C34, C35, C48-C52, C57, C60, C61: one invariant for executions, one relation backwards for balances |
| C60, C61 | solver-based optimisation, constant bus fields | solver histories (C21), semantics of substitution |
| C53 | empirical constraints | induction over the list of statistics |
| C63 | detection of empirical constraints from recorded traces, segment by segment | the rows sorted by time are the execution; pieces of it combine to the whole, then C53 |
| C65 | `build` as a run (`Model/Build`): block machine, empirical constraints, execution bus, conversion, optimizer, guards, conversion back | composition of C36, C37, C47, C53, C55, C58, C59, C62; the optimizer works on the ids below the next free one |
| C66 | `superblock_pc_constraints` (`Model/Optimistic`) | position of each block in the superblock; C38 and C39 |
| C67, C68 | `generate_execution_constraints`, `optimistic_literals` (`Model/Literals`) | memory run of the optimized instruction (C62, C55); a read sees the memory before, a write the one after; C38 and C53 |
| C69 | `PowdrAir::eval`, `SharedPeripheryChipsCpu::apply` (`Model/Periphery`); the chips of OpenVM are the lists of requested table entries | induction over the messages; C64 for the matrix, C37 for guards |
| C70 | block collection of a program, the three kinds of profile, the choice of blocks, `setup` (`Model/Compile`); generation is a relation (its model is C65), `add_apc_instruction_at_pc_index` of OpenVM sets an entry of a map | the theorems on block detection, superblocks and selection (C40-C44), induction over the loop of `setup`; for executions, induction over the number of steps |
| C71 | the field element with ten limbs (`Model/K256Field`), with every overflow check and every `debug_assert!`; instructions, translation, executors and what the guest reads (`Model/Hints`). The Montgomery inverse of `crypto_bigint`, the encoding of the instruction (`custom_insn_r!`, `RType`) and the hint stream are external and modelled by what they are specified to do | the modulus is prime by two applications of Pocklington's criterion and one of Lucas'; the product by one equation per column and a linear combination in the field, bounds by `omega`; inverse and root by Fermat's theorem and Euler's criterion; 3 is not a square |
| C72 | the emitters of bytecode, including the casts to `u32`, and the stack machine of the device with its 16 slots and every device assertion (`Model/Gpu`) | by induction on the expression: from any stack, the code pushes the value if there is space (`evalCode_expr`), and otherwise stops |
| C73 | the host side of the generator and the kernels (`Model/Gpu`): a kernel is a list of threads, each a list of steps, and a run is any `Interleaving` of them. A `DeviceBuffer` is a size and cells; an access out of range stops the kernel. Hash maps of AIRs are modelled by an arbitrary order | every step touches one row only (`tracegen_local`, `derived_local`), so an interleaving is, for each row, the steps of one thread in order (`kernel_interleaving`); per row, copying is an assignment of columns that are distinct (`CopiedOnce`), and so agrees with the CPU in any order |
| C74 | the lookup kernel: atomic increments are the steps of the threads, counters are words of 32 bits | each message contributes its multiplicity to one counter (`gpuBusCounts_ok`); interleavings are permutations and increments commute; then `C69_counts` |
| C75 | `load_elf_from_buffer` on what the parser returns, the lifter, the address map, relocations; the decoder is a parameter; `add_extra_targets` | a jump is never the second part of a pair, so its label is collected (`jump_label`); the second pass uses only labels of the first one (`lift_labels`); loops only add labels (`foldlM_step`); membership in the OpenVM destinations is characterised exactly; then `C43_targets` |
| C76 | execution of instructions with the rest of the machine as a parameter (`Spec/Elf`), the lifter | case analysis on opcodes (`mapOne_exec`, `fuse_exec`); instructions of a segment are found at their addresses (`Chained.find`), so two steps of the machine run a pair (`lift_step`) |
| C77 | `rv64.rs` without the information for debugging | induction on the instructions, with the remembered `auipc` as an invariant |
| C78 | `load_data_section` and the relocations, the map as a function | induction on the bytes; segments that do not hold an address do not change it; static relocations keep the word, dynamic ones set it |
| C79 | `symbolic_to_algebraic`, `try_convert`, the loop over the allowed opcodes, statistics and the bus map (`Model/Extraction`). The symbolic builder of OpenVM (an AIR to its constraints and interactions) is external: an AIR is given by them. Hash maps are functions, the map from opcodes is ordered as in the code | the two conversions composed keep the value of every expression (`extractExpr_value`) and fail exactly on other rows or traces; the loop by an invariant (`AirsState`); ordered insertion for the bus map |
| C80 | the clones of a configuration and the shared cache (`VmConfigs`), a state machine with three operations | invariant: what is cached was made from the present configuration of one of the clones (`run_fresh`) |
| C81 | `SymbolicExpression` with all operations (`Model/SymbolicValue`) | the value is partial (no value if divided by 0); `Is` (value and annotations) is kept by every operation, with the soundness of range constraints (C03); induction on expressions for negation, substitution, renaming and conversion |
| C82 | symbols, `dedup_names`, lookups in the table (`Model/Symbols`) | a pass is a map over the sorted list without repetitions; the number of entries whose name does not end with the address decreases in every pass that changes something (two entries of a group cannot both end with their addresses); invariants of the passes for the rest; reading the file format is not modelled |
| C83 | `filter_locations_in_text`, `take_executable_statements` with its two merges (`Model/Symbols`) | induction on segments and on instructions; the search is any correct one; DWARF is not modelled; the end of an instruction is assumed to be below 2^32 |
| C84 | `Serialize` and `Deserialize` of references, expressions, machines, grouped expressions and numbers (`Model/Saved`) | induction on expressions; JSON is a tree (serde_json is trusted to print and parse trees), reading dispatches on fields as serde's derived code does; partitions are C40 |
| C85 | conversions of the three kinds of fields, 31 bits, Goldilocks, several limbs (`Model/FieldText`) | elements are numbers below the modulus; `u32::from_str_radix` and ibig are modelled by digits; Montgomery form is not modelled |
| C86 | `Display` of algebraic, symbolic and grouped expressions and of machines, `SymbolicMachine::render` (`Model/Printed`) | texts are lists of characters; the grammar of arithmetic (`Spec/Printed`) is shown to be unambiguous; run-time constants that are not numbers are printed by `Display for SymbolicExpression` |
| C87 | `pre_compute_impl`, `execute_e12_impl`, `execute_e1_impl`, `execute_e2_impl`, cached executor indices (`Model/Interpret`) | the interpreter of OpenVM is a parameter; induction over the instructions, with C38 for the evaluator and C66 for the constraints; linked to the steps of C70 (`C87_step`) |
| C88 | `extend_execution`, `extend_circuit`, `create_executors`, `create_airs`, `extend_prover`, `air_metrics`, `chip_inventory_air_metrics` (`Model/Assemble`) | the inventories of OpenVM are lists in the order of insertion, references are addresses; inductions over the precompiles, with C70 for the limit of columns |
| C89 | `LargeInt` for words and limbs, `RangeConstraint` with machine integers (`Model/FixedInt`) | contract `FixedWidth` of integers with a fixed width, proved for words and (by induction over the limbs) for limbs; refinement of the range constraints of `Model/RangeConstraint` for every implementation with that contract, by induction over computations |
| C90 | `write_polys_csv_file`, `read_polys_csv_file` (`Model/CsvTable`) | a file is its list of records (the crate `csv` is trusted to give back what was written); cells by C85, inductions over cells and records |
| C91 | `visit_expressions`, `visit_expressions_mut`, `all_children`, `substitute_subexpressions`, `globalize_reference_names` (`Model/Visitors`) | closures are functions on a state; visitors that change expressions take a bound on nested calls, `none` when it is exceeded; structural induction, and induction over the bound for what a run that ends has done |
| C92 | the loops of the solver (`Model/Solver`, as for C21) | well-founded measure: the multiset, one element for each constraint that is not affine, of products, extractability and ranks of variables; then the number of variables, the number and width of their range constraints; then the multiset of the variable counts of queued constraints; finitely many iteration orders give a common bound |
| C93 | the rounds of the rule driver (`Model/RuleDriver`, `roundProgress`) | measure: twice the number of constraints plus the number of variables; then the sum over the variables of the rank of the range constraint. Needs that identifiers are strictly ordered, that a substituted variable never occurs only once and that each replacement removes more constraints or variables than it adds. Facts of a round: the expressions are pieces of those in the input, masks have a bounded number of bits, counters are below the number of linear terms |
| C94 | the passes of `optimize` (`Model/Optimizer`, `OptimizePasses`) without the assertions at its end | one lemma per pass: the degrees of constraints and of fields of bus interactions stay below any bounds that are at least the configured ones; then the assertions follow. For OpenVM the range handler is shown to keep degrees |
| C95 | the same passes one at a time, each with its result or failure (`Model/OptimizerSteps`); proved equivalent to the runs of C62 | one totality lemma per pass under an invariant (an execution exists, the solver was told only what holds in it, the buses have their usual form), and preservation of the invariant; progress with a rank; the tried functions are pairwise different on every domain with two values per input |
| C96 | the model of C95 with OpenVM's handlers; `Spec/HandlerAccepts`: what a handler accepts, `Spec/OptimizerPanics`: the form of OpenVM's bus interactions | the handler is replaced by a total one that agrees with it on a class of interactions; the class is closed under all substitutions, so all passes have the same result with both (`Proofs/HandlerAgree*`), and C95 and C21 apply to the total one; OpenVM's interactions are such a class, and on satisfied systems the range checks collected for one variable can always be merged to a bit range |
| C97 | the model of `build` of C65, split into the part before the optimizer (`BuildStart`) and the rest; `Spec/BuildPanics`: the form of OpenVM's instructions, an execution of a block | each step before the optimizer succeeds on the results of the previous one (C58, C53, C55); the form of the instructions carries over to the system that the optimizer starts from, so C96 applies to the execution of the block; after the optimizer, C94 gives the degrees and the form of the system the conversion |
| C98 | the models of `build` (C65) and `add_guards` (C37); `Spec/PrecompileDegree`: the polynomial of an expression | the result of the guards is written without panics; in the expressions that the conversion makes, the left factor of a product is not a constant, so the guard of a constant does not raise the degree; canonicalization keeps the polynomial and does not raise the degree; setting the guard to one gives the old polynomial back, so the degree of the polynomial does not fall |
| C99 | the model of the solver (C21) | what is deduced from a constraint depends only on the ranges of its variables; invariant: every constraint is in the queue or gives nothing new; every step that changes a constraint or a range puts the constraints that mention the variable in the queue; affine expressions are determined by their values, so the assignments of the caller have the same effect as those of the solver |
| C100 | the model of range constraints (C01 to C06) and `range_constraint` of expressions | counted from the lower end of one interval, the others are at most two pieces of the numbers below the modulus; an interval that is not the whole field has one lower end, so an intersection in two pieces is none; induction over the terms for expressions |
| C101 | the models of `solve` (C13) and of the solver (C21) | the expression the loop solves for each variable is the sum of the other terms with coefficients 1 and -1, whose interval is exact (C100); the effects of the loop are exactly these intervals where they are not the whole field; with C99 nothing of them is left in a solved state |
| C102 | the models of `solve` (C13) and of the solver (C21) | induction over the product: the effect of each factor is the hull of its allowed roots, the disjunction of hulls is the hull of the union, a conditional assignment is never made because both values are allowed; with C99 and the exactness of the conjunction (C100) for solved states |
| C103 | the model of the memory optimizer (C35) | invariant of the loop for one cell: the contents hold the index of the last access if it is a send, and of the accesses seen so far the first receive and the last send are kept |
| C104 | the model of the inliner (C22) | the number of substitutions grows with each one made, so in the last pass none was made and the state did not change: every candidate was refused in the final state; the candidates are exactly the variables in which a constraint is linear |
| C105 | the model of the trivial simplifications (C50) | of two kept constraints the one with more factors, or the later one, would have been marked redundant by the other; on such a system every step is the identity |
| C106 | the models of exhaustive search (C20) and of the OpenVM handler (C31); consistent combinations of values are specified separately | with all its variables assigned a constraint is constant, so an assignment survives only if it is consistent; the ends and mask bits of a disjunction of single values come from these values |
| C107 | the models of reachability, splitting (C24), removal of disconnected columns (C49) and detection of ranges (C63) leave the iteration order open | two runs with different orders are related step by step: reachability gives the same set, everything after it only tests membership |
| C108 | the model of simplification by exhaustive search (C51) with the candidates of the search (C20) | invariant of the fold over the assignments: the algebraic constraints keep their entries, and the entry of the field is empty or holds the value; the assignment of a solution is never skipped |
| C109 | the model of the removal of free variables (C48) | solving for a variable and the filter are characterised exactly; for a new index the reported constraints are those that mention the variable |
| C110 | runs of the optimizer (C62) | the system before the last pass is well formed (C62), so that C105 describes the result; the assertions at the end of the optimizer give the rest |
| C111 | the solver model of C21 | invariant over histories: all variables in the solver's constraints and linear substitutions are internal or were added by the caller, and pending assignments are numbers or variables; each function of the solver preserves it |
| C112 | the passes of C62 and the solver of C111 | fix the set of allowed columns; every pass keeps the system and the solver (C111) over it: substitutions, exhaustive search, factors, facts derived by the rules (closed sets of expressions), memory, low degree functions, range checks, inlining; the handler of range constraints is assumed to mention only columns of its arguments, which is proved for OpenVM. Not claimed: that the method of every new column of the output is still in the list of derived columns (the solver may know a column that has been removed from that list); for a generated precompile (`C112_precompile`) through the conversion and the guards, which add only the validity column |
| C113 | the passes of C62, with the list of derived variables | fix the allowed columns of methods and of derived variables; every pass rewrites the methods by substitutions over the allowed columns (C111, C112), the rules record only methods over the columns of the facts, the inliner substitutes only expressions over the columns of the system; that the methods can be evaluated one after the other (no cycles) is not claimed, since a substitution can make an older method refer to a newer column; for a generated precompile (`C113_precompile`, `C113_disjoint`): its computed columns are the validity column and created ones, never copied ones |
| C114 | the passes of C62, with the list of derived variables | the list of recorded columns is unchanged by every pass except the removal of unused derived variables (filter) and the rules (append); induction over rounds; a column can drop out and come back because the solver still knows it, so this case is excluded by a predicate on the run (`OptimizeLoop.Unused`); for a generated precompile (`C114_precompile`, `C114_fillable`): every column is copied or computed, so only the order of the computations is left to be assumed for the trace generation (C65) |

## Trusted base

* Lean 4.33.0 kernel; Mathlib (imported module by module).
* Axioms: at most `propext`, `Classical.choice`, `Quot.sound`.
* The reading of the Rust code: the model is not extracted mechanically. `COVERAGE.md` (generated from the citations in
  the model by `tools/gen_coverage.py`) lists, for every source file, the functions that are modelled, the model file,
  and the functions that are not modelled.

### Modelling decisions that matter for the reading of the theorems

* The parser of ELF files (`goblin`) and the decoder of RISC-V instructions (`raki`) are external: a file is what the
  parser returns, the decoder is a parameter. `RvDecoder.Correct` and `Decodes64` say which operands decoded instructions
  have. Additions of addresses wrap around, as in a release build.
* Field elements are `ZMod p` for a prime `p` (theorems hold for every prime unless a hypothesis says
  otherwise). `T::Integer` is `Nat` except where the width matters (Goldilocks, C27, C45).
* `BTreeMap`/`BTreeSet` are sorted lists; iteration orders of `HashMap`/`HashSet` are parameters
  over which the theorems quantify (`Choices` for the solver).
* Rust panics (`assert!`, `unwrap`, index out of bounds) are the error value of `Except Panic`; where
  absence of panics is claimed there is a separate `..._no_panic` theorem.
* Unbounded loops of the solver (C21) take a fuel parameter. The theorems of C21 hold
  for every amount of fuel, for each run that does not exhaust it; C92 shows that there is always an
  amount that is not exhausted.
* The meaning of buses is a parameter `Bus p`; handlers are parameters with the soundness contract
  `Handler.Sound` (C16), which C31 establishes for the OpenVM handlers.

## Disagreements between code and property

* C26. The rule that merges `x * a = 0` and `x * b = 0` trusts ranges of `a` and `b` that may be known
  only because of the two constraints it removes. `C26_unsound_if_range_is_implied_by_removed` gives a
  system: from `(v - 1) * v = 0` and `(v - 1) * b = 0` with `b` in `[0, 5]` the rule makes
  `(v - 1) * (v + b) = 0`, which permits `v = -b`.
* C27. `rc_head.range().1.to_integer() + rc_tail.range().1.to_integer() < T::from(-1).to_integer()`
  (rules.rs:579-586) adds in `T::Integer`. For Goldilocks the sum can exceed 64 bits.
  `C27_unsound_for_goldilocks` gives a system with a solution in which the two "zero" parts are not.
* C29. The rule does not check that the difference is range-checked on a bus. Without such a check the
  comparison can claim `a < 1` for a nonzero `a`, and then the replacement loses this solution
  (`C29_range_check_needed`). With the check it is an equivalence up to markers and difference.
* C32, C33. The variable range checker has at most 25 bits (`MAX_BITS`), but `pure_range_constraints`
  does not check this and `batch_make_range_constraints` accepts up to 29 bits.
  `C32_too_many_bits_inexact` and `C33_too_many_bits_accepted` give an interaction and a request with
  26 bits. Nothing is relaxed by this (`C33_never_relaxes`).
* C48. A stateless bus interaction is dropped if its only unknown field has degree one in a variable
  that occurs nowhere else. The field can be `y * x`, and for `y = 0` no value of `x` helps
  (`C48_bus_counterexample`: `y * (y - 1) = 0` and a lookup of `y * x` in a table without zero).
  `C48_projection` makes the assumption explicit.
* C52. `handle_bus_interaction` of the OpenVM bitwise lookup does not reject an operand that is a known
  constant but not a byte. `C52_operand_not_byte`: a lookup with the operand 65535 is never admissible,
  but it is replaced by a constraint that can be satisfied. `C52_ambiguous_panics`: an operand that the solver knows to be zero, but is not a constant, makes several hypotheses fit, and the optimizer
  panics with "Expected exactly one multilinear extension".
* C55. `optimize_exec_bus` does not check multiplicities (`TODO assert that mult matches` in the code) nor
  that the number of interactions is even. `C55_odd`: with an odd number the result sends the last state
  once more than the original. Machines generated for blocks have pairs (`C55_block`).
* C42. `find_non_overlapping` with an empty sub-sequence does not end (`C42_terminates`). No caller passes
  one.
* C62. The soundness direction does not give the assumptions on the memory bus for removed receives
  (that data are bytes): they follow from the balance of the whole memory bus, not from the system.
  `C62_sound` therefore states satisfaction for all other buses. That batches of replacements add no
  solutions is a hypothesis (`ReplacementsSound`): by C26 it does not hold in general. The completeness
  direction (`C62_complete`, `C62_extends`) assumes of the replacements only that the comparisons found by
  the rules have the right result, since C29 needs a range check that the rule does not ask for.
* C53. `BlockEmpiricalConstraints::filtered` gives the predicate the position of a range in the map rather
  than its column. The two agree for the result of `for_block`, but not for a filtered value, so filtering
  twice tests wrong columns (`C53_filtered_twice`).
* C39. The choice among overlapping candidates is not maximal: a candidate can be discarded because of one
  that is discarded itself, though nothing that is returned overlaps it (`C39_not_maximal`). A block of zero
  cycles never finishes, as its count of checks is passed at the insertion; it blocks all extractions until it
  is aborted or a constraint fails.
* C64. `generate_witness` looks up computed columns, and the columns they are computed from, among the columns
  that occur in constraints and bus interactions, and panics otherwise (`C64_panics`). `Fillable` makes the
  requirement explicit.
* C58, C65. `globalize_references` does not visit computed columns, so the ids of computed columns of an
  instruction would not be shifted (`C58_derived`). Machines of instructions have none; `InstrAir.Good` says
  so.
* C65. The assumptions of C62 are those of C65. That the ids of new columns are those issued by the
  allocator (`issued`, `issuedAfter`, `issuedFor`) is part of the run.
* C68. `optimistic_literals` optimizes each instruction with an allocator made from its machine only, and then
  asks the allocator of the block whether a limb is known, "because the optimizer can introduce new columns".
  But the first new id of an instruction is the id of the first column of the next instruction
  (`C68_collision`), so only columns introduced in the last instruction are skipped. `C68_literals` has the
  hypothesis that limbs are columns of their instruction. The literals are also wrong if an optimized
  instruction reads or writes the same register twice (`AccessesApart` excludes this).
* C67. The execution constraints are not used yet (`TODO: Use execution constraints` in `build`).
* C70. `Prog::instructions` drops missing instructions, while program counters are computed from positions in
  the resulting list: blocks after a gap are shifted (`C70_gap`). The programs made by the transpiler of OpenVM
  for the supported instruction set have no gaps in the code; `GapFree` says so.
* C70. `max_total_columns - total_non_apc_columns` wraps around in a release build, so that a limit below the
  number of other columns is no limit (`C70_wrap`). `setup` cannot place superblocks of several blocks
  (`C70_superblocks`), and `InstructionPgo` and `NonePgo` refuse them. An error in the generation of a precompile
  is a panic with these two, but only drops the candidate with `CellPgo`.
* C71. The host returns the square root without normalizing it. The product of two elements has 26 bits in each
  limb except the third, to which a carry is added at the end. The guest masks this limb to 26 bits, with the
  comment "for an honest prover, this is a no-op". For about one element in 2^16 it is not: the guest receives a
  number that is not a root (`C71_sqrt_masked`: the square 338398). The inverse is normalized and not affected.
* C72. The stack of the device has 16 slots. An expression that needs more makes the kernel stop with an assertion
  (`C72_overflow`), while the CPU evaluates it. `FitsStack` makes the requirement explicit in C73 and C74.
* C72. The offset of a column in the bytecode is `(index * height) as u32`. If the matrix has more than 2^32 cells,
  expressions read other columns than they should (`C72_wraps`), without an error.
* C74. The GPU needs a tuple range checker and a bitwise lookup (`C74_missing`), the CPU does not. On a message to an
  unknown bus other than those of execution, memory and programs, the CPU panics and the GPU does nothing.
* C75. `get_section_of_addr` compares with `>`, so that the address one past the end of a segment is in it
  (`C75_sections`). A constant with this value that is loaded through `auipc` is taken for an address of code.
* C75. `add_extra_targets` adds the operand as a canonical number: for a branch on big integers that goes backwards,
  it adds the destination plus the characteristic (`C75_bigint`; an example shows that the destination is missing).
* C76. `composed_immediate` gives `la` the register of the `auipc` or `lui`, not of the `addi` (`C76_la`), although the
  comment says that only the latter matters. `SanePair` excludes this, `auipc x0` before `jalr`, and odd destinations
  (the machine clears the lowest bit, the label keeps it).
* C76. A label in the middle of a pair other than `li` is not the start of a lifted instruction (`C76_starts`).
* C76. `csrrw` and words that cannot be decoded become `unimp`; the model of the machine stops there as well.
* C77. `scan_for_jump_targets` remembers `rs1` of the `auipc`, which has none, instead of `rd`, and compares it with `rd` of
  the `jalr`, which always has one. So pairs are never resolved (`C77_destinations`); the sum would also start from the
  address of the `jalr` instead of the `auipc`.
* C79. Machines are stored by the name of their AIR. If two AIRs have the same name, opcodes of the second one get the machine of
  the first one (`C79_same_name`), without an error. The cost before optimization counts all columns of an AIR, the one
  afterwards only the columns that occur in the machine (`C79_cost`).
* C80. Clones of an `OriginalVmConfig` share the cached chip complex (it is behind an `Arc`), but not the configuration. A change
  resets the cache, but a later request on any clone fills it for all of them (`C80_shared`). `prove` in `openvm-riscv/src/lib.rs`
  clones the configuration and changes the clone.
* C82. The default name of an address, `__.L` and eight digits, is not compared with the names of symbols (`C82_collision`).
* C83. `filter_locations_in_text` goes over all segments, also those of data, and does not remove what comes after the last
  (`C83_locations`). A label in the middle of two instructions that were lifted to one (C76), or a location between two
  instructions, makes `take_executable_statements` panic (`C83_panic`).
* C84. `Deserialize` of Goldilocks elements does not check that the number is below the order (`C84_numbers`): two representations
  of one element compare as different. 31-bit fields panic instead of returning an error.
* C84. Bus ids of a saved constraint system are expressions; it can be read as a machine only if they are constants.
* C85. `from_str_radix` of 31-bit fields panics on numbers between the modulus and 2^32 (`C85_radix`), although it returns a `Result`;
  `from_str` does not. In `From<i64>` the comment says that the addition is "guaranteed to overflow"; for 31-bit fields and a
  number below the negated modulus it does not, and the conversion panics (`C85_signed`).
* C86. A printed machine shows the names of columns, not their ids, and no derived columns. Machines are determined by their text only
  if different columns have different names (`GoodNames`), which the code does not check.
* C87. `reg` and `value_limb` of the execution state are `unimplemented!`: optimistic constraints on registers would panic. The
  constraints that are generated only use the program counter. The loop goes on with the next instruction if an instruction has
  failed; only the exit code is left (the theorems are about states that are still running), or a check of the program counter panics.
* C88. The number of columns of the original VM is computed from a map by AIR name, so of several AIRs with one name only one is
  counted, and the limit of columns can be exceeded (sample in `Props/Assemble`). AIRs of precompiles are recognised by the name of
  their type: an original AIR whose name starts with `PowdrAir` makes `air_metrics` panic or pair wrongly.
* C89. `From<u64>` of the 32-bit integers cuts off the upper bits, so `from_mask(2^32 + 255)` is `from_mask(255)` in the small
  fields. A shift to the left that does not fit loses bits for words and panics for limbs. Neither happens inside the range constraints.
* C90. The row numbers are parsed as field elements although the column is dropped, so a table longer than the characteristic
  cannot be read again. `CsvRenderMode::SignedBase10` writes unsigned numbers.
* C91. `substitute_subexpressions` visits the replacement as well (it goes before the parts), so replacing `x` by `x + 1` overflows the
  stack, and a replacement is itself rewritten below its top.
* C94. The assertion on bus interactions at the end of `optimize` (optimizer.rs:172-181) compares their
  degrees with the bound for *constraints*, not with the one for bus interactions. Neither is it
  implied by the inliner alone if the bound for bus interactions is the larger one. The theorem therefore
  requires that the bound for bus interactions is at most the one for constraints, as it is in the default
  configuration, and then shows the stronger fact that bus interactions stay below their own bound.
* C95. "The optimizer does not panic" is false as a whole. `find_low_degree_function` unwraps
  `exactly_one` (low_degree_bus_interaction_optimizer.rs:251-253): if an input has only one possible value
  that has not been substituted yet, several of the tried functions agree, and it panics. The property says
  so, and `C95_ambiguous` shows that this is the only way. `optimize_range_constraints` unwraps the range
  checks made by the handler (range_constraint_optimizer.rs:127-130). Both are possible only where
  `OptState.MayPanic` says. The handlers must accept every interaction: the one for OpenVM panics on
  interactions of the wrong length (C16); C96 covers handlers that accept only certain interactions.
  The assertion on the pc lookup at the end of `optimize` (optimizer.rs:186-192) is not a pass and
  depends on what the solver finds.
* C96. OpenVM's handler panics on malformed interactions (memory.rs, bitwise_lookup.rs, ...). One case is
  not malformed at first sight: a bitwise lookup whose operation is not a constant. Its handler panics on
  operations other than 0 and 1, and the exhaustive search calls it with all values that the operation may
  have, so the property requires that the operation is a constant. The last example of
  `Props/OptimizerPanics` shows that the requirement cannot be dropped for the handler.
* C97. Three assertions remain as ways to fail. That two of the functions of the low-degree optimizer agree
  and that the guards change the degree depend on the block. That no program lookup is left depends on what
  the solver finds out: the program lookup goes away as a part of the system that is not connected to a stateful bus, so
  its fields must have become constants.
* C98. The bound for bus interactions is not checked after the guards. `degreeSample_raised` gives a machine
  of degree three whose multiplicity of degree two gets degree three, without a panic. Without the constraint
  of degree three the same machine makes the assertion of `add_guards` fail (`C98_guards_panic`).
* C99. The part about substituting needs the condition that assignments found by `add_range_constraint` were fetched:
  a sample beside the theorems adds the range of `x0`, then `x0 = x1`; `solve` returns `x0 := 3`, then `x1 := x0`, and
  substituting them in this order in `x0 - x1` leaves `3 - x0`.
* C100. Not part of the claim because false: a multiple is the whole field as soon as the number of values times the factor
  exceeds the modulus, although the largest multiple may still be below it (sample beside the theorems: twice 0 to 8 in
  the field with 17 elements). An intersection in two pieces is replaced by the smaller interval, as the comment in the code says.
* C101. Coefficients that are not equal up to sign are excluded: the interval of `2 * x` also contains odd values (C100).
* C102. The condition on the mask is needed: `is_disjoint` compares a value with a mask only by common bits, so a root
  with some of its bits in the mask is kept although it is not allowed.
* C103. Two sends in a row to the same cell are both kept by the code (the first is only forgotten), so the claim is
  about cells whose sends and receives alternate, as those of every block do.
* C104. The constraints that were solved for a variable take part in the check of the degree until the end (they are
  removed only then), and the index of occurrences may name constraints in which the variable no longer occurs. So the
  place where the bound would be exceeded is one of the original constraints after all substitutions, and it contains
  the variable only if the system was within the bound.
* C105. `to_factors` divides a factor by its constant, or by its first linear coefficient. A factor with neither (a sum
  of several products) is left as it is, so two such constraints that differ by a constant are both kept; the example
  beside the theorems shows it. The statement therefore speaks of factors and of products with non-constant expressions.
* C106. `handle_bitwise_lookup` does not check that the operands of an exclusive or are bytes if both are known: the
  lookup of 300 xor 0 = 300 is not in the table, and the handler does not report it. The statement names the exception,
  and the example beside the theorem shows it.
* C107. Determinism is proved for the steps named there. For the solver it is not claimed: it collects effects in hash maps,
  and the model leaves their order open in each step (`Choices`); every theorem about the solver holds for all orders.
* C108. The field need not become a number at once: a later search over other variables can override the substitution with a
  partial one. The theorem therefore says that the field changes and gains no variable; that each search finds the value is a
  theorem of its own (`C108_candidate`).
* C109. After a substitution the index can name constraints that no longer mention the variable; then a free variable can be
  overlooked (an example is next to the theorems). The second part is therefore stated for an index built from the system.
