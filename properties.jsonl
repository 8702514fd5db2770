{"id": "C01", "title": "A reported optimum is feasible", "statement": "When solve_relaxation returns FiniteOptimum(x), x satisfies every equality row A x = b exactly and is non-negative in every coordinate, for a problem whose right-hand side is non-negative (the solver's input convention).", "quantifier": "every standard-form problem (any number of rows and columns, any rational data, b >= 0), every choice of initial basis columns, every pivot rule shipped with the crate", "why_tests_cant": "tests only see a handful of problem instances; feasibility must survive every pivot sequence of every length", "anchors": ["src/algorithm/two_phase/mod.rs: solve_relaxation", "src/algorithm/two_phase/phase_two.rs: primal", "src/algorithm/two_phase/tableau/inverse_maintenance/carry/mod.rs: Carry::change_basis, update_b, current_bfs"]}
{"id": "C02", "title": "A reported optimum is optimal", "statement": "When solve_relaxation returns FiniteOptimum(x), no feasible point has a strictly smaller objective value than x.", "quantifier": "every standard-form problem and every feasible competitor point", "why_tests_cant": "optimality compares against infinitely many feasible points", "anchors": ["src/algorithm/two_phase/mod.rs: solve_relaxation", "src/algorithm/two_phase/phase_two.rs: primal", "src/algorithm/two_phase/strategy/pivot_rule.rs: PivotRule::select_primal_pivot_column", "src/algorithm/two_phase/tableau/mod.rs: relative_cost"]}
{"id": "C03", "title": "Unbounded is only reported for unbounded problems", "statement": "When solve_relaxation returns Unbounded, there are feasible points of arbitrarily low objective value.", "quantifier": "every standard-form problem and every threshold value", "why_tests_cant": "needs a witness ray for all thresholds on all inputs", "anchors": ["src/algorithm/two_phase/phase_two.rs: primal", "src/algorithm/two_phase/tableau/mod.rs: select_primal_pivot_row"]}
{"id": "C04", "title": "Infeasible is only reported for infeasible problems", "statement": "When solve_relaxation returns Infeasible, no non-negative vector satisfies A x = b.", "quantifier": "every standard-form problem with b >= 0 and every candidate point", "why_tests_cant": "non-existence of a feasible point cannot be sampled", "anchors": ["src/algorithm/two_phase/phase_one.rs: primal, compute_bfs_giving_im", "src/algorithm/two_phase/tableau/kind/artificial/fully.rs", "src/algorithm/two_phase/tableau/kind/artificial/partially.rs"]}
{"id": "C05", "title": "The solver never panics with the row-wise basis inverse", "statement": "solve_relaxation with the row-wise basis inverse never panics on a problem with b >= 0: in particular the 'Artificial cost can not be unbounded' branch, the 'Pivot value can't be zero' expectation, missing steepest-edge weights and index underflows are unreachable.", "quantifier": "every standard-form problem with b >= 0, every reachable solver state", "why_tests_cant": "panic sites are guarded by invariants over all pivot histories", "anchors": ["src/algorithm/two_phase/phase_one.rs: primal (panic!)", "src/algorithm/two_phase/tableau/inverse_maintenance/carry/mod.rs: update_b (expect)", "src/algorithm/two_phase/strategy/pivot_rule.rs: unwrap", "src/algorithm/two_phase/tableau/kind/non_artificial.rs: from_artificial"]}
{"id": "C06", "title": "The reported optimum is a well-formed basic solution", "statement": "The returned vector is a valid sparse vector over exactly the problem's columns: indices strictly increasing and in range, no stored zeros, all stored values positive, at most one nonzero per row of the problem and no more than the rank of the coefficients, and the columns in its support are linearly independent. It is a vertex: it does not lie properly between two other feasible points. If all coefficients and right-hand sides are integers of absolute value at most B, its values are quotients of integers of at most r! B^r with a common denominator, where r is the rank: exact arithmetic does not blow up the result.", "quantifier": "every run that returns FiniteOptimum", "why_tests_cant": "structural claim about every possible output", "anchors": ["src/algorithm/two_phase/tableau/mod.rs: current_bfs", "src/algorithm/two_phase/tableau/inverse_maintenance/carry/mod.rs: current_bfs", "src/data/linear_algebra/vector/sparse.rs: Sparse::new"]}
{"id": "C07", "title": "First-profitable pivoting always terminates", "statement": "Both simplex phases, when run with the FirstProfitable rule, stop after finitely many pivots on every problem, degenerate ones included (Bland's rule together with the smallest-leaving-index tie-break). Each phase does less iterations than there are sets of m out of m + n columns, for m rows and n columns.", "quantifier": "every standard-form problem with b >= 0", "why_tests_cant": "cycling only shows up on specially degenerate inputs; termination is a claim about all of them", "anchors": ["src/algorithm/two_phase/strategy/pivot_rule.rs: FirstProfitable", "src/algorithm/two_phase/tableau/mod.rs: select_primal_pivot_row", "src/algorithm/two_phase/phase_one.rs: primal", "src/algorithm/two_phase/phase_two.rs: primal"]}
{"id": "C08", "title": "solve_relaxation terminates", "statement": "solve_relaxation (which uses the steepest-edge rule in both phases) stops after finitely many pivots on every problem with b >= 0.", "quantifier": "every standard-form problem with b >= 0", "why_tests_cant": "non-termination needs a degenerate cycle that random tests do not hit", "anchors": ["src/algorithm/two_phase/mod.rs: solve_relaxation", "src/algorithm/two_phase/strategy/pivot_rule.rs: SteepestDescentAlongObjective"]}
{"id": "C09", "title": "Dropped rows are redundant", "statement": "If phase one declares rows redundant and they are removed before phase two, the remaining problem has exactly the same feasible set as the original one. The rows that remain are linearly independent: no redundant row is missed.", "quantifier": "every feasible problem, every set of rows declared redundant, every point", "why_tests_cant": "set equality over all points, for all rank-deficient systems", "anchors": ["src/algorithm/two_phase/phase_one.rs: remove_artificial_basis_variables, Rank::Deficient", "src/algorithm/two_phase/matrix_provider/filter/generic_wrapper.rs: RemoveRows", "src/algorithm/two_phase/tableau/kind/non_artificial.rs: from_artificial_removing_rows"]}
{"id": "C10", "title": "The objective never increases and the running objective is exact", "statement": "After every pivot of either phase, the objective value tracked by the solver equals cost . (current basic solution) and is not larger than before the pivot.", "quantifier": "every pivot of every run", "why_tests_cant": "quantifies over all pivot histories", "anchors": ["src/algorithm/two_phase/tableau/inverse_maintenance/carry/mod.rs: update_minus_pi_and_obj, create_minus_obj_from_artificial, get_objective_function_value", "src/algorithm/two_phase/tableau/mod.rs: objective_function_value, select_primal_pivot_row"]}
{"id": "C11", "title": "Steepest-edge weights stay exact", "statement": "In every iteration the steepest-edge rule selects, among the non-basic real columns with negative relative cost, one that maximises cost^2 / (1 + |column in current basis|^2), i.e. its incrementally updated weights always equal the freshly computed ones.", "quantifier": "every iteration of every run with the steepest-edge rule", "why_tests_cant": "incremental updates could drift only after particular pivot sequences", "anchors": ["src/algorithm/two_phase/strategy/pivot_rule.rs: SteepestDescentAlongObjective::{new, select_primal_pivot_column, after_basis_update}, initial_gamma"]}
{"id": "C12", "title": "Every pivot rule is complete", "statement": "Each shipped pivot rule returns a non-basic, non-artificial column of negative relative cost together with that cost whenever one exists, and None only if none exists, at every iteration of either phase.", "quantifier": "every pivot rule, every iteration of every run", "why_tests_cant": "a rule with memory may miss a column only after particular histories", "anchors": ["src/algorithm/two_phase/strategy/pivot_rule.rs: FirstProfitable, FirstProfitableWithMemory, SteepestDescentAlongVariable, SteepestDescentAlongObjective"]}
{"id": "C13", "title": "Solver result is independent of the basis-inverse representation", "statement": "Solving with the row-wise basis inverse and with the LU-factorised basis inverse (including its eta updates and refactorisations) yields the same verdict and the same solution vector, for every problem with at least two rows left after removal of redundant ones.", "quantifier": "every standard-form problem, every pivot history", "why_tests_cant": "requires exactness of two different data structures over all update sequences", "anchors": ["src/algorithm/two_phase/tableau/inverse_maintenance/carry/basis_inverse_rows.rs", "src/algorithm/two_phase/tableau/inverse_maintenance/carry/lower_upper/mod.rs", "src/algorithm/two_phase/tableau/inverse_maintenance/carry/mod.rs: change_basis"]}
{"id": "C14", "title": "Row-wise basis inverse is exact under updates", "statement": "Starting from the identity and after any sequence of basis changes with nonzero pivots, the row-wise representation multiplies by exactly the inverse of the current basis matrix (columns, single elements, rows and row-vector products).", "quantifier": "every dimension, every sequence of basis changes, every column", "why_tests_cant": "an unbounded history of rank-one updates", "anchors": ["src/algorithm/two_phase/tableau/inverse_maintenance/carry/basis_inverse_rows.rs: identity, change_basis, left_multiply_by_basis_inverse, right_multiply_by_basis_inverse, generate_element, basis_inverse_row"]}
{"id": "C15", "title": "LU factorisation inverts every nonsingular basis", "statement": "Factorising any nonsingular square matrix of dimension at least two succeeds, and multiplying by the factorisation from the left (from the right) equals multiplying by the exact inverse (inverse transposed).", "quantifier": "every dimension >= 2, every nonsingular rational matrix, every vector", "why_tests_cant": "all matrices and all Markowitz pivot orders", "anchors": ["src/algorithm/two_phase/tableau/inverse_maintenance/carry/lower_upper/decomposition/mod.rs: rows", "src/algorithm/two_phase/tableau/inverse_maintenance/carry/lower_upper/mod.rs: invert, left_multiply_by_basis_inverse, right_multiply_by_basis_inverse, basis_inverse_row"]}
{"id": "C16", "title": "LU updates are exact", "statement": "After any sequence of basis changes with nonzero pivots, the updated LU representation (permuted upper factor plus eta files) still multiplies by exactly the inverse of the current basis.", "quantifier": "every dimension >= 2, every sequence of basis changes", "why_tests_cant": "an unbounded history of spike/eta updates", "anchors": ["src/algorithm/two_phase/tableau/inverse_maintenance/carry/lower_upper/mod.rs: change_basis", "src/algorithm/two_phase/tableau/inverse_maintenance/carry/lower_upper/eta_file.rs: EtaFile"]}
{"id": "C17", "title": "LU works for every dimension", "statement": "The LU representation supports basis changes in every dimension, including problems with a single constraint row.", "quantifier": "every dimension m >= 1", "why_tests_cant": "a boundary dimension is easily missed by tests", "anchors": ["src/algorithm/two_phase/tableau/inverse_maintenance/carry/lower_upper/mod.rs: change_basis, identity"]}
{"id": "C18", "title": "Permutation objects are bijections with inverse backward maps", "statement": "For the identity, swap, rotate-to-back and explicit permutations, mapping an index backward after forward (and forward after backward) returns the index, the 'sorted' variants map an index-sorted sparse vector to the index-sorted sparse vector of the permuted vector, and composing an explicit permutation with a swap does what its name says.", "quantifier": "every length, every permutation, every index, every sparse vector", "why_tests_cant": "all permutations of all sizes", "anchors": ["src/algorithm/two_phase/tableau/inverse_maintenance/carry/lower_upper/permutation/mod.rs", "src/algorithm/two_phase/tableau/inverse_maintenance/carry/lower_upper/permutation/swap.rs", "src/algorithm/two_phase/tableau/inverse_maintenance/carry/lower_upper/permutation/rotate_to_back.rs", "src/algorithm/two_phase/tableau/inverse_maintenance/carry/lower_upper/permutation/full.rs"]}
{"id": "C19", "title": "Rotating an explicit permutation composes it with the rotation", "statement": "FullPermutation::rotate_right_from(i) turns the permutation into its composition with the cyclic shift of the positions from i on.", "quantifier": "every permutation and every start position", "why_tests_cant": "small or identity permutations hide the difference", "anchors": ["src/algorithm/two_phase/tableau/inverse_maintenance/carry/lower_upper/permutation/full.rs: rotate_right_from"]}
{"id": "C20", "title": "Sparse vectors behave like dense ones", "statement": "Every sparse vector operation (set, get, shift value, add multiple of a row, scale, divide, push, remove indices, inner products, squared norm) has the effect of the corresponding dense operation, and keeps the representation valid: indices strictly increasing, in range, no explicit zeros.", "quantifier": "every vector, every operation sequence, every index and value", "why_tests_cant": "representation invariants over arbitrary operation histories", "anchors": ["src/data/linear_algebra/vector/sparse.rs", "src/data/linear_algebra/vector/dense.rs"]}
{"id": "C21", "title": "Transposition and row/column removal of sparse matrices are exact", "statement": "Converting between row-major and column-major order transposes the stored matrix exactly and is an involution; removing major or minor indices yields exactly the submatrix of the remaining rows and columns.", "quantifier": "every sparse matrix, every sorted index list", "why_tests_cant": "all shapes and sparsity patterns", "anchors": ["src/data/linear_algebra/matrix.rs: from_minor_ordered_tuples, remove_major_indices, remove_minor_indices, change_row_signs"]}
{"id": "C22", "title": "The tabular form of a constrained problem is equivalent to it", "statement": "A vector x >= 0 satisfies all equality, range, <= and >= constraints and variable upper bounds of a MatrixData problem iff it extends (uniquely) by slack values to a non-negative solution of the equality system that the solver sees, with equal cost; reconstruct_solution recovers x. The row that is reported for an upper bound of a column is one in which this column and a slack add up to the bound, and a column without reported row has no bound.", "quantifier": "every MatrixData problem and every vector", "why_tests_cant": "equivalence over all points and all mixes of constraint types", "anchors": ["src/algorithm/two_phase/matrix_provider/matrix_data.rs: MatrixData::{new, column, cost_value, right_hand_side, reconstruct_solution}"]}
{"id": "C23", "title": "The advertised initial basis is an identity submatrix", "statement": "The (row, column) pairs a MatrixData problem offers as initial basis point to columns that are unit vectors with the 1 in that row, are sorted by row, and cost nothing, so that with b >= 0 they form part of a basic feasible solution.", "quantifier": "every MatrixData problem", "why_tests_cant": "all group sizes and bound patterns", "anchors": ["src/algorithm/two_phase/matrix_provider/matrix_data.rs: pivot_element_indices, nr_initial_elements", "src/algorithm/two_phase/tableau/kind/artificial/partially.rs: new"]}
{"id": "C24", "title": "Solving a constrained problem end to end is correct", "statement": "For a problem given by constraint matrix, relation types, right-hand side >= 0, variable costs and upper bounds >= 0, building the tabular form, solving it and reconstructing yields: an optimal point, or a correct verdict 'infeasible'/'unbounded', in terms of the original constraints.", "quantifier": "every MatrixData problem with non-negative right-hand side, ranges and upper bounds", "why_tests_cant": "composition of all solver layers over all inputs", "anchors": ["src/algorithm/two_phase/matrix_provider/matrix_data.rs", "src/algorithm/two_phase/mod.rs: solve_relaxation"]}
{"id": "C25", "title": "Row filtering maps indices correctly", "statement": "In a row-filtered problem, the i-th remaining row is exactly the i-th row of the original that was not removed, for the right-hand side, for columns and for bound row lookup alike.", "quantifier": "every sorted set of removed rows and every index", "why_tests_cant": "all index sets; binary search boundary cases", "anchors": ["src/algorithm/two_phase/matrix_provider/filter/generic_wrapper.rs: get_underlying_index, RemoveRows::{column, right_hand_side, bound_row_index}", "src/algorithm/two_phase/matrix_provider/matrix_data.rs: into_filtered"]}
{"id": "C26", "title": "Specialised filtering of MatrixData columns agrees with plain row deletion", "statement": "Filtering a MatrixData column (which deletes entries in the constraint part and shifts slack rows by the number of removed rows) gives the same column as deleting the rows, for every set of rows that phase one can declare redundant; only equality constraint rows are ever declared redundant.", "quantifier": "every MatrixData problem, every reachable set of redundant rows", "why_tests_cant": "depends on which rows can become redundant in all runs", "anchors": ["src/algorithm/two_phase/matrix_provider/matrix_data.rs: into_filtered", "src/algorithm/two_phase/phase_one.rs: remove_artificial_basis_variables"]}
{"id": "C27", "title": "Standardisation preserves the problem", "statement": "Standardising a general-form problem (splitting free variables, flipping, shifting, sign-normalising rows, negating a maximisation, reordering rows) gives a problem whose feasible points correspond one to one (onto, for split variables) with those of the original under the recorded shift/flip/split, with right-hand side >= 0 and with objective values differing only by sign and the recorded fixed cost.", "quantifier": "every consistent general-form problem and every point", "why_tests_cant": "equivalence over all points and all combinations of bounds and relations", "anchors": ["src/data/linear_program/general_form/mod.rs: standardize, transform_variables, split_free_variables, make_b_non_negative, make_minimization_problem, reorder_constraints_by_type"]}
{"id": "C28", "title": "A solution of the reduced problem maps back to a solution of the original", "statement": "compute_full_solution_with_reduced_solution turns a feasible point of the standardised problem into a point that satisfies the original constraints and bounds, with one value per original variable.", "quantifier": "every general-form problem and every feasible reduced point", "why_tests_cant": "all combinations of shift, flip, split and removal", "anchors": ["src/data/linear_program/general_form/mod.rs: compute_full_solution_with_reduced_solution, reshift_solution, compute_solution_value_with_bfs, get_solution"]}
{"id": "C29", "title": "The reported objective value is the objective of the reported solution", "statement": "The objective_value of the solution returned for a general-form problem equals the original objective function (minimise or maximise) evaluated at the returned variable values.", "quantifier": "every general-form problem, both objective directions", "why_tests_cant": "sign and constant offset only matter for some inputs", "anchors": ["src/data/linear_program/general_form/mod.rs: make_minimization_problem, transform_variables, compute_full_solution_with_reduced_solution"]}
{"id": "C30", "title": "Contradictory variable bounds are reported as infeasible", "statement": "If a variable's upper bound is below its lower bound, the problem is not reported as having an optimum.", "quantifier": "every general-form problem with crossing bounds", "why_tests_cant": "only triggered by contradictory bounds", "anchors": ["src/data/linear_program/general_form/mod.rs: derive_matrix_data, transform_variables", "src/algorithm/two_phase/matrix_provider/matrix_data.rs: right_hand_side"]}
{"id": "C31", "title": "Fixing a variable during presolve is sound", "statement": "Removing a fixed variable subtracts its contribution from each right-hand side and the objective so that the remaining problem has exactly the feasible points of the original with that variable at its fixed value.", "quantifier": "every problem, every fixed variable", "why_tests_cant": "all columns and values", "anchors": ["src/data/linear_program/general_form/presolve/rule/fixed_variable.rs: presolve_fixed_variable", "src/data/linear_program/general_form/presolve/updates.rs: change_b"]}
{"id": "C32", "title": "Turning singleton rows into bounds is sound", "statement": "Replacing a constraint with a single active variable by bounds on that variable preserves the feasible set, and reports infeasibility only if the resulting interval is empty.", "quantifier": "every relation type, sign of coefficient, right-hand side, existing bounds", "why_tests_cant": "all sign/relation/bound combinations over all values", "anchors": ["src/data/linear_program/general_form/presolve/rule/bound_constraint.rs: presolve_bound_constraint", "src/data/linear_program/general_form/presolve/updates.rs: update_bound"]}
{"id": "C33", "title": "Removing a slack-like variable in presolve is sound", "statement": "Removing a zero-cost variable that occurs in a single constraint, by relaxing that constraint, preserves feasibility: the remaining problem is feasible exactly when the original is, and the recovered value of the removed variable satisfies its bounds.", "quantifier": "every relation type, bound pattern, sign and value", "why_tests_cant": "all combinations over all rational values", "anchors": ["src/data/linear_program/general_form/presolve/rule/slack.rs: presolve_slack, compute_removed_variable_solution"]}
{"id": "C34", "title": "Activity-based presolve never cuts off feasible points", "statement": "Bounds derived from constraint activity (domain propagation) are satisfied by every feasible point, and a constraint is dropped or the problem declared infeasible by activity only when that is implied.", "quantifier": "every problem, every sequence of propagation steps", "why_tests_cant": "quantifies over all feasible points and all step orders", "anchors": ["src/data/linear_program/general_form/presolve/rule/domain_propagation.rs", "src/data/linear_program/general_form/presolve/updates.rs"]}
{"id": "C35", "title": "Presolve handles every relation type without panicking", "statement": "Domain propagation does not hit its unreachable!() branches for any consistent problem.", "quantifier": "every consistent problem", "why_tests_cant": "specific coincidence of activity bound and right-hand side", "anchors": ["src/data/linear_program/general_form/presolve/rule/domain_propagation.rs: constraint_update"]}
{"id": "C36", "title": "Scaling preserves the problem and is reversible", "statement": "Scaling rows, columns and cost by positive factors gives an equivalent problem: feasible points correspond under column scaling (the correspondence used to scale a solution back), objective values are scaled by the cost factor, and scaling back restores the original problem exactly.", "quantifier": "every general-form problem, every positive scaling, every point", "why_tests_cant": "all factor combinations over all points", "anchors": ["src/data/linear_program/general_form/presolve/scale/mod.rs: scale, Scaling::scale_back", "src/data/linear_program/general_form/presolve/scale/rational/mod.rs: scale, scale_back, combine_factors"]}
{"id": "C37", "title": "Decimal numbers are read exactly", "statement": "A numeral with optional minus sign, digits and at most one decimal point is read as exactly the rational number it denotes, whenever its digits fit in the 64-bit accumulator.", "quantifier": "every numeral string", "why_tests_cant": "all digit strings of all lengths", "anchors": ["src/io/mps/number/parse.rs: Raw::try_from, From<Raw>"]}
{"id": "C38", "title": "MPS bounds are combined correctly", "statement": "The interval assigned to a variable is the intersection of all its bound lines, with the default lower bound zero exactly if only upper bounds (or nothing) were given; a variable declared free together with a bound is rejected.", "quantifier": "every list of bound lines in every order", "why_tests_cant": "all orders and combinations of bound lines", "anchors": ["src/io/mps/convert.rs: process_bounds, process_bound, replace_existing_with, fill_in_default_lower_bounds"]}
{"id": "C39", "title": "MPS ranges have the documented meaning", "statement": "A row with a RANGES entry r and right-hand side b denotes the interval of the documented table (G: [b, b+|r|], L: [b-|r|, b], E: [b, b+|r|] or [b-|r|, b] by sign), with b = 0 when no RHS entry is given.", "quantifier": "every row type, every range value, with or without an RHS entry", "why_tests_cant": "needs the absent-RHS combination for each row type and sign", "anchors": ["src/io/mps/convert.rs: compute_constraint_types, compute_b", "src/io/mps/mod.rs: Range"]}
{"id": "C40", "title": "Multiple right-hand sides are intersected", "statement": "If several RHS groups give values for one row, a >= row gets the largest, a <= row the smallest, and an equality row is rejected unless they agree.", "quantifier": "every list of RHS groups", "why_tests_cant": "all orders and repetitions", "anchors": ["src/io/mps/convert.rs: compute_b"]}
{"id": "C41", "title": "Network incidence matrices describe the graph", "statement": "The incidence matrix built from an adjacency matrix has one column per arc with -1 at its source and +1 at its target, omitting exactly the removed vertices and renumbering the rest in order, with arc values in the same order.", "quantifier": "every loop-free directed graph and every set of removed vertices", "why_tests_cant": "all graphs and removal sets", "anchors": ["src/data/linear_program/network/representation.rs: IncidenceMatrix::new"]}
{"id": "C42", "title": "Deleting a row of a row-filtered problem", "statement": "Deleting row i of a filtered problem removes, in addition, exactly the row of the original problem that is currently at position i; it never aborts for an index in range.", "quantifier": "every sorted set of removed rows, every index, with and without debug assertions", "why_tests_cant": "all index sets", "anchors": ["src/algorithm/two_phase/matrix_provider/filter/generic_wrapper.rs: delete_row, delete_index, get_underlying_index"]}
{"id": "C43", "title": "Solving a general-form problem end to end gives a correct verdict", "statement": "Calling standardize, derive_matrix_data, solve_relaxation, reconstruct_solution and compute_full_solution_with_reduced_solution in turn gives: if an optimum is reported, values of the original variables that satisfy all original constraints and bounds and are best in the direction of the objective; if Unbounded or Infeasible is reported, the original problem is unbounded or infeasible.", "quantifier": "every consistent general-form problem without contradictory bounds, every basis inverse and pivot rule, every number of iterations", "why_tests_cant": "composition of five transformations over all problems", "anchors": ["src/data/linear_program/general_form/mod.rs: standardize, derive_matrix_data, compute_full_solution_with_reduced_solution", "src/algorithm/two_phase/mod.rs: solve_relaxation", "src/algorithm/two_phase/matrix_provider/matrix_data.rs: reconstruct_solution"]}
{"id": "C44", "title": "Presolving and solving gives a correct verdict", "statement": "Presolving a problem, solving the presolved problem and computing the full solution gives: a reported optimum that is a best feasible point of the original problem, extended to all original variables; infeasible or unbounded only if the original problem is.", "quantifier": "every general-form problem with proper bounds, every pivot rule and basis inverse", "why_tests_cant": "ranges over all problems and all sequences of presolve rules", "anchors": ["src/data/linear_program/general_form/mod.rs: presolve, standardize, derive_matrix_data, compute_full_solution_with_reduced_solution", "src/data/linear_program/general_form/presolve/mod.rs: Index", "tests/unicamp/mod.rs: solve"]}
{"id": "C45", "title": "Presolve reports unbounded only for unbounded problems", "statement": "If presolving ends with the verdict unbounded, there are feasible points of arbitrarily good objective value.", "quantifier": "every general-form problem", "why_tests_cant": "needs the feasible set of every problem", "anchors": ["src/data/linear_program/general_form/presolve/mod.rs: Index::new", "src/data/linear_program/general_form/mod.rs: get_values_that_remain, optimize_column_independently"]}
{"id": "C46", "title": "Presolve reports contradictory bounds as infeasible", "statement": "Presolving never aborts; a variable whose upper bound is below its lower bound makes it report infeasibility.", "quantifier": "every general-form problem", "why_tests_cant": "any combination of bounds, relations and coefficients", "anchors": ["src/data/linear_program/general_form/presolve/mod.rs: Index::new", "src/data/linear_program/general_form/mod.rs: presolve"]}
{"id": "C47", "title": "Presolving can be repeated", "statement": "Presolving an already presolved problem gives a problem that describes the same original problem.", "quantifier": "every general-form problem", "why_tests_cant": "the result depends on which variables earlier presolving removed", "anchors": ["src/data/linear_program/general_form/mod.rs: presolve, update_values_that_remain, compute_solution_where_possible"]}
{"id": "C48", "title": "Presolving ends", "statement": "Presolving ends after finitely many rule applications, for every problem, and their number is bounded by a polynomial in the numbers of constraints, variables and coefficients, whatever these coefficients are.", "quantifier": "every general-form problem", "why_tests_cant": "domain propagation could tighten bounds forever", "anchors": ["src/data/linear_program/general_form/presolve/mod.rs: Index::presolve_step", "src/data/linear_program/general_form/mod.rs: presolve"]}
{"id": "C49", "title": "Shortest paths", "statement": "Solving the shortest path problem of the example reports a unit flow that is a path: it is 1 on the arcs of a shortest walk from s to t that visits no vertex twice, and 0 on all other arcs; its cost is the length of that walk. Infeasible is reported only if there is no walk from s to t; unbounded only if there is a closed walk of negative length; with first-profitable pivoting there always is an answer, which is an optimum exactly if there is a walk from s to t and no closed walk of negative length.", "quantifier": "every directed graph without loops, every pair of different vertices, every pivot rule and basis inverse", "why_tests_cant": "ranges over all graphs and all walks in them", "anchors": ["examples/shortest_path.rs: Primal", "src/data/linear_program/network/representation.rs: IncidenceMatrix"]}
{"id": "C50", "title": "Maximum flows", "statement": "Solving the maximum flow problem of the example reports a flow within the capacities whose value (what leaves s minus what enters s) is the greatest possible. This value is the least capacity of a cut between s and t. If all capacities are integers, so are all reported amounts. With first-profitable pivoting a flow is always reported. The row reported for the upper bound of an arc's column is one that bounds its flow by the capacity.", "quantifier": "every directed graph without loops and with nonnegative capacities, every pair of different vertices, every pivot rule and basis inverse", "why_tests_cant": "ranges over all graphs and all flows in them", "anchors": ["examples/max_flow.rs: Primal, Column", "src/data/linear_program/network/representation.rs: IncidenceMatrix"]}
{"id": "C51", "title": "Malformed numbers are rejected", "statement": "Text that is not a decimal numeral (sign, digits, at most one point, at least one digit), or whose digits do not fit, is rejected with a parse error, and reading a number never aborts.", "quantifier": "every text", "why_tests_cant": "all texts of all lengths, malformed in any place", "anchors": ["src/io/mps/number/parse.rs: Raw::try_from, From<Raw>"]}
{"id": "C52", "title": "An MPS program is converted to the linear program it describes", "statement": "The general-form problem that an MPS program is converted to has exactly the feasible points and objective values that the documentation gives to the MPS program, so that an optimum, infeasibility or unboundedness found for it holds for the MPS program; programs are rejected exactly if they contradict themselves, and the conversion never aborts.", "quantifier": "every MPS program whose indices are in range, every point, every pivot rule and basis inverse", "why_tests_cant": "ranges over all programs and all points", "anchors": ["src/io/mps/convert.rs: TryInto<GeneralForm>, compute_variable_info, compute_constraint_info, compute_ranges, compute_b", "src/io/mps/mod.rs: MPS"]}
{"id": "C53", "title": "Computing a scaling ends and gives an equivalent problem", "statement": "Scaling a problem ends without aborting for every consistent problem, whatever factors are found in its numbers, and returns a scaling with positive factors for each row, column and the costs, together with the problem scaled by it, so that its solutions correspond to those of the original.", "quantifier": "every consistent general-form problem, every factorisation of numbers into positive factors", "why_tests_cant": "the search for factors revisits rows and columns until nothing improves; termination and the absence of aborts range over all problems", "anchors": ["src/data/linear_program/general_form/presolve/scale/rational/mod.rs: Scalable::scale, solve, solve_single, update_column, do_constraint, do_cost, combine_factors"]}
{"id": "C54", "title": "Scaling does not make the numbers larger", "statement": "Scaling a problem does not increase the total number of prime factors in its costs, coefficients, right-hand sides and bounds.", "quantifier": "every consistent general-form problem", "why_tests_cant": "all problems; the unit tests compare the factors only, not the problem that results", "anchors": ["src/data/linear_program/general_form/presolve/scale/rational/mod.rs: Scalable::scale, combine_factors"]}
{"id": "C55", "title": "An MPS file is read as it is written", "statement": "Reading a text in which an MPS file is written, in the free or in the fixed format, gives a program with the name, direction, rows, columns, integrality markers, costs, right-hand sides, ranges and bounds of the file, under their names; if the file contradicts itself (missing or repeated cost row, repeated row names, unknown or repeated entries), an error is returned. Spacing, comments, empty lines, line endings and the format do not matter.", "quantifier": "every MPS file, every way to write it down in one of the two formats", "why_tests_cant": "ranges over all files and all layouts of white space, comments and lines", "anchors": ["src/io/mps/parse/mod.rs: parse, into_lines, parse_row_section, parse_column_section, parse_optional_section, parse_bounds_section", "src/io/mps/parse/free.rs: Free", "src/io/mps/parse/fixed.rs: Fixed"]}
{"id": "C56", "title": "Reading a text never aborts", "statement": "Reading any text as MPS file returns a program or an error, and never aborts.", "quantifier": "every text, both formats", "why_tests_cant": "all texts, malformed in any place", "anchors": ["src/io/mps/parse/mod.rs: parse, parse_bound_line, FromStr for RowType", "src/io/mps/parse/fixed.rs: Fixed", "src/io/mps/parse/free.rs: Free"]}
{"id": "C57", "title": "A program that is read has valid indices", "statement": "Whatever the text, a program that is read from it has rows with different names, and refers only to rows and columns that are there, at most once per column or group and in order; its conversion to a linear program returns a problem or an error and does not abort.", "quantifier": "every text that is accepted, both formats", "why_tests_cant": "ranges over all texts, also malformed ones", "anchors": ["src/io/mps/parse/mod.rs: check_row_section_consistency, save_to_column_collector, save_to_group_collector, check_ranges_consistency", "src/io/mps/convert.rs: TryInto<GeneralForm>"]}
{"id": "C58", "title": "Importing and solving a file gives the optimum of the linear program that is written there", "statement": "The verdict of importing a file, converting and solving it holds for the linear program that the file describes in terms of the names in it: an optimum has the best objective value of all feasible assignments of values to names and reports the value of each column under its name; infeasible and unbounded are right. Files are rejected exactly if they contradict themselves.", "quantifier": "every MPS file, every way to write it down, every pivot rule and basis inverse", "why_tests_cant": "ranges over all files and all assignments", "anchors": ["src/io/mod.rs: import", "src/io/mps/mod.rs: parse", "src/io/mps/convert.rs: TryInto<GeneralForm>", "src/data/linear_program/general_form/mod.rs: GeneralForm"]}
{"id": "C59", "title": "Starting from a feasible basis gives a right answer", "statement": "Starting the second phase directly from columns that form a feasible basis, without artificial variables, does not abort; an optimum is an optimal basic solution, an unbounded verdict is right, and infeasibility is never reported. With the first profitable rule it ends.", "quantifier": "every problem, every feasible basis in any order, every pivot rule, both basis inverses", "why_tests_cant": "ranges over all problems and all their feasible bases", "anchors": ["src/algorithm/two_phase/tableau/inverse_maintenance/carry/mod.rs: from_basis", "src/algorithm/two_phase/tableau/kind/non_artificial.rs: new_with_inverse_maintainer", "src/algorithm/two_phase/phase_two.rs: primal"]}
{"id": "C60", "title": "The column range example finds the least total range", "statement": "For a sparse matrix with a value in each column and no negative values, the example ends and prints nonnegative amounts to subtract from the rows that keep all values nonnegative and for which the sum of the column ranges is the least possible.", "quantifier": "every such matrix of any size", "why_tests_cant": "ranges over all matrices and all amounts that may be subtracted", "anchors": ["examples/column_range.rs: main"]}
{"id": "C61", "title": "Debug builds give the same answers", "statement": "A debug build of the solver, which checks its own state while it runs, returns exactly what a release build returns: no check on a consistent state ever fails. Started from a basis that is not feasible, it aborts instead of giving a wrong answer.", "quantifier": "every problem, initial basis, pivot rule, basis inverse and number of iterations", "why_tests_cant": "the checks run in every reachable state of every run", "anchors": ["src/algorithm/two_phase/tableau/mod.rs: debug_assert_in_basic_feasible_solution_state", "src/algorithm/two_phase/phase_one.rs: primal, remove_artificial_basis_variables", "src/algorithm/two_phase/phase_two.rs: primal", "src/algorithm/two_phase/tableau/inverse_maintenance/carry/basis_inverse_rows.rs: remove_basis_part", "src/algorithm/two_phase/strategy/pivot_rule.rs", "src/algorithm/two_phase/tableau/inverse_maintenance/carry/lower_upper/mod.rs", "src/algorithm/two_phase/tableau/inverse_maintenance/carry/lower_upper/decomposition/mod.rs: rows"]}
{"id": "C62", "title": "From the text of a file to an optimum of the linear program it stands for", "statement": "Reading a text in which a linear program is written in one of the two MPS formats, converting, presolving and solving it, and computing the values of all variables gives an optimum of that linear program, with a value for each column under its name; an infeasible or unbounded verdict is right.", "quantifier": "every text in which a file is written, both formats, every pivot rule and basis inverse", "why_tests_cant": "ranges over all files; the stages interact through names, indices, discarded bounds and removed variables", "anchors": ["tests/netlib/mod.rs: solve", "tests/unicamp/mod.rs: solve", "tests/miplib/mod.rs: solve", "src/io/mod.rs: import", "src/data/linear_program/general_form/mod.rs: presolve, standardize, derive_matrix_data, compute_full_solution_with_reduced_solution"]}
{"id": "C63", "title": "Solving with scaling gives the optimum of the problem before", "statement": "Scaling a problem, solving the scaled problem, scaling back the solution and the problem, and computing the values of all variables gives an optimum of the problem before scaling; infeasible and unbounded verdicts are right.", "quantifier": "every consistent problem, every factorisation of its numbers, every pivot rule and basis inverse", "why_tests_cant": "ranges over all problems and all scalings; scaling interacts with shifts and flips of variables", "anchors": ["src/data/linear_program/general_form/presolve/scale/mod.rs: Scalable, Scaling::scale_back, scale", "src/data/linear_program/general_form/presolve/scale/rational/mod.rs: scale, scale_back", "src/data/linear_program/general_form/mod.rs: standardize, compute_full_solution_with_reduced_solution"]}
{"id": "C64", "title": "Presolving in a debug build gives the same result", "statement": "A debug build, which checks the state of presolving while it runs, gives exactly what a release build gives: the same presolved problem, or the same verdict. It never gives another answer, and no check fails on a problem that is well-formed.", "quantifier": "every general-form problem and every sequence of presolve rules", "why_tests_cant": "the checks run in every reachable state of every run; tests are run in debug builds and users run release builds", "anchors": ["src/data/linear_program/general_form/presolve/mod.rs: presolve_step, after_bound_change, remove_constraint, remove_variable", "src/data/linear_program/general_form/presolve/updates.rs", "src/data/linear_program/general_form/presolve/rule/slack.rs: presolve_slack", "src/data/linear_program/general_form/mod.rs: presolve, remove_rows_and_columns, is_consistent"]}
{"id": "C65", "title": "Iterating over a column gives its entries", "statement": "Iterating over a column of a problem, by reference or by value, gives the entries of that column of the constraint matrix that are not zero: all of them, each once, in the order of their rows, and nothing after that. The value shown for a row is the entry in that row. The same holds after rows are removed from the problem. At every moment the size hints of the iterators bound the number of items that are left, and counting and folding work on exactly these items.", "quantifier": "every problem in tabular form, every column, every set of removed rows, every number of calls", "why_tests_cant": "ranges over all columns and all states of the iterators, including calls after the end", "anchors": ["src/algorithm/two_phase/matrix_provider/column/mod.rs: Column, ColumnIterator, SparseSliceIterator, SparseOptionIterator, DenseColumn, DenseSliceIterator", "src/algorithm/two_phase/matrix_provider/column/identity.rs: IdentityColumn", "src/algorithm/two_phase/matrix_provider/matrix_data.rs: Column, ColumnIterator, ColumnIntoIterator"]}
{"id": "C66", "title": "A problem without some of its constraints is solved rightly", "statement": "Solving a problem from which equality constraints are removed gives a point that is best among all points that satisfy the bounds and the constraints that are left; infeasible and unbounded verdicts are right as well, and the initial basis that is offered consists of unit columns.", "quantifier": "every valid problem in tabular form, every sorted list of equality constraints, every pivot rule and basis inverse", "why_tests_cant": "ranges over all problems and all choices of rows; a wrong shift of an index shows only in some of them", "anchors": ["src/algorithm/two_phase/matrix_provider/filter/generic_wrapper.rs: RemoveRows, PartialInitialBasis", "src/algorithm/two_phase/matrix_provider/matrix_data.rs: IntoFilteredColumn"]}
{"id": "C67", "title": "Comparing two solutions", "statement": "Two solutions are reported to be probably equal exactly if they have the same objective value and the same variables, and at least the given fraction of the variables has the same value in both. In which order they are compared does not matter.", "quantifier": "every pair of solutions and every fraction", "why_tests_cant": "ranges over all pairs of solutions and all fractions, including those that are met exactly", "anchors": ["src/data/linear_program/solution.rs: Solution::is_probably_equal_to"]}
{"id": "C68", "title": "Debug builds solve problems in general form as release builds do", "statement": "Standardising a problem, deriving its tabular form, solving it and computing the values of all original variables gives, in a debug build with all its internal checks, exactly what a release build gives, with and without presolving: no check fails.", "quantifier": "every consistent problem in general form, every pivot rule, both basis inverses, every number of iterations", "why_tests_cant": "tests run the checks for a few files; the claim is that none of them fails for any problem", "anchors": ["src/data/linear_program/general_form/mod.rs: standardize, transform_variables, split_free_variables, make_b_non_negative, reorder_constraints_by_type, derive_matrix_data, is_consistent, compute_full_solution_with_reduced_solution, reshift_solution", "src/algorithm/two_phase/matrix_provider/matrix_data.rs: MatrixData::new, reconstruct_solution", "src/data/linear_algebra/vector/sparse.rs: remove_indices", "src/data/linear_algebra/matrix.rs: SparseMatrix::new, concatenate_horizontally"]}
{"id": "C69", "title": "An answer of a debug build is the answer of a release build", "statement": "Whenever a debug build, with all its internal checks, gives an answer, a release build gives the same answer for the same input. The checks never change what is computed, also for input that violates the requirements of the library.", "quantifier": "every matrix provider, initial basis (valid or not), list of basis columns, problem in general form, pivot rule, basis inverse and number of iterations, with and without presolving", "why_tests_cant": "the claim is about all inputs, in particular malformed ones for which no expected output exists", "anchors": ["src/algorithm/two_phase/mod.rs: solve_relaxation", "src/algorithm/two_phase/phase_one.rs", "src/algorithm/two_phase/phase_two.rs", "src/algorithm/two_phase/tableau/inverse_maintenance/carry", "src/data/linear_program/general_form/mod.rs: standardize, derive_matrix_data, compute_full_solution_with_reduced_solution", "src/data/linear_program/general_form/presolve"]}
{"id": "C70", "title": "Only independent columns can be inverted", "statement": "Inverting a list of columns, with either representation of the basis inverse, succeeds exactly if there is at least one column and the columns are linearly independent; otherwise it aborts, and so does solving from such a list. Dependent columns never lead to an answer.", "quantifier": "every dimension, every list of as many sparse columns as there are rows, both representations, every pivot rule", "why_tests_cant": "singularity can show up at any step of the elimination, for any order of pivots; all matrices have to be covered", "anchors": ["src/algorithm/two_phase/tableau/inverse_maintenance/carry/lower_upper/decomposition/mod.rs: rows", "src/algorithm/two_phase/tableau/inverse_maintenance/carry/lower_upper/decomposition/pivoting.rs: choose_pivot", "src/algorithm/two_phase/tableau/inverse_maintenance/carry/basis_inverse_rows.rs: invert", "src/algorithm/two_phase/tableau/inverse_maintenance/carry/mod.rs: from_basis"]}
{"id": "C71", "title": "Every answer of a debug build is right, however it was started", "statement": "If a debug build gives an answer, then the answer is right, whatever was offered as initial basis: pivots that are not unit columns, that repeat or are unsorted, columns that are dependent or not feasible, a right-hand side with negative values. The internal checks turn every one of these mistakes into an abort or they are harmless.", "quantifier": "every problem with valid sparse columns, every list of pivots or columns, every pivot rule, basis inverse and number of iterations", "why_tests_cant": "it is a claim about all invalid inputs", "anchors": ["src/algorithm/two_phase/tableau/mod.rs: debug_assert_in_basic_feasible_solution_state", "src/algorithm/two_phase/tableau/kind/artificial/partially.rs: new", "src/algorithm/two_phase/mod.rs: solve_relaxation", "src/algorithm/two_phase/tableau/inverse_maintenance/carry/mod.rs: from_basis, from_basis_pivots"]}
{"id": "C72", "title": "A debug build reads a file as a release build does", "statement": "Reading a file, converting the program and solving it in a debug build gives what a release build gives: no internal check fails for a file that a release build reads. In any case a debug build does not give anything else: it gives the same program, the same problem and the same answer, or aborts. A numeral is read exactly if it fits in 64 bits.", "quantifier": "every text, both formats, every program that was read, every numeral, every basis inverse, pivot rule and number of iterations", "why_tests_cant": "the checks depend on how entries, names, markers and groups of right-hand sides of the whole file relate; all files have to be covered", "anchors": ["src/io/mps/parse/mod.rs: parse, parse_column_section, build_column_index", "src/io/mps/convert.rs: try_into, compute_variable_info, compute_b", "src/io/mps/number/parse.rs: from_str", "src/data/linear_algebra/matrix.rs: ColumnMajor::new"]}
{"id": "C73", "title": "What presolving leaves is a proper part of the problem", "statement": "If presolving returns a problem, that problem is consistent and consists of some of the constraints and variables of the original problem, in the same order, with the same coefficients and costs. It has at least one variable, each variable is in a constraint and each constraint has at least two variables, so that nothing that could be solved directly is left. Every solution can be extended to the original variables. The counters of presolving never go below zero and no index is out of range; it aborts at most with the two aborts of C35 and C46.", "quantifier": "every consistent problem that has not been presolved, every run of presolving", "why_tests_cant": "the order and number of rule applications depends on the whole problem; counters and queues have to stay consistent through every sequence of them", "anchors": ["src/data/linear_program/general_form/mod.rs: presolve, compute_presolve_changes, remove_rows_and_columns, compute_solution_where_possible", "src/data/linear_program/general_form/presolve/mod.rs: Index::presolve_step", "src/data/linear_program/general_form/presolve/counters.rs", "src/data/linear_program/general_form/presolve/queues.rs"]}
{"id": "C74", "title": "Import errors can be shown and tell where the mistake is", "statement": "Every error that importing or converting a file gives can be displayed, and its causes can be followed to the end; the text that is displayed has the description of the error, and the line on which the error was found can be obtained.", "quantifier": "every error value that importing a file can give", "why_tests_cant": "tests check which files are rejected and not what can be done with the error; a display that never ends overflows the stack only when the error is displayed", "anchors": ["src/io/error.rs: Display for Import, Parse, Inconsistency; Error::source; Parse::trace", "src/io/mod.rs: import"]}
{"id": "C75", "title": "The search for a scaling ends where no single factor can be improved", "statement": "When computing a scaling ends, changing the factor of one constraint row, of one column or of the cost row, and no other factor, does not make any prime occur less often in the numbers of the scaled problem.", "quantifier": "every problem, every row and column, every other factor, every prime", "why_tests_cant": "tests compare the factors with expected ones for a few problems; that all rows and columns affected by a change are looked at again depends on the order in which the queues are emptied", "anchors": ["src/data/linear_program/general_form/presolve/scale/rational/mod.rs: solve_single, update_column, do_constraint, do_cost", "src/data/linear_program/general_form/presolve/scale/mod.rs: Scalable::scale"]}
{"id": "C76", "title": "Debug builds detect wrong use of vectors and matrices, and only that", "statement": "In a debug build, an operation on a valid sparse vector or matrix is accepted exactly if its arguments are as documented (indices in range, sorted and distinct, values and multiples that are not zero, equal dimensions), and then has the result that a release build gives, which is valid again.", "quantifier": "every valid vector and matrix, every sequence of operations with every argument", "why_tests_cant": "tests check single calls with arguments out of range; that nothing allowed is refused and nothing else accepted is about all arguments", "anchors": ["src/data/linear_algebra/vector/sparse.rs: new, set, get, remove_indices, push_value, shift_value, add_multiple_of_row, from_iter", "src/data/linear_algebra/matrix.rs: from_minor_ordered_tuples, remove_rows, remove_columns, set_value, concatenate_horizontally, concatenate_vertically, identity"]}
{"id": "C77", "title": "Presolving does not depend on the iteration order of hash containers", "statement": "Presolving the same problem always gives the same result (the same remaining problem, verdict or abort), whatever the order in which the hash maps that hold the changes are iterated, which differs from run to run.", "quantifier": "every problem, every order for each of the iterations over a hash container", "why_tests_cant": "a test runs with a few random orders; the order is chosen by the standard library at random, and there are factorially many", "anchors": ["src/data/linear_program/general_form/presolve/updates.rs: Updates::into_changes, Changes", "src/data/linear_program/general_form/mod.rs: presolve, update_values_that_remain, remove_rows_and_columns"]}
{"id": "C78", "title": "Displayed tableaus, basis inverses and vectors can be read", "statement": "Every tableau and every basis inverse can be displayed. The text is a table with lines of equal length; every number is shown in full, the numbers of a column are all in the same range of positions, and there is a blank between columns. A sparse vector and a permutation are displayed as the list of their entries, separated by commas.", "quantifier": "every number of rows and columns, all entries, every way to write numbers", "why_tests_cant": "the widths depend on all entries at once, and tests display a few small tableaus without looking at the text", "anchors": ["src/algorithm/two_phase/tableau/mod.rs: Display for Tableau", "src/algorithm/two_phase/tableau/inverse_maintenance/carry/basis_inverse_rows.rs: Display for BasisInverseRows", "src/algorithm/two_phase/tableau/inverse_maintenance/carry/lower_upper/mod.rs: Display for LUDecomposition", "src/algorithm/two_phase/tableau/inverse_maintenance/carry/mod.rs: Display for Carry", "src/data/linear_algebra/vector/sparse.rs: Display for Sparse", "src/algorithm/two_phase/tableau/inverse_maintenance/carry/lower_upper/permutation/full.rs: Display for Full"]}
{"id": "C79", "title": "Decimal numbers are read as the closest floating point number", "statement": "If a file is read with numbers of type f64, every decimal number in it that is in the range of f64, including zero, is read as the closest floating point number, and every text that is not a number is rejected.", "quantifier": "every text", "why_tests_cant": "all texts; the repository has no test that reads a file with numbers of this type", "anchors": ["src/io/mps/number/parse.rs: impl Parse for f64"]}
{"id": "C80", "title": "Answers do not depend on how a problem is written down and solved", "statement": "If the feasible points of two problems have the same objective values, they get the same answer: both infeasible, both unbounded, or both a finite optimum with the same objective value. The order of the constraints and variables, factors of constraints, the pivot rule, the basis inverse, the initial basis, scaling, presolving and the build profile do not matter.", "quantifier": "every pair of problems with the same objective values, every choice of pivot rule, basis inverse, initial basis, scaling and presolving", "why_tests_cant": "relates two runs on all pairs of equivalent problems with all combinations of choices", "anchors": ["src/algorithm/two_phase/mod.rs: SolveRelaxation::solve_relaxation", "src/data/linear_program/general_form/mod.rs: GeneralForm::derive_matrix_data, GeneralForm::compute_full_solution_with_reduced_solution", "src/data/linear_program/general_form/presolve/mod.rs"]}
{"id": "C81", "title": "Displayed problems can be read", "statement": "The text of a problem in matrix form, with or without removed rows, has one line with the numbers of the columns, one with the costs and one for each row that is left; all numbers of a column are shown in full, in the same range of positions, with a blank between columns. Problems with different numbers have different texts. The groups of rows and of columns (constraints of one kind, bounds, slacks) are separated by lines and bars.", "quantifier": "every valid problem in matrix form, every set of removed equality rows, every way to write numbers", "why_tests_cant": "no test displays a problem, and whether entries fit depends on all of them", "anchors": ["src/algorithm/two_phase/matrix_provider/matrix_data.rs: Display for MatrixData", "src/algorithm/two_phase/matrix_provider/filter/generic_wrapper.rs: Display for RemoveRows", "src/algorithm/two_phase/matrix_provider/matrix_data.rs: Column::index_to_string"]}
{"id": "C82", "title": "Displayed shortest path problems can be read", "statement": "The text of a shortest path problem has the numbers of vertices and arcs, the source and the sink, and for every vertex but the source a line that says which arcs end and which arcs start there; all marks of an arc are shown in the same range of positions, with a blank between arcs. Shortest path problems with the same text have the same number of vertices, the same source and sink, and the same arcs (the costs of arcs are not shown).", "quantifier": "every graph without loops of at most 100000 vertices and 1000000000 arcs, every source and sink", "why_tests_cant": "no test displays a graph, and that no two graphs look the same is a claim about all pairs of graphs", "anchors": ["examples/shortest_path.rs: Display for Primal", "src/data/linear_program/network/representation.rs: index_to_string of ArcIncidenceColumn, Display for ArcDirection"]}
{"id": "C83", "title": "The numbers of a run stay small", "statement": "If all coefficients, right-hand sides and costs are integers of absolute value at most B, then at every iteration of either phase, and during the removal of artificial variables, the current basic solution, dual values, objective value, relative costs, the rows of the basis inverse and the columns of the tableau are fractions with one common denominator of at most m! B^m, and numerators of at most (m + 1) B times that, where m is the number of rows. The limit does not depend on the number of iterations: exact arithmetic does not accumulate digits. (The factors that the LU representation keeps internally are not among these numbers.)", "quantifier": "every standard-form problem with integer data, every iteration of every run", "why_tests_cant": "growth of numbers over arbitrarily long pivot histories; a test sees a few short runs", "anchors": ["src/algorithm/two_phase/tableau/mod.rs: generate_column, relative_cost, bring_into_basis", "src/algorithm/two_phase/tableau/inverse_maintenance/carry/mod.rs: Carry, change_basis, basis_inverse_row"]}
