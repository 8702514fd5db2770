# Formal model of relp: design

The model is written in Lean 4 (4.33.0) with Mathlib. Sources are in `lean/Verif/`:

* `Spec/`  – small stand-alone specifications (what a linear program is, feasible, optimal, ...).
* `Model/` – the executable model of the Rust code, function by function, with file/line citations.
* `Proof/` – helper lemmas and invariants.
* `Props/` – the property theorems (one file per group), each with an `example` that instantiates it.

`properties.jsonl` has the properties in English, `MANIFEST.json` maps them to theorems,
`seeded/LOG.jsonl` records the edits of the model that the theorems were tested against.

## Trusted base

* Lean's kernel (4.33.0) and the definitions in Mathlib that the statements use (`Matrix`, `Fin`, `Finset`,
  `ℚ`, `List`, ...).
* Axioms: every property theorem depends on at most `propext`, `Classical.choice` and `Quot.sound`
  (`#print axioms`). There are no axioms of our own, no `sorry`, no `native_decide`. `decide +kernel` is used
  for concrete witnesses only: it is evaluated by the kernel and adds no axiom.
* The specifications in `Spec/`.
* The correspondence between the definitions in `Model/` and the Rust source, which was established by
  reading. Each definition cites the lines it models.
* The behaviour of external crates and of the standard library where the model assumes it: sorting and
  binary search, `BTreeMap`/`HashMap`/`HashSet`, `FIFOSet` of `index_utils` style queues, `remove_indices`,
  `remove_sparse_indices`, `inner_product_slice_iter` of `index_utils`, and the exactness of the number types
  of `relp-num`.

## Modelling conventions

| Rust | Model |
|---|---|
| number types (`Rational64`, `RationalBig`, generic `Field`) | `ℚ`; overflow of fixed-width rationals is not modelled |
| `DenseVector` / `Vec` of statically known length `m` in the solver | `Fin m → ℚ`; out-of-range indexing is excluded by typing |
| `SparseVector` | in the solver `List (Fin m × ℚ)`, in the data structures `List (ℕ × ℚ)`, in storage order, with a validity predicate (strictly sorted, no zeros) |
| `&mut self` | function returning the new value |
| `unwrap`, `expect`, `panic!`, `unreachable!`, index underflow | explicit error values |
| `debug_assert!` | not executed (release build semantics); those of the solver loops are modelled in `Model/Debug.lean` and those of the basis inverses in `Model/DebugInverse.lean` (C61), those of presolving in `Model/PresolveDebug.lean` (C64), those of the general form and of mapping solutions back in `Model/DebugForm.lean` (C68), those of reading and converting files, with the overflow checks of the number parser, in `Model/MpsDebug.lean` (C72), others that matter are discussed per property |
| `loop {}` / `while` | recursion on fuel; running out of fuel is a separate error, theorems quantify over all fuel |
| `HashSet<usize>` of basis columns | `Finset`; these sets are only asked for members, mapped and compared |
| traits (`MatrixProvider`, `BasisInverse`, `PivotRule`, `Kind`) | structures / classes with the same operations |

## What is modelled

| part of the code | model |
|---|---|
| `data/linear_algebra/vector/{sparse,dense}.rs`, `matrix.rs` | `Model/Sparse.lean`, `Model/Vector.lean` |
| `algorithm/two_phase/{mod,phase_one,phase_two}.rs` | `Model/Solve.lean`, `Model/Run.lean` |
| `tableau/mod.rs`, `tableau/kind/**`, `strategy/pivot_rule.rs` (all four rules) | `Model/Tableau.lean` |
| `inverse_maintenance/carry/mod.rs` | `Model/Carry.lean` |
| `carry/basis_inverse_rows.rs` | `Model/Rows.lean` |
| `carry/lower_upper/**` (decomposition, Markowitz pivoting, eta file, permutations) | `Model/LU.lean`, `Model/LURow.lean`, `Model/Permutation.lean` |
| `matrix_provider/matrix_data.rs`, `filter/generic_wrapper.rs` | `Model/MatrixData.lean`, `Model/Basic.lean` |
| `general_form/mod.rs`, `elements.rs`, `solution.rs` | `Model/GeneralForm.lean`, `Model/Variable.lean`, `Model/SolveGeneral.lean`, `Model/Solution.lean` |
| `matrix_provider/column/**`, the iterators of `matrix_data.rs`, `RemoveRows` as a problem to solve | `Model/Column.lean` |
| `network/representation.rs`, `examples/shortest_path.rs`, `examples/max_flow.rs` | `Model/Network.lean` |
| `examples/column_range.rs`, starting from a given basis | `Model/ColumnRange.lean` |
| debug builds of the solver | `Model/Debug.lean` |
| debug builds of presolving | `Model/PresolveDebug.lean` |
| debug builds of reading and converting files | `Model/MpsDebug.lean` |
| debug builds of vectors and matrices | `Model/VectorDebug.lean` |
| `Display` of tableaus, basis inverses, vectors, permutations | `Model/Display.lean`; how numbers are written is a parameter, and so are the lines of an LU decomposition that derived `Debug` implementations write |
| `Display` of `MatrixData`, `RemoveRows` and the shortest path example | `Model/DisplayProblem.lean`; how numbers are written is a parameter |
| `general_form/presolve/**` except `scale` | `Model/Presolve.lean`; the code after the last step line by line, with hash maps that are iterated in any order: `Model/PresolveHash.lean` |
| `general_form/presolve/scale/mod.rs` | `Model/Scale.lean` |
| `general_form/presolve/scale/rational/mod.rs` | `Model/ScaleSearch.lean`; factorisation of a number (`relp-num`) is a parameter (C54 assumes that it is exact), powers are unbounded integers |
| `io/mps/number/parse.rs` | `Model/Number.lean`, for `f64` `Model/NumberFloat.lean` |
| `io/mps/mod.rs`, `io/mps/convert.rs` | `Model/Mps.lean` |
| `io/mps/parse/**`, `io/mps/token.rs`, `io/mod.rs` | `Model/MpsParse.lean`; texts are lists of characters, with slices by bytes; the contents of a file and its extension are arguments |
| `io/error.rs` | `Model/Report.lean`; errors of other crates are a text and a finite list of causes |
| `tests/netlib/mod.rs`, `tests/unicamp/mod.rs`, `tests/miplib/mod.rs` (the sequence of calls) | `Model/SolveFile.lean` |
| the chain of calls with scaling, from the comments in `scale/mod.rs` | `Model/SolveScaled.lean` |

Not modelled: `Debug` implementations, `Binary` number tricks of `relp-num`, logging, `lib.rs` glue, the command line. 

## Per property

| id | what is modelled | how it is proved |
|---|---|---|
| C01–C04 | `solve_relaxation`, both phases, `Carry`, `Tableau`, kinds, pivot rules | invariant (B⁻¹, b, π, objective exact, b ≥ 0) through every step; LP duality argument at exit |
| C05 | same, with every panic site as an error value | the invariant excludes each error |
| C06 | `current_bfs` | invariant; injectivity of the basis; independent columns give a vertex, and values by Cramer's rule |
| C07 | `FirstProfitable`, `select_primal_pivot_row` | proved. Bland's theorem for sequences of pivots, no basis repeats, not even in another order, hence less iterations per phase than sets of `m` out of `m + n` columns |
| C08 | the other rules | violated: `C08_cycles`, one problem (3 rows, 4 variables and 3 slacks) on which the default `SteepestDescentAlongObjective`, `SteepestDescentAlongVariable` and `FirstProfitableWithMemory` run forever. `_partial`: every rule ends on problems without a degenerate feasible basic solution, as no basis repeats when the objective decreases; on every problem, all but `(m + n) ^ m` iterations of a run that goes on leave the current point unchanged |
| C09 | `remove_artificial_basis_variables`, `RemoveRows` | linear algebra on B⁻¹ rows with only artificial entries; the basis of real and artificial columns shows that the other rows are independent, so that the rank is known |
| C10 | objective tracking | invariant |
| C11 | steepest edge weights | update identity (Goldfarb–Reid) and invariant |
| C12 | four pivot rules | specification of `select` under each rule's invariant |
| C13 | generic `Carry` over both basis inverses | lock-step simulation; `C13_rank` states the condition as rank at least two |
| C14 | `BasisInverseRows` | refinement to `Matrix` inverse |
| C15, C16 | `LUDecomposition`, `rows`, `EtaFile` | refinement to `Matrix`; factorisation invariant; spike update identity; also for the unused function that computes a single value of a triangular solve |
| C17 | LU in dimension 1 | false: negation on the concrete case m = 1; proved from dimension 2 on |
| C18 | permutations | inverse laws, sortedness |
| C19 | `FullPermutation::rotate_right_from` | false for non-identity: negation |
| C20, C21 | `vector/sparse.rs`, `vector/dense.rs`, `matrix.rs` | refinement to functions `Fin m → ℚ` / matrices |
| C22–C24 | `MatrixData` | block-wise linear algebra; composition with C01–C04; the row that the bound row query reports is shown to stand for that bound (also for maximum flow) |
| C25, C26, C42 | `RemoveRows`, `get_underlying_index`, `into_filtered` | counting lemma on sorted lists; invariant that slack rows keep real basis |
| C27–C30, C43 | `GeneralForm::standardize`, reconstruction | each step as feasible-set bijection; negations for C29 (maximise) and C30; composition with C24. C30 holds in debug builds (`Props/DebugProper.lean`): the first check of the first phase fails if bounds cross |
| C31–C35 | presolve rules | refinement of the meaning of a presolve state per rule; negations where the rule is wrong |
| C44–C47 | `presolve` as a whole, then C43 | invariant of the loop (`Fit`, `Refines`); the final state as a `GeneralForm`; negations. C47 holds if the first run removed no variable (`Props/PresolveAgain.lean`) |
| C48 | the presolve loop | proved, for safe and unsafe runs. Lexicographic measure: number of coefficients counted, two-sided constraints and missing bounds; iterations left; length of the queues. `C48_presolve_steps` gives an explicit limit, cubic in the numbers of constraints, variables and coefficients: the queue for domain propagation holds no entry twice, so at most two steps per constraint pass without any change |
| C36 | `scale`, `scale_back` | field arithmetic; every row, bound and cost is multiplied by a positive number |
| C53, C54 | the search for a scaling | the counts are the differences of a convex penalty; penalty and queue lengths decrease lexicographically; the penalty of a factor is the number of its occurrences (exponents of factors other than the last survive the removal of larger ones; exponents of the combined factors are the changes found); negations for the defects below |
| C37, C51 | the number parser, on lists of characters | induction on digit lists; negations for texts that are accepted, misread or abort |
| C38–C40, C52 | `mps/convert.rs` | fold lemmas per variable and row; `Spec/Mps.lean` states the documented meaning; composition with C43; negations for the defects below |
| C55 | the parser of MPS texts, with both column retrievers | `Spec/MpsText.lean` has files, how they are written and which program they describe; the parser on a written file is a fold over its contents (`runFile`), which is shown to give that program. `Spec/WhiteSpace.lean` has the characters that separate words |
| C56 | the same, with every slice and `unimplemented!` as an error value | safety lemma per function for ASCII words, and in the fixed format for lines with the fields that are read from them; negations for the defects below |
| C57 | the same, and `mps/convert.rs` | invariants of the collectors, for any text; the errors of the conversion |
| C58 | `import`, the parser, the conversion and the solver | `Spec/MpsMeaning.lean` has the linear program of a file by names; composition of C55 and C52; with C07, every such file gets an answer |
| C41 | `IncidenceMatrix::new`, `ArcDirection` | list lemmas |
| C49, C50 | the examples `shortest_path.rs`, `max_flow.rs` | the feasible points are the flows; a flow contains a walk (finiteness), walks are flows; composition with C01–C04; negations for arcs into the source and isolated vertices. As reported optima are basic (C06), shortest paths are paths without repeated vertices, and flows are integral if the capacities are: among independent columns of an incidence matrix some row has a single entry. A flow of the greatest value fills a cut (vertices that can be reached in the residual graph). Without closed walks of negative length the least lengths of walks are potentials, which bound the cost |
| C59 | `Carry::from_basis`, `new_with_inverse_maintainer`, `phase_two::primal` | a feasible basis satisfies the invariant of C01–C04; the number of bases bounds the iterations |
| C60 | the example `column_range.rs`, for any matrix | the columns it chooses are a feasible basis (triangular by columns); feasible points are allowed amounts with bounds on the columns; C59 and C23 |
| C61 | the solver with the `debug_assert!`s on its own state (`Model/Debug.lean`) and on the basis inverse (`Model/DebugInverse.lean`, as two more implementations of the `BasisInverse` trait), equal to the solver without them | induction over both loops: the invariant of C01/C05 implies each check; the one check that is wrong (`indices.len() < old_m`) fails exactly when all rows are redundant, i.e. when all data are zero; the checks that vectors are not empty fail exactly when there are no rows. For the checks inside the LU code: each operation in a debug build satisfies the same specification as in a release build, and two lawful implementations give the same run (`Proof/Sim.lean`). The check `m > 1` in `LUDecomposition::rows` fails for each full initial basis of one column. Left out: checks of index ranges and lengths (types), pivot_rule.rs:236 |
| C62 | all stages in a row (`Model/SolveFile.lean`): text, parser, conversion, `presolve`, `standardize`, solver, solution of all variables | composition of C55, C52, C44 and C43 with `Spec/MpsMeaning.lean` as the meaning of a file. Partial: files that are `Sound`, and presolve runs that are `Careful`, i.e. stay clear of the defects of C33 and C34; this is decidable for a given problem (`careful`). With C07 and C48, every such file gets an answer |
| C63 | `scale` between `standardize` and `derive_matrix_data`, `scale_back` of solution and problem (`Model/SolveScaled.lean`) | scaling keeps a standardised problem tabular (order of constraints, signs); C36, C53, C24 and C43. Partial: with `scale` before `standardize`, shifts are not scaled back and values are wrong (witness); C53's aborts |
| C64 | presolving with all its `debug_assert!`s (`Model/PresolveDebug.lean`) | (a) for every problem: the debug functions return what the release functions return, or fail a check (`Agree`, compositional); (b) in a safe run from a well-formed problem the invariant `Fit` of C31–C34 implies each check but one; (c) that one, a slack variable is not fixed, fails exactly when a step removes a fixed slack variable. Partial: witness for (c) with a feasible problem that release builds presolve rightly. Left out: range checks right before the indexing that would abort anyway, and checks on creation of the row-major copy |
| C65 | iterators over columns as state machines (`Model/Column.lean`), with `Chain`, `vec::IntoIter`, `option::IntoIter` and `Enumerate` of the standard library | `Spec/Column.lean` says what an iterator gives; the states are followed item by item. The entries are those of the matrix that C22 is about. False of `into_iter` of dense columns, which is proved; no problem of the library has such columns |
| C66 | `RemoveRows` over `MatrixData` as matrix provider with a partial initial basis (`Model/Column.lean`) | the filtered problem is, column by column, the `MatrixData` without these constraints; C24 for that one. `Spec/Except.lean` says which points it is about. Only equality constraints can be removed, as the code documents |
| C67 | `is_probably_equal_to` (`Model/Solution.lean`), with any rounding of the fraction | lists without repeated names are maps. Partial: false with fewer than ten variables, and if the fraction is met exactly; both are proved |
| C68 | `standardize`, `derive_matrix_data`, `reconstruct_solution` and `compute_full_solution_with_reduced_solution` with their `debug_assert!`s, and those of the matrices and vectors they build (`Model/DebugForm.lean`), chained with the debug build of the solver (C61) and of presolving (C64) | each check follows from the invariants of C27, C28 and C22; `is_consistent` is shown to survive each step; a nonempty column stays one, so that C61 applies. For the LU decomposition, rows that are redundant are equalities, so that two inequalities suffice. Partial: a problem without variables cannot have its solution mapped back in a debug build (proved) |
| C69 | both builds: `solveRelaxationDebug`, `primalFromBasisDebug`, `solveDebug`, `presolveAndSolveDebug` and their release counterparts | a relation "if the first gives a value, the second gives a related one" is closed under `>>=`, folds and skipping a check; the two representations of the basis inverse in a debug build are mapped to those of a release build operation by operation (`Proof/DebugBelow.lean`), and this lifts to the tableau, the pivot rules and both loops (`Proof/DebugBelowSolve.lean`). No hypothesis on the input |
| C70 | `LU.ofRows`, `invert` of both representations, `primalFromBasis` | an iteration of the elimination that succeeds keeps the invariant of C15 without assuming that the matrix is invertible (`Proof/Singular.lean`); at the end both factors are triangular with nonzero diagonal, so the determinant is nonzero. Failures are aborts, never the end of the fuel |
| C71 | `solveRelaxationDebug`, `primalFromBasisDebug` | the first check of either loop, together with those of the constructors, establishes what C01–C06 and C59 assume (`Proof/DebugStart.lean`); C69 and C70 do the rest. For problems in general form, the same check shows that no bounds cross, so that C43 applies (`Proof/DebugProper.lean`) |
| C72 | `parse`, `parse_free`, `parse_fixed`, `TryInto<GeneralForm>` and the number parser with their `debug_assert!`s, the checks of the matrix they build and overflow checks (`Model/MpsDebug.lean`) | without hypotheses, each function of a debug build gives what the release build gives or aborts (`OrAborts`, compositional, `Proof/MpsDebugBelow.lean`), so that every answer of a debug build for a text is that of a release build; numerals are read exactly if they fit; and the checks are characterised both ways: by the program that was read (`C72_checks`) and by the file as written (`Spec/MpsDebug.lean`, `C72_file_partial`). With C64, C68 and C73 the two builds give the same answer to the text (`C72_answer_partial`). Four kinds of files are read by a release build only (`C72_not_…`) |
| C73 | all of presolving | the invariant `Index.WF` (counters count the remaining coefficients, queues and lists of removed rows and variables match the counters, removed variables refer only to variables that were removed later or not at all) is kept by every rule without any condition on the values (`Proof/PresolveShape.lean`); at the end of the loop no row has a single variable, because either the queues are empty or the last step was not meaningful and found the bound queue empty; if all variables are removed the rank of C44's `Acyclic` shows that all values can be computed, so that a solution is returned instead of a problem |
| C74 | `Display`, `Error::source` and `trace` of the errors in `io/error.rs` (`Model/Report.lean`); nested calls are bounded by fuel | cases; induction on the fuel for the call that never ends |
| C75 | where the search for a scaling ends | a row or column that is not in a queue has a step of zero; a zero step is a minimum of a convex penalty; negation for the cost row |
| C76 | the operations on vectors and matrices with their `debug_assert!`s (`Model/VectorDebug.lean`) | cases; induction on the sequence of operations, with the representation of C20 as invariant; negations |
| C77 | `into_changes`, `update_values_that_remain`, `remove_rows_and_columns` line by line, with the order of each iteration over a hash map as a parameter (`Model/PresolveHash.lean`) | looking up a key in a list of entries with distinct keys does not depend on the order; each loop is characterised by such lookups, the loop that moves entries together by an invariant on the number of skipped entries (`Proof/PresolveHash.lean`); the keys of the maps stay in range in every step (`Proof/PresolveKeys.lean`) |
| C78 | `Display` of tableaus, carries, basis inverses, vectors and permutations as lists of lines (`Model/Display.lean`); how a number is written is a parameter | cells fit because widths are maxima over their column; positions of cells by induction over the columns; separators of vectors are counted |
| C79 | `Parse` for `f64` (`Model/NumberFloat.lean`); `f64::from_str` is a parameter that rounds to the closest double (`Spec/NumberFloat.lean`) | rounding to the closest preserves order; cases |
| C80 | pairs of runs of `solve_relaxation` and of the whole chain (`Spec/Agreement.lean`) | both answers are right (C01–C04, C43, C44, C63, C71), and right answers of problems with the same objective values agree; negations for presolving and for the value reported for a maximum |
| C81 | `Display` of `MatrixData` and `RemoveRows` as lists of lines (`Model/DisplayProblem.lean`); how a number is written is a parameter | positions of cells by induction over the columns; entries by C22 and C25; marks and entries can be read from a line in one way, so that problems with the same text have the same numbers; witnesses where numbers are too long; separators and bars are at the changes of groups that are specified by counts |
| C82 | `Display` of the shortest path example as a list of lines (`Model/DisplayProblem.lean`) | entries by C41; positions by induction over the arcs; a text without blanks can be read in one way at a place, and the digits of a number determine it |
| C83 | the state of every iteration, as for C10 | Cramer's rule for the basis matrix, whose inverse the state represents; a determinant of integers is an integer, bounded by its expansion. `Spec/Numbers.lean`. Not covered: the numbers inside of the LU factors |

### Presolve

A presolve state (`Index`) means a set of points of the original problem: those that satisfy the remaining
constraints with their current relation and right-hand side, the current bounds, and the recorded values of
removed variables (`Updates.Sat`, `Spec/Presolve.lean`). `Refines` says that a step loses no optimal point and
adds no infeasible point. Each rule is proved to refine the state, in every state that the loop reaches
(`Fit`). Two rules are wrong in general (C33, C34); for those the theorems need the hypotheses `SlackGood` and
`AccurateAt`, which `SafeRun` collects over a run, and `DiscardedFollow` for the derived bounds that the end
of presolving throws away. `safe G fuel` computes whether they hold, and `safe_spec` is its soundness.
`DiscardedFollow` is about the final state; `C44_presolve_steps_partial` replaces it by a condition on each
step (`KeptRun`): a constraint is only given up because of bounds that are not discarded. The proof keeps,
along the run, that the problem without the derived bounds implies the problem with them
(`Proof/PresolveDiscard.lean`). `careful` computes this condition.
For problems that are `Roomy` (`Spec/Roomy.lean`) no condition on the run is left: each constraint with several
variables has, in both directions, two variables that nothing limits by itself, and variables without cost are
in two such constraints. The invariant `Calm` (`Proof/Roomy.lean`) says that these constraints and variables stay
as they are, so that only fixed variables are substituted and constraints with one variable are used as bounds.
Presolving such a problem is right and never aborts, in debug builds too (`Props/Roomy.lean`).

## Defects found

Each is a theorem about the model, with a concrete input.

| where | what happens | theorem |
|---|---|---|
| `solve_relaxation` with its default pivot rule, also with `SteepestDescentAlongVariable` and `FirstProfitableWithMemory` | runs forever on a degenerate problem with three constraints and four variables | `C08_cycles` |
| `compute_full_solution_with_reduced_solution`, maximisation | the reported objective value is twice the objective value at the bounds (lower bounds if there are, otherwise upper bounds, otherwise zero) minus the right one | `C29_maximize_violated`, `C29_reported_value`, `C29_maximize_iff` |
| crossing bounds without presolve | reported as having an optimum by a release build | `C30_crossing_bounds_violated` |
| LU with one row | every basis change panics; none with no rows | `C17_single_row_panics`, `C17_no_rows_panics` |
| `FullPermutation::rotate_right_from` | does not give the rotated permutation | `C19_rotation_breaks_permutation` |
| `RemoveRows::delete_row` | inverted `debug_assert` | `C42_debug_aborts` |
| presolve, slack rule | a feasible problem is reported infeasible, a range is lost | `C33_not_positive`, `C33_not_range` |
| presolve, domain propagation | outdated activity bounds; derived bounds are discarded after constraints were removed because of them; `unreachable!()` is reached | `C34_not_outdated`, `C34_not_discarded`, `C35_not_unreachable` |
| presolve, variables in no constraint | unbounded is reported for an infeasible problem; crossing bounds abort | `C45_not_feasible`, `C46_not_reported` |
| presolve, twice | indices of active variables are used as indices of original variables | `C47_not_again` |
| `examples/max_flow.rs`, objective | flow into the source is not subtracted, so that a circulation is reported as maximum flow | `C50_not_net` |
| `examples/max_flow.rs`, `into_filtered` | the index of the slack is not changed when rows are removed (isolated vertex) | `C50_not_isolated` |
| `examples/column_range.rs`, comment | asks for a value in each row, but the program aborts for a column without value | `C60_no_value` |
| starting from a basis | feasibility is not checked; an infeasible problem gets an optimum with a negative value | `C59_infeasible_basis` |
| `BasisInverseRows::remove_basis_part` | a debug build aborts on each problem with rows in which all data are zero (`<` for `<=`, basis_inverse_rows.rs:218) | `C61_zero_problem_aborts` |
| `DenseVector::constant` | a debug build aborts on each problem without rows, though a release build solves it (`debug_assert_ne!(len, 0)`, dense.rs:40) | `C61_no_rows_aborts` |
| `LUDecomposition::rows` | a debug build aborts for each problem of one row with a full initial basis, also with `BasisInverseRows`, which inverts through it (`debug_assert!(m > 1)`, decomposition/mod.rs:32) | `C61_one_row_aborts`, `C61_basis_one_row_aborts` |
| `scale` before `standardize` | the shift that `standardize` records is in scaled units and is not scaled back: values violate bounds; the documentation asks for this order | `C63_not_before_standardizing` |
| `presolve_step` | a debug build aborts on feasible problems: the queue of fixed variables is popped only once (`if let`, presolve/mod.rs:128) before the other rules are tried, so that the slack rule gets a variable that is fixed by its bounds (slack.rs:75) | `C64_not_equal` |
| `DenseColumn::into_iter` | gives the zeros of a column as well, which the documentation of columns excludes | `C65_not_dense` |
| `Solution::is_probably_equal_to` | with fewer than ten variables the values are not compared; the "minimum" fraction must be exceeded, so that no large solution is equal to itself if all values are asked to be equal | `C67_not_few`, `C67_not_itself` |
| `SparseVector::remove_indices` | `debug_assert!(indices.len() < self.len)` (vector/sparse.rs) should be `<=`: a debug build aborts for every problem without variables that has an optimum, when the slack columns are removed from the solution | `C68_no_variables_aborts`, `C68_not_equal` |
| `Sparse::new`, `add_multiple_of_row`, `SparseMatrix::set_value` | a debug build does not detect indices that occur twice (`is_sorted_by_key` allows equal ones), zero multiples and zero values, and refuses vectors without elements | `C76_not_duplicate`, `C76_not_multiple`, `C76_not_zero`, `C76_not_empty`, `C76_not_remove` |
| `io/mps/number/parse.rs` | `1.+5`, `-`, `.`, `-+5` are accepted; the empty text and non-ASCII text abort; long numerals wrap around | `C51_not_rejected`, `C51_not_overflow` |
| `io/mps/convert.rs`, ranges | without right-hand side, the range of a `≥` or `=` row points the wrong way, and a negative range gives an infeasible constraint | `C39_not_without_rhs` |
| scaling, no factors or no variables | aborts | `C53_not_without_factors`, `C53_not_without_variables` |
| scaling, columns | the factor that should be removed from a column is added to it | `C54_not_smaller` |
| scaling, cost row | a change of a column factor puts the constraint rows of the column back in the queue and not the cost row: the factor of the cost row is not looked at again | `C75_not_cost` |
| `io/mps/convert.rs`, right-hand sides | two equal right-hand sides of an equality with a positive range are rejected | `C52_not_repeated_rhs` |
| `io/mps/convert.rs`, costs | after a second cost entry for a column, all later costs are lost | `C52_not_costs` |
| `io/mps/convert.rs`, semi-continuous bounds | abort (`unimplemented!`) | `C52_not_semiContinuous` |
| `io/mps/parse/mod.rs`, semi-continuous bounds | abort (`unimplemented!`) | `C56_not_semiContinuous` |
| `io/mps/parse/mod.rs`, texts outside ASCII | strings are cut within a character, which aborts | `C56_not_ascii` |
| `io/mps/parse/fixed.rs` | a bound on a line of 14 to 21 characters aborts, and so does a field for a number that is blank | `C56_not_fixed` |
| `io/mps/parse/mod.rs`, columns | zero coefficients, several cost entries for a column and several columns with one name are accepted; a bound is then for the last of them | `C57_not_wellFormed` |
| `io/mps/parse/mod.rs`, other files | a right-hand side for the cost row, or a space after the name of a section, is an error | `C55_not_otherFiles` |
| `io/mps/parse/mod.rs:398` | a debug build aborts on a file with two markers of the same kind after each other | `C72_not_markers` |
| `io/mps/parse/mod.rs:506` | a debug build aborts on a file with a column that is continued later; a release build reads two columns | `C72_not_names` |
| `io/mps/convert.rs:129`, `ColumnMajor::new` | a debug build aborts on a file with a coefficient that is zero | `C72_not_zero` |
| `io/mps/convert.rs:486` | a debug build aborts if a row with a range has two equal right-hand sides | `C72_not_repeated` |
| `io/error.rs:229` | `Display` of `Inconsistency` displays itself: showing the error for an inconsistent file overflows the stack; `source` gives the error itself as its cause | `C74_not_inconsistency`, `C74_not_causes`, `C74_not_file` |
| `tableau/mod.rs:365` | displaying a tableau with more than 9999 rows aborts, as does one without rows (390, 396) | `C78_not_tableau` |
| `lower_upper/mod.rs:439` | displaying an LU decomposition uses a fixed width of 10 without separators, so that entries run together | `C78_not_lu` |
| `sparse.rs:392` | displaying a sparse vector compares an index with the number of entries, so that separators are missing: `[(5 1)(7 2)]` | `C78_not_vector`, `C78_vector_iff` |
| `matrix_data.rs:712`, `generic_wrapper.rs:335` | displaying a problem does not end the lines of separators: costs and first rows are written behind them | `C81_not_lines` |
| `matrix_data.rs:701`, `generic_wrapper.rs:328` | displaying a problem uses a fixed width of 8 without separators, so that entries run together | `C81_not_problem` |
| `matrix_data.rs:700-742` | the right-hand side is not part of the text of a problem | `C81_not_rhs` |
| `number/parse.rs:33` | a file with a zero can not be read with numbers of type `f64`; neither can one with numbers below `1e-10` or above `1e10` in magnitude, while `NaN` is accepted | `C79_not_zero`, `C79_not_nan`, `C79_read_iff` |
| `io/error.rs:81-96` | neither the text nor the causes of a parse error tell the line or the wrapped error; `trace`, which would, is private and not called | `C74_not_line`, `C74_not_cause` |
