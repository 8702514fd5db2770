{
 "claims": [
  {
   "property": "C01",
   "status": "proved",
   "theorems": [
    "Relp.C01_optimum_feasible"
   ],
   "note": "Every starting point, pivot rule and basis inverse representation; LU with at least two rows."
  },
  {
   "property": "C02",
   "status": "proved",
   "theorems": [
    "Relp.C02_optimum_optimal"
   ],
   "note": ""
  },
  {
   "property": "C03",
   "status": "proved",
   "theorems": [
    "Relp.C03_unbounded_correct"
   ],
   "note": ""
  },
  {
   "property": "C04",
   "status": "proved",
   "theorems": [
    "Relp.C04_infeasible_correct"
   ],
   "note": ""
  },
  {
   "property": "C05",
   "status": "proved",
   "theorems": [
    "Relp.C05_rows_never_panics",
    "Relp.C05_full_basis_without_rows"
   ],
   "note": ""
  },
  {
   "property": "C06",
   "status": "proved",
   "theorems": [
    "Relp.C06_optimum_basic",
    "Relp.C06_vertex",
    "Relp.C06_rank",
    "Relp.C06_size"
   ],
   "note": ""
  },
  {
   "property": "C09",
   "status": "proved",
   "theorems": [
    "Relp.C09_removed_rows_redundant",
    "Relp.C09_rank"
   ],
   "note": ""
  },
  {
   "property": "C10",
   "status": "proved",
   "theorems": [
    "Relp.runs_are_described",
    "Relp.C10_objective_phase_one",
    "Relp.C10_objective_removal",
    "Relp.C10_objective_phase_two"
   ],
   "note": ""
  },
  {
   "property": "C11",
   "status": "proved",
   "theorems": [
    "Relp.C11_steepest_edge_phase_one",
    "Relp.C11_steepest_edge_phase_two"
   ],
   "note": ""
  },
  {
   "property": "C12",
   "status": "proved",
   "theorems": [
    "Relp.C12_selection_phase_one",
    "Relp.C12_selection_phase_two"
   ],
   "note": ""
  },
  {
   "property": "C13",
   "status": "proved",
   "theorems": [
    "Relp.C13_representation_irrelevant",
    "Relp.C13_unless_panic",
    "Relp.C13_general_form",
    "Relp.C13_rank"
   ],
   "note": ""
  },
  {
   "property": "C14",
   "status": "proved",
   "theorems": [
    "Relp.C14_rows_exact",
    "Relp.C14_rows_progress"
   ],
   "note": ""
  },
  {
   "property": "C15",
   "status": "proved",
   "theorems": [
    "Relp.C15_factorisation_exact"
   ],
   "note": "Holds for every positive dimension."
  },
  {
   "property": "C16",
   "status": "proved",
   "theorems": [
    "Relp.C16_lu_exact",
    "Relp.C16_lu_progress",
    "Relp.C16_single_value"
   ],
   "note": ""
  },
  {
   "property": "C17",
   "status": "partial",
   "theorems": [
    "Relp.C17_lu_dimensions_partial",
    "Relp.C17_single_row_panics",
    "Relp.C17_single_row_problem",
    "Relp.C17_no_rows_panics"
   ],
   "note": "False of the code in dimension one (proved): every basis change panics. Holds from dimension two on."
  },
  {
   "property": "C18",
   "status": "proved",
   "theorems": [
    "Relp.C18_identity",
    "Relp.C18_swap",
    "Relp.C18_rotate_to_back",
    "Relp.C18_full",
    "Relp.C18_swap_forward",
    "Relp.C18_rotate_to_back_forward"
   ],
   "note": ""
  },
  {
   "property": "C19",
   "status": "partial",
   "theorems": [
    "Relp.C19_rotate_partial",
    "Relp.C19_rotation_breaks_permutation"
   ],
   "note": "False of the code (proved with a witness); holds exactly for permutations that commute with the rotation."
  },
  {
   "property": "C20",
   "status": "proved",
   "theorems": [
    "Relp.C20_operations",
    "Relp.C20_constructors",
    "Relp.C20_queries",
    "Relp.C20_unique"
   ],
   "note": "Every operation refines the dense vector; the representation is unique."
  },
  {
   "property": "C21",
   "status": "proved",
   "theorems": [
    "Relp.C21_transpose",
    "Relp.C21_transpose_twice",
    "Relp.C21_remove",
    "Relp.C21_change_signs",
    "Relp.C21_other"
   ],
   "note": "Transposition, removal of rows and columns, sign changes, concatenation."
  },
  {
   "property": "C22",
   "status": "proved",
   "theorems": [
    "Relp.C22_tabular_form",
    "Relp.C22_unique",
    "Relp.C22_objective",
    "Relp.C22_reconstruct",
    "Relp.C22_bound_row"
   ],
   "note": ""
  },
  {
   "property": "C23",
   "status": "proved",
   "theorems": [
    "Relp.C23_initial_basis",
    "Relp.C23_start"
   ],
   "note": ""
  },
  {
   "property": "C24",
   "status": "proved",
   "theorems": [
    "Relp.C24_optimum",
    "Relp.C24_unbounded",
    "Relp.C24_infeasible",
    "Relp.C24_never_panics"
   ],
   "note": "For every basis inverse and pivot rule, whenever the run ends."
  },
  {
   "property": "C25",
   "status": "proved",
   "theorems": [
    "Relp.C25_row_index",
    "Relp.keptIndices_spec",
    "Relp.C25_right_hand_side",
    "Relp.C25_column",
    "Relp.C25_bound_row"
   ],
   "note": ""
  },
  {
   "property": "C26",
   "status": "proved",
   "theorems": [
    "Relp.C26_only_equality_rows",
    "Relp.C26_filtered_column"
   ],
   "note": ""
  },
  {
   "property": "C42",
   "status": "partial",
   "theorems": [
    "Relp.C42_delete_row_partial",
    "Relp.C42_debug_aborts"
   ],
   "note": "False of the code with debug assertions (proved: every deletion aborts). Holds without debug assertions."
  },
  {
   "property": "C27",
   "status": "proved",
   "theorems": [
    "Relp.C27_standardize",
    "Relp.C27_recovers",
    "Relp.C27_tabular",
    "Relp.GeneralForm.new_consistent"
   ],
   "note": "For every consistent problem; tabular form valid for proper bounds and ranges."
  },
  {
   "property": "C28",
   "status": "proved",
   "theorems": [
    "Relp.C28_full_solution"
   ],
   "note": "Removed variables included, for acyclic dependence between them."
  },
  {
   "property": "C29",
   "status": "partial",
   "theorems": [
    "Relp.C29_objective_value_partial",
    "Relp.C29_maximize_value",
    "Relp.C29_reported_value",
    "Relp.C29_maximize_iff",
    "Relp.C29_maximize_violated"
   ],
   "note": "True for minimisation, false for maximisation: the reported value is twice the objective value at the bounds minus the right one, so it is right exactly if these are equal; a concrete run shows it."
  },
  {
   "property": "C30",
   "status": "partial",
   "theorems": [
    "Relp.C30_debug_partial",
    "Relp.C30_debug_range_partial",
    "Relp.C30_crossing_bounds_violated"
   ],
   "note": "Proved for debug builds, which give no answer for such a problem. False of release builds without presolve: proved by a concrete run that reports an optimum for crossing bounds."
  },
  {
   "property": "C43",
   "status": "proved",
   "theorems": [
    "Relp.C43_optimum",
    "Relp.C43_unbounded",
    "Relp.C43_infeasible",
    "Relp.C43_never_panics",
    "Relp.C43_lu_never_panics",
    "Relp.GeneralForm.C43_answers"
   ],
   "note": "For consistent problems with proper bounds; both basis inverses, all pivot rules; never_panics for the row-wise inverse, lu_never_panics for the LU decomposition with at least two inequalities."
  },
  {
   "property": "C31",
   "status": "proved",
   "theorems": [
    "Relp.C31_fixed_variable",
    "Relp.reached_fit"
   ],
   "note": "Holds in every state that presolving reaches."
  },
  {
   "property": "C32",
   "status": "proved",
   "theorems": [
    "Relp.C32_bound_constraint"
   ],
   "note": "Holds in every state that presolving reaches."
  },
  {
   "property": "C33",
   "status": "partial",
   "theorems": [
    "Relp.C33_slack_partial",
    "Relp.C33_not_positive",
    "Relp.C33_not_range"
   ],
   "note": "False of the code in two cases (proved by concrete runs): a feasible problem is reported infeasible, an infeasible range is dropped. Proved for the remaining combinations."
  },
  {
   "property": "C34",
   "status": "partial",
   "theorems": [
    "Relp.C34_propagation_partial",
    "Relp.C34_stored_bound_partial",
    "Relp.C34_stored_derived_partial",
    "Relp.C34_not_outdated",
    "Relp.C34_not_discarded"
   ],
   "note": "False of the code (proved): stored activity bounds are not updated when a variable is fixed, derived bounds that constraints were replaced with are discarded. Proved while the stored bounds are up to date."
  },
  {
   "property": "C35",
   "status": "partial",
   "theorems": [
    "Relp.C35_unreachable_partial",
    "Relp.C35_not_unreachable",
    "Relp.C35_roomy_partial"
   ],
   "note": "False of the code (proved): a consistent problem reaches unreachable!(). The cases in which it does are characterised."
  },
  {
   "property": "C44",
   "status": "partial",
   "theorems": [
    "Relp.C44_presolve_partial",
    "Relp.C44_presolve_steps_partial",
    "Relp.C44_optimum_partial",
    "Relp.C44_infeasible_partial",
    "Relp.C44_unbounded_partial",
    "Relp.GeneralForm.C44_answers_partial",
    "Relp.C44_roomy_partial",
    "Relp.C44_roomy_answers_partial"
   ],
   "note": "False of the code in general by C33-C35. Proved for runs that stay clear of those defects: a condition on the single steps of the run that can be checked by evaluation (C44_presolve_steps_partial), see DESIGN.md. For a class of problems given by their form (Roomy) nothing about the run is assumed, and there is no abort."
  },
  {
   "property": "C45",
   "status": "partial",
   "theorems": [
    "Relp.C45_unbounded_partial",
    "Relp.C45_not_feasible"
   ],
   "note": "False of the code (proved): an infeasible problem is reported unbounded. Proved: unbounded if there is a feasible point, for safe runs."
  },
  {
   "property": "C46",
   "status": "partial",
   "theorems": [
    "Relp.C46_abort_partial",
    "Relp.C46_not_reported"
   ],
   "note": "False of the code (proved): contradictory bounds on a variable in no constraint abort. Proved for safe runs and proper bounds: the only abort is the unreachable!() of C35."
  },
  {
   "property": "C47",
   "status": "partial",
   "theorems": [
    "Relp.C47_fresh_partial",
    "Relp.C47_again_partial",
    "Relp.C47_not_again"
   ],
   "note": "Proved if the first presolving removed no variable. False of the code otherwise: proved with a concrete run that loses a variable."
  },
  {
   "property": "C41",
   "status": "proved",
   "theorems": [
    "Relp.C41_arcs",
    "Relp.C41_incidence_matrix",
    "Relp.C41_arithmetic"
   ],
   "note": ""
  },
  {
   "property": "C49",
   "status": "proved",
   "theorems": [
    "Relp.C49_shortest_path",
    "Relp.C49_path",
    "Relp.C49_answers",
    "Relp.C49_negative_cycle",
    "Relp.C49_no_negative_cycle",
    "Relp.C49_infeasible",
    "Relp.C49_unbounded"
   ],
   "note": ""
  },
  {
   "property": "C50",
   "status": "partial",
   "theorems": [
    "Relp.C50_max_flow_partial",
    "Relp.C50_outflow",
    "Relp.C50_integral",
    "Relp.C50_answers",
    "Relp.C50_min_cut_partial",
    "Relp.C50_verdict",
    "Relp.C50_bound_row",
    "Relp.C50_not_net",
    "Relp.C50_not_isolated"
   ],
   "note": "False of the code with arcs into the source or an isolated vertex (proved with witnesses). Proved for connected graphs without arcs into the source."
  },
  {
   "property": "C37",
   "status": "proved",
   "theorems": [
    "Relp.C37_decimal"
   ],
   "note": ""
  },
  {
   "property": "C51",
   "status": "partial",
   "theorems": [
    "Relp.C51_rejected_partial",
    "Relp.C51_not_rejected",
    "Relp.C51_not_overflow"
   ],
   "note": "False of the code (proved): several malformed texts are accepted, two abort, long numerals are misread. Proved for the remaining texts."
  },
  {
   "property": "C38",
   "status": "proved",
   "theorems": [
    "Relp.Mps.C38_bounds",
    "Relp.Mps.C38_free_rejected"
   ],
   "note": ""
  },
  {
   "property": "C39",
   "status": "partial",
   "theorems": [
    "Relp.Mps.C39_ranges_partial",
    "Relp.Mps.C39_not_without_rhs"
   ],
   "note": "False of the code for rows without a right-hand side (proved with witnesses). Proved for all others."
  },
  {
   "property": "C40",
   "status": "proved",
   "theorems": [
    "Relp.Mps.C40_rhs",
    "Relp.Mps.C40_rejected"
   ],
   "note": ""
  },
  {
   "property": "C52",
   "status": "partial",
   "theorems": [
    "Relp.Mps.C52_conversion_partial",
    "Relp.Mps.C52_rejected",
    "Relp.Mps.C52_optimum_partial",
    "Relp.Mps.C52_unbounded_partial",
    "Relp.Mps.C52_infeasible_partial",
    "Relp.Mps.C52_not_costs",
    "Relp.Mps.C52_not_repeated_rhs",
    "Relp.Mps.C52_not_semiContinuous"
   ],
   "note": "False of the code for ranges without right-hand side, repeated cost entries, repeated right-hand sides of ranged equalities and semi-continuous bounds (proved with witnesses). Proved for all other programs."
  },
  {
   "property": "C36",
   "status": "proved",
   "theorems": [
    "Relp.Scaling.C36_equivalent",
    "Relp.Scaling.C36_best",
    "Relp.Scaling.C36_unbounded",
    "Relp.Scaling.C36_infeasible",
    "Relp.Scaling.C36_reversible",
    "Relp.Scaling.C36_solution"
   ],
   "note": ""
  },
  {
   "property": "C53",
   "status": "partial",
   "theorems": [
    "Relp.Scaling.C53_scale_partial",
    "Relp.Scaling.C53_not_without_factors",
    "Relp.Scaling.C53_not_without_variables"
   ],
   "note": "False of the code for problems without variables and problems in which no number has a factor (proved, for all such problems). Proved for all others."
  },
  {
   "property": "C54",
   "status": "partial",
   "theorems": [
    "Relp.Scaling.C54_not_smaller",
    "Relp.Scaling.C54_inverted_partial",
    "Relp.Scaling.C54_rows_partial"
   ],
   "note": "False of the code: column factors are inverted (proved with a witness from the unit tests). Proved for every prime: it holds for the returned scaling with its column factors inverted, and for the returned scaling itself if its column factors are one."
  },
  {
   "property": "C07",
   "status": "proved",
   "theorems": [
    "Relp.C07_number_of_bases",
    "Relp.C07_first_profitable_terminates",
    "Relp.C07_first_profitable_answers"
   ],
   "note": ""
  },
  {
   "property": "C08",
   "status": "partial",
   "theorems": [
    "Relp.C08_nondegenerate_partial",
    "Relp.C08_only_stalling_partial",
    "Relp.C08_cycles",
    "Relp.C08_cycling_has_optimum"
   ],
   "note": "False of the code (proved): the default rule, and the other two rules apart from FirstProfitable, run forever on a problem with three rows that has an optimum. Proved for problems without degenerate feasible basic solutions, with every rule; on all problems, a run that goes on moves less than (m + n) ^ m times."
  },
  {
   "property": "C48",
   "status": "proved",
   "theorems": [
    "Relp.C48_presolve_terminates",
    "Relp.C48_presolve_steps"
   ],
   "note": ""
  },
  {
   "property": "C55",
   "status": "proved",
   "theorems": [
    "Relp.Mps.C55_reading",
    "Relp.Mps.C55_formats",
    "Relp.Mps.C55_white_space",
    "Relp.Mps.C55_words"
   ],
   "note": "Files of the kind in Spec/MpsText.lean; C55_not_otherFiles shows two kinds of files that other programs accept and that are rejected."
  },
  {
   "property": "C56",
   "status": "partial",
   "theorems": [
    "Relp.Mps.C56_free_partial",
    "Relp.Mps.C56_fixed_partial",
    "Relp.Mps.C56_contents",
    "Relp.Mps.C56_not_semiContinuous",
    "Relp.Mps.C56_not_ascii",
    "Relp.Mps.C56_not_fixed"
   ],
   "note": "False of the code (proved with witnesses): semi-continuous bounds, characters outside ASCII, and short lines or empty fields in the fixed format abort. Proved for all other texts in the free format, and for all texts in ASCII in the fixed format whose lines have the fields that are read from them (Spec/MpsFixed.lean)."
  },
  {
   "property": "C57",
   "status": "proved",
   "theorems": [
    "Relp.Mps.C57_accepted",
    "Relp.Mps.C57_not_wellFormed"
   ],
   "note": "C57_not_wellFormed: zero coefficients, several cost entries and several columns with the same name are accepted."
  },
  {
   "property": "C58",
   "status": "partial",
   "theorems": [
    "Relp.Mps.C58_import",
    "Relp.Mps.C58_rejected_partial",
    "Relp.Mps.C58_optimum_partial",
    "Relp.Mps.C58_unbounded_partial",
    "Relp.Mps.C58_infeasible_partial",
    "Relp.Mps.C58_answers_partial"
   ],
   "note": "Proved for files that satisfy the conditions of File.Sound, which the defects of C39, C30, C52 and C57 ask for."
  },
  {
   "property": "C59",
   "status": "proved",
   "theorems": [
    "Relp.C59_answer",
    "Relp.C59_ends",
    "Relp.C59_infeasible_basis"
   ],
   "note": "C59_infeasible_basis: the basis has to be feasible, this is not checked."
  },
  {
   "property": "C60",
   "status": "proved",
   "theorems": [
    "Relp.C60_column_range",
    "Relp.C60_no_value"
   ],
   "note": "C60_no_value: a column without value aborts."
  },
  {
   "property": "C61",
   "status": "partial",
   "theorems": [
    "Relp.C61_rows_debug_partial",
    "Relp.C61_zero_problem_aborts",
    "Relp.C61_no_rows_aborts",
    "Relp.C61_lu_debug_partial",
    "Relp.C61_basis_debug_partial",
    "Relp.C61_infeasible_basis_aborts",
    "Relp.C61_one_row_aborts",
    "Relp.C61_basis_one_row_aborts"
   ],
   "note": "False of the code for problems without rows, for problems in which all data are zero, and for problems of one row with a full initial basis (all proved). In all other cases the debug build is proved equal to the release build, including the checks inside both basis inverses. LUDecomposition needs two rows that are not redundant (C17)."
  },
  {
   "property": "C62",
   "status": "partial",
   "theorems": [
    "Relp.Mps.C62_optimum_partial",
    "Relp.Mps.C62_infeasible_partial",
    "Relp.Mps.C62_unbounded_partial",
    "Relp.Mps.C62_answers_partial",
    "Relp.Mps.C62_roomy_partial"
   ],
   "note": "Proved for files that are Sound and presolve runs that are Careful, conditions the defects of C30, C33, C34, C39, C52 and C57 ask for. For maximisation the objective value is wrong (C29), the values are right. An unbounded verdict may come from presolving an infeasible problem (C45)."
  },
  {
   "property": "C63",
   "status": "partial",
   "theorems": [
    "Relp.GeneralForm.C63_optimum",
    "Relp.GeneralForm.C63_unbounded",
    "Relp.GeneralForm.C63_infeasible",
    "Relp.GeneralForm.C63_answers_partial",
    "Relp.C63_not_before_standardizing"
   ],
   "note": "Proved for scaling after standardize. False of the code (proved with a witness) for scaling before standardize: shifts are not scaled back. Problems without variables or factors abort (C53)."
  },
  {
   "property": "C64",
   "status": "partial",
   "theorems": [
    "Relp.C64_same_answer",
    "Relp.C64_same_result_partial",
    "Relp.C64_only_fixed_slack_partial",
    "Relp.C64_fixed_slack_aborts",
    "Relp.C64_not_equal",
    "Relp.C64_not_detected",
    "Relp.C64_roomy_partial"
   ],
   "note": "A debug build never gives another answer (proved for every problem). That no check fails is false of the code (proved with a witness): the rule for slack variables gets fixed variables. In safe runs no other check fails."
  },
  {
   "property": "C65",
   "status": "proved",
   "theorems": [
    "Relp.C65_columns",
    "Relp.C65_filtered_columns",
    "Relp.C65_unique",
    "Relp.C65_left",
    "Relp.C65_kinds",
    "Relp.C65_identity",
    "Relp.C65_not_dense"
   ],
   "note": "C65_not_dense: dense columns, a private type that no problem uses, give zeros too if iterated over by value."
  },
  {
   "property": "C66",
   "status": "proved",
   "theorems": [
    "Relp.C66_initial_basis",
    "Relp.C66_optimum",
    "Relp.C66_unbounded",
    "Relp.C66_infeasible",
    "Relp.C66_never_panics"
   ],
   "note": ""
  },
  {
   "property": "C67",
   "status": "partial",
   "theorems": [
    "Relp.C67_equal_partial",
    "Relp.C67_fraction",
    "Relp.C67_symmetric",
    "Relp.C67_not_few",
    "Relp.C67_not_itself"
   ],
   "note": "False of the code (proved): with fewer than ten variables values are not compared, and the fraction has to be exceeded. Proved for ten variables and more, with the fraction exceeded."
  },
  {
   "property": "C68",
   "status": "partial",
   "theorems": [
    "Relp.C68_rows_debug_partial",
    "Relp.C68_lu_debug_partial",
    "Relp.C68_presolve_debug_partial",
    "Relp.C68_no_variables_aborts",
    "Relp.C68_not_equal"
   ],
   "note": "Proved for problems with an entry in the matrix; with presolving, for all problems and the runs of C64. False of the code (proved) for problems without variables: a check on removing indices fails."
  },
  {
   "property": "C69",
   "status": "proved",
   "theorems": [
    "Relp.C69_solver",
    "Relp.C69_from_basis",
    "Relp.C69_general_form",
    "Relp.C69_presolve"
   ],
   "note": "No hypothesis on the input."
  },
  {
   "property": "C70",
   "status": "proved",
   "theorems": [
    "Relp.C70_invert",
    "Relp.C70_dependent_aborts",
    "Relp.C70_dependent_start_aborts"
   ],
   "note": ""
  },
  {
   "property": "C71",
   "status": "proved",
   "theorems": [
    "Relp.C71_from_basis",
    "Relp.C71_answer",
    "Relp.C71_general_form",
    "Relp.C71_release_wrong"
   ],
   "note": "The only hypotheses are valid sparse columns and, for providers with a filter of their own, that it removes rows correctly. C71_release_wrong: a release build does not detect an invalid start."
  },
  {
   "property": "C72",
   "status": "partial",
   "theorems": [
    "Relp.Mps.C72_read",
    "Relp.Mps.C72_convert",
    "Relp.Mps.C72_solve",
    "Relp.Mps.C72_number",
    "Relp.Mps.C72_checks",
    "Relp.Mps.C72_written_partial",
    "Relp.Mps.C72_file_partial",
    "Relp.Mps.C72_answer_partial",
    "Relp.Mps.C72_not_markers",
    "Relp.Mps.C72_not_names",
    "Relp.Mps.C72_not_zero",
    "Relp.Mps.C72_not_repeated"
   ],
   "note": "That a debug build gives what a release build gives or aborts is proved without hypotheses. That it does not abort is false of the code (proved): files with repeated markers, continued columns, zero coefficients or repeated right-hand sides of ranges. Proved exactly for files without these."
  },
  {
   "property": "C73",
   "status": "proved",
   "theorems": [
    "Relp.C73_left",
    "Relp.C73_entry",
    "Relp.C73_part",
    "Relp.C73_aborts"
   ],
   "note": "For every run of presolving, also those in which a rule makes a mistake."
  },
  {
   "property": "C74",
   "status": "partial",
   "theorems": [
    "Relp.Report.C74_shown_partial",
    "Relp.Report.C74_kind",
    "Relp.Report.C74_causes_partial",
    "Relp.Report.C74_not_inconsistency",
    "Relp.Report.C74_not_causes",
    "Relp.Report.C74_not_file",
    "Relp.Report.C74_not_line",
    "Relp.Report.C74_not_cause",
    "Relp.Report.C74_trace"
   ],
   "note": "False of the code (proved): displaying an inconsistency never ends, and the line and the wrapped causes of an error can not be obtained. Proved for all other errors; the function that would list them is right, but private and not called."
  },
  {
   "property": "C75",
   "status": "partial",
   "theorems": [
    "Relp.Scaling.C75_rows_partial",
    "Relp.Scaling.C75_columns_partial",
    "Relp.Scaling.C75_not_cost"
   ],
   "note": "False of the code for the cost row (proved). Proved for every constraint row and every column, with the column factors that were searched for; those returned are their inverses (C54)."
  },
  {
   "property": "C76",
   "status": "partial",
   "theorems": [
    "Relp.C76_operations_partial",
    "Relp.C76_constructors_partial",
    "Relp.C76_matrices_partial",
    "Relp.C76_not_remove",
    "Relp.C76_not_empty",
    "Relp.C76_not_multiple",
    "Relp.C76_not_duplicate",
    "Relp.C76_not_zero"
   ],
   "note": "False of the code (proved): removing all elements and vectors without elements are refused; zero multiples, zero matrix values and repeated indices are not detected. All else is proved, in both directions."
  },
  {
   "property": "C77",
   "status": "proved",
   "theorems": [
    "Relp.C77_same",
    "Relp.C77_model",
    "Relp.C77_maps"
   ],
   "note": "For problems that have not been presolved before. C77_model also justifies the shortcuts of the model that the other theorems about presolving use."
  },
  {
   "property": "C78",
   "status": "partial",
   "theorems": [
    "Relp.Display.C78_tableau_iff",
    "Relp.Display.C78_tableau",
    "Relp.Display.C78_tableau_basis",
    "Relp.Display.C78_rows_iff",
    "Relp.Display.C78_rows",
    "Relp.Display.C78_lu_partial",
    "Relp.Display.C78_lu_matrices_partial",
    "Relp.Display.C78_vector_iff",
    "Relp.Display.C78_permutation",
    "Relp.Display.C78_not_tableau",
    "Relp.Display.C78_not_lu",
    "Relp.Display.C78_not_vector"
   ],
   "note": "False of the code (proved): tableaus with more than 9999 rows can not be displayed, entries of an LU decomposition can run together, and separators of a sparse vector can be missing. All else is proved."
  },
  {
   "property": "C79",
   "status": "partial",
   "theorems": [
    "Relp.Number.C79_read_partial",
    "Relp.Number.C79_read_iff",
    "Relp.Number.C79_not_zero",
    "Relp.Number.C79_not_nan"
   ],
   "note": "False of the code (proved): zero, small and large numbers are rejected, and NaN is accepted. Proved for all numbers between 1e-10 and 1e10 in magnitude. How the standard library reads a text is an assumption."
  },
  {
   "property": "C80",
   "status": "partial",
   "theorems": [
    "Relp.C80_relaxation",
    "Relp.C80_choices",
    "Relp.C80_reordered",
    "Relp.C80_general",
    "Relp.C80_presolve_partial",
    "Relp.C80_not_presolve",
    "Relp.C80_not_maximize"
   ],
   "note": "Proved for the solver and for whole problems, with or without scaling, in release and debug builds. False of the code (proved) with presolving, which may call an infeasible problem unbounded (C45), and for the value reported with a maximum (C29); with presolving proved for feasible problems that are presolved rightly."
  },
  {
   "property": "C81",
   "status": "partial",
   "theorems": [
    "Relp.Display.C81_problem_partial",
    "Relp.Display.C81_filtered_partial",
    "Relp.Display.C81_groups_partial",
    "Relp.Display.C81_same_text_partial",
    "Relp.Display.C81_same_filtered_partial",
    "Relp.Display.C81_not_lines",
    "Relp.Display.C81_not_problem",
    "Relp.Display.C81_not_rhs"
   ],
   "note": "False of the code (proved): separators are written without ending the line, so that the costs and the first rows of groups do not have lines of their own, long entries run together, and the right-hand side is not shown. Proved for numbers of at most 7 characters, with positions counted from the end of the separators."
  },
  {
   "property": "C82",
   "status": "proved",
   "theorems": [
    "Relp.Display.C82_graph",
    "Relp.Display.C82_same_text"
   ],
   "note": "For graphs without loops, of which all numbers fit in the fixed widths of the text."
  },
  {
   "property": "C83",
   "status": "proved",
   "theorems": [
    "Relp.C83_phase_one",
    "Relp.C83_removal",
    "Relp.C83_phase_two"
   ],
   "note": ""
  }
 ]
}