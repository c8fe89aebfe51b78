{
 "claims": [
  {
   "property": "C01",
   "status": "proved",
   "theorems": [
    "Verif.Sco.C01_aff_value",
    "Verif.Sco.C01_quad_value",
    "Verif.Sco.C01_scale",
    "Verif.Sco.C01_constructors",
    "Verif.Sco.C01_ofAff",
    "Verif.Sco.C01_inc",
    "Verif.Sco.C01_dec",
    "Verif.Sco.C01_multVar"
   ],
   "note": "Every increment, decrement, scaling, addition and product-with-variable operation of expr_ops, over any ordered field."
  },
  {
   "property": "C02",
   "status": "proved",
   "theorems": [
    "Verif.Sco.C02_mul",
    "Verif.Sco.C02_squareVar",
    "Verif.Sco.C02_square",
    "Verif.Sco.C02_square_nonneg",
    "Verif.Sco.C02_square_size"
   ],
   "note": "Products and squares are exact for every expression; the square is non-negative."
  },
  {
   "property": "C03",
   "status": "proved",
   "theorems": [
    "Verif.Sco.C03_cleanup_terms",
    "Verif.Sco.C03_cleanup_error",
    "Verif.Sco.C03_cleanup_idem",
    "Verif.Sco.C03_cleanup_exact_of_large"
   ],
   "note": "Which terms cleanupAff keeps, the error bound, idempotence."
  },
  {
   "property": "C04",
   "status": "proved",
   "theorems": [
    "Verif.Sco.C04_simplify2",
    "Verif.Sco.C04_exprToEigen"
   ],
   "note": "For every sorting procedure; throws exactly on an out-of-range index."
  },
  {
   "property": "C05",
   "status": "proved",
   "theorems": [
    "Verif.Sco.C05_quadratic"
   ],
   "note": "Both conventions, any repetition or order of index pairs, with and without forced diagonal."
  },
  {
   "property": "C06",
   "status": "proved",
   "theorems": [
    "Verif.Sco.C06_triplets_round_trip",
    "Verif.Sco.C06_csc_round_trip",
    "Verif.Sco.C06_upper_entries"
   ],
   "note": "Decoding gives back every column in order; upper triangle characterised entrywise; triplet round trip."
  },
  {
   "property": "C07",
   "status": "proved",
   "theorems": [
    "Verif.Sco.C07_hinge",
    "Verif.Sco.C07_program"
   ],
   "note": "For every expression, coefficient and point; C07_program composes any sequence of building calls into one partial minimum."
  },
  {
   "property": "C08",
   "status": "proved",
   "theorems": [
    "Verif.Sco.C08_abs",
    "Verif.Sco.C08_l1",
    "Verif.Sco.C08_l2"
   ],
   "note": "addAbs, addL1Norm and addL2Norm for all expressions and non-negative coefficients."
  },
  {
   "property": "C09",
   "status": "partial",
   "theorems": [
    "Verif.Sco.C09_violated_max_ignored",
    "Verif.Sco.C09_violated",
    "Verif.Sco.C09_upper_bound_partial"
   ],
   "note": "False: the auxiliary variable never enters the objective, so minimising over it gives 0 for every list (proved). What holds: the variable is bounded below by every expression."
  },
  {
   "property": "C10",
   "status": "partial",
   "theorems": [
    "Verif.Sco.C10_no_residue_partial",
    "Verif.Sco.C10_violated_by_addMax"
   ],
   "note": "Any interleaving of creating, building, adding, destroying and update() on any starting model. addMax is excluded: it leaks a variable (proved)."
  },
  {
   "property": "C11",
   "status": "partial",
   "theorems": [
    "Verif.Bounds.C11_closest_feasible_partial",
    "Verif.Bounds.C11_violated",
    "Verif.Bounds.C11_violated_pinned",
    "Verif.Bounds.C11_violated_inside_changed",
    "Verif.Bounds.C11_central"
   ],
   "note": "The full claim is false: components below the lower bound are never raised, pinned variables are moved out of their bounds, and points inside are changed near the upper bound (all proved). The partial theorem covers components at least delta above their lower bound; the central point is right."
  },
  {
   "property": "C12",
   "status": "partial",
   "theorems": [
    "Verif.ModelType.C12_names_partial",
    "Verif.ModelType.C12_violated",
    "Verif.ModelType.C12_print_out_of_range",
    "Verif.ModelType.C12_create_explicit",
    "Verif.ModelType.C12_create_auto",
    "Verif.ModelType.C12_from_int",
    "Verif.ModelType.C12_env_violated"
   ],
   "note": "False for OSQP, QPOASES and BPMPD (proved, including the effect through TRAJOPT_CONVEX_SOLVER). Rejection, print-back, explicit selection and automatic choice are proved."
  },
  {
   "property": "C13",
   "status": "proved",
   "theorems": [
    "Store.C13_every_history",
    "Store.C13_distinct_columns",
    "Store.C13_handles_increasing",
    "Store.C13_stale_handle_aliases"
   ],
   "note": "Refinement to an abstract list of live entries for every call history; use of a stale handle is shown to alias."
  },
  {
   "property": "C14",
   "status": "proved",
   "theorems": [
    "Verif.Sco.C14_ordinary_bounds",
    "Verif.Sco.C14_rows"
   ],
   "note": "For any model history (store invariant), live references and constants below 1e30; limits at or beyond 1e30 mean none, as in OSQP."
  },
  {
   "property": "C15",
   "status": "partial",
   "theorems": [
    "Store.C15_quadratic_partial",
    "Store.C15_affine_partial",
    "Store.C15_affine_keeps_quadratic",
    "Store.C15_violated"
   ],
   "note": "Exact for quadratic objectives and for affine ones on a fresh model; false for an affine objective after a quadratic one (proved)."
  },
  {
   "property": "C16",
   "status": "proved",
   "theorems": [
    "Verif.Bounds.C16_trust_interval",
    "Verif.Bounds.C16_inconsistent_bounds_undefined"
   ],
   "note": "The interval handed to the QP is exactly bounds-intersected-with-box; inconsistent bounds are undefined behaviour (proved)."
  },
  {
   "property": "C17",
   "status": "partial",
   "theorems": [
    "Verif.Legacy.C17_converged_sound_partial",
    "Verif.Legacy.C17_violated_on_early_timeout"
   ],
   "note": "False when the first clock reading is past max_time: OPT_CONVERGED without any evaluation (proved). The partial theorem is the claim when the first reading is within the limit."
  },
  {
   "property": "C18",
   "status": "proved",
   "theorems": [
    "Verif.Legacy.C18_accepted_step",
    "Verif.Legacy.C18_round_monotone"
   ],
   "note": "Accepted steps and whole rounds."
  },
  {
   "property": "C19",
   "status": "partial",
   "theorems": [
    "Verif.Legacy.C19_results_belong_to_point",
    "Verif.Legacy.C19_violated_on_second_call"
   ],
   "note": "Proved after initialize() when the first clock reading is within the limit; false for a second optimize() without initialize() (proved)."
  },
  {
   "property": "C20",
   "status": "proved",
   "theorems": [
    "Verif.Legacy.C20_trust_loop_bound",
    "Verif.Legacy.C20_optimize_terminates"
   ],
   "note": "Termination for every QP solver and clock; the trust-region loop bound is explicit."
  },
  {
   "property": "C21",
   "status": "proved",
   "theorems": [
    "Verif.Sqp.C21_converged_sound",
    "Verif.Sqp.C21_converged_complete"
   ],
   "note": "Both directions."
  },
  {
   "property": "C22",
   "status": "partial",
   "theorems": [
    "Verif.Sqp.C22_violated_never_reported",
    "Verif.Sqp.C22_violated_unconstrained_always_converged",
    "Verif.Sqp.C22_stop_ends_trust_loop_partial"
   ],
   "note": "False as stated: a violated-constraint-free problem with a failing QP reports kConverged, and the failure statuses are never reported (proved). The partial theorem shows a stop request ends the trust-region loop."
  },
  {
   "property": "C23",
   "status": "proved",
   "theorems": [
    "Verif.Sqp.C23_merit_monotone",
    "Verif.Sqp.C23_step_accept_or_keep",
    "Verif.Sqp.C23_start_states"
   ],
   "note": "Merit decrease on every accepted step, for all QP oracles and histories."
  },
  {
   "property": "C24",
   "status": "proved",
   "theorems": [
    "Verif.Sqp.C24_results_belong_to_point"
   ],
   "note": "The results record always belongs to the best point."
  },
  {
   "property": "C25",
   "status": "proved",
   "theorems": [
    "Verif.Sqp.C25_trust_loop_bound",
    "Verif.Sqp.C25_solve_terminates"
   ],
   "note": "Explicit bound on the trust-region loop; the whole solve terminates over Archimedean fields."
  },
  {
   "property": "C26",
   "status": "proved",
   "theorems": [
    "Verif.QpProblem.C26_slack_exact",
    "Verif.QpProblem.C26_minimiser"
   ],
   "note": "For every convexified problem reached by documented calls: the slack cost of every feasible completion is at least, and for one completion equal to, the weighted violation of the linearised rows (penalty costs and constraints), so QP minimisers minimise the penalty function. Weights are those of C28."
  },
  {
   "property": "C27",
   "status": "partial",
   "theorems": [
    "Verif.QpProblem.C27_qp_row",
    "Verif.QpProblem.C27_qp_exact_partial",
    "Verif.QpProblem.C27_violated_small_entries",
    "Verif.QpProblem.C27_violated_witness",
    "Verif.SqpExprs.C27_create"
   ],
   "note": "AffExprs::create is exact at the expansion point and for affine functions. The rows of the QP are exact up to dropped entries; violated when Jacobian entries are below 1e-7 and the variable leaves the expansion point."
  },
  {
   "property": "C28",
   "status": "partial",
   "theorems": [
    "Verif.QpProblem.C28_weights",
    "Verif.QpProblem.C28_given_coefficients",
    "Verif.QpProblem.C28_own_coefficient_partial",
    "Verif.QpProblem.C28_violated_shift",
    "Verif.QpProblem.C28_violated_witness"
   ],
   "note": "Exact characterisation of the coefficient used (number of non-empty sets before); violated when an empty constraint set precedes, holds when there is none."
  },
  {
   "property": "C29",
   "status": "partial",
   "theorems": [
    "Verif.QpProblem.C29_setup_partial",
    "Verif.QpProblem.C29_violated_rows_vanish",
    "Verif.QpProblem.C29_violated_infeasible",
    "Verif.QpProblem.C29_violated_witness"
   ],
   "note": "Violated: a second setup in a row empties all rows and keeps the bounds, which makes the QP infeasible if a row excluded 0. Partial: holds for every history in which setup follows an added set."
  },
  {
   "property": "C30",
   "status": "partial",
   "theorems": [
    "Verif.IfoptQp.C30_current",
    "Verif.IfoptQp.C30_multiplied",
    "Verif.IfoptQp.C30_single_cost_partial",
    "Verif.IfoptQp.C30_violated_many_costs",
    "Verif.IfoptQp.C30_violated_witness"
   ],
   "note": "With n costs evaluateTotalConvexCost changes n times as much as the QP objective (C30_multiplied); exact for one cost, violated for two or more."
  },
  {
   "property": "C31",
   "status": "partial",
   "theorems": [
    "Verif.SqpExprs.C31_create_partial",
    "Verif.SqpExprs.C31_violated_zero_hessian",
    "Verif.SqpExprs.C31_violated_one_variable",
    "Verif.SqpExprs.C31_square"
   ],
   "note": "Exact for symmetric Hessians with a stored entry and at least two variables; violated for rows without Hessian entries (the linear part is lost) and for one variable (the 1x1 matrix is read as a squared affine form). AffExprs::square is exact for all weights with a square root."
  },
  {
   "property": "C32",
   "status": "proved",
   "theorems": [
    "Verif.Bounds.C32_type_always_current",
    "Verif.Bounds.C32_type_unique",
    "Verif.Bounds.C32_sides",
    "Verif.Bounds.C32_constants"
   ],
   "note": "Any sequence of operations; classification is also shown to be unique."
  },
  {
   "property": "C33",
   "status": "proved",
   "theorems": [
    "Verif.Bounds.C33_clamp_and_errors",
    "Verif.Bounds.C33_clamp_idempotent"
   ],
   "note": "For every vector and every consistent bounds."
  },
  {
   "property": "C34",
   "status": "proved",
   "theorems": [
    "Verif.Composite.C34_stacked",
    "Verif.Composite.C34_static_update",
    "Verif.Composite.C34_dynamic_update"
   ],
   "note": "Stacking proved for every list of components, static and dynamic updates; a non-dynamic composite does not follow components that change their row count (finding)."
  },
  {
   "property": "C35",
   "status": "partial",
   "theorems": [
    "Verif.Composite.C35_cost_partial",
    "Verif.Composite.C35_violated",
    "Verif.Composite.C35_gradient_partial",
    "Verif.Composite.C35_violated_gradient",
    "Verif.Composite.C35_finite_differences_partial",
    "Verif.Composite.C35_sum_mode",
    "Verif.IfoptQp.C35_violated_total_exact",
    "Verif.IfoptQp.C35_violated_total_witness"
   ],
   "note": "Violated for two or more costs: the costs are stacked and only the first row is returned. Partial: exact for at most one cost row. The summing mode of the composite is proved separately."
  },
  {
   "property": "C36",
   "status": "partial",
   "theorems": [
    "Verif.IfoptCosts.C36_value",
    "Verif.IfoptCosts.C36_weight_count",
    "Verif.IfoptCosts.C36_default_weights",
    "Verif.IfoptCosts.C36_squared_derivative",
    "Verif.IfoptCosts.C36_absolute_derivative_partial",
    "Verif.IfoptCosts.C36_violated_near_zero"
   ],
   "note": "Values for all weights and bounds; squared gradient everywhere, absolute gradient where every error is zero-free and at least the 1e-12 cut-off away from zero; below the cut-off the gradient is wrong (violated)."
  },
  {
   "property": "C37",
   "status": "proved",
   "theorems": [
    "Verif.JointConstraints.C37_velocity",
    "Verif.JointConstraints.C37_acceleration",
    "Verif.JointConstraints.C37_jerk",
    "Verif.JointConstraints.C37_order_required"
   ],
   "note": "All lengths from the constructor minimum on and all dofs. Variables in increasing coordinate order; otherwise the ordered sparse insertion fails (C37_order_required)."
  },
  {
   "property": "C38",
   "status": "partial",
   "theorems": [
    "Verif.JointConstraints.C38_split_partial",
    "Verif.JointConstraints.C38_violated",
    "Verif.JointConstraints.C38_keep",
    "Verif.JointConstraints.C38_target"
   ],
   "note": "Violated for the documented empty and single coefficient vectors (out of range read); proved for one coefficient per joint, and without splitting for all documented sizes."
  },
  {
   "property": "C39",
   "status": "proved",
   "theorems": [
    "Verif.VarSets.C39_layout",
    "Verif.VarSets.C39_set_get",
    "Verif.VarSets.C39_initial",
    "Verif.VarSets.C39_empty_variable"
   ],
   "note": "Every variable non-empty; an empty variable is undefined (C39_empty_variable)."
  },
  {
   "property": "C40",
   "status": "proved",
   "theorems": [
    "Verif.Bounds.C40_interpolate"
   ],
   "note": "Exact arithmetic; failed asserts are a distinct outcome."
  },
  {
   "property": "C41",
   "status": "proved",
   "theorems": [
    "Verif.NumDiff.C41_forward_grad_affine",
    "Verif.NumDiff.C41_forward_jac_affine",
    "Verif.NumDiff.C41_columns_independent",
    "Verif.NumDiff.C41_diag_hess_quadratic",
    "Verif.NumDiff.C41_full_hess_quadratic",
    "Verif.NumDiff.C41_nlp_cost_gradient",
    "Verif.NumDiff.C41_nlp_constraint_gradient",
    "Verif.NumDiff.C41_set_constraint_gradient"
   ],
   "note": "Exact on affine functions (all columns, any step), diagonal and full Hessian exact on quadratics, NLP variants."
  },
  {
   "property": "C42",
   "status": "proved",
   "theorems": [
    "Verif.Cache.C42_init",
    "Verif.Cache.C42_wf",
    "Verif.Cache.C42_get",
    "Verif.Cache.C42_getOrAcquire",
    "Verif.Cache.C42_erase",
    "Verif.Cache.C42_put",
    "Verif.Cache.C42_every_history",
    "Verif.Cache.C42_put_get",
    "Verif.Cache.C42_erase_get"
   ],
   "note": "Refinement of the LRU specification by every operation, and an invariant over every history including misuse."
  },
  {
   "property": "C43",
   "status": "partial",
   "theorems": [
    "Verif.Cache.C43_transparent_partial",
    "Verif.Cache.C43_violated_on_collision",
    "Verif.Cache.C43_collisions_exist"
   ],
   "note": "Transparent for every history when equal hashes mean equal values; false on hash collisions, which exist for 64-bit keys (proved)."
  },
  {
   "property": "C44",
   "status": "partial",
   "theorems": [
    "Verif.Collision.C44_with_subshape_partial",
    "Verif.Collision.C44_without_subshape_partial",
    "Verif.Collision.C44_violated_every_shape",
    "Verif.Collision.C44_violated"
   ],
   "note": "False: a shape without sub shapes shares its key with some shape that has one, for every shape id; the two contacts are then merged into one group. Injectivity is proved within each kind."
  },
  {
   "property": "C45",
   "status": "proved",
   "theorems": [
    "Verif.Collision.C45_history"
   ],
   "note": "For every history of setDefault/set and every zero test."
  },
  {
   "property": "C46",
   "status": "proved",
   "theorems": [
    "Verif.Collision.C46_max_error_at",
    "Verif.Collision.C46_max_error",
    "Verif.Collision.C46_link"
   ],
   "note": "All six accessors, throw conditions included."
  },
  {
   "property": "C47",
   "status": "partial",
   "theorems": [
    "Verif.Collision.C47_partition",
    "Verif.Collision.C47_discrete_partial",
    "Verif.Collision.C47_continuous",
    "Verif.Collision.C47_filter_counts",
    "Verif.Collision.C47_violated"
   ],
   "note": "Discrete evaluator sorts on the errors of link A only, so the worst group can be dropped (proved for every sort); holds when link A is always active. Continuous evaluators: holds and the comparison never throws for filtered contacts."
  },
  {
   "property": "C48",
   "status": "proved",
   "theorems": [
    "Verif.Collision.C48_getGradient_consistent",
    "Verif.Collision.C48_getGradient_scale",
    "Verif.Collision.C48_getGradient_discrete",
    "Verif.Collision.C48_weighted_average",
    "Verif.Collision.C48_convex_hull"
   ],
   "note": "Includes no division by zero, independence of the normaliser and the convex hull bound. When no contact has a positive error the result is 0."
  },
  {
   "property": "C49",
   "status": "proved",
   "theorems": [
    "Verif.Collision.C49_subdivision"
   ],
   "note": "Euclidean distance; the norm itself is an input with dist^2 = sum of squares. Also covers the case of a short motion."
  },
  {
   "property": "C50",
   "status": "partial",
   "theorems": [
    "Verif.BasicArray.C50_cells",
    "Verif.BasicArray.C50_block",
    "Verif.BasicArray.C50_lines",
    "Verif.BasicArray.C50_topRows",
    "Verif.BasicArray.C50_bottomRows_partial",
    "Verif.BasicArray.C50_violated_middleRows",
    "Verif.BasicArray.C50_violated_bottomRows",
    "Verif.BasicArray.C50_reported_exactly_partial",
    "Verif.BasicArray.C50_row_reported_partial",
    "Verif.BasicArray.C50_violated_column",
    "Verif.BasicArray.C50_violated_negative_column"
   ],
   "note": "Cells, block, rblock, cblock, row, col and topRows hold; middleRows/bottomRows and the reporting of bad columns are violated; exact characterisation of the reported accesses."
  },
  {
   "property": "C51",
   "status": "proved",
   "theorems": [
    "Verif.Interp.C51_searchsorted",
    "Verif.Interp.C51_polygon",
    "Verif.Interp.C51_knot",
    "Verif.Interp.C51_range",
    "Verif.Interp.C51_unique",
    "Verif.Interp.C51_unsorted_wrong"
   ],
   "note": "Result lies on the polygon, which is unique, passes through the knots and stays in the range of the neighbours. Points outside the knots get the end values."
  },
  {
   "property": "C52",
   "status": "partial",
   "theorems": [
    "Verif.BpmpdIo.C52_input_partial",
    "Verif.BpmpdIo.C52_output_partial",
    "Verif.BpmpdIo.C52_session_partial",
    "Verif.BpmpdIo.C52_violated_short_read",
    "Verif.BpmpdIo.C52_violated_message"
   ],
   "note": "Round trip of messages and of whole sessions when every read returns all requested bytes; a short read (only asserted, so unchecked in release builds) leaves the rest in the pipe and shifts everything after it (violated)."
  },
  {
   "property": "C53",
   "status": "proved",
   "theorems": [
    "Verif.Traj.C53_exact",
    "Verif.Traj.C53_convex"
   ],
   "note": "Value equals the expression built by the constructor equals the weighted sum of squared finite differences; the convex model is that quadratic for every well formed solver model."
  },
  {
   "property": "C54",
   "status": "proved",
   "theorems": [
    "Verif.Traj.C54_rows",
    "Verif.Traj.C54_value",
    "Verif.Traj.C54_cost"
   ],
   "note": "Rows, values and hinge cost; coefficients positive where the claim is about signs (a non positive coefficient switches a row off or flips it)."
  },
  {
   "property": "C55",
   "status": "proved",
   "theorems": [
    "Verif.Traj.C55_zero",
    "Verif.Traj.C55_bound"
   ],
   "note": "Zero violation iff every deviation is zero, and a bound on each deviation by the tolerance."
  },
  {
   "property": "C56",
   "status": "partial",
   "theorems": [
    "Verif.Problem.C56_pins_partial",
    "Verif.Problem.C56_once_partial",
    "Verif.Problem.C56_accepted_partial",
    "Verif.Problem.C56_violated_time",
    "Verif.Problem.C56_violated_boundary",
    "Verif.Problem.C56_violated_duplicates"
   ],
   "note": "Holds for existing and (for \"once\") duplicate-free indices; off-by-one range checks and duplicates violate it."
  },
  {
   "property": "C57",
   "status": "partial",
   "theorems": [
    "Verif.Problem.C57_pos_partial",
    "Verif.Problem.C57_vel_partial",
    "Verif.Problem.C57_acc_partial",
    "Verif.Problem.C57_jerk_partial",
    "Verif.Problem.C57_violated_negative",
    "Verif.Problem.C57_violated_acc",
    "Verif.Problem.C57_violated_jerk"
   ],
   "note": "Position and velocity hold for non-negative first_step; acceleration and jerk characterised exactly; violated for negative first_step and for single steps near the end."
  },
  {
   "property": "C58",
   "status": "partial",
   "theorems": [
    "Verif.Problem.C58_continuous_partial",
    "Verif.Problem.C58_discrete",
    "Verif.Problem.C58_violated"
   ],
   "note": "Discrete holds; swept terms hold if no two adjacent steps are fixed, otherwise violated."
  },
  {
   "property": "C59",
   "status": "proved",
   "theorems": [
    "Verif.Problem.C59_isSuperset",
    "Verif.Problem.C59_update",
    "Verif.Problem.C59_get",
    "Verif.Problem.C59_roundtrip"
   ],
   "note": "Names duplicate-free for the update; values as long as names."
  },
  {
   "property": "C60",
   "status": "proved",
   "theorems": [
    "Verif.Problem.C60_bijection",
    "Verif.Problem.C60_distinct"
   ],
   "note": "Position of each element given in closed form; createVariables appends one variable per name."
  },
  {
   "property": "C61",
   "status": "proved",
   "theorems": [
    "Verif.TimeTerms.C61_expansion",
    "Verif.TimeTerms.C61_band"
   ],
   "note": "Exact bilinear expansion and band characterisation. Tolerances may be any numbers."
  },
  {
   "property": "C62",
   "status": "proved",
   "theorems": [
    "Verif.Collision.C62_filter",
    "Verif.Collision.C62_one_end"
   ],
   "note": "Exact characterisation, order preserved."
  },
  {
   "property": "C63",
   "status": "partial",
   "theorems": [
    "Verif.Sco.C63_unchanged_partial",
    "Verif.Sco.C63_reported_equal_partial",
    "Verif.Sco.C63_noticed_partial",
    "Verif.Sco.C63_violated"
   ],
   "note": "False: memcmp compares element counts as byte counts, so a changed pattern can be reported unchanged and the workspace keeps a wrong matrix (proved). What holds: unchanged patterns are recognised, and what an equal report guarantees."
  },
  {
   "property": "C64",
   "status": "partial",
   "theorems": [
    "Verif.Sco.C64_cost_convex_partial",
    "Verif.Sco.C64_cost_touches_partial",
    "Verif.Sco.C64_cost_affine_partial",
    "Verif.Sco.C64_constraint_touches_partial",
    "Verif.Sco.C64_constraint_affine_partial",
    "Verif.Sco.C64_violated_negative_weight",
    "Verif.Sco.C64_violated_small_jacobian"
   ],
   "note": "Holds when weights are non-negative and no Jacobian entry falls under the 1e-7 clean-up; both hypotheses are shown to be needed."
  },
  {
   "property": "C65",
   "status": "proved",
   "theorems": [
    "Verif.Sqp.C65_trust_box_centred"
   ],
   "note": "Invariant over all iterations of the solver."
  },
  {
   "property": "C66",
   "status": "proved",
   "theorems": [
    "Verif.Sqp.C66_inflate_individually",
    "Verif.Sqp.C66_box_usable",
    "Verif.Sqp.C66_inflate_all",
    "Verif.Sqp.C66_merit_recomputed"
   ],
   "note": "Which coefficients are inflated, and a usable box afterwards."
  },
  {
   "property": "C67",
   "status": "partial",
   "theorems": [
    "Verif.Cache.C67_transparent_partial",
    "Verif.Cache.C67_violated_default_key",
    "Verif.Cache.C67_duplicate_put_stale",
    "Verif.Cache.C67_put_get"
   ],
   "note": "Transparent for every history when no input hashes to the default key; false for that key, and a duplicate put is stale (proved)."
  },
  {
   "property": "C68",
   "status": "proved",
   "theorems": [
    "Verif.Sco.C68_penalty_exact"
   ],
   "note": "Objective of cntsToCosts minimised over its slacks equals coefficient times violation."
  },
  {
   "property": "C69",
   "status": "proved",
   "theorems": [
    "Verif.Sco.C69_convex_form",
    "Verif.Sco.C69_convex",
    "Verif.Sco.C69_exact_separable"
   ],
   "note": "Both Hessian modes; exact for separable convex quadratics."
  },
  {
   "property": "C70",
   "status": "proved",
   "theorems": [
    "Verif.Collision.C70_grouping"
   ],
   "note": "Keys are those of C44 (see there for colliding keys)."
  },
  {
   "property": "C71",
   "status": "partial",
   "theorems": [
    "Verif.Traj.C71_tolerance_partial",
    "Verif.Traj.C71_violated_formula",
    "Verif.Traj.C71_violated"
   ],
   "note": "Holds for the tolerance (inequality) constraints; violated by the equality constraints, whose values are squared."
  },
  {
   "property": "C72",
   "status": "proved",
   "theorems": [
    "Verif.TimeTerms.C72_duration",
    "Verif.TimeTerms.C72_underestimates",
    "Verif.TimeTerms.C72_derivative"
   ],
   "note": "Values are those of the field model; the derivative is over the reals."
  },
  {
   "property": "C73",
   "status": "partial",
   "theorems": [
    "Verif.TimeTerms.C73_acc",
    "Verif.TimeTerms.C73_jerk",
    "Verif.TimeTerms.C73_violated_scale"
   ],
   "note": "Derivative proved in every direction over the reals; the scale of the acceleration error is violated."
  },
  {
   "property": "C74",
   "status": "partial",
   "theorems": [
    "Verif.QpProblem.C74_objective_partial",
    "Verif.QpProblem.C74_violated_small_hessian"
   ],
   "note": "Exact when no Hessian entry lies strictly between 0 and 1e-7 in absolute value; otherwise the curvature is lost (violated)."
  },
  {
   "property": "C75",
   "status": "partial",
   "theorems": [
    "Verif.QpProblem.C75_squared_partial",
    "Verif.QpProblem.C75_penalty_partial",
    "Verif.QpProblem.C75_violated_penalty_zero",
    "Verif.QpProblem.C75_violated_witness"
   ],
   "note": "Squared costs are exact. Penalty costs are exact for zero slacks; at every QP-feasible point the reported penalty is zero (violated)."
  },
  {
   "property": "C76",
   "status": "proved",
   "theorems": [
    "Verif.QpProblem.C76_convex_violations"
   ],
   "note": "For every convexified problem and every point."
  },
  {
   "property": "C77",
   "status": "partial",
   "theorems": [
    "Verif.QpProblem.C77_exact_cost_partial",
    "Verif.QpProblem.C77_exact_squared",
    "Verif.QpProblem.C77_violated_unweighted"
   ],
   "note": "Violated for coefficients other than one: the exact penalty cost is unweighted."
  },
  {
   "property": "C78",
   "status": "proved",
   "theorems": [
    "Verif.QpProblem.C78_no_failure"
   ],
   "note": "Invariant over all histories. Documented order: setup after additions, the other calls after setup."
  },
  {
   "property": "C79",
   "status": "proved",
   "theorems": [
    "Verif.IfoptQp.C79_slack_exact",
    "Verif.IfoptQp.C79_minimiser"
   ],
   "note": "For every problem with well-formed sets that was set up."
  },
  {
   "property": "C80",
   "status": "partial",
   "theorems": [
    "Verif.IfoptQp.C80_gauss_newton_partial",
    "Verif.IfoptQp.C80_common_weight",
    "Verif.IfoptQp.C80_exact_partial",
    "Verif.IfoptQp.C80_violated_weights",
    "Verif.IfoptQp.C80_violated_absolute"
   ],
   "note": "Holds for squared affine costs with unit coefficients and no Hessian entries between 0 and 1e-7; violated for every common coefficient other than one and for absolute costs."
  },
  {
   "property": "C81",
   "status": "partial",
   "theorems": [
    "Verif.IfoptQp.C81_accepted",
    "Verif.IfoptQp.C81_rejected_partial",
    "Verif.IfoptQp.C81_violated_hinge",
    "Verif.IfoptQp.C81_violated_witness"
   ],
   "note": "Dynamic sets leave no trace; a hinge cost stays in the QP although the call throws (violated)."
  },
  {
   "property": "C82",
   "status": "proved",
   "theorems": [
    "Verif.IfoptQp.C82_setup_throws_iff",
    "Verif.IfoptQp.C82_histories",
    "Verif.IfoptQp.C82_construction"
   ],
   "note": "Invariant over all histories, plus the exact condition for setup to throw."
  },
  {
   "property": "C83",
   "status": "proved",
   "theorems": [
    "Verif.IfoptQp.C83_convex_violations",
    "Verif.IfoptQp.C83_current"
   ],
   "note": "For every convexified problem and every point."
  },
  {
   "property": "C84",
   "status": "proved",
   "theorems": [
    "Verif.IfoptQp.C84_box_commutes",
    "Verif.IfoptQp.C84_scale_commutes"
   ],
   "note": "Equality of the whole problem state."
  },
  {
   "property": "C85",
   "status": "proved",
   "theorems": [
    "Verif.Sco.C85_input",
    "Verif.Sco.C85_result"
   ],
   "note": "Input arrays through the handles, for every model satisfying the store invariant (established for all histories under C13); the BPMPD solver itself is external."
  },
  {
   "property": "C86",
   "status": "proved",
   "theorems": [
    "Verif.Sco.C86_input"
   ],
   "note": "Matrices through the handles; hot starts and the qpOASES solver itself are external; the solver infinity is a parameter."
  },
  {
   "property": "C87",
   "status": "proved",
   "theorems": [
    "Verif.Sqp.C87_time_limit",
    "Verif.Sqp.C87_iteration_limit"
   ],
   "note": "Clock and QP solver are arbitrary oracles; the iteration limit is tested before a step, so one step may exceed it by the QPs of its trust-region loop (this is what C87_iteration_limit says)."
  },
  {
   "property": "C88",
   "status": "proved",
   "theorems": [
    "Verif.Sqp.C88_decision"
   ],
   "note": "Complete decision table of one pass; a promise below 1e-12 in absolute value counts as a ratio of zero, as in the code."
  },
  {
   "property": "C89",
   "status": "proved",
   "theorems": [
    "Verif.Legacy.C89_decision"
   ],
   "note": "Complete decision table of one pass; division by a zero merit follows IEEE (QuotLt)."
  },
  {
   "property": "C90",
   "status": "proved",
   "theorems": [
    "Verif.Legacy.C90_next_round",
    "Verif.Legacy.C90_coefficients"
   ],
   "note": "The number of violations reported by the problem is assumed equal to the number of constraints (asserted by the code)."
  },
  {
   "property": "C91",
   "status": "proved",
   "theorems": [
    "Verif.Legacy.C91_time_limit",
    "Verif.Legacy.C91_iteration_limit"
   ],
   "note": "C91_iteration_limit assumes the first clock reading within the limit (otherwise nothing was evaluated, see C17)."
  },
  {
   "property": "C92",
   "status": "partial",
   "theorems": [
    "Verif.Collision.C92_discrete_partial",
    "Verif.Collision.C92_continuous_partial",
    "Verif.Collision.C92_violated_coefficients"
   ],
   "note": "Partial: the coefficients of rows without a group are those of an earlier contact, not reset (C92_violated_coefficients). Equal cache keys are assumed to mean equal contacts (C43). The discrete evaluator assumes unclassified contacts (no cc_type), as discrete checks deliver them."
  },
  {
   "property": "C93",
   "status": "partial",
   "theorems": [
    "Verif.Collision.C93_continuous",
    "Verif.Collision.C93_discrete_partial",
    "Verif.Collision.C93_violated_negative_buffer",
    "Verif.Collision.C93_violated_discrete"
   ],
   "note": "Proved in full for the continuous constraint (C93_continuous). For the discrete one it needs all groups to fit in the rows; otherwise it is false (C93_violated_discrete: a contact 10 deep is dropped and the row reads -1/2). A negative buffer makes an empty scene violated (C93_violated_negative_buffer)."
  },
  {
   "property": "C94",
   "status": "proved",
   "theorems": [
    "Verif.Collision.C94_discrete",
    "Verif.Collision.C94_continuous"
   ],
   "note": "Needs lowest < 0 as std::numeric_limits<double>::lowest() is; the two position blocks must not overlap."
  },
  {
   "property": "C95",
   "status": "proved",
   "theorems": [
    "Verif.Collision.C95_discrete",
    "Verif.Collision.C95_continuous"
   ],
   "note": "The continuous variant needs variable 0 before variable 1 in the column order (insertBack)."
  },
  {
   "property": "C96",
   "status": "partial",
   "theorems": [
    "Verif.Collision.C96_discrete",
    "Verif.Collision.C96_continuous_partial",
    "Verif.Collision.C96_violated_continuous"
   ],
   "note": "Proved in full for the discrete constraint. The second block of the continuous one perturbs the wrong end of the motion (C96_violated_continuous); C96_continuous_partial states what it computes."
  },
  {
   "property": "C97",
   "status": "proved",
   "theorems": [
    "Verif.OsqpEigen.C97_history",
    "Verif.OsqpEigen.C97_violated_other_problem",
    "Verif.OsqpEigen.C97_crossed_bounds"
   ],
   "note": "C97_history covers one optimizer with one problem object, as the property says. Using one optimizer for two problems of different row counts fails an assertion (C97_violated_other_problem)."
  },
  {
   "property": "C98",
   "status": "partial",
   "theorems": [
    "Verif.OsqpEigen.C98_objective_partial",
    "Verif.OsqpEigen.C98_feasible",
    "Verif.OsqpEigen.C98_violated_small_gradient",
    "Verif.OsqpEigen.C98_fine",
    "Verif.OsqpEigen.C98_trajopt_partial",
    "Verif.OsqpEigen.C98_minimiser_partial"
   ],
   "note": "Feasible points: proved in full (C98_feasible). Objective: exact unless a gradient entry lies in (0, 1e-7), then off by at most 1e-7 times the 1-norm of the point (C98_objective_partial, C98_violated_small_gradient). C98_trajopt_partial and C98_minimiser_partial instantiate it for TrajOptQPProblem after convexify."
  },
  {
   "property": "C99",
   "status": "partial",
   "theorems": [
    "Verif.OsqpEigen.C99_start",
    "Verif.OsqpEigen.C99_satisfied",
    "Verif.OsqpEigen.C99_slack_partial",
    "Verif.OsqpEigen.C99_violated_upper",
    "Verif.OsqpEigen.C99_violated_index"
   ],
   "note": "Sizes, current point, sign of the slacks and multipliers: C99_start. Slacks are right when nothing is violated (C99_satisfied) and for slacks with coefficient +1 whose row has the number of the constraint (C99_slack_partial). Slacks of upper bounds always start at zero (C99_violated_upper), and TrajOptQPProblem reports violations per constraint set, not per matrix row (C99_violated_index)."
  },
  {
   "property": "C100",
   "status": "partial",
   "theorems": [
    "Verif.OsqpEigen.C100_failed",
    "Verif.OsqpEigen.C100_success_partial",
    "Verif.OsqpEigen.C100_violated_sticky"
   ],
   "note": "Failures are always reported (C100_failed); a success clears an earlier failure only through a rebuild (C100_success_partial, C100_violated_sticky)."
  },
  {
   "property": "C101",
   "status": "partial",
   "theorems": [
    "Verif.CollisionTerms.C101_value_partial",
    "Verif.CollisionTerms.C101_violation_partial",
    "Verif.CollisionTerms.C101_violated_end_free",
    "Verif.CollisionTerms.C101_violated_start_free",
    "Verif.CollisionTerms.C101_violated_negative_buffer"
   ],
   "note": "Proved when no contact mixes a link at a fixed state with a link away from it, or assertions are disabled. Otherwise the debug assertion that compares the two versions of the filter stops the program (C101_violated_end_free, C101_violated_start_free). The buffer must not be negative (C101_violated_negative_buffer)."
  },
  {
   "property": "C102",
   "status": "partial",
   "theorems": [
    "Verif.CollisionTerms.C102_cost_partial",
    "Verif.CollisionTerms.C102_exact_partial",
    "Verif.CollisionTerms.C102_touch_partial",
    "Verif.CollisionTerms.C102_constraint_partial"
   ],
   "note": "Exact for single-time-step terms and wherever no entry of the linearised distance lies in (0, 1e-7]; otherwise each distance is off by at most 1e-7 times twice the 1-norm of the variables, because of the clean-up of the expressions. Debug builds: as C101. Constraint rows: C102_constraint_partial."
  },
  {
   "property": "C103",
   "status": "partial",
   "theorems": [
    "Verif.CollisionTerms.C103_satisfied_partial",
    "Verif.CollisionTerms.C103_cost_zero_partial"
   ],
   "note": "As C101 for debug builds with mixed contacts."
  },
  {
   "property": "C104",
   "status": "partial",
   "theorems": [
    "Verif.CollisionTerms.C104_derivative_partial"
   ],
   "note": "Over the reals, with the kinematics as a parameter whose derivative is the Jacobian of the group. Exact for single-time-step terms and wherever no entry of the expression lies in (0, 1e-7]; otherwise the clean-up changes the slope by less than that (C102)."
  },
  {
   "property": "C105",
   "status": "proved",
   "theorems": [
    "Verif.Cartesian.C105_rejects",
    "Verif.Cartesian.C105_satisfied",
    "Verif.Cartesian.C105_rows",
    "Verif.Cartesian.C105_exact",
    "Verif.Cartesian.C105_set_target"
   ],
   "note": "Forward kinematics and the pose error function are parameters. The test for a zero coefficient is a parameter of the theorem."
  },
  {
   "property": "C106",
   "status": "partial",
   "theorems": [
    "Verif.Cartesian.C106_numeric",
    "Verif.Cartesian.C106_violated_analytic"
   ],
   "note": "Proved for numeric differentiation (the default) and whenever both links move; the difference function of tesseract is assumed to give the difference of the errors. The other mode assigns six entries to a block of three (C106_violated_analytic)."
  },
  {
   "property": "C107",
   "status": "partial",
   "theorems": [
    "Verif.Cartesian.C107_rejects",
    "Verif.Cartesian.C107_dynamic_partial",
    "Verif.Cartesian.C107_pose_partial",
    "Verif.Cartesian.C107_violated_equal",
    "Verif.Cartesian.C107_dynamic_jac_partial",
    "Verif.Cartesian.C107_pose_jac_partial",
    "Verif.Cartesian.C107_violated_both_active",
    "Verif.Cartesian.C107_rows"
   ],
   "note": "Tolerances whose two sides are considered equal are ignored (C107_violated_equal). The Jacobian of the pose term leaves out the source when both frames move (C107_violated_both_active)."
  },
  {
   "property": "C108",
   "status": "partial",
   "theorems": [
    "Verif.CartLine.C108_rejects",
    "Verif.CartLine.C108_nearest_partial",
    "Verif.CartLine.C108_unit_partial",
    "Verif.CartLine.C108_violated_long",
    "Verif.CartLine.C108_violated_short",
    "Verif.CartLine.C108_violated_behind",
    "Verif.CartLine.C108_violated_frame",
    "Verif.CartLine.C108_violated_orientation",
    "Verif.CartLine.C108_on_segment_partial",
    "Verif.CartLine.C108_jacobian_partial",
    "Verif.CartLine.C108_violated_few",
    "Verif.CartLine.C108_violated_order",
    "Verif.CartLine.C108_violated_bounds"
   ],
   "note": "Nearest point proved for a target frame at the root, a source not behind the start in any coordinate and a segment for which length one and the end are on the same side (always, if its length is one). Elsewhere violated: longer and shorter segments, behind the start, displaced frames, orientation, fewer than six components, reordered components."
  },
  {
   "property": "C109",
   "status": "partial",
   "theorems": [
    "Verif.KinTerms.C109_rejects",
    "Verif.KinTerms.C109_set_target",
    "Verif.KinTerms.C109_nearest_partial",
    "Verif.KinTerms.C109_satisfied_partial",
    "Verif.KinTerms.C109_reaches_partial",
    "Verif.KinTerms.C109_violated_offset",
    "Verif.KinTerms.C109_violated_unreachable",
    "Verif.KinTerms.C109_violated_size",
    "Verif.KinTerms.C109_violated_bounds",
    "Verif.KinTerms.C109_derivative_partial"
   ],
   "note": "Proved when the solver finds a solution, the variable has the size of the group and there is no tool offset. Violated: unreachable targets are reported as satisfied in release builds, the tool offset is never used, sizes are not checked."
  },
  {
   "property": "C110",
   "status": "partial",
   "theorems": [
    "Verif.KinTerms.C110_satisfied",
    "Verif.KinTerms.C110_length_partial",
    "Verif.KinTerms.C110_violated_oblique",
    "Verif.KinTerms.C110_derivative",
    "Verif.KinTerms.C110_constraints_partial",
    "Verif.KinTerms.C110_costs_partial",
    "Verif.KinTerms.C110_linearised",
    "Verif.KinTerms.C110_violated_last",
    "Verif.KinTerms.C110_violated_time"
   ],
   "note": "Per-axis limit proved in full (C110_satisfied, C110_derivative). The Euclidean displacement may be larger (C110_violated_oblique). Ranges that end with the last state are accepted but cannot be built (C110_violated_last); time-based terms add nothing (C110_violated_time)."
  },
  {
   "property": "C111",
   "status": "partial",
   "theorems": [
    "Verif.KinTerms.C111_satisfied",
    "Verif.KinTerms.C111_decreasing",
    "Verif.KinTerms.C111_derivative",
    "Verif.KinTerms.C111_constraints",
    "Verif.KinTerms.C111_costs",
    "Verif.KinTerms.C111_linearised",
    "Verif.KinTerms.C111_violated_cost",
    "Verif.KinTerms.C111_subset_partial",
    "Verif.KinTerms.C111_violated_release",
    "Verif.KinTerms.C111_choice"
   ],
   "note": "Decomposition as a parameter with its specification; derivative proved where Jacobian and decomposition are differentiable. As a cost with absolute penalty the term penalises being further from a singularity than the threshold (C111_violated_cost). Without assertions the subset calculators read uninitialised memory (C111_violated_release)."
  },
  {
   "property": "C112",
   "status": "partial",
   "theorems": [
    "Verif.Construct.C112_variables",
    "Verif.Construct.C112_stationary",
    "Verif.Construct.C112_given",
    "Verif.Construct.C112_time",
    "Verif.Construct.C112_interpolated_partial",
    "Verif.Construct.C112_violated_single",
    "Verif.Construct.C112_rejects",
    "Verif.Construct.C112_accepts",
    "Verif.Construct.C112_violated_bounds"
   ],
   "note": "Variables, limits, starting trajectories, acceptance and rejection proved. A line with a single step starts at the end instead of the current state (C112_violated_single). The starting trajectory is not brought within the limits (C112_violated_bounds)."
  },
  {
   "property": "C113",
   "status": "partial",
   "theorems": [
    "Verif.Construct.C113_accepts",
    "Verif.Construct.C113_costs_partial",
    "Verif.Construct.C113_cnts_partial",
    "Verif.Construct.C113_violated_list",
    "Verif.Construct.C113_violated_undeclared",
    "Verif.Construct.C113_violated_both"
   ],
   "note": "Proved for terms declared as their list says. The list is not compared with the declared type: a term declared otherwise is made what it is declared (C113_violated_list), undeclared terms add nothing and collision terms constraints (C113_violated_undeclared), both types at once mean costs, or constraints for collision (C113_violated_both)."
  },
  {
   "property": "C114",
   "status": "partial",
   "theorems": [
    "Verif.Construct.C114_rejects",
    "Verif.Construct.C114_constraint_partial",
    "Verif.Construct.C114_violated_tiny",
    "Verif.Construct.C114_cost",
    "Verif.Construct.C114_position_time",
    "Verif.Construct.C114_time_constraint_partial",
    "Verif.Construct.C114_violated_time_tiny",
    "Verif.Construct.C114_time_cost",
    "Verif.Construct.C114_violated_time_double",
    "Verif.Construct.C114_violated_time_ignored",
    "Verif.Construct.C114_time_linearised"
   ],
   "note": "Proved for tolerances that are all zero or of which one is at least 1e-5 in size. Otherwise violated: smaller tolerances are treated as zero (C114_violated_tiny), with time they make the constraint unsatisfiable (C114_violated_time_tiny). Squared velocity costs with time count twice (C114_violated_time_double); accelerations and jerks with time add nothing (C114_violated_time_ignored)."
  },
  {
   "property": "C115",
   "status": "partial",
   "theorems": [
    "Verif.Construct.C115_duration_partial",
    "Verif.Construct.C115_linearised",
    "Verif.Construct.C115_violated_no_time"
   ],
   "note": "Proved for problems with a time column; a limit smaller than 1e-5 asks for equality. Without a time column the last joint is taken for the time (C115_violated_no_time)."
  },
  {
   "property": "C116",
   "status": "partial",
   "theorems": [
    "Verif.Construct.C116_cost",
    "Verif.Construct.C116_constraint",
    "Verif.Construct.C116_derivative",
    "Verif.Construct.C116_rejects",
    "Verif.Construct.C116_violated_default"
   ],
   "note": "Proved in full except that the default range is rejected (C116_violated_default)."
  },
  {
   "property": "C117",
   "status": "partial",
   "theorems": [
    "Verif.JsonRead.C117_rejects_term",
    "Verif.JsonRead.C117_rejects_missing",
    "Verif.JsonRead.C117_valid",
    "Verif.JsonRead.C117_violated_coeffs",
    "Verif.JsonRead.C117_violated_lists",
    "Verif.JsonRead.C117_violated_fraction",
    "Verif.JsonRead.C117_violated_solver",
    "Verif.JsonRead.C117_violated_buffer",
    "Verif.JsonRead.C117_violated_evaluator",
    "Verif.JsonRead.C117_violated_misspelt",
    "Verif.JsonRead.C117_reads_partial",
    "Verif.JsonRead.C117_rejects_rows",
    "Verif.JsonRead.C117_violated_flag"
   ],
   "note": "Proved: valid documents are read as described (C117_reads_partial), the listed errors are rejected, accepted documents hold valid terms (C117_valid). Violated for: a scalar or text in place of a list, read as the empty list (C117_violated_coeffs, C117_violated_lists); fractions, truncated where an integer is expected (C117_violated_fraction); solver names, which select another solver (C117_violated_solver); safety_margin_buffer, always rejected (C117_violated_buffer); negative evaluator types, accepted (C117_violated_evaluator); misspelt members outside params, ignored (C117_violated_misspelt); numbers in place of flags, where all but zero are taken as true (C117_violated_flag). Rows of a given trajectory with a wrong number of entries are rejected (C117_rejects_rows)."
  },
  {
   "property": "C118",
   "status": "partial",
   "theorems": [
    "Verif.JsonRead.C118_lists",
    "Verif.JsonRead.C118_time",
    "Verif.JsonRead.C118_accepts",
    "Verif.JsonRead.C118_problem",
    "Verif.JsonRead.C118_violated_flag",
    "Verif.JsonRead.C118_violated_params"
   ],
   "note": "Lists, flags and acceptance proved. basic_info.use_time without a term using time is accepted when read but fails when built (C118_violated_flag); use_time inside params is accepted and ignored (C118_violated_params)."
  },
  {
   "property": "C119",
   "status": "partial",
   "theorems": [
    "Verif.JsonRead.C119_rotates",
    "Verif.JsonRead.C119_rotation",
    "Verif.JsonRead.C119_violated_unnormalised"
   ],
   "note": "Proved for unit quaternions; other quaternions are not normalised and never give a rotation, unless their vector part is zero (C119_violated_unnormalised)."
  },
  {
   "property": "C120",
   "status": "partial",
   "theorems": [
    "Verif.JsonRead.C120_violated_ignored",
    "Verif.JsonRead.C120_honoured_partial"
   ],
   "note": "Violated: opt_info is ignored by OptimizeProblem for every document (C120_violated_ignored); C120_honoured_partial gives the only case in which the request is met."
  },
  {
   "property": "C121",
   "status": "partial",
   "theorems": [
    "Verif.Sco.C121_input",
    "Verif.Sco.C121_every_history",
    "Verif.Sco.C121_update_workspace_partial",
    "Verif.Sco.C121_trust_box_partial",
    "OsqpDemo.C121_violated"
   ],
   "note": "Full for the default configuration (C121_every_history: every history, every answer of OSQP, refinement of a user-level specification). With update_workspace: proved when the sparsity comparison tells the patterns apart (C121_update_workspace_partial) and, without any such assumption, for the trust region loop in which only bounds change between two runs (C121_trust_box_partial). C121_violated: replacing the constraint x1 = 1 by x2 = 1 in a model of three variables leaves the solver on x1 = 1 and reports solved."
  },
  {
   "property": "C122",
   "status": "partial",
   "theorems": [
    "OsqpDemo.C122_optimize_partial",
    "QpoDemo.C122_violated_budget"
   ],
   "note": "C122_optimize_partial: input, choice of run, status and solution for every state and every solver behaviour. C122_violated_budget: nWSR is an in/out variable, so the cold start after a failed hot start gets the number of recalculations the hot start made instead of 255."
  },
  {
   "property": "C123",
   "status": "proved",
   "theorems": [
    "Verif.Yaml.C123_coefficients",
    "Verif.Yaml.C123_config",
    "Verif.Yaml.C123_archive"
   ],
   "note": "For every history of calls, every iteration order of the map, every configuration. The conversions of numbers and of tesseract's two structures are assumed to round trip; emitting and parsing text is yaml-cpp's business."
  },
  {
   "property": "C124",
   "status": "partial",
   "theorems": [
    "Verif.Yaml.C124_fields_partial",
    "Verif.Yaml.C124_accepts",
    "Verif.Yaml.C124_table",
    "Verif.Yaml.C124_bad_key",
    "Verif.Yaml.C124_violated_alias",
    "Verif.Yaml.C124_violated_scalar_table"
   ],
   "note": "C124_fields_partial, C124_accepts, C124_table, C124_bad_key cover the fields, acceptance and the table. Violated: the alias 'buffer' announced in the reader is dropped (C124_violated_alias), a scalar given as table is accepted and ignored (C124_violated_scalar_table)."
  },
  {
   "property": "C125",
   "status": "partial",
   "theorems": [
    "Verif.Yaml.C125_equal_iff",
    "Verif.Yaml.C125_same_coefficients",
    "Verif.Yaml.C125_refl_symm",
    "Verif.Yaml.C125_violated_trans",
    "Verif.Yaml.C125_config"
   ],
   "note": "Exact characterisation over all pairs of histories, reflexive and symmetric; not transitive (C125_violated_trans), as the numbers are compared with a tolerance."
  },
  {
   "property": "C126",
   "status": "partial",
   "theorems": [
    "Verif.EndToEnd.C126_converged_partial",
    "Verif.EndToEnd.C126_converged_time_partial"
   ],
   "note": "The environment of the optimiser is arbitrary except that its list of violations contains those of the constraints hatched by the term (Evaluates). Partial for the reason of C17: a time limit exceeded before the first iteration gives OPT_CONVERGED without any evaluation."
  },
  {
   "property": "C127",
   "status": "proved",
   "theorems": [
    "Verif.EndToEnd.C127_feasible"
   ],
   "note": "The convex solver is an oracle; SolverKeeps says its answers keep bounds and linear constraints up to an arbitrary epsilon. Everything else is arbitrary."
  },
  {
   "property": "C128",
   "status": "proved",
   "theorems": [
    "Verif.Parallel.C128_any_schedule"
   ],
   "note": "Iterations read only data that no iteration writes (costs and constraints are const and their evaluation functions are taken as functions); the schedule is the order of the stores."
  },
  {
   "property": "C129",
   "status": "partial",
   "theorems": [
    "Verif.Parallel.C129_linear_partial",
    "Verif.Parallel.C129_finishes_partial",
    "Verif.Parallel.C129_violated_lost",
    "Verif.Parallel.C129_violated_freed",
    "Verif.Parallel.C129_hinges_partial",
    "Verif.Parallel.C129_violated_hinges"
   ],
   "note": "Violated: Model::addVar(name, lb, ub) locks the mutex only for adding the variable; setVarBounds writes into the vectors of bounds without it. If another thread has to move the vectors meanwhile, the bound is lost (C129_violated_lost, with the effect on hinge costs in C129_violated_hinges) or freed memory is written (C129_violated_freed). Proved under every schedule if nothing has to be moved (enough capacity) or only one thread works. Steps are sequentially consistent."
  },
  {
   "property": "C130",
   "status": "partial",
   "theorems": [
    "Verif.SqpRun.C130_never_fails",
    "Verif.SqpRun.C130_returns",
    "Verif.SqpRun.C130_programs_partial",
    "Verif.SqpRun.C130_violated_lost_rows"
   ],
   "note": "Whole runs of the concrete solver, problem and QP-solver models. Partial in the gradient entries below 1e-7 that OSQPEigenSolver drops (C98) and under Regular: the hash of the variables distinguishes what the sets distinguish, squared costs do not lose all of their rows (C130_violated_lost_rows shows a run that fails otherwise), and constraint sets without rows are not more than the variables and rows together (C99). Programs are compared for runs whose finite bounds are inside OSQP's range. The QP solver may have been used before (Reusable: its sizes are not those of another problem with as many variables)."
  },
  {
   "property": "C131",
   "status": "proved",
   "theorems": [
    "Verif.SqpRun.C131_results",
    "Verif.SqpRun.C131_converged_iff",
    "Verif.SqpRun.C131_converged_rows"
   ],
   "note": "For the runs of C130 (Setting). at' c x is what the set answers at x after an update there."
  },
  {
   "property": "C132",
   "status": "proved",
   "theorems": [
    "Verif.SqpRun.C132_within_bounds"
   ],
   "note": "For the runs of C130 (Setting) whose finite bounds are inside OSQP's range; Accurate says that OSQP's answers satisfy the rows of their programs up to an arbitrary epsilon."
  },
  {
   "property": "C133",
   "status": "partial",
   "theorems": [
    "Verif.SqpIfopt.C133_never_fails",
    "Verif.SqpIfopt.C133_returns",
    "Verif.SqpIfopt.C133_programs_partial"
   ],
   "note": "Partial in the gradient entries below 1e-7 that OSQPEigenSolver drops (C98); programs are compared for runs whose finite bounds are inside OSQP's range. Costs may be squared or absolute, and sets have a fixed number of rows. The smooth cost of the program is that of C79, which convexifies absolute costs as squared ones and is predicted once per cost (findings of C30 and C80). The QP solver may have been used before (Reusable: its sizes are not those of another problem with as many variables)."
  },
  {
   "property": "C134",
   "status": "proved",
   "theorems": [
    "Verif.SqpIfopt.C134_results",
    "Verif.SqpIfopt.C134_converged_iff",
    "Verif.SqpIfopt.C134_converged_rows"
   ],
   "note": "For the runs of C133 (Setting)."
  },
  {
   "property": "C135",
   "status": "proved",
   "theorems": [
    "Verif.SqpIfopt.C135_within_bounds"
   ],
   "note": "For the runs of C133 (Setting) whose finite bounds are inside OSQP's range; Accurate says that OSQP's answers satisfy the rows of their programs up to an arbitrary epsilon."
  },
  {
   "property": "C136",
   "status": "proved",
   "theorems": [
    "Verif.IfoptPlan.C136_planned",
    "Verif.IfoptPlan.C136_limits"
   ],
   "note": "Plan.Ok lists what must fit: position variables in increasing order with dof coordinates each, targets and limits below 1e20 in size, position constraints with one coefficient per joint (or one for all, target constructor), limits with one coefficient per joint (fewer fail, C38), and penalty types that addCostSet accepts. OSQP's answers have the right length (Sized); sqrt is exact. That all programs are in OSQP's range is proved here (moderate_of_range), not assumed. The QP solver may have been used before (Reusable: its sizes are not those of another problem with as many variables)."
  },
  {
   "property": "C137",
   "status": "proved",
   "theorems": [
    "Verif.IfoptPlan.C137_converged",
    "Verif.IfoptPlan.C137_reached"
   ],
   "note": "For the problems of C136; retries allowed (max_merit_coeff_increases positive)."
  },
  {
   "property": "C138",
   "status": "proved",
   "theorems": [
    "Verif.IfoptPlan.C138_costs"
   ],
   "note": "For the problems of C136. Coefficients do not enter hinge and absolute costs and violations (see C31)."
  },
  {
   "property": "C139",
   "status": "proved",
   "theorems": [
    "Verif.IfoptPlan.C139_solved",
    "Verif.IfoptPlan.C139_converged",
    "Verif.IfoptPlan.C139_rows",
    "Verif.IfoptPlan.C139_costs",
    "Verif.IfoptPlan.C139_limits"
   ],
   "note": "SetOk says what a further set must fulfil: the interface rules of C26 (ObjFine, CntFine), bounds that addCostSet accepts, rows for squared costs and for constraints of fixed size, and that points with the same hash are the same to it. At most as many constraints of varying size as variables (Scene.Ok.few), without which a warm start can read past the end when all of them are empty (C130). Joint terms are added first. C139_limits assumes that all programs are in OSQP's range (Moderate), because the rows of arbitrary sets can have any size. The QP solver may have been used before (Reusable: its sizes are not those of another problem with as many variables)."
  },
  {
   "property": "C140",
   "status": "proved",
   "theorems": [
    "Verif.IfoptPlan.C140_fits",
    "Verif.IfoptPlan.C140_reached",
    "Verif.IfoptPlan.C140_violation",
    "Verif.IfoptPlan.C140_squares"
   ],
   "note": "Numeric Jacobian (the default). Kinematics and pose errors are arbitrary functions; nothing is assumed about the Jacobian. Coefficients do not enter hinge and absolute costs and violations."
  },
  {
   "property": "C141",
   "status": "proved",
   "theorems": [
    "Verif.IfoptPlan.C141_fits_discrete",
    "Verif.IfoptPlan.C141_fits_continuous",
    "Verif.IfoptPlan.C141_clear_discrete",
    "Verif.IfoptPlan.C141_clear_continuous",
    "Verif.IfoptPlan.C141_depth_discrete",
    "Verif.IfoptPlan.C141_depth_continuous"
   ],
   "note": "Contact results and contact gradients are arbitrary functions of the joint values; points with the same cache key have the same contacts (hash collisions: see C43); every contact has an active link; coefficients are not negative. The model asks a new object at every point; C141_fits_* proves that an object with any history of updates answers the same."
  },
  {
   "property": "C142",
   "status": "partial",
   "theorems": [
    "Verif.IfoptPlan.C142_fits_discrete",
    "Verif.IfoptPlan.C142_fits_continuous",
    "Verif.IfoptPlan.C142_clear_continuous",
    "Verif.IfoptPlan.C142_clear_discrete_partial"
   ],
   "note": "For sets between two steps as stated. For discrete sets the theorem needs as many rows as there are groups of contacts at the returned joint values (C142_clear_discrete_partial), because the evaluator drops groups by the error of the first link only (C93_violated_discrete). The model asks a new object at every point; C142_fits_* proves that an object with any history has the same rows, and the same coefficients if all coefficients are one (otherwise unused rows keep old coefficients, C92_violated_coefficients). The buffer is greater than minus cnt_tolerance."
  },
  {
   "property": "C143",
   "status": "partial",
   "theorems": [
    "Verif.TermHatch.C143_user_partial",
    "Verif.TermHatch.C143_duration_partial",
    "Verif.TermHatch.C143_pose_partial",
    "Verif.TermHatch.C143_displacement_partial",
    "Verif.TermHatch.C143_singular_partial"
   ],
   "note": "Partial because of C17: the clock must not have run out before the first iteration, or a run may report OPT_CONVERGED for a point that was never evaluated. The optimiser is an environment whose violations contain those of the constraints the term adds (Covers), as in C126. Total time: limit at least 1e-5 in size (below, the constraint is an equality). Cartesian velocity: the last step must have a successor (C110). Pose bands as of C107: tolerances in order and told apart by isApprox."
  },
  {
   "property": "C144",
   "status": "partial",
   "theorems": [
    "Verif.TermHatch.C144_steps_partial",
    "Verif.TermHatch.C144_between_partial"
   ],
   "note": "Partial because of C17 as C143. Between steps: assertions off (in debug builds the code asserts on mixed contacts, C101) and no two adjacent fixed steps (the code throws or leaves out the pair, C58). One check per step: without these two."
  },
  {
   "property": "C145",
   "status": "partial",
   "theorems": [
    "Verif.Gurobi.C145_program",
    "Verif.Gurobi.C145_free",
    "Verif.Gurobi.C145_closed",
    "Demo.C145_stale_handle_violated",
    "Demo.C145_quadratic_handle_violated",
    "Demo.C145_objective_before_update_violated"
   ],
   "note": "C145_program and C145_closed: by a refinement relation kept by every call (Rel.step, Rel.run), for every history that keeps the contract Posed.Ok: expressions and bounds are about variables of the program, only what is in the program is removed, new variables are committed by update before setObjective, removals before optimize. Gurobi itself is the abstract model in Model/Gurobi.lean. Partial because without the contract the property fails: removing a constraint twice across an update deletes another row (C145_stale_handle_violated), a quadratic constraint has a null handle (C145_quadratic_handle_violated), setObjective before update stops or writes out of range (C145_objective_before_update_violated)."
  },
  {
   "property": "C146",
   "status": "partial",
   "theorems": [
    "Verif.Gurobi.C146_solution",
    "Demo.C146_missing_update_violated",
    "Demo.C146_feas_relax_violated"
   ],
   "note": "C146_solution for every history that keeps the contract, for a Gurobi that satisfies Solves (exists_solves shows there is one that finds every minimum). Partial: optimize after removeVars without update reads the values of other variables (C146_missing_update_violated); optimizeFeasRelax reads beyond single doubles (C146_feas_relax_violated)."
  },
  {
   "property": "C147",
   "status": "partial",
   "theorems": [
    "Verif.Legacy.C147_merit_optimal_partial",
    "Verif.Legacy.C147_model_optimal_partial",
    "Verif.Legacy.C147_cost_optimal_partial",
    "Verif.Legacy.C147_exact_accepts",
    "Verif.Legacy.C147_exact_optimal_partial",
    "Verif.Legacy.C147_negative_merit_violated"
   ],
   "note": "Partial: optimality holds for runs that end by the improvement tests (fewer QPs than max_iter, time within the limit, final box not below the minimum): the same status OPT_CONVERGED is also returned when the box collapses or the iteration limit of the inner loop is reached. The QP answer is an oracle, assumed no worse than the points of the box. Violated for negative merits (C147_negative_merit_violated): the relative test divides by the merit without absolute value and stops however large the promised improvement is."
  },
  {
   "property": "C148",
   "status": "partial",
   "theorems": [
    "Verif.Traj.C148_eq_cost",
    "Verif.Traj.C148_ineq_cost",
    "Verif.Traj.C148_ineq_cnt",
    "Verif.Traj.C148_eq_cnt",
    "Verif.EndToEnd.C148_joint_optimal_partial",
    "Verif.EndToEnd.C148_no_excess"
   ],
   "note": "Convexity is proved for all terms without time; terms with time columns (1/dt) are not convex and not covered. The optimality of runs inherits the conditions of C147. Equality constraints report coeff*d^2 but the QP minimises coeff*|d| (C71); the difference at the result enters the bound (C148_no_excess: none without equality constraints)."
  },
  {
   "property": "C149",
   "status": "partial",
   "theorems": [
    "Verif.Sqp.C149_merit_optimal_partial",
    "Verif.Sqp.C149_cost_optimal_partial"
   ],
   "note": "Partial: only runs that end by the improvement tests; kConverged is also reported when the box collapses, after 99 convexifications, after the iteration limit and the time limit if the constraints hold, and nothing about optimality follows then. Costs of any sign are allowed, unlike C147, because the relative test divides by max(|merit|, 1e-12). QP answers are an oracle, assumed no worse by their model than the points of the box."
  },
  {
   "property": "C150",
   "status": "partial",
   "theorems": [
    "Verif.IfoptPlan.C150_plan_partial",
    "Verif.SqpRun.C150_merit_optimal_partial",
    "Verif.SqpRun.C150_cost_optimal_partial"
   ],
   "note": "Partial: only runs that end by the improvement tests (as C149), only sets with affine values and fixed rows, and penalty costs and constraints of weight one (for other weights the QP and the reported merit disagree, C77). That OSQP satisfies its rows exactly and is optimal up to eta is a hypothesis. The entries the code drops below 1e-7 are accounted for by an explicit number. Unlike C149 nothing is assumed about the QP: that it is the problem in the trust box is proved from the models of convexify and of the transfer. C150_plan_partial states it for joint plans as users build them (C136): that joint terms are affine with fixed Jacobians is proved there, so the conditions are on targets, weights and bounds only; the default weight 5 of velocity constraints is not one, so such constraints need an explicit coefficient."
  },
  {
   "property": "C151",
   "status": "partial",
   "theorems": [
    "Verif.Output.C151_lines",
    "Verif.Output.C151_header",
    "Verif.Output.C151_row_partial",
    "Verif.Output.C151_pose",
    "Verif.Output.C151_aligned_iff",
    "Verif.Output.C151_links_violated",
    "Verif.Output.C151_time_violated",
    "Verif.Output.C151_label_violated"
   ],
   "note": "Partial: the lines (C151_lines), the header (C151_header), all joint values but the last, and the order of costs and constraints at the end of a row (C151_row_partial) are proved. Violated: a row has as many cells as the header exactly if joints + 7 = columns + 7 * links (C151_aligned_iff), hence never with a time column and, without one, only with exactly one link; and the cell of the last joint always carries the name of the first link (C151_label_violated). How a number is printed and forward kinematics are parameters."
  },
  {
   "property": "C152",
   "status": "partial",
   "theorems": [
    "Verif.Output.C152_shows_partial",
    "Verif.Output.C152_time_column_violated",
    "Verif.Output.C152_prob_violated",
    "Verif.Output.C152_extra_violated"
   ],
   "note": "Partial: proved for problems whose variables are exactly the joint values. Violated with a time column (PlotCallback gives states with one value more than names, PlotProbCallback shows the time of the first step as a joint of the second state and too many states) and with extra variables (shown as further steps)."
  },
  {
   "property": "C153",
   "status": "proved",
   "theorems": [
    "Verif.Output.C153_array",
    "Verif.Output.C153_mixed_sizes",
    "Verif.Output.C153_reads"
   ],
   "note": "Builds on C39. The named variables of the conversion are the variables of the modelled variable set; names are carried along."
  },
  {
   "property": "C154",
   "status": "partial",
   "theorems": [
    "Verif.Output.C154_never_constructed_violated",
    "Verif.Output.C154_no_observer_violated",
    "Verif.Output.C154_null",
    "Verif.Output.C154_told_partial"
   ],
   "note": "Violated: the constructor calls shared_from_this() before any shared_ptr owns the object, so it always throws; in every history only null pointers can be registered, which makes the next change undefined. C154_told_partial is what would hold if an observer existed. The rule that the self reference is empty during construction is the C++ standard's, stated in SelfRef."
  },
  {
   "property": "C155",
   "status": "partial",
   "theorems": [
    "Verif.Output.C155_constraints",
    "Verif.Output.C155_costs_violated"
   ],
   "note": "Partial: proved for variables and constraints; violated for costs, whose lines all claim index 0 because CostTerm::print does not advance the index. Column widths and colours are not modelled; composites inside composites are not modelled."
  },
  {
   "property": "C156",
   "status": "partial",
   "theorems": [
    "Verif.SqpRun.C156_never_fails",
    "Verif.SqpRun.C156_returns",
    "Verif.SqpRun.C156_history",
    "Verif.SqpRun.C156_violated_coming_back"
   ],
   "note": "Histories of setVariables and solve over any number of TrajOptQPProblems, one QP solver object for all of them. Proved by induction from the one-run theorems C130-C132, which hold for a QP solver that was used before. Violated when the optimizer comes back to a problem after another one with as many QP variables but another number of QP rows (C156_violated_coming_back): the code compares the sizes of the problem with its own earlier sizes. verbose, online use of the single steps and IfoptQPProblem are outside."
  },
  {
   "property": "C157",
   "status": "proved",
   "theorems": [
    "Verif.SqpRun.C157_any_solver",
    "Verif.SqpRun.C157_as_new"
   ],
   "note": "Two runs with two QP solver objects (new or used) agree in status, results, problem and log, by a simulation through all loops (Props/SqpTwin.lean); OSQP is a function of the program and the number of the call, i.e. its dependence on the warm start and on the order of entries is outside."
  },
  {
   "property": "C158",
   "status": "partial",
   "theorems": [
    "Verif.Legacy.C158_as_new_partial",
    "Verif.Legacy.C158_reports",
    "Verif.Legacy.C158_returns",
    "Verif.Legacy.C158_violated_stale_box"
   ],
   "note": "Partial: the trust box size is the one the last run left when setParameters is not called in between, and then the claim fails (C158_violated_stale_box). Reports under the conditions of C17 and C19 (first look at the clock in time). setProblem is outside."
  },
  {
   "property": "C159",
   "status": "partial",
   "theorems": [
    "Verif.Legacy.C159_transparent",
    "Verif.Legacy.C159_files",
    "Verif.Legacy.C159_second_run_violated",
    "Verif.Legacy.C159_uninitialized_violated",
    "Verif.Legacy.C159_unopened_violated"
   ],
   "note": "Proved for every run after initialize with openable files (C159_files, C159_transparent); three classes of histories where the statement fails are proved as violations."
  },
  {
   "property": "C160",
   "status": "partial",
   "theorems": [
    "Verif.ProblemHistory.C160_history",
    "Verif.ProblemHistory.C160_values_partial",
    "Verif.ProblemHistory.C160_stale_violated"
   ],
   "note": "Histories proved (C160_history); the values of a restored problem are proved for sets that keep no data (C160_values_partial) and refuted for sets that do (C160_stale_violated)."
  },
  {
   "property": "C161",
   "status": "partial",
   "theorems": [
    "Verif.OptProb.C161_book_partial",
    "Verif.OptProb.C161_created",
    "Verif.OptProb.C161_foreign_violated"
   ],
   "note": "Proved for all histories in which variables are created while no foreign variable is on the model (C161_book_partial, C161_created); what happens otherwise is proved exactly (C161_foreign_violated)."
  },
  {
   "property": "C162",
   "status": "partial",
   "theorems": [
    "Verif.ParamEq.C162_legacy",
    "Verif.ParamEq.C162_sqp",
    "Verif.ParamEq.C162_exact",
    "Verif.ParamEq.C162_refl_symm",
    "Verif.ParamEq.C162_tolerance_violated",
    "Verif.ParamEq.C162_transitive_violated"
   ],
   "note": "Comparison characterised completely (C162_legacy, C162_sqp, C162_exact, C162_refl_symm); that it does not imply equal behaviour and is not transitive is proved as violations."
  },
  {
   "property": "C163",
   "status": "proved",
   "theorems": [
    "Verif.SqpRun.C163_view",
    "Verif.SqpRun.C163_sequence",
    "Verif.SqpRun.C163_drawn",
    "Verif.SqpRun.C163_library",
    "Verif.SqpRun.C163_in_order"
   ],
   "note": "Proved for every call of every run of TrajOptQPProblem (C163_view, C163_sequence, C163_drawn) and for the library's callbacks (C163_library)."
  },
  {
   "property": "C164",
   "status": "partial",
   "theorems": [
    "Verif.Legacy.C164_same_run",
    "Verif.Legacy.C164_views_partial",
    "Verif.Legacy.C164_violated_first_call",
    "Verif.Legacy.C164_sequence",
    "Verif.Legacy.C164_inside",
    "Verif.Legacy.C164_cost_descends"
   ],
   "note": "All calls but the first show the values of their point (C164_views_partial); sequence, containment, descent and the last call hold for all calls. The first call of every run shows empty vectors (C164_violated_first_call)."
  },
  {
   "property": "C165",
   "status": "partial",
   "theorems": [
    "Verif.Vhacd.C165_result",
    "Verif.Vhacd.C165_defined_partial",
    "Verif.Vhacd.C165_violated_overread",
    "Verif.Vhacd.C165_covers",
    "Verif.Vhacd.C165_violated_zero"
   ],
   "note": "Greedy order, number of hulls and coverage hold whenever no undefined access happens (C165_result, C165_covers), which is always the case up to eleven hulls (C165_defined_partial). From twelve hulls on the first merge can read behind the buffer (C165_violated_overread), and a limit of zero is undefined (C165_violated_zero)."
  },
  {
   "property": "C166",
   "status": "partial",
   "theorems": [
    "Verif.Async.C166_memory",
    "Verif.Async.C166_results",
    "Verif.Async.C166_complete",
    "Verif.Async.C166_messages",
    "Verif.Async.C166_progress_partial",
    "Verif.Async.C166_violated_release",
    "Verif.Async.C166_violated_logger",
    "Verif.Async.C166_violated_flag",
    "Verif.Async.C166_violated_cancel_in_callback",
    "Verif.Async.C166_violated_cancel_lost",
    "Verif.Async.C166_violated_stale",
    "Verif.Async.C166_violated_null",
    "Verif.Async.C166_violated_last"
   ],
   "note": "For all histories without Release: no race on input, hulls and base object and no read of freed or unwritten memory (C166_memory); results belong to the last Compute and are complete or none (C166_results, C166_complete); messages in order and at most once (C166_messages); every call returns if callbacks do not call the object (C166_progress_partial). Violated: destructor during a computation, the callback and logger pointers, the cancel flag, early cancellation, cancelling from a callback, stale messages, the last message."
  },
  {
   "property": "C167",
   "status": "partial",
   "theorems": [
    "Verif.Voxel.C167_test",
    "Verif.Voxel.C167_exact",
    "Verif.Voxel.C167_fill",
    "Verif.Voxel.C167_total",
    "Verif.Voxel.C167_surface",
    "Verif.Voxel.C167_near",
    "Verif.Voxel.C167_classes",
    "Verif.Voxel.C167_violated_debug",
    "Verif.Voxel.C167_violated_square",
    "Verif.Voxel.C167_violated_flat"
   ],
   "note": "The fill is right for all grids up to 32767 voxels a side (C167_fill, C167_classes); no point of the mesh is lost (C167_surface); a voxel is on the surface exactly if it contains a point of a triangle (C167_exact, from the exactness of the separating axis test C167_test); meshes with a longest side are voxelized in release builds (C167_total). Exact arithmetic. Violated: debug builds, square plates, flat squares."
  },
  {
   "property": "C168",
   "status": "partial",
   "theorems": [
    "Verif.Decompose.C168_clip",
    "Verif.Decompose.C168_memory",
    "Verif.Decompose.C168_parts",
    "Verif.Decompose.C168_depth_partial",
    "Verif.Decompose.C168_violated_depth",
    "Verif.Decompose.C168_violated_leak"
   ],
   "note": "Proved for all moments of cancellation, given that the cheapest plane costs less than MAX_DOUBLE (see C169_found) and that an empty set has a hull of volume zero; the depth only for at most 2^31 hulls (beyond: C168_violated_depth); a second computation without Clean leaks (C168_violated_leak)."
  },
  {
   "property": "C169",
   "status": "partial",
   "theorems": [
    "Verif.Decompose.C169_choice",
    "Verif.Decompose.C169_order",
    "Verif.Decompose.C169_found",
    "Verif.Decompose.C169_coarse_partial",
    "Verif.Decompose.C169_fine",
    "Verif.Decompose.C169_cut",
    "Verif.Decompose.C169_violated_zero",
    "Verif.Decompose.C169_violated_empty"
   ],
   "note": "The choice is proved for all orders (C169_choice, C169_order, C169_found); the planes for downsamplings from 1 to 32767 with room in a short (C169_coarse_partial, C169_fine), zero never ends (C169_violated_zero); useless planes are among them (C169_violated_empty)."
  },
  {
   "property": "C170",
   "status": "partial",
   "theorems": [
    "Verif.SArray.C170_step",
    "Verif.SArray.C170_session",
    "Verif.SArray.C170_reads",
    "Verif.SArray.C170_own_partial",
    "Verif.SArray.C170_violated_own",
    "Verif.SArray.C170_violated_pop"
   ],
   "note": "Proved for all sequences (C170_step, C170_session, C170_reads); appending an element of the array itself is safe unless the array is full and on the heap (C170_own_partial, C170_violated_own); PopBack on an empty array wraps (C170_violated_pop)."
  },
  {
   "property": "C171",
   "status": "partial",
   "theorems": [
    "Verif.Ring.C171_step_partial",
    "Verif.Ring.C171_session",
    "Verif.Ring.C171_reads",
    "Verif.Ring.C171_violated_only",
    "Verif.Ring.C171_violated_copy"
   ],
   "note": "Proved for all programs (C171_step_partial, C171_session, C171_reads). Missing: Delete(element) with an element that is not in the list (C171_violated_only) and the copy constructor (C171_violated_copy), where the code does not do what it says."
  },
  {
   "property": "C172",
   "status": "proved",
   "theorems": [
    "Verif.MeshVol.C172_volume",
    "Verif.MeshVol.C172_affine",
    "Verif.MeshVol.C172_flip",
    "Verif.MeshVol.C172_union",
    "Verif.MeshVol.C172_voxels",
    "Verif.MeshVol.C172_tetrahedra",
    "Verif.MeshVol.C172_cut_volume",
    "Verif.MeshVol.C172_cut_fills",
    "Verif.MeshVol.C172_inside",
    "Verif.MeshVol.C172_hull",
    "Verif.MeshVol.C172_cube_inside",
    "Verif.MeshVol.C172_clip"
   ],
   "note": "Proved for all meshes with valid corner numbers, closed where the statement needs it. Exact arithmetic; fewer than 2^31 points."
  },
  {
   "property": "C173",
   "status": "partial",
   "theorems": [
    "Verif.TetClip.C173_parts",
    "Verif.TetClip.C173_whole",
    "Verif.TetClip.C173_counters_partial",
    "Verif.TetClip.C173_violated_small",
    "Verif.TetClip.C173_volume_partial",
    "Verif.TetClip.C173_violated_volume"
   ],
   "note": "The parts and the tetrahedra kept are proved for all sets and planes. The counters and the volume are proved under conditions that the code needs: without them both are violated (small tetrahedra are dropped and counted; with a corner on the plane volume is lost). Exact arithmetic."
  },
  {
   "property": "C174",
   "status": "partial",
   "theorems": [
    "Verif.Diag.C174_frame",
    "Verif.Diag.C174_product",
    "Verif.Diag.C174_eigen_partial",
    "Verif.Diag.C174_diagonal"
   ],
   "note": "The frame and the products are proved for all symmetric matrices in exact arithmetic with an exact square root. Not proved: that 24 turns are enough; the quaternion is not multiplied as in Jacobi's method (see Findings), so its convergence does not carry over."
  },
  {
   "property": "C175",
   "status": "partial",
   "theorems": [
    "Verif.TetAxes.C175_box",
    "Verif.TetAxes.C175_rigid",
    "Verif.TetAxes.C175_keep",
    "Verif.TetAxes.C175_divide",
    "Verif.TetAxes.C175_volume_partial",
    "Verif.TetAxes.C175_spread",
    "Verif.TetAxes.C175_mesh"
   ],
   "note": "All parts of the statement are proved in exact arithmetic with an exact square root. Partial only for the volume of the two parts together, which needs the conditions of C173 on the tetrahedra as they are cut."
  },
  {
   "property": "C176",
   "status": "partial",
   "theorems": [
    "Verif.PartHull.C176_hull",
    "Verif.PartHull.C176_violated_sampling",
    "Verif.PartHull.C176_voxels",
    "Verif.PartHull.C176_cut",
    "Verif.PartHull.C176_decomposition",
    "Verif.PartHull.C176_convert",
    "Verif.PartHull.C176_cover"
   ],
   "note": "Proved without rounding, for a build without assertions in Convert, for planes whose first normal component is at most one (the code only makes planes across the axes), and for a computation of hulls that is exact on points. Fails for a downsampling of zero, which the parameters allow (C176_violated_sampling): the sets compared in the search then have empty hulls."
  },
  {
   "property": "C177",
   "status": "partial",
   "theorems": [
    "Verif.PlaneCost.C177_planes",
    "Verif.PlaneCost.C177_surface",
    "Verif.PlaneCost.C177_points",
    "Verif.PlaneCost.C177_sides",
    "Verif.PlaneCost.C177_contents",
    "Verif.PlaneCost.C177_voxels",
    "Verif.PlaneCost.C177_tetrahedra_partial",
    "Verif.PlaneCost.C177_violated_balance"
   ],
   "note": "Proved for voxels without rounding, OpenCL left out. Fails for tetrahedra: the volumes of the sides are never computed, so the weight for even divisions has no effect (C177_violated_balance)."
  },
  {
   "property": "C178",
   "status": "partial",
   "theorems": [
    "Verif.CutDir.C178_direction",
    "Verif.CutDir.C178_weight",
    "Verif.CutDir.C178_planes",
    "Verif.CutDir.C178_violated_tie",
    "Verif.CutDir.C178_moments",
    "Verif.CutDir.C178_centre",
    "Verif.CutDir.C178_spread_partial",
    "Verif.CutDir.C178_voxels",
    "Verif.CutDir.C178_margin",
    "Verif.CutDir.C178_aligned",
    "Verif.CutDir.C178_turned",
    "Verif.CutDir.C178_violated_centre"
   ],
   "note": "Proved without rounding, except that ties choose the axis with the least similar spreads (C178_violated_tie) and that the moments are taken about the rounded centre: they exceed the spreads by at most 3/4 (C178_spread_partial), which can change the choice (C178_violated_centre)."
  },
  {
   "property": "C179",
   "status": "partial",
   "theorems": [
    "Verif.Raycast.C179_hit",
    "Verif.Raycast.C179_found",
    "Verif.Raycast.C179_violated_small",
    "Verif.Raycast.C179_nearest",
    "Verif.Raycast.C179_none",
    "Verif.Raycast.C179_violated_end",
    "Verif.Raycast.C179_violated_far",
    "Verif.Raycast.C179_box_partial",
    "Verif.Raycast.C179_violated_box",
    "Verif.Raycast.C179_violated_single",
    "Verif.Raycast.C179_points",
    "Verif.Raycast.C179_stays",
    "Verif.Raycast.C179_violated_needle"
   ],
   "note": "Proved in exact arithmetic with valid indices. Fails in these points: rays do not end where they should and the distance is another than documented (C179_violated_end, C179_violated_far), small triangles are never hit (C179_violated_small), the box leaves out the first point (C179_violated_box, C179_box_partial), a hull with one point is read out of bounds (C179_violated_single) and thin hulls lose their volume (C179_violated_needle). The incremental hull that follows is not modelled."
  },
  {
   "property": "C180",
   "status": "partial",
   "theorems": [
    "Verif.IncHull.C180_closed",
    "Verif.IncHull.C180_simple",
    "Verif.IncHull.C180_start",
    "Verif.IncHull.C180_volume",
    "Verif.IncHull.C180_dropped",
    "Verif.IncHull.C180_choice",
    "Verif.IncHull.C180_loop",
    "Verif.IncHull.C180_limit",
    "Verif.IncHull.C180_stop",
    "Verif.IncHull.C180_violated_factor"
   ],
   "note": "Proved in exact arithmetic: closed surfaces stay closed, the volume computed is six times the volume added, the choice is a maximum, and the loop never loses volume. Fails in this point: the least volume is compared with six times the volume added (C180_violated_factor). Points that see all triangles are dropped as well (C180_dropped). Not proved: that the surface is convex at the end. Left out: flat sets of points, the links between edges and triangles, the exchange of vertices."
  }
 ]
}