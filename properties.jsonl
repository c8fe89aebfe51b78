{"id": "C01", "title": "Affine/quadratic expression arithmetic preserves value", "statement": "exprAdd, exprSub, exprMult(.,double), exprScale, exprInc and exprDec on AffExpr/QuadExpr/Var compute expressions whose value(x) is exactly the sum, difference or scalar multiple of the operands' value(x), whatever variables (repeated or not) they mention.", "quantifier": "for all expressions, scalars and points x (exact arithmetic)", "why_tests_cant": "Expressions are unbounded sequences with arbitrary repeated variables; tests only sample a few small ones.", "anchors": ["trajopt_sco/src/expr_ops.cpp", "trajopt_sco/include/trajopt_sco/expr_ops.hpp: exprScale, exprInc, exprDec, exprMult, exprAdd, exprSub", "trajopt_sco/src/solver_interface.cpp: AffExpr::value, QuadExpr::value"]}
{"id": "C02", "title": "Products and squares of affine expressions are exact", "statement": "exprMult(AffExpr,AffExpr).value(x) equals the product of the operands' values, exprSquare(AffExpr).value(x) and exprSquare(Var).value(x) equal the square of the operand's value, so a squared cost handed to the QP solver is the intended one and is never negative.", "quantifier": "for all affine expressions (including ones with repeated variables) and all x", "why_tests_cant": "Cross terms are generated by nested loops over arbitrarily long expressions; a missing or doubled cross term shows only for particular lengths and values.", "anchors": ["trajopt_sco/src/expr_ops.cpp: exprMult(AffExpr,AffExpr), exprSquare(Var), exprSquare(AffExpr)"]}
{"id": "C03", "title": "Cleaning an affine expression changes it by at most 1e-7 per unit of x", "statement": "cleanupAff keeps the constant, keeps every term with |coefficient| > 1e-7 in order, drops every other, and changes value(x) by at most 1e-7 times the sum of |x_i| over the dropped terms.", "quantifier": "for all affine expressions and all x", "why_tests_cant": "A numeric error bound over unbounded inputs.", "anchors": ["trajopt_sco/src/expr_ops.cpp: cleanupAff"]}
{"id": "C04", "title": "Linear rows handed to the solvers denote the expression", "statement": "simplify2 (used by the BPMPD/Gurobi back ends) and exprToEigen(AffExpr) turn a coefficient list with repeated variables into strictly increasing, duplicate-free indices that denote the same linear form; exprToEigen throws exactly when a mentioned index is not below the requested number of variables.", "quantifier": "for all index/value lists, all sizes and all x", "why_tests_cant": "Depends on the multiset of indices; the number of possible repetitions is unbounded.", "anchors": ["trajopt_sco/src/solver_interface.cpp: simplify2", "trajopt_sco/src/solver_utils.cpp: exprToEigen"]}
{"id": "C05", "title": "The Hessian/gradient handed to the solvers denote the quadratic objective", "statement": "exprToEigen(QuadExpr) yields a symmetric matrix Q and vector q such that (1/2)x'Qx + q'x when matrix_is_halved is requested, or x'Qx + q'x otherwise, plus the constant equals QuadExpr::value(x).", "quantifier": "for all quadratic expressions whose indices are in range, all x, both conventions", "why_tests_cant": "Needs all combinations of diagonal, off-diagonal, repeated and swapped index pairs.", "anchors": ["trajopt_sco/src/solver_utils.cpp: exprToEigen(QuadExpr)", "trajopt_sco/include/trajopt_sco/solver_utils.hpp"]}
{"id": "C06", "title": "Compressed sparse column conversion is lossless", "statement": "eigenToCSC produces column pointers that start at 0, are monotone and end at the number of stored entries, with row indices in range, and decoding them gives back the original matrix entry for entry (or its upper triangle).", "quantifier": "for all sparse matrices of all sizes", "why_tests_cant": "Round trip over an infinite family of matrices, including ones with empty columns.", "anchors": ["trajopt_sco/include/trajopt_sco/solver_utils.hpp: eigenToCSC"]}
{"id": "C07", "title": "Hinge costs are represented exactly by slack variables", "statement": "After ConvexObjective::addHinge(aff,c) with c >= 0, minimising the objective contribution over the auxiliary variable subject to the added bound and inequality gives exactly c*max(0, aff(x)) for every x; the minimum is attained.", "quantifier": "for all affine expressions, all c >= 0 and all x; any number of hinges in one objective", "why_tests_cant": "A statement about the minimum of an optimisation problem over all reals.", "anchors": ["trajopt_sco/src/modeling.cpp: ConvexObjective::addHinge, addHinges, addConstraintsToModel"]}
{"id": "C08", "title": "Absolute-value costs are represented exactly by slack variables", "statement": "After ConvexObjective::addAbs(aff,c) with c >= 0, minimising over the two auxiliary variables subject to the added bounds and equality gives exactly c*|aff(x)| for every x; addL1Norm gives the sum of |aff_i(x)|; addL2Norm adds the sum of squares.", "quantifier": "for all affine expressions, all c >= 0, all x and all lists of expressions", "why_tests_cant": "A statement about the minimum of an optimisation problem over all reals.", "anchors": ["trajopt_sco/src/modeling.cpp: ConvexObjective::addAbs, addL1Norm, addL2Norm"]}
{"id": "C09", "title": "addMax makes the maximum of the expressions part of the objective", "statement": "After ConvexObjective::addMax(exprs), minimising over the auxiliary variable gives an objective that contains max_i expr_i(x).", "quantifier": "for all non-empty lists of expressions and all x", "why_tests_cant": "A statement about an optimum; no test in the repository exercises it.", "anchors": ["trajopt_sco/src/modeling.cpp: ConvexObjective::addMax", "trajopt_sco/include/trajopt_sco/modeling.hpp"]}
{"id": "C10", "title": "Convexification leaves no residue in the solver model", "statement": "Creating convex objectives/constraints on a model, adding them to it, and then destroying them and calling update() leaves the model with exactly the live variables and constraints it had before, with the same indices, so one SQP iteration cannot leak slack variables into the next.", "quantifier": "for all sequences of objective-building calls and any number of iterations", "why_tests_cant": "A history property: leaks accumulate over arbitrarily many iterations.", "anchors": ["trajopt_sco/src/modeling.cpp: ConvexObjective::removeFromModel, ConvexConstraints::removeFromModel", "trajopt_sco/src/osqp_interface.cpp: OSQPModel::removeVars, removeCnts, update"]}
{"id": "C11", "title": "getClosestFeasiblePoint returns a point inside the variable bounds", "statement": "OptProb::getClosestFeasiblePoint(x, delta) returns a point with lower+delta <= y_i <= upper-delta whenever that interval is non-empty, equal to x where x is already inside.", "quantifier": "for all bounds, all x and all delta >= 0", "why_tests_cant": "Universal over real vectors and bounds, including infinite ones.", "anchors": ["trajopt_sco/src/modeling.cpp: OptProb::getClosestFeasiblePoint, getCentralFeasiblePoint", "trajopt_sco/include/trajopt_sco/modeling.hpp"]}
{"id": "C12", "title": "Solver names select the solver they name", "statement": "Constructing a ModelType from the string naming a solver gives that solver's enum value, printing any ModelType gives its name, and unknown names are rejected.", "quantifier": "for all strings and all enum values", "why_tests_cant": "All strings; and the mapping has to agree between two separately maintained orders.", "anchors": ["trajopt_sco/src/solver_interface.cpp: ModelType::MODEL_NAMES_, ModelType(string), operator<<", "trajopt_sco/include/trajopt_sco/solver_interface.hpp: ModelType::Value"]}
{"id": "C13", "title": "Variable and constraint bookkeeping of the OSQP model is consistent under every history", "statement": "After any sequence of addVar/addEqCnt/addIneqCnt/removeVars/removeCnts/update, the variables in the model are exactly those added and not removed, in order of creation; after update() each variable's index equals its position, so distinct variables never share a solution column, and bounds stay attached to their variable.", "quantifier": "for all finite sequences of model calls", "why_tests_cant": "An invariant over unbounded call histories with interleaved removals.", "anchors": ["trajopt_sco/src/osqp_interface.cpp: OSQPModel::addVar, addEqCnt, addIneqCnt, removeVars, removeCnts, update, setVarBounds"]}
{"id": "C14", "title": "The rows l <= Ax <= u given to OSQP are equivalent to the model's constraints and bounds", "statement": "A point satisfies every row built by updateConstraints if and only if it satisfies every equality (aff(x) = 0) and inequality (aff(x) <= 0) of the model and every variable bound, bounds of magnitude at or beyond OSQP's infinity counting as absent.", "quantifier": "for all models and all points x", "why_tests_cant": "An equivalence over all points and all models.", "anchors": ["trajopt_sco/src/osqp_interface.cpp: OSQPModel::updateConstraints", "trajopt_sco/src/solver_utils.cpp: exprToEigen(AffExprVector)"]}
{"id": "C15", "title": "Setting an objective replaces the previous one", "statement": "After Model::setObjective(e) the objective that optimize() minimises is e, regardless of objectives set earlier, for affine and quadratic e.", "quantifier": "for all sequences of setObjective calls", "why_tests_cant": "A history property over sequences of calls.", "anchors": ["trajopt_sco/src/osqp_interface.cpp: OSQPModel::setObjective"]}
{"id": "C16", "title": "Trust-region bounds stay inside the variable bounds and contain the current point", "statement": "The per-variable interval handed to the QP by setTrustBoxConstraints is non-empty, lies inside [lower, upper], lies within trust_box_size of the (clamped) current point and contains it; hence every QP-feasible candidate respects the variable bounds.", "quantifier": "for all points, all bounds with lower <= upper (possibly infinite) and all box sizes >= 0", "why_tests_cant": "Universal over real vectors.", "anchors": ["trajopt_sco/src/optimizers.cpp: BasicTrustRegionSQP::setTrustBoxConstraints"]}
{"id": "C17", "title": "OPT_CONVERGED means the constraints are satisfied", "statement": "When BasicTrustRegionSQP::optimize() returns OPT_CONVERGED, every constraint violation at the returned point is below cnt_tolerance.", "quantifier": "for all problems, all QP-solver answers (solved or failed), all parameter settings and all clock readings", "why_tests_cant": "Must hold for every behaviour of the QP solver and every time-out instant.", "anchors": ["trajopt_sco/src/optimizers.cpp: BasicTrustRegionSQP::optimize"]}
{"id": "C18", "title": "Accepted steps never increase the exact merit (legacy optimizer)", "statement": "Within one merit-coefficient round every accepted step of BasicTrustRegionSQP has exact merit (costs plus weighted violations) strictly below the merit of the point it replaces by at least improve_ratio_threshold times the model-predicted improvement.", "quantifier": "for all problems, QP answers and iterations", "why_tests_cant": "An invariant over executions of any length with an arbitrary QP oracle.", "anchors": ["trajopt_sco/src/optimizers.cpp: BasicTrustRegionSQP::optimize, BasicTrustRegionSQPResults::update"]}
{"id": "C19", "title": "Reported costs and violations belong to the reported point (legacy optimizer)", "statement": "On every return path after the first evaluation, results.cost_vals and results.cnt_viols are the exact cost and violation vectors at results.x, and total_cost is the sum of cost_vals.", "quantifier": "for all problems, QP answers, parameters and exit paths", "why_tests_cant": "There are many exit paths and an arbitrary interleaving of accepted and rejected steps.", "anchors": ["trajopt_sco/src/optimizers.cpp: BasicTrustRegionSQP::optimize"]}
{"id": "C20", "title": "The legacy optimizer terminates", "statement": "optimize() returns for every QP-solver behaviour when 0 < trust_shrink_ratio < 1 and min_trust_box_size > 0, after a bounded number of QP solves.", "quantifier": "for all QP answers, all problems and all positive parameters", "why_tests_cant": "Termination for every oracle behaviour; a test can only observe particular runs ending.", "anchors": ["trajopt_sco/src/optimizers.cpp: BasicTrustRegionSQP::optimize"]}
{"id": "C21", "title": "kConverged means the constraints are satisfied (trajopt_sqp)", "statement": "When TrustRegionSQPSolver::solve leaves status kConverged, the best exact constraint violations are all below cnt_tolerance.", "quantifier": "for all problems, QP answers, callbacks, parameters and clock readings", "why_tests_cant": "Must hold for every oracle behaviour.", "anchors": ["trajopt_optimizers/trajopt_sqp/src/trust_region_sqp_solver.cpp: solve, verifySQPSolverConvergence"]}
{"id": "C22", "title": "A stop requested by a callback or a failing QP is reported (trajopt_sqp)", "statement": "If a callback asks to stop, the solver stops and reports kStoppedByCallback; if the QP solver keeps failing, the solver reports kQPSolveFailed and never kConverged.", "quantifier": "for all problems, callbacks and QP answers", "why_tests_cant": "Needs every instant at which a callback can request a stop and every pattern of QP failures.", "anchors": ["trajopt_optimizers/trajopt_sqp/src/trust_region_sqp_solver.cpp: solve, stepSQPSolver, runTrustRegionLoop, callCallbacks"]}
{"id": "C23", "title": "The best merit never increases within a penalty iteration (trajopt_sqp)", "statement": "Within a penalty iteration the exact merit of the stored best point never increases; each accepted step decreases it by at least improve_ratio_threshold times the predicted improvement, and a rejected step leaves best point, costs and violations untouched.", "quantifier": "for all executions with an arbitrary QP oracle", "why_tests_cant": "Invariant over runs of any length.", "anchors": ["trajopt_optimizers/trajopt_sqp/src/trust_region_sqp_solver.cpp: stepSQPSolver, runTrustRegionLoop"]}
{"id": "C24", "title": "Reported results belong to the point left in the problem (trajopt_sqp)", "statement": "When solve() returns, the NLP variables of the problem hold the best point, and best_costs and best_constraint_violations are the exact costs and violations at that point.", "quantifier": "for all executions and all exit paths", "why_tests_cant": "Invariant over runs of any length with an arbitrary QP oracle.", "anchors": ["trajopt_optimizers/trajopt_sqp/src/trust_region_sqp_solver.cpp: solve, runTrustRegionLoop"]}
{"id": "C25", "title": "The trust-region loop terminates (trajopt_sqp)", "statement": "Each trust-region loop ends after a number of QP solves bounded by the number of shrinkings from the current box to min_trust_box_size plus max_qp_solver_failures, for every QP behaviour.", "quantifier": "for all QP answers and all parameters with 0 < trust_shrink_ratio < 1, min_trust_box_size > 0", "why_tests_cant": "Termination for every oracle behaviour.", "anchors": ["trajopt_optimizers/trajopt_sqp/src/trust_region_sqp_solver.cpp: runTrustRegionLoop, solve"]}
{"id": "C26", "title": "Slack columns make the QP penalty the exact weighted violation", "statement": "For the rows that TrajOptQPProblem adds slack variables to (equality: two, one-sided: one), minimising the slack cost over non-negative slacks subject to the row bounds gives merit_coeff times the violation of the linearised row, for every x.", "quantifier": "for all rows, bounds, merit coefficients >= 0 and all x", "why_tests_cant": "A statement about the minimum of an LP for every right-hand side.", "anchors": ["trajopt_optimizers/trajopt_sqp/src/trajopt_qp_problem.cpp: convexify"]}
{"id": "C27", "title": "Linearisation is exact at the expansion point and for affine functions", "statement": "The constant/Jacobian pair built by convexify (AffExprs::create) evaluates to the function value at the expansion point, and everywhere if the function is affine.", "quantifier": "for all function values, Jacobians and points", "why_tests_cant": "Universal over real vectors.", "anchors": ["trajopt_optimizers/trajopt_sqp/src/expressions.cpp: AffExprs::create, AffExprs::values", "trajopt_optimizers/trajopt_sqp/src/trajopt_qp_problem.cpp: convexify"]}
{"id": "C28", "title": "Every constraint set is weighted by its own merit coefficient", "statement": "convexify uses for the slacks of constraint set i the i-th entry of the vector given to setConstraintMeritCoeff.", "quantifier": "for all problems, including dynamic constraint sets with currently zero rows", "why_tests_cant": "Depends on which dynamic sets are empty at a given iterate.", "anchors": ["trajopt_optimizers/trajopt_sqp/src/trajopt_qp_problem.cpp: convexify, setConstraintMeritCoeff"]}
{"id": "C29", "title": "setup() can be repeated", "statement": "Calling setup() again on a TrajOptQPProblem leaves it describing the same QP (same costs and constraints).", "quantifier": "for all problems and any number of setup calls", "why_tests_cant": "A history property on repeated calls.", "anchors": ["trajopt_optimizers/trajopt_sqp/src/trajopt_qp_problem.cpp: setup, update"]}
{"id": "C30", "title": "The convex cost model of IfoptQPProblem matches its QP objective", "statement": "The sum of evaluateConvexCosts(x) over the costs equals, up to a constant independent of x, the objective (1/2)x'Hx+g'x of the QP, so predicted improvements are improvements of the solved QP.", "quantifier": "for all numbers of cost terms and all x", "why_tests_cant": "Universal over x and the number of costs.", "anchors": ["trajopt_optimizers/trajopt_sqp/src/ifopt_qp_problem.cpp: updateCostsConstantExpression, evaluateConvexCosts"]}
{"id": "C31", "title": "Quadratic expansions reproduce the function they expand", "statement": "QuadExprs::create followed by values gives the function value at the expansion point; for a quadratic function it is exact everywhere; AffExprs::square gives the square of the affine values everywhere.", "quantifier": "for all functions, Hessians, gradients and points", "why_tests_cant": "Universal over real matrices of all sizes, including zero Hessians and one variable.", "anchors": ["trajopt_optimizers/trajopt_sqp/src/expressions.cpp: QuadExprs::create, QuadExprs::values, AffExprs::square"]}
{"id": "C32", "title": "Bounds are classified by their finiteness and width", "statement": "After any sequence of Bounds operations the type is Unbounded iff both sides are non-finite (or |.| >= 1e20), LowerBound/UpperBound iff exactly one side is finite, and for two finite sides Equality iff they differ by less than 1e-8.", "quantifier": "for all sequences of set, setLower, setUpper, += and -=", "why_tests_cant": "Cached classification must stay in sync after any history.", "anchors": ["trajopt_ifopt/src/core/bounds.cpp", "trajopt_ifopt/include/trajopt_ifopt/core/bounds.h"]}
{"id": "C33", "title": "Clamping and bound errors agree", "statement": "getClosestValidPoint returns a point inside the bounds that is the nearest such point componentwise and is idempotent; calcBoundsErrors is x minus that point; calcBoundsViolations is its absolute value; the error is zero exactly when x is inside.", "quantifier": "for all x and all bounds with lower <= upper (possibly infinite)", "why_tests_cant": "Universal over reals.", "anchors": ["trajopt_ifopt/src/utils/ifopt_utils.cpp: getClosestValidPoint, calcBoundsErrors, calcBoundsViolations"]}
{"id": "C34", "title": "Composite values, Jacobians and bounds are stacked consistently", "statement": "For a stacked composite the values, bounds and Jacobian rows of component i occupy rows [r_i, r_i + rows_i) with r_i the sum of earlier row counts, in the order components were added; the composite's row count is their sum.", "quantifier": "for all lists of components of all sizes", "why_tests_cant": "Unbounded numbers and sizes of components.", "anchors": ["trajopt_ifopt/src/core/composite.cpp: addComponent, getValues, getJacobian, getBounds"]}
{"id": "C35", "title": "The problem's cost is the sum of its cost terms", "statement": "Problem::evaluateCostFunction(x) is the sum of all added cost terms and evaluateCostFunctionGradient its gradient.", "quantifier": "for all lists of cost terms", "why_tests_cant": "Unbounded number of terms; tests use a single one.", "anchors": ["trajopt_ifopt/src/core/problem.cpp: Problem, evaluateCostFunction, evaluateCostFunctionGradient", "trajopt_ifopt/include/trajopt_ifopt/core/problem.h"]}
{"id": "C36", "title": "Squared and absolute costs and their gradients agree with the constraint they wrap", "statement": "SquaredCost is the weighted sum of squared bound errors and AbsoluteCost the weighted sum of absolute bound errors of the wrapped constraint (always >= 0, zero iff the constraint is satisfied when weights are positive), and their Jacobian is the derivative where the cost is differentiable.", "quantifier": "for all constraint values, weights, bounds and Jacobians", "why_tests_cant": "Universal over reals.", "anchors": ["trajopt_ifopt/src/costs/squared_cost.cpp", "trajopt_ifopt/src/costs/absolute_cost.cpp"]}
{"id": "C37", "title": "Joint velocity/acceleration/jerk constraints are the finite differences and their Jacobians are exact", "statement": "JointVelConstraint, JointAccelConstraint and JointJerkConstraint return the first, second and third differences of the trajectory, and their Jacobian J satisfies values(x+d) = values(x) + J d for every x and d.", "quantifier": "for all trajectories of all lengths and dofs, all perturbations", "why_tests_cant": "All lengths; the stencils switch between forward and backward formulas at the end.", "anchors": ["trajopt_ifopt/src/constraints/joint_velocity_constraint.cpp", "trajopt_ifopt/src/constraints/joint_acceleration_constraint.cpp", "trajopt_ifopt/src/constraints/joint_jerk_constraint.cpp"]}
{"id": "C38", "title": "Splitting range bounds into two inequalities preserves the feasible set", "statement": "A JointPosConstraint built with range-bound splitting has no range-bound row and accepts exactly the joint positions accepted by the bounds it was built from, for every coefficient vector the constructor documents (empty, one value, one per joint).", "quantifier": "for all bounds, joint values and coefficient vectors", "why_tests_cant": "Universal over bounds and dofs; the broadcast of coefficients matters only for some sizes.", "anchors": ["trajopt_ifopt/src/constraints/joint_position_constraint.cpp"]}
{"id": "C39", "title": "Variable layout: every variable owns its own contiguous slice", "statement": "In a NodesVariables the slices (index, size) of all Vars partition 0..rows; setVariables(x) followed by getValues() returns x, each Var then holds its own slice of x, and bounds are listed in the same order.", "quantifier": "for all numbers of nodes and vars of all sizes, all x", "why_tests_cant": "Unbounded layouts.", "anchors": ["trajopt_ifopt/src/variable_sets/nodes_variables.cpp", "trajopt_ifopt/src/variable_sets/node.cpp", "trajopt_ifopt/src/variable_sets/var.cpp"]}
{"id": "C40", "title": "interpolate starts at start, ends at end and has equal steps", "statement": "interpolate(start,end,n) returns n vectors, the first is start, the last is end and consecutive ones differ by (end-start)/(n-1).", "quantifier": "for all vectors and all n >= 2", "why_tests_cant": "All n and all real vectors.", "anchors": ["trajopt_ifopt/src/utils/ifopt_utils.cpp: interpolate"]}
{"id": "C41", "title": "Numerical differentiation is exact where it should be", "statement": "calcForwardNumGrad and calcForwardNumJac return the exact gradient/Jacobian of affine functions; calcGradAndDiagHess returns the exact gradient and diagonal of the Hessian of quadratic functions; the point is restored after each perturbation, so no column sees another column's perturbation.", "quantifier": "for all affine/quadratic functions, all points and all non-zero step sizes", "why_tests_cant": "Universal over functions, dimensions and step sizes.", "anchors": ["trajopt_sco/src/num_diff.cpp", "trajopt_ifopt/src/utils/numeric_differentiation.cpp"]}
{"id": "C42", "title": "The LRU cache pool is a correct bounded cache", "statement": "Under every sequence of get/getOrAcquire/put/erase the Cache behaves as an LRU map of bounded capacity: get returns the value last put for the key unless it was erased or evicted, the evicted entry is the least recently used one, the number of entries never exceeds the capacity, and a slot handed out for filling is never one that is visible under some key or handed out to somebody else.", "quantifier": "for all operation sequences, keys, values and capacities", "why_tests_cant": "A refinement over unbounded histories with slot recycling.", "anchors": ["trajopt_common/include/trajopt_common/cache.h: Cache"]}
{"id": "C43", "title": "Caching collision results is transparent", "statement": "A value computed through the cache with a hash of the variable values as key equals the value computed directly, for every history of evaluations.", "quantifier": "for all histories and all evaluation points", "why_tests_cant": "Holds only if the key determines the point; needs all histories.", "anchors": ["trajopt_common/include/trajopt_common/cache.h", "trajopt_common/src/collision_utils.cpp: getHash", "trajopt_ifopt/src/constraints/collision/discrete_collision_evaluators.cpp"]}
{"id": "C44", "title": "Different shape pairs are kept in different contact groups", "statement": "cantorHash gives different keys to different (shape_id, subshape_id) pairs, so contacts of different sub shapes are never merged.", "quantifier": "for all integer pairs the contact checker can return (shape id >= 0, subshape id >= -1)", "why_tests_cant": "An injectivity statement over all integers.", "anchors": ["trajopt_common/src/collision_utils.cpp: cantorHash"]}
{"id": "C45", "title": "Collision coefficients are symmetric per link pair", "statement": "After any sequence of setCollisionCoeff/setDefaultCollisionCoeff, getCollisionCoeff(a,b) = getCollisionCoeff(b,a) is the last value set for the unordered pair, else the default; and the set of zero-coefficient pairs is exactly the pairs whose last explicit value is zero.", "quantifier": "for all histories and link names", "why_tests_cant": "History property.", "anchors": ["trajopt_common/src/collision_types.cpp: CollisionCoeffData"]}
{"id": "C46", "title": "The per-pair maximum error is the maximum over its contacts", "statement": "For a GradientResultsSet built by add, getMaxError (and its T0/T1 and with-buffer variants) is the largest error among the contacts added that have a gradient of the relevant kind.", "quantifier": "for all sequences of contacts", "why_tests_cant": "Fold over arbitrary sequences with four optional slots.", "anchors": ["trajopt_common/src/collision_types.cpp: GradientResultsSet::add, getMaxError, getMaxErrorT0, getMaxErrorT1"]}
{"id": "C47", "title": "The worst collisions are kept when the number of constraints is limited", "statement": "When more contact groups exist than the constraint can hold, the ones kept are those with the largest error.", "quantifier": "for all contact sets and limits", "why_tests_cant": "Depends on the combination of which of the two links is active in each contact.", "anchors": ["trajopt_ifopt/src/constraints/collision/discrete_collision_evaluators.cpp: calcCollisions", "trajopt_common/include/trajopt_common/collision_types.h: max_num_cnt"]}
{"id": "C48", "title": "The collision gradient is a weighted average of the contact gradients", "statement": "getWeightedAvgGradientT0/T1 return a combination of the scaled contact gradients with non-negative weights summing to one (so it stays in their convex hull), proportional to the contacts' errors with buffer, and never divide by zero.", "quantifier": "for all gradient result sets with a positive maximum error", "why_tests_cant": "Universal over sets of contacts of any size.", "anchors": ["trajopt_ifopt/src/constraints/collision/weighted_average_methods.cpp"]}
{"id": "C49", "title": "Continuous collision checking subdivides finely enough", "statement": "The LVS evaluators sample the motion between two states so that consecutive samples are at most longest_valid_segment_length apart, the first and last sample being the two states.", "quantifier": "for all states and all positive segment lengths", "why_tests_cant": "Universal over reals; involves a ceiling.", "anchors": ["trajopt_ifopt/src/constraints/collision/continuous_collision_evaluators.cpp: LVSContinuousCollisionEvaluator, LVSDiscreteCollisionEvaluator"]}
{"id": "C50", "title": "BasicArray is a row-major matrix", "statement": "at(i,j) addresses distinct elements for distinct in-range (i,j); block, row, col, rblock, cblock, topRows, middleRows and bottomRows return exactly the sub-blocks they name; out-of-range access is reported.", "quantifier": "for all sizes and indices", "why_tests_cant": "All sizes and offsets.", "anchors": ["trajopt_common/include/trajopt_common/basic_array.hpp"]}
{"id": "C51", "title": "Piecewise linear interpolation is correct", "statement": "interp2d(x_new, x_old, y_old) with increasing x_old returns y_old at the knots and the linear interpolant between neighbouring knots, and stays within the range of the neighbouring y values.", "quantifier": "for all increasing x_old, all y_old and all non-decreasing x_new within range", "why_tests_cant": "All lengths and real values; the scan carries state from one query to the next.", "anchors": ["trajopt_common/include/trajopt_common/interpolation.hpp: searchsorted, interp2d"]}
{"id": "C52", "title": "Messages between the BPMPD caller and its subprocess round-trip", "statement": "ser(DESER) applied to the bytes written by ser(SER) gives back the same bpmpd_input/bpmpd_output and consumes exactly those bytes, so consecutive messages do not interfere; this does not depend on how the pipe splits the bytes into reads.", "quantifier": "for all messages, all sequences of messages and all ways read() may split the stream", "why_tests_cant": "All payload sizes and all kernel schedules.", "anchors": ["trajopt_sco/include/trajopt_sco/bpmpd_io.hpp"]}
{"id": "C53", "title": "Joint position/velocity/acceleration/jerk costs equal the quadratic given to the QP", "statement": "For JointPosEqCost, JointVelEqCost, JointAccEqCost and JointJerkEqCost, value(x) equals the value at x of the quadratic expression that convex() adds to the QP, for every x; hence the model is exact and predicted and actual improvement agree.", "quantifier": "for all trajectories, targets, coefficients and step ranges", "why_tests_cant": "All trajectory lengths and dofs; the two sides are computed by different code (matrix differences vs. expression building).", "anchors": ["trajopt/src/trajectory_costs.cpp", "trajopt/src/utils.cpp: getTraj"]}
{"id": "C54", "title": "Joint tolerance constraints hold exactly on the tolerance band", "statement": "For the Joint*IneqConstraint classes with positive coefficients the linear inequalities put into the QP hold at x iff target+lower_tol <= (difference of x) <= target+upper_tol for every step in range and joint, iff value(x) reports no violation; the Joint*IneqCost value equals the minimised hinge cost of its convex model.", "quantifier": "for all trajectories, targets, tolerances and positive coefficients", "why_tests_cant": "All lengths; sign mistakes show only for particular tolerance/value combinations.", "anchors": ["trajopt/src/trajectory_costs.cpp"]}
{"id": "C55", "title": "Joint equality constraints: the linear rows and the reported violation vanish together", "statement": "For the Joint*EqConstraint classes with non-zero coefficients, value(x) is zero iff the linear equalities given to the QP hold at x; a reported violation below tol bounds the deviation by sqrt(tol/coeff).", "quantifier": "for all trajectories, targets and coefficients", "why_tests_cant": "The value is squared while the row is linear; needs all x.", "anchors": ["trajopt/src/trajectory_costs.cpp"]}
{"id": "C56", "title": "fixed_timesteps and fixed_dofs pin exactly the requested variables", "statement": "ConstructProblem adds linear constraints satisfied exactly by the trajectories that agree with the initial trajectory at every fixed timestep and every fixed joint, adds each of them once, and rejects indices that do not exist.", "quantifier": "for all step counts, dof counts and index lists", "why_tests_cant": "All combinations of index lists, including boundary indices.", "anchors": ["trajopt/src/problem_description.cpp: ConstructProblem"]}
{"id": "C57", "title": "Step ranges of joint terms are normalised to a usable range", "statement": "For any first_step/last_step the user gives and a long enough trajectory, JointPos/Vel/Acc/Jerk TermInfo::hatch ends with a step range that lies inside the trajectory and is long enough for the finite difference, so no valid JSON makes it fail.", "quantifier": "for all integers first_step, last_step and all numbers of steps", "why_tests_cant": "All integer combinations.", "anchors": ["trajopt/src/problem_description.cpp: JointPosTermInfo::hatch, JointVelTermInfo::hatch, JointAccTermInfo::hatch, JointJerkTermInfo::hatch"]}
{"id": "C58", "title": "Collision terms treat fixed steps as documented", "statement": "CollisionTermInfo::hatch creates one term per consecutive pair (or per free step), never varies a fixed step, and rejects two adjacent fixed steps.", "quantifier": "for all step ranges and fixed-step lists", "why_tests_cant": "All combinations of fixed steps.", "anchors": ["trajopt/src/problem_description.cpp: CollisionTermInfo::hatch"]}
{"id": "C59", "title": "Joint subset/superset mapping", "statement": "getSubset after updateFromSubset returns the subset values written; joints outside the subset are unchanged; both fail iff some subset joint is not in the superset, and getSubset leaves its output untouched on failure.", "quantifier": "for all duplicate-free joint name lists and values", "why_tests_cant": "All name lists and orders.", "anchors": ["trajopt/src/utils.cpp: updateFromSubset, getSubset, isSuperset"]}
{"id": "C60", "title": "AddVarArrays gives every array element its own new variable", "statement": "AddVarArrays creates exactly rows*sum(cols) new variables, and the map from (array, row, column) to variable is a bijection onto them with time-major order.", "quantifier": "for all row counts and column lists", "why_tests_cant": "All shapes.", "anchors": ["trajopt/src/utils.cpp: AddVarArrays"]}
{"id": "C61", "title": "Velocity with time: error and Jacobian agree", "statement": "JointVelErrCalculator and JointVelJacCalculator satisfy err(x+d) = err(x) + J(x) d + (second order term of the bilinear form) exactly, and err <= 0 in both halves iff the velocity (q_{i+1}-q_i)/dt lies within the tolerance band of the target.", "quantifier": "for all trajectories, time scalings and perturbations", "why_tests_cant": "Universal over reals and lengths.", "anchors": ["trajopt/src/kinematic_terms.cpp: JointVelErrCalculator, JointVelJacCalculator"]}
{"id": "C62", "title": "Contact filtering keeps exactly the relevant contacts", "statement": "removeInvalidContactResults keeps a contact iff its distance is within margin plus buffer and, when one end of the segment is fixed, at least one link's closest point is not purely at the fixed end.", "quantifier": "for all contact lists and all combinations of fixed ends", "why_tests_cant": "All contact lists.", "anchors": ["trajopt_common/src/collision_utils.cpp: removeInvalidContactResults"]}
{"id": "C63", "title": "A change of sparsity pattern is noticed before reusing solver data", "statement": "OSQPModel re-initialises the OSQP workspace whenever the sparsity pattern of the Hessian or constraint matrix differs from the previous one; values-only updates are used only when the patterns are identical.", "quantifier": "for all pairs of consecutive matrices", "why_tests_cant": "Patterns that agree on a prefix but differ later; all sizes.", "anchors": ["trajopt_sco/src/osqp_interface.cpp: updateObjective, updateConstraints, createOrUpdateSolver"]}
{"id": "C64", "title": "Error-function costs and constraints: convexification agrees with the value", "statement": "CostFromErrFunc::convex at x gives a convex cost whose (minimised) value at x equals CostFromErrFunc::value(x), for each penalty type, and everywhere when the error function is affine; ConstraintFromErrFunc::convex likewise for violations.", "quantifier": "for all error functions, coefficients, penalty types and points (up to the 1e-7 clean-up)", "why_tests_cant": "Universal over functions and coefficients, including zero and negative ones.", "anchors": ["trajopt_sco/src/modeling_utils.cpp: CostFromErrFunc, ConstraintFromErrFunc, affFromValGrad"]}
{"id": "C65", "title": "Every QP is posed around the best point with the reported box (trajopt_sqp)", "statement": "Every QP that TrustRegionSQPSolver solves has its variable bounds centred at the best point known at that time with the box size reported in the results, and whenever a QP solve returns control to the user (callbacks) the problem holds the best point again.", "quantifier": "for all problems, QP behaviours, callbacks and iteration histories", "why_tests_cant": "The order of setBoxSize/setVariables/updateBounds calls matters over the whole history of the solver.", "anchors": ["trajopt_optimizers/trajopt_sqp/src/trust_region_sqp_solver.cpp: runTrustRegionLoop, stepSQPSolver, setBoxSize, solveQPProblem"]}
{"id": "C66", "title": "Penalty adjustment touches only violated constraints and leaves a usable box (trajopt_sqp)", "statement": "adjustPenalty multiplies exactly the merit coefficients of constraints whose violation exceeds the tolerance (all of them when not inflating individually), keeps the best record, and leaves a trust box of at least min_trust_box_size so that the next round solves at least one QP.", "quantifier": "for all states and parameters with 0 < shrink ratio <= 1", "why_tests_cant": "All violation vectors and parameter values.", "anchors": ["trajopt_optimizers/trajopt_sqp/src/trust_region_sqp_solver.cpp: adjustPenalty"]}
{"id": "C67", "title": "The legacy collision cache returns the value of the key asked for", "statement": "GetContactResultCached returns the contact results computed for the given variable values, whether or not they come from the two-entry circular cache.", "quantifier": "for all histories of evaluations and buffer sizes", "why_tests_cant": "Depends on the whole history of evaluations and on keys equal to the default-constructed key.", "anchors": ["trajopt/include/trajopt/cache.hxx: Cache", "trajopt/src/collision_terms.cpp: CollisionEvaluator::GetContactResultCached"]}
{"id": "C68", "title": "Penalties of linearised constraints are exact", "statement": "The objective that the legacy optimizer builds from a linearised constraint with a non-negative penalty coefficient, minimised over the slack variables it adds, equals the coefficient times the violation of the linearised constraint at every point.", "quantifier": "for all linearised constraints, coefficients >= 0 and points", "why_tests_cant": "The minimum over the slack variables is a statement about all slack values, at every point.", "anchors": ["trajopt_sco/src/optimizers.cpp: cntsToCosts", "trajopt_sco/src/modeling.cpp: ConvexConstraints::violations, ConvexObjective::addHinge, addAbs"]}
{"id": "C69", "title": "Convexified scalar costs are convex and touch the cost", "statement": "CostFromFunc::convex at x returns a convex quadratic that agrees with the cost at x, uses the numerical gradient, and has positive semidefinite curvature (the diagonal clipped at 0, or the supplied eigen-decomposition clipped at 0 in full-Hessian mode); for a separable convex quadratic cost it equals the cost everywhere.", "quantifier": "for all cost functions, points, step sizes and both Hessian modes", "why_tests_cant": "Universal over functions and points.", "anchors": ["trajopt_sco/src/modeling_utils.cpp: CostFromFunc::convex, CostFromFunc::value", "trajopt_sco/src/num_diff.cpp: calcGradAndDiagHess, calcGradHess"]}
{"id": "C70", "title": "Contacts are grouped by link pair and shape pair", "statement": "The collision evaluators turn the contacts of a link pair into one group per key computed from the two shapes, in increasing key order; a group contains exactly the contacts with its key, in the order reported, and carries the pair's link names and coefficient and the maxima of its contacts.", "quantifier": "for all contact lists, keys and coefficients", "why_tests_cant": "Number and order of contacts are unbounded; the property is about every partition of them.", "anchors": ["trajopt_ifopt/src/constraints/collision/discrete_collision_evaluators.cpp: calcCollisionData", "trajopt_ifopt/src/constraints/collision/continuous_collision_evaluators.cpp: calcCollisionData"]}
{"id": "C71", "title": "Violation and linear model of joint constraints agree at the current point", "statement": "For the legacy joint position, velocity, acceleration and jerk constraints the violation reported for x equals the violation at x of the linear model that convex() builds at x, so that the actual and the predicted improvement of the merit function are comparable.", "quantifier": "for all trajectories, coefficients, targets, tolerances, step ranges and points", "why_tests_cant": "A test compares the two numbers at a few points; they agree at every feasible point and at a deviation of one, so the difference is easy to miss.", "anchors": ["trajopt/src/trajectory_costs.cpp: Joint*EqConstraint::value, Joint*EqConstraint::convex, Joint*IneqConstraint::value, Joint*IneqConstraint::convex", "trajopt_sco/src/modeling.cpp: ConvexConstraints::violation, Constraint::violation"]}
{"id": "C72", "title": "Total time term measures the duration and its linearisation is safe", "statement": "With variables 1/dt the total time error is the sum of the step lengths minus the limit; its Jacobian is the derivative, and for positive values the linearisation never overestimates the duration.", "quantifier": "for all numbers of steps, limits and positive variable values", "why_tests_cant": "Real-valued inputs of any length; convexity is a statement about all pairs of points.", "anchors": ["trajopt/src/kinematic_terms.cpp: TimeCostCalculator::operator(), TimeCostJacCalculator::operator()"]}
{"id": "C73", "title": "Acceleration and jerk with time: the Jacobian is the derivative of the error", "statement": "The Jacobians of the acceleration and jerk calculators with time are the derivatives of their error functions in every direction, and the error is the acceleration (jerk) minus the limit.", "quantifier": "for all trajectories and 1/dt values with non-zero denominators, all directions", "why_tests_cant": "The Jacobian is assembled entry by entry from velocity Jacobians; a finite difference test at a few points with a tolerance cannot establish equality for all points.", "anchors": ["trajopt/src/kinematic_terms.cpp: JointAccErrCalculator, JointAccJacCalculator, JointJerkErrCalculator, JointJerkJacCalculator"]}
{"id": "C74", "title": "The quadratic objective of the QP is the sum of the weighted squared linearised errors", "statement": "After convexify of a TrajOptQPProblem, the quadratic part of the QP handed to the solver (Hessian and gradient over the NLP variables) equals, up to a constant, the sum over the squared costs of weight times the square of the linearised error of each row.", "quantifier": "for all problems with squared costs, all weights, Jacobians, expansion points and all x", "why_tests_cant": "Universal over real vectors; the difference only shows for particular magnitudes of the Hessian entries.", "anchors": ["trajopt_optimizers/trajopt_sqp/src/trajopt_qp_problem.cpp: convexify", "trajopt_optimizers/trajopt_sqp/src/expressions.cpp: AffExprs::square"]}
{"id": "C75", "title": "evaluateConvexCosts reports the cost of the linearised problem", "statement": "evaluateConvexCosts(z) of TrajOptQPProblem returns for each squared cost its weighted squared linearised error at the NLP part of z, and for each hinge/absolute cost the violation of its linearised rows at the NLP part of z, whatever the slack part of z is.", "quantifier": "for all convexified problems and all QP points z, in particular QP solutions", "why_tests_cant": "A statement about every QP point; a test with zero slacks does not show the difference.", "anchors": ["trajopt_optimizers/trajopt_sqp/src/trajopt_qp_problem.cpp: evaluateConvexCosts"]}
{"id": "C76", "title": "evaluateConvexConstraintViolations reports the violation of the linearised rows", "statement": "evaluateConvexConstraintViolations(z) returns for every constraint set the sum of the violations of its linearised rows at the NLP part of z, independent of the slack part and of the merit coefficients.", "quantifier": "for all convexified problems, all z and all merit coefficients", "why_tests_cant": "Universal over real vectors and row layouts.", "anchors": ["trajopt_optimizers/trajopt_sqp/src/trajopt_qp_problem.cpp: evaluateConvexConstraintViolations"]}
{"id": "C77", "title": "Exact and convex penalty costs are weighted alike", "statement": "The exact cost that the trust region solver compares with the convex cost uses for hinge and absolute costs the same coefficients as the slack weights of the QP.", "quantifier": "for all hinge and absolute cost sets, coefficients and points", "why_tests_cant": "Depends on the coefficients; tests with unit coefficients do not show the difference.", "anchors": ["trajopt_optimizers/trajopt_sqp/src/trajopt_qp_problem.cpp: getExactCosts, convexify"]}
{"id": "C78", "title": "No documented sequence of calls makes TrajOptQPProblem fail", "statement": "Starting from a new TrajOptQPProblem, any sequence of addConstraintSet/addCostSet/setup/setVariables/convexify/setBoxSize/scaleBoxSize/setConstraintMeritCoeff calls with well-formed arguments in the documented order runs without exception or out-of-range access, also when dynamic sets change their number of rows between calls.", "quantifier": "for all call histories and all dynamic sets", "why_tests_cant": "Unbounded histories with row counts that change at every iterate.", "anchors": ["trajopt_optimizers/trajopt_sqp/src/trajopt_qp_problem.cpp: setup, update, convexify, setVariables, updateNLPVariableBounds, updateNLPConstraintBounds"]}
{"id": "C79", "title": "Slack variables of IfoptQPProblem measure exactly the violation of the linearised constraints", "statement": "After convexify, every feasible point of the QP lies in the variable bounds and the trust box, its slack cost is at least the merit-weighted violation of the linearised constraint rows, and every point of the trust box extends to a feasible point whose slack cost is exactly that violation; hence minimisers of the QP minimise cost plus weighted violation over the trust box.", "quantifier": "for all problems with equality, lower and upper bound rows, all points, Jacobians, merit coefficients and box sizes", "why_tests_cant": "Universal over real vectors, row mixes and slack layouts.", "anchors": ["trajopt_optimizers/trajopt_sqp/src/ifopt_qp_problem.cpp: convexify, linearizeConstraints, updateGradient, updateNLPConstraintBounds, updateNLPVariableBounds, updateSlackVariableBounds"]}
{"id": "C80", "title": "The QP of IfoptQPProblem predicts the exact costs of affine problems", "statement": "If all costs are affine, the change of the QP objective (without slack cost) between the current point and any other equals the change of the sum of the exact costs that the trust region solver compares it with.", "quantifier": "for all affine cost sets, coefficients, penalty types and points", "why_tests_cant": "Depends on coefficients and penalty types; tests with one unit-weight squared cost do not show the difference.", "anchors": ["trajopt_optimizers/trajopt_sqp/src/ifopt_qp_problem.cpp: addCostSet, updateHessian, updateGradient, getExactCosts"]}
{"id": "C81", "title": "A rejected cost or constraint leaves IfoptQPProblem unchanged", "statement": "If addCostSet or addConstraintSet throws because the set or penalty type is unsupported, the problem is the same as before the call.", "quantifier": "for all sets, penalty types and problems", "why_tests_cant": "Exception safety has to hold for every rejected argument and is only visible in the QP built later.", "anchors": ["trajopt_optimizers/trajopt_sqp/src/ifopt_qp_problem.cpp: addConstraintSet, addCostSet"]}
{"id": "C82", "title": "No documented sequence of calls makes IfoptQPProblem fail", "statement": "setup of a problem made of well-formed sets throws exactly if some constraint row is unbounded or bounded on both sides; otherwise every later sequence of setup/setVariables/convexify/setBoxSize/scaleBoxSize/setConstraintMeritCoeff calls with arguments of the right size runs without exception or out-of-range access.", "quantifier": "for all well-formed problems and all call histories", "why_tests_cant": "Unbounded histories.", "anchors": ["trajopt_optimizers/trajopt_sqp/src/ifopt_qp_problem.cpp: setup, setVariables, convexify, setBoxSize, scaleBoxSize, setConstraintMeritCoeff"]}
{"id": "C83", "title": "Convex constraint violations of IfoptQPProblem are those of the linearised rows", "statement": "evaluateConvexConstraintViolations(z) returns per row the violation of the linearised constraint at the NLP part of z, independent of slacks and merit coefficients, and at the current point it equals getExactConstraintViolations.", "quantifier": "for all convexified problems and all z", "why_tests_cant": "Universal over real vectors and row layouts.", "anchors": ["trajopt_optimizers/trajopt_sqp/src/ifopt_qp_problem.cpp: evaluateConvexConstraintViolations, getExactConstraintViolations"]}
{"id": "C84", "title": "Resizing the trust box commutes with convexify", "statement": "Calling setBoxSize or scaleBoxSize after convexify gives the same problem, including the QP handed to the solver, as calling it before convexify, so the solver may shrink the box without convexifying again.", "quantifier": "for all set-up problems, points and box sizes", "why_tests_cant": "Universal over problems and sizes; a test compares single entries for one problem.", "anchors": ["trajopt_optimizers/trajopt_sqp/src/ifopt_qp_problem.cpp: setBoxSize, scaleBoxSize, convexify, updateNLPVariableBounds"]}
{"id": "C85", "title": "The problem sent to BPMPD is the problem of the model", "statement": "For every model built with addVar/addEqCnt/addIneqCnt/removeVars/removeCnts/setObjective/setVarBounds whose constraints and objective mention variables still in the model, optimize() sends arrays of consistent sizes with one-based strictly increasing in-range indices and a lower triangular Q; under BPMPD's documented reading the cost is the objective up to its constant and the feasible set is exactly the points satisfying all current constraints and bounds.  The status reported is solved exactly for return code 2 and infeasible exactly for 3 and 4.", "quantifier": "for all models (any history of additions and removals), all expressions including repeated variables, all points", "why_tests_cant": "Universal over expressions with repeated terms and over removal histories; a test solves one problem.", "anchors": ["trajopt_sco/src/bpmpd_interface.cpp: BPMPDModel::optimize, BPMPDModel::update", "trajopt_sco/src/solver_utils.cpp: simplify2"]}
{"id": "C86", "title": "The problem handed to qpOASES is the problem of the model", "statement": "For every model whose constraints and objective mention variables still in the model and whose constraint constants are below the solver's infinity, the matrices handed to qpOASES are consistent compressed-column matrices with a symmetric Hessian; 1/2 x'Hx + g'x is the objective up to its constant and lb <= x <= ub, lbA <= Ax <= ubA hold exactly at the points satisfying all current constraints and bounds.", "quantifier": "for all models (any history of additions and removals), all expressions, all points", "why_tests_cant": "Universal over expressions and histories.", "anchors": ["trajopt_sco/src/qpoases_interface.cpp: qpOASESModel::updateObjective, qpOASESModel::updateConstraints, qpOASESModel::optimize", "trajopt_sco/src/solver_utils.cpp: exprToEigen, eigenToCSC"]}
{"id": "C87", "title": "Time and iteration limits stop the solver and are reported (trajopt_sqp)", "statement": "A run of TrustRegionSQPSolver::solve reads the clock before every SQP step. Every reading but the last is within max_time, so the run ends with the first reading beyond it; such a run reports kTimeLimit, or kConverged if the best point satisfies the constraints, and kTimeLimit is reported only after such a reading. No SQP step is begun once max_iterations QPs have been solved, kIterationLimit is reported only when that many QPs were solved, and kPenaltyIterationLimit only after the last penalty round.", "quantifier": "for all parameters, all problems, all answers of the QP solver and the callbacks, and all clocks", "why_tests_cant": "The statement is about every schedule of clock readings and QP answers; a test fixes one schedule and cannot control the clock.", "anchors": ["trajopt_optimizers/trajopt_sqp/src/trust_region_sqp_solver.cpp: solve, stepSQPSolver, verifySQPSolverConvergence"]}
{"id": "C88", "title": "Decision taken after each QP (trajopt_sqp)", "statement": "After each QP of the trust-region loop exactly one of the following happens. The QP failed: the point is kept and the trust box is multiplied by trust_shrink_ratio, or set to min_trust_box_size on the last permitted failure, or the loop ends with kQPSolveFailed after that. A callback returned false: the loop ends with kStoppedByCallback and the point is kept. The model promises less than min_approx_improve or less than the fraction min_approx_improve_frac of the merit: the step is converged and the point kept. The true improvement is negative or less than improve_ratio_threshold of the promise: the box shrinks and the point is kept. Otherwise the answer becomes the best point with its own exact costs, violations and merit, and the box is multiplied by trust_expand_ratio.", "quantifier": "for all parameters, states of the loop, QP answers and callback answers", "why_tests_cant": "The decision depends on the order of five comparisons over real numbers; tests visit a few branches on converging problems.", "anchors": ["trajopt_optimizers/trajopt_sqp/src/trust_region_sqp_solver.cpp: runTrustRegionLoop, solveQPProblem"]}
{"id": "C89", "title": "Decision taken after each QP (trajopt_sco)", "statement": "After each QP of BasicTrustRegionSQP::optimize exactly one of the following happens. The solver failed: the point is kept and the trust box is multiplied by trust_shrink_ratio, or set to min_trust_box_size on the last permitted failure, or the run ends with OPT_FAILED after that. The model promises less than min_approx_improve, or less than min_approx_improve_frac of the current merit: the penalties are adjusted and the point kept. The true improvement is negative or less than improve_ratio_threshold of the promise: the box shrinks and the point is kept. Otherwise the answer becomes the current point together with its own exact costs and violations, and the box is multiplied by trust_expand_ratio.", "quantifier": "for all parameters, states of the loop and answers of the convex solver", "why_tests_cant": "The decision depends on the order of comparisons over real numbers and on division by a merit that may be zero; tests visit a few branches.", "anchors": ["trajopt_sco/src/optimizers.cpp: BasicTrustRegionSQP::optimize, BasicTrustRegionSQPResults::update, adjustTrustRegion, setTrustRegionSize"]}
{"id": "C90", "title": "Penalty coefficients over a whole run (trajopt_sco)", "statement": "When a penalty round of BasicTrustRegionSQP ends with a violation not below cnt_tolerance and a round is left, the next round starts at the same point with a trust box of at least min_trust_box_size, and with the coefficient of every constraint violated by more than the tolerance (of every constraint, if they are not inflated individually) multiplied by merit_coeff_increase_ratio and the others unchanged. Hence at the end of any run each coefficient is initial_merit_error_coeff times merit_coeff_increase_ratio to a power of at most the number n of adjustments (exactly n without individual inflation), n is at most max_merit_coeff_increases, and equal to it when OPT_PENALTY_ITERATION_LIMIT is reported.", "quantifier": "for all parameters, problems, answers of the convex solver and clocks", "why_tests_cant": "A statement about all histories of penalty rounds; tests only see the final point.", "anchors": ["trajopt_sco/src/optimizers.cpp: BasicTrustRegionSQP::optimize"]}
{"id": "C91", "title": "Time and iteration limits stop the optimizer and are reported (trajopt_sco)", "statement": "BasicTrustRegionSQP::optimize reads the clock before every SQP iteration. Every reading but the last is within max_time; a run with a reading beyond it ends there and reports OPT_TIME_LIMIT or OPT_CONVERGED, and OPT_TIME_LIMIT is reported only after such a reading. A run makes at most max_merit_coeff_increases * max(1, max_iter) SQP iterations, and OPT_SCO_ITERATION_LIMIT is reported only after at least max(1, max_iter) of them with a violation at the returned point that is not below the tolerance.", "quantifier": "for all parameters, problems, answers of the convex solver and clocks", "why_tests_cant": "The statement is about every schedule of clock readings and QP answers; a test fixes one schedule and cannot control the clock.", "anchors": ["trajopt_sco/src/optimizers.cpp: BasicTrustRegionSQP::optimize"]}
{"id": "C92", "title": "Rows and values of the collision constraints with fixed rows", "statement": "A Discrete/ContinuousCollisionConstraint made for m contact pairs always has exactly m rows with bounds [-inf, 0], whatever happened before. After Update at a point x its rows describe exactly the contacts at x: every contact that moves a link and lies within margin + buffer belongs to the group of its link pair and shape pair; the i-th row carries the largest margin - distance of the i-th kept group and that pair's coefficient; the rows without a group read -buffer.", "quantifier": "for all evaluators, configurations, contact sets, sort results, cache states and histories of Update calls", "why_tests_cant": "The value depends on the whole history through the cache and on how contacts are filtered, grouped, sorted and cut off; tests use single configurations with one or two contacts.", "anchors": ["trajopt_ifopt/src/constraints/collision/discrete_collision_constraint.cpp: DiscreteCollisionConstraint::Update, GetValues, CalcValues", "trajopt_ifopt/src/constraints/collision/continuous_collision_constraint.cpp: ContinuousCollisionConstraint", "trajopt_ifopt/src/constraints/collision/discrete_collision_evaluators.cpp: CalcCollisions", "trajopt_ifopt/src/constraints/collision/continuous_collision_evaluators.cpp: CalcCollisionData"]}
{"id": "C93", "title": "A satisfied collision constraint means no contact is within its margin", "statement": "For a non-negative buffer, all rows of a Discrete/ContinuousCollisionConstraint are satisfied at x if and only if every contact that the evaluator considers at x (and, for a motion with a fixed end, that belongs to the free end) is at least its safety margin away, even when there are more shape pairs in contact than rows.", "quantifier": "for all evaluators, contact sets, numbers of rows, sort results and histories of Update calls", "why_tests_cant": "A safety claim over all sets of contacts: a test would have to hit the combination of many contacts, few rows and asymmetric links.", "anchors": ["trajopt_ifopt/src/constraints/collision/discrete_collision_constraint.cpp", "trajopt_ifopt/src/constraints/collision/continuous_collision_constraint.cpp", "trajopt_ifopt/src/constraints/collision/discrete_collision_evaluators.cpp", "trajopt_ifopt/src/constraints/collision/continuous_collision_evaluators.cpp"]}
{"id": "C94", "title": "Jacobian of the collision constraints with fixed rows", "statement": "The i-th Jacobian row of a Discrete/ContinuousCollisionConstraint is minus the weighted average of the distance gradients of the i-th contact group, written in the columns of the position variable (of each free end); every other entry is zero. With fixed sparsity the stored pattern is the full block and the same for every point and history.", "quantifier": "for all evaluators, contact sets, variable offsets, numbers of rows and histories", "why_tests_cant": "Entries come from weights over groups of contacts and sit at offsets that depend on the problem; the QP solver relies on the pattern for every later point.", "anchors": ["trajopt_ifopt/src/constraints/collision/discrete_collision_constraint.cpp: CalcJacobianBlock, FillJacobianBlock", "trajopt_ifopt/src/constraints/collision/continuous_collision_constraint.cpp: FillJacobianBlock", "trajopt_ifopt/src/constraints/collision/weighted_average_methods.cpp"]}
{"id": "C95", "title": "Collision constraints with one row per contact", "statement": "After Update at x a Discrete/ContinuousCollisionConstraintD has one row per contact within reach at x, in order, with value margin - distance, the coefficient of its link pair and bounds [-inf, 0]; its Jacobian row is minus the sum of the link gradients of that contact (weighted by the collision time for a motion); and for a non-negative buffer all rows are satisfied exactly when every considered contact keeps its margin.", "quantifier": "for all evaluators, contact sets, variable offsets and histories of Update calls", "why_tests_cant": "The number of rows changes from point to point; tests check a few configurations.", "anchors": ["trajopt_ifopt/src/constraints/collision/discrete_collision_constraint.cpp: DiscreteCollisionConstraintD", "trajopt_ifopt/src/constraints/collision/continuous_collision_constraint.cpp: ContinuousCollisionConstraintD"]}
{"id": "C96", "title": "Numerical collision Jacobians are difference quotients", "statement": "Each entry (i, j) of the Jacobian of Discrete/ContinuousCollisionNumericalConstraint is the forward difference quotient of the i-th group's value along joint j of the variable its column belongs to: the value of the same link pair and shape pair at the displaced point minus the value at x, divided by the step (a pair out of reach counts with the value -buffer, as in C92); rows without a group are zero.", "quantifier": "for all evaluators, contact functions, steps, offsets, numbers of rows and histories", "why_tests_cant": "The quotient involves contacts at displaced points, matched by keys; tests compare with analytic Jacobians within loose tolerances on one geometry.", "anchors": ["trajopt_ifopt/src/constraints/collision/discrete_collision_numerical_constraint.cpp: CalcJacobianBlock", "trajopt_ifopt/src/constraints/collision/continuous_collision_numerical_constraint.cpp: FillJacobianBlock"]}
{"id": "C97", "title": "The solver always solves the QP that was handed over last", "statement": "One TrustRegionSQPSolver working on one problem with OSQPEigenSolver never fails a size assertion, and every solve poses to OSQP exactly the QP of the last convexify with the bounds of the last bounds update: same rows, doubled Hessian, the gradient without entries below 1e-7, bounds with the same meaning. This holds whatever in-place updates OSQP refused (the solver is then rebuilt), whatever earlier solves answered and whether the sizes of the QP changed. A returned solution is OSQP's answer to that QP.", "quantifier": "for all histories of transfers, bounds updates and solves; all outcomes of OSQP's updates, initialisations and solves; all QPs", "why_tests_cant": "The stale or half-updated workspace only shows after particular refusals of the library in the middle of an update sequence; tests never make OSQP refuse.", "anchors": ["trajopt_optimizers/trajopt_sqp/src/osqp_eigen_solver.cpp: OSQPEigenSolver::init, clear, solve, updateHessianMatrix, updateGradient, updateBounds, updateLinearConstraintsMatrix", "trajopt_optimizers/trajopt_sqp/src/trust_region_sqp_solver.cpp: TrustRegionSQPSolver::stepSQPSolver"]}
{"id": "C98", "title": "OSQP's program means the QP problem", "statement": "The program handed to OSQP has the same feasible points as the QP problem and the same objective, so that a minimiser of OSQP's program minimises smooth cost plus weighted violation of the linearised rows over the trust box.", "quantifier": "for all QP problems whose finite bounds are inside OSQP's range and all points", "why_tests_cant": "The factor two, the cut-off of small gradient entries and the clamping of infinite bounds matter for every point and every QP, not for sampled ones.", "anchors": ["trajopt_optimizers/trajopt_sqp/src/osqp_eigen_solver.cpp: updateHessianMatrix, updateGradient, updateBounds", "trajopt_optimizers/trajopt_sqp/src/trajopt_qp_problem.cpp: TrajOptQPProblem::Implementation::convexify"]}
{"id": "C99", "title": "The warm start is the current point with the slacks it needs", "statement": "With warm starting enabled, the starting point given to OSQP after a rebuild is the current value of the variables followed by slacks that make it feasible for the QP, and zero multipliers, all of the right sizes; with warm starting disabled none is given.", "quantifier": "for all QP problems, current points and constraint violations", "why_tests_cant": "Which slack belongs to which row depends on the order and kinds of all costs and constraints; the result only changes the number of iterations, so no functional test sees it.", "anchors": ["trajopt_optimizers/trajopt_sqp/src/osqp_eigen_solver.cpp: OSQPEigenSolver::setWarmStart, solve"]}
{"id": "C100", "title": "The solver status tells whether the last solve succeeded", "statement": "After a solve, getSolverStatus is kFailed exactly if that solve failed.", "quantifier": "for all histories and all answers of OSQP", "why_tests_cant": "Needs a failed solve followed by a successful one on the same workspace.", "anchors": ["trajopt_optimizers/trajopt_sqp/src/osqp_eigen_solver.cpp: OSQPEigenSolver::solve, init", "trajopt_optimizers/trajopt_sqp/src/trust_region_sqp_solver.cpp: stepSQPSolver"]}
{"id": "C101", "title": "The collision terms penalise every relevant contact once", "statement": "The value of a (legacy) CollisionCost is the sum, over all contacts of link pairs whose coefficient is not zero and that the free states of the term can influence, of coefficient times depth below the pair's safety margin; the violation of a CollisionConstraint is the same sum with each contribution at least zero. Contacts beyond the margin count nothing, whatever the buffer.", "quantifier": "for all contact maps, configurations with non-negative buffer, and the four kinds of terms (single time step, both free, start free, end free)", "why_tests_cant": "The filter that drops contacts compares distances with margin plus buffer and classifies contacts by time for fixed states; all combinations of contact times per link and distances must agree with the definition.", "anchors": ["trajopt/src/collision_terms.cpp: CollisionCost::value, CollisionConstraint::value, GetContactResultVectorCached, CollisionEvaluator::removeInvalidContactResults", "trajopt_common/src/collision_utils.cpp: removeInvalidContactResults"]}
{"id": "C102", "title": "Convexified collision terms model the linearised distances", "statement": "Convexifying a collision cost and adding it to the solver's model yields a program whose minimum over the auxiliary variables is, at every point of the real variables, the sum of coefficient times the depth of the linearised contact distances below the margins; for the constraint the linear rows have the corresponding violation. At the point of linearisation the model has the value of the cost.", "quantifier": "for all contact maps, points of linearisation, evaluation points and non-negative coefficients", "why_tests_cant": "Must hold at every point of the variables, for every contact geometry and every kind of term; the solver would only show the minimiser of a few.", "anchors": ["trajopt/src/collision_terms.cpp: GetGradient, CollisionsToDistanceExpressions, CalcDistExpressionsStartFree, CalcDistExpressionsEndFree, CalcDistExpressionsBothFree, CalcDistExpressionsSingleTimeStep, CollisionCost::convex, CollisionConstraint::convex"]}
{"id": "C103", "title": "A satisfied collision constraint means every relevant contact keeps its margin", "statement": "With positive coefficients and a non-negative buffer, a CollisionConstraint reports zero violation (and a CollisionCost zero value) exactly if every reported contact between pairs with nonzero coefficient that the free states can influence is at least the pair's margin apart.", "quantifier": "for all contact maps and configurations", "why_tests_cant": "Safety claim over all scenes; a test sees single scenes.", "anchors": ["trajopt/src/collision_terms.cpp: CollisionConstraint::value, CollisionCost::value", "trajopt_sco/src/modeling.cpp: Constraint::violation"]}
{"id": "C104", "title": "The linearised contact distance is first-order correct", "statement": "In every direction of the free joint variables the slope of the linearised distance equals the derivative of the gap between the two contact points along the contact normal, with swept contact points interpolated between the two states by the contact time.", "quantifier": "for all kinematics with their Jacobians, contacts, points and directions", "why_tests_cant": "Numeric gradient tests compare a few poses with a tolerance; the statement is an exact derivative for every mechanism.", "anchors": ["trajopt/src/collision_terms.cpp: GetGradient, CollisionsToDistanceExpressions, CalcDistExpressions*"]}
{"id": "C105", "title": "A Cartesian position constraint constrains exactly the weighted components", "statement": "The bounds of a CartPosConstraint admit its values exactly if every component of the pose error between source and target frame whose coefficient is not (almost) zero lies within the bounds the user gave for that component, whether range bounds are kept or split into two rows; every row carries the coefficient of its own component. The constructor throws exactly for missing links, wrong numbers of bounds or coefficients, or two links that do not move. Without coefficients and bounds the constraint holds exactly at the target pose. setTargetPose equals construction with the new target.", "quantifier": "for all robots, poses, joint values, bounds and coefficients", "why_tests_cant": "The selection of components, the split of range bounds and the pairing of rows with coefficients interact; tests use a few fixed selections.", "anchors": ["trajopt_ifopt/src/constraints/cartesian_position_constraint.cpp: CartPosConstraint::CartPosConstraint, CartPosConstraint::calcValues, CartPosConstraint::setTargetPose, CartPosInfo::CartPosInfo"]}
{"id": "C106", "title": "The Jacobian of a Cartesian position constraint belongs to its values", "statement": "Row r of the Jacobian is the derivative of value r with respect to the joints (to the step of the numeric difference), stored in the columns of the constraint's own variable, for every selection of components and every row split.", "quantifier": "for all robots, joint values, selections and bounds", "why_tests_cant": "Gradient tests compare a few poses; an index error shows only for particular selections and for the non-default mode.", "anchors": ["trajopt_ifopt/src/constraints/cartesian_position_constraint.cpp: CartPosConstraint::calcJacobianBlock, CartPosConstraint::fillJacobianBlock"]}
{"id": "C107", "title": "The legacy pose terms measure the distance from the tolerance band", "statement": "CartPose and DynamicCartPose errors are, for every selected component, the distance of the pose error from the interval between its lower and upper tolerance; they are zero exactly if every selected component is within tolerance. Their Jacobian columns are the difference quotients of the error. Inverted tolerances, tolerances of different sizes and more than six indices are rejected. The terms select exactly the components with a nonzero coefficient.", "quantifier": "for all robots, poses, joint values, tolerances and selections", "why_tests_cant": "Tests use wide tolerances and a single moving frame; equal tolerances and two moving frames are separate classes of input.", "anchors": ["trajopt/src/kinematic_terms.cpp: CartPoseErrCalculator, CartPoseJacCalculator, DynamicCartPoseErrCalculator, DynamicCartPoseJacCalculator, applyTolerances, checkTolerances", "trajopt/src/problem_description.cpp: CartPoseTermInfo::hatch, DynamicCartPoseTermInfo::hatch"]}
{"id": "C108", "title": "A Cartesian line constraint measures against the nearest point of the segment", "statement": "CartLineConstraint measures the source pose against the point of the segment between the two target poses that is nearest to it, with the orientation interpolated at that point; its values are zero exactly if the pose is on the segment with that orientation. The Jacobian rows are the difference quotients of the values, for every selection of components, and bounds can be set for every selection.", "quantifier": "for all segments, poses, joint values and selections", "why_tests_cant": "The existing test uses one segment and one starting pose; the projection has several regions and depends on length, direction and frame of the segment.", "anchors": ["trajopt_ifopt/src/constraints/cartesian_line_constraint.cpp: CartLineConstraint::getLinePoint, CartLineConstraint::calcValues, CartLineConstraint::calcJacobianBlock, CartLineConstraint::setBounds"]}
{"id": "C109", "title": "The inverse kinematics constraint is satisfied exactly where the tool reaches the target", "statement": "InverseKinematicsConstraint returns the difference between the joint values and a nearest inverse kinematics solution for the target pose. It is zero exactly at the solutions, so wherever it is satisfied the tool (with its offset) is at the target; a target without solution is not reported as satisfied. The Jacobian is the derivative of the values.", "quantifier": "for all robots, solvers, targets, offsets, seeds and joint values", "why_tests_cant": "The solver may return any number of solutions in any order; tests use one robot and reachable targets without an offset.", "anchors": ["trajopt_ifopt/src/constraints/inverse_kinematics_constraint.cpp: InverseKinematicsConstraint::getValues, InverseKinematicsConstraint::getJacobian, InverseKinematicsConstraint::setBounds, InverseKinematicsInfo::InverseKinematicsInfo"]}
{"id": "C110", "title": "A Cartesian velocity term limits the displacement of the link in every step", "statement": "With CartVelTermInfo as a constraint the change of position of the link between every step of the range and the next is at most max_displacement; as a cost, excess displacement is what is penalised. The Jacobian is the derivative of the error. Every accepted range of steps can be built, and every requested term is added.", "quantifier": "for all robots, trajectories, ranges of steps and limits", "why_tests_cant": "Ranges that end with the last state, oblique motions and time-based requests are classes of input that example tests skip.", "anchors": ["trajopt/src/kinematic_terms.cpp: CartVelErrCalculator, CartVelJacCalculator", "trajopt/src/problem_description.cpp: CartVelTermInfo::fromJson, CartVelTermInfo::hatch"]}
{"id": "C111", "title": "The singularity term keeps the smallest singular value above its threshold", "statement": "AvoidSingularityTermInfo as a constraint is satisfied exactly if, in every step of the range, no singular value of the robot Jacobian is below 0.1; as a cost, being further from a singularity never costs more. The gradient tends to the derivative of the error as the perturbation tends to zero. With subset kinematics the term depends on the joints of the subset only, and the gradient is zero for the others.", "quantifier": "for all robots with differentiable Jacobian, joint values, damping factors, coefficients and joint subsets", "why_tests_cant": "A statement about all configurations and a limit; tests compare a few numbers.", "anchors": ["trajopt/src/kinematic_terms.cpp: AvoidSingularityErrCalculator, AvoidSingularityJacCalculator, AvoidSingularitySubsetErrCalculator, AvoidSingularitySubsetJacCalculator", "trajopt/src/problem_description.cpp: AvoidSingularityTermInfo::hatch"]}
{"id": "C112", "title": "The constructed problem has the requested variables and starting trajectory", "statement": "ConstructProblem makes one variable for every step and joint, with the joint's limits, and in problems that use time one 1/dt variable per step with the dt limits. The starting trajectory is the requested one: the current state at every step, the given matrix, or a straight line from the current state to the given end; the time column starts with the given dt. Unsuitable input (inconsistent time flags, wrong sizes) is rejected and nothing else is. The starting trajectory lies within the limits.", "quantifier": "for all robots, numbers of steps, kinds of starting trajectory, limits, fixed steps and joints", "why_tests_cant": "Sizes, modes and the time flag combine without bound; tests build a few problems and look at the result of the optimisation.", "anchors": ["trajopt/src/problem_description.cpp: ConstructProblem, generateInitTraj", "trajopt/src/utils.cpp: TrajArray"]}
{"id": "C113", "title": "Every listed term becomes what its list says", "statement": "A term in cost_infos adds costs and a term in cnt_infos adds constraints, in every accepted problem; a problem is accepted exactly if all terms support what they ask for and the use_time flag says whether one of them uses time.", "quantifier": "for all lists of terms of all kinds with all declared types", "why_tests_cant": "The declared type is a bit set independent of the list; tests fill both consistently.", "anchors": ["trajopt/src/problem_description.cpp: ConstructProblem", "trajopt/include/trajopt/problem_description.hpp: TermInfo, TermType"]}
{"id": "C114", "title": "A joint term bounds every joint at every step by the documented tolerances", "statement": "A joint position, velocity, acceleration or jerk term as a constraint is satisfied exactly if in every step of its range every difference of that order is within [target + lower_tol, target + upper_tol]; as a cost it is the weighted sum of squared deviations (zero tolerances) or of the distances from the band. One value in a list means all joints, no list the default; other sizes are rejected. With the time flag the same holds for velocities divided by dt; for positions the flag makes no difference.", "quantifier": "for all trajectories, targets, tolerances, weights and ranges of steps", "why_tests_cant": "Small tolerances select a different code path, and time changes the error function; tests check single values.", "anchors": ["trajopt/src/problem_description.cpp: JointPosTermInfo::hatch, JointVelTermInfo::hatch, JointAccTermInfo::hatch, JointJerkTermInfo::hatch, checkParameterSize"]}
{"id": "C115", "title": "The total time term bounds the duration of the trajectory", "statement": "TotalTimeTermInfo as a constraint is satisfied exactly if the sum of the durations of all steps is at most the limit, as a cost it is the weighted excess over the limit, and it depends on the time variables only. Its derivative is that of the duration.", "quantifier": "for all trajectories, limits and weights", "why_tests_cant": "Holds for all trajectories; tests use problems with a time column only.", "anchors": ["trajopt/src/problem_description.cpp: TotalTimeTermInfo::hatch", "trajopt/src/kinematic_terms.cpp: TimeCostCalculator, TimeCostJacCalculator"]}
{"id": "C116", "title": "A user defined term applies the user's function to every free step of its range", "statement": "UserDefinedTermInfo adds one cost or constraint for each step from first_step to last_step that is not fixed, of the user's error function (and Jacobian, if given) at the joint values of that step with the given weights and type. Steps outside the trajectory are rejected; a term left at its default range can be used.", "quantifier": "for all functions, ranges, fixed steps, weights and trajectories", "why_tests_cant": "The function is arbitrary; ranges and fixed steps combine without bound.", "anchors": ["trajopt/src/problem_description.cpp: UserDefinedTermInfo::hatch", "trajopt/include/trajopt/problem_description.hpp: UserDefinedTermInfo"]}
{"id": "C117", "title": "A problem document is read as the format says and anything else is rejected", "statement": "Reading a JSON problem description that follows the format gives exactly the described problem: every member has its value, or its documented default if it is absent, link pairs of collision terms get the margin and coefficient of the last entry that lists them, in either order, and all other pairs the default. A document with an unknown term type, a missing required member, an unknown parameter, a value of the wrong type, an unknown group or link, or steps or limits out of range is rejected.", "quantifier": "for all documents", "why_tests_cant": "Documents are trees without bound and any member can be absent, misspelt or of the wrong type; the tests read a few valid files.", "anchors": ["trajopt/src/problem_description.cpp: ProblemConstructionInfo::fromJson, readBasicInfo, readOptInfo, readCosts, readConstraints, readInitInfo, fromJson of all terms", "trajopt/src/json_marshal.cpp: fromJson", "trajopt/include/trajopt/json_marshal.hpp: childFromJson, fromJsonArray", "trajopt_sco/src/solver_interface.cpp: ModelType::fromJson"]}
{"id": "C118", "title": "Every accepted document becomes a problem with one term per entry", "statement": "For every accepted document the problem has one cost term for each entry of costs and one constraint term for each entry of constraints, in order; it has time variables exactly if some term asks for time or basic_info does; and building the problem succeeds if the terms that ask for time support it and the fixed steps and joints exist.", "quantifier": "for all documents, groups and joint limits", "why_tests_cant": "The lists and flags combine without bound.", "anchors": ["trajopt/src/problem_description.cpp: readCosts, readConstraints, ProblemConstructionInfo::fromJson, ConstructProblem"]}
{"id": "C119", "title": "The offset of a Cartesian term is the rotation of its quaternion", "statement": "The offset that is read from xyz and wxyz rotates every vector v to q v q* and translates by xyz, so that it is a rigid transform, whatever quaternion is given.", "quantifier": "for all offsets and quaternions", "why_tests_cant": "Continuous family; tests use the identity.", "anchors": ["trajopt/src/problem_description.cpp: CartPoseTermInfo::fromJson, DynamicCartPoseTermInfo::fromJson"]}
{"id": "C120", "title": "The optimiser runs with the parameters in opt_info", "statement": "When a problem is read from a document and solved with OptimizeProblem, the optimiser uses the parameters given in opt_info.", "quantifier": "for all documents", "why_tests_cant": "Any parameter can be given any value; the effect of most is not visible in the result of a test.", "anchors": ["trajopt/src/problem_description.cpp: OptimizeProblem, readOptInfo", "trajopt/include/trajopt/problem_description.hpp: ProblemConstructionInfo::opt_info"]}
{"id": "C121", "title": "optimize of the OSQP model solves the model's current problem", "statement": "After any sequence of calls that adds, removes or changes variables, bounds, constraints and the objective, mixed with calls of optimize() whatever OSQP answered in them, optimize() runs OSQP on exactly the problem the model describes at that moment (cost and feasible set), never on an older one; it reports solved/infeasible exactly when that run does, hands out that run's solution, and keeps the previous solution when setup or the run fails. The reuse of the workspace (update_workspace) and warm starts must not change this.", "quantifier": "all histories of calls, all answers of OSQP to each of its calls, all configurations", "why_tests_cant": "The workspace state depends on the whole history of patterns, statuses and failures; tests solve a handful of models once or twice and never make OSQP fail in the middle.", "anchors": ["trajopt_sco/src/osqp_interface.cpp: OSQPModel::optimize, createOrUpdateSolver, updateObjective, updateConstraints"]}
{"id": "C122", "title": "optimize of the qpOASES model does not depend on earlier runs", "statement": "optimize() of the qpOASES model gives the solver exactly the model's current problem; a hot start is used only on an initialised problem of the right sizes, and otherwise (or if it does not succeed) a new problem is started with the full budget of working set recalculations; status and solution are those of that run, so a model that a fresh object can solve is also solved by one that was used before.", "quantifier": "all models, all earlier histories, all behaviours of the solver", "why_tests_cant": "Whether a hot start fails depends on the numbers; tests only see models whose hot starts succeed.", "anchors": ["trajopt_sco/src/qpoases_interface.cpp: qpOASESModel::optimize, updateSolver, createSolver"]}
{"id": "C123", "title": "Collision settings survive YAML and archives", "statement": "Writing collision coefficients or a collision configuration to a YAML node or an archive and reading it back gives an object with the same fields, the same coefficient for every pair of links, the same set of zero pairs, and that compares equal, whatever calls built the object and in whatever order the hash map is iterated.", "quantifier": "all histories of calls, all iteration orders, all configurations", "why_tests_cant": "The iteration order of an unordered_map is unspecified and depends on names and library; tests write one or two pairs.", "anchors": ["trajopt_common/include/trajopt_common/yaml_extensions.h: convert<CollisionCoeffData>, convert<TrajOptCollisionConfig>", "trajopt_common/include/trajopt_common/cereal_serialization.h: serialize"]}
{"id": "C124", "title": "Reading collision settings from YAML", "statement": "Every entry of a collision configuration document (including the announced alias 'buffer' and scale_margins) determines its field, entries that are absent leave the field unchanged, a table of pair coefficients gives each unordered pair its last listed value, and documents with wrong shapes are rejected instead of being silently ignored.", "quantifier": "all documents", "why_tests_cant": "Documents come from users; the tests decode a handful of well formed ones.", "anchors": ["trajopt_common/include/trajopt_common/yaml_extensions.h: decode"]}
{"id": "C125", "title": "Comparison of collision settings", "statement": "Two collision coefficient objects compare equal exactly if their defaults agree (to float precision), the same pairs have explicit coefficients with agreeing values and the same pairs are zero; equality is an equivalence relation, independent of the order in which pairs were set.", "quantifier": "all pairs of histories", "why_tests_cant": "Needs all histories; tests compare two objects built by the same calls.", "anchors": ["trajopt_common/src/collision_types.cpp: CollisionCoeffData::operator==, TrajOptCollisionConfig::operator=="]}
{"id": "C126", "title": "A converged run of the trust-region optimiser satisfies the joint terms the user asked for", "statement": "If a problem is built from a description and BasicTrustRegionSQP::optimize, started after initialize, returns OPT_CONVERGED (and the time limit was not exceeded before the first iteration), then for every joint position, velocity, acceleration or jerk term that was given as a constraint, at every step of its range and for every joint, the corresponding difference of the returned trajectory lies within the tolerances of the term, widened by cnt_tolerance divided by the coefficient of the joint. If all tolerances of the term are below 1e-5 the squared deviation from the target is below cnt_tolerance / coefficient. The same holds for velocities computed with the durations when the term uses time.", "quantifier": "for every problem description, joint term with positive coefficients, other costs and constraints, convex solver behaviour, clock, parameters and starting point", "why_tests_cant": "joins the construction of the problem, the numbers reported by each constraint and every path through three nested loops; a test sees one trajectory of one problem", "anchors": ["trajopt/src/problem_description.cpp: ConstructProblem, JointPosTermInfo::hatch, JointVelTermInfo::hatch, JointAccTermInfo::hatch, JointJerkTermInfo::hatch", "trajopt/src/trajectory_costs.cpp", "trajopt_sco/src/modeling.cpp: Constraint::violation", "trajopt_sco/src/optimizers.cpp: BasicTrustRegionSQP::optimize"]}
{"id": "C127", "title": "The optimiser never returns a trajectory outside the joint limits or away from the fixed steps", "statement": "Whatever status BasicTrustRegionSQP::optimize returns (converged, iteration, penalty or time limit, failed), the trajectory in its results has one value for every variable of the problem, keeps the joint limits and the limits of the durations, and agrees with the initial trajectory at every fixed timestep and for every fixed joint, all up to the accuracy to which the convex solver keeps the bounds and linear constraints it is given.", "quantifier": "for every problem description with existing fixed indices, accuracy, solver answers, costs and constraints, clock, parameters, state before the call and returned status", "why_tests_cant": "needs an invariant over all exits of three nested loops, including failures of the convex solver; a test shows a few exits", "anchors": ["trajopt/src/problem_description.cpp: ConstructProblem", "trajopt_sco/src/optimizers.cpp: BasicTrustRegionSQP::optimize", "trajopt_sco/src/modeling.cpp: OptProb::getClosestFeasiblePoint"]}
{"id": "C128", "title": "Evaluation with several threads gives the values of the single-threaded optimiser", "statement": "BasicTrustRegionSQPMultiThreaded fills the vectors of cost values and constraint violations (exact and of the convex model) in parallel loops. Whatever the number of threads and however the iterations are scheduled, the vectors are those that BasicTrustRegionSQP computes one after the other: element i is the value of cost or constraint i.", "quantifier": "every number of terms, every evaluation function, every schedule that makes all iterations", "why_tests_cant": "A test run sees a handful of schedules of one machine; whether an element depends on the order of the iterations has to be excluded for all of them.", "anchors": ["trajopt_sco/src/optimizers.cpp: BasicTrustRegionSQPMultiThreaded::evaluateCosts, evaluateConstraintViols, evaluateModelCosts, evaluateModelCntViols"]}
{"id": "C129", "title": "Convexification with several threads builds the same convex model as one thread would", "statement": "BasicTrustRegionSQPMultiThreaded convexifies all costs in parallel on one solver model. For every schedule, the run does not touch freed memory, gets stuck nowhere, and at the end every variable asked for by any term exists once, belongs to that term alone and has the bounds asked for; nothing else in the model has changed. Hence hinge terms cost what they would cost if the terms were convexified one after the other.", "quantifier": "every number of terms and variables, every schedule at the granularity of single memory accesses, every starting state of the vectors, every growth policy of std::vector", "why_tests_cant": "A data race shows up only in schedules that tests hit by luck, and a lost bound is not noticed: the solver just returns the minimiser of another problem.", "anchors": ["trajopt_sco/src/optimizers.cpp: BasicTrustRegionSQPMultiThreaded::convexifyCosts", "trajopt_sco/src/solver_interface.cpp: Model::addVar(name, lb, ub)", "trajopt_sco/src/osqp_interface.cpp: OSQPModel::addVar, OSQPModel::setVarBounds", "trajopt_sco/src/qpoases_interface.cpp: qpOASESModel::addVar, setVarBounds", "trajopt_sco/src/bpmpd_interface.cpp: BPMPDModel::addVar, setVarBounds", "trajopt_sco/src/modeling.cpp: ConvexObjective::addHinge"]}
{"id": "C130", "title": "The SQP solver drives problem and QP solver together without failure and always solves the QP it believes it solves", "statement": "A TrustRegionSQPSolver with a TrajOptQPProblem that has been set up and a new OSQPEigenSolver runs without assertion, exception, index out of range or size mismatch, and returns. Every program OSQP is given during the run (after convexification, after every change of the trust box, after failures, with and without warm start, whether OSQP accepts updates in place or has to be set up again) is the problem convexified at the best point of that moment, in the trust box and with the merit coefficients reported at that moment; the answer taken is OSQP's answer to that program, and a minimiser of it minimises the convexified cost plus the weighted violations of the linearised rows in the trust box.", "quantifier": "every problem (costs and constraints with any number of rows that may change from point to point), parameters without negative sizes, every sequence of answers, failures and refusals of OSQP, callbacks and clock", "why_tests_cant": "The agreement of three objects with their own caches has to hold after every sequence of updates, refusals and failures; a stale bound or matrix does not crash but makes the solver optimise another problem.", "anchors": ["trajopt_optimizers/trajopt_sqp/src/trust_region_sqp_solver.cpp: TrustRegionSQPSolver::solve, stepSQPSolver, runTrustRegionLoop, solveQPProblem, setBoxSize, adjustPenalty", "trajopt_optimizers/trajopt_sqp/src/trajopt_qp_problem.cpp: TrajOptQPProblem::convexify, setVariables, setBoxSize, setConstraintMeritCoeff, evaluateConvexCosts", "trajopt_optimizers/trajopt_sqp/src/osqp_eigen_solver.cpp: OSQPEigenSolver"]}
{"id": "C131", "title": "kConverged means that every row of every constraint holds at the returned variables", "statement": "When TrustRegionSQPSolver::solve on a TrajOptQPProblem ends, the costs, violations and merit in its results are those of the variables left in the problem. The status is kConverged exactly when the violation of every constraint set at these variables is below cnt_tolerance; then every single row of every constraint set is within cnt_tolerance of its bounds.", "quantifier": "every problem, parameters, answers of OSQP, callbacks and clock; every constraint set and row", "why_tests_cant": "Needs an invariant over all exits of the nested loops of the whole assembly of solver, problem and QP solver; tests see a few runs on mocked or small problems.", "anchors": ["trajopt_optimizers/trajopt_sqp/src/trust_region_sqp_solver.cpp: TrustRegionSQPSolver::solve, verifySQPSolverConvergence", "trajopt_optimizers/trajopt_sqp/src/trajopt_qp_problem.cpp: TrajOptQPProblem::getExactConstraintViolations, getExactCosts"]}
{"id": "C132", "title": "The SQP solver returns the initial variables or variables within their bounds", "statement": "Whatever status TrustRegionSQPSolver::solve returns, the variables it leaves in a TrajOptQPProblem are the initial ones, or they are within the bounds of the variables up to the accuracy to which OSQP satisfies the rows of its programs.", "quantifier": "every problem, accuracy, parameters, answers and failures of OSQP, callbacks, clock and returned status", "why_tests_cant": "Needs that at no point of any run the trust box sent to OSQP is stale or reaches over the bounds of a variable, for all exits of the loops.", "anchors": ["trajopt_optimizers/trajopt_sqp/src/trust_region_sqp_solver.cpp: TrustRegionSQPSolver::solve", "trajopt_optimizers/trajopt_sqp/src/trajopt_qp_problem.cpp: TrajOptQPProblem::updateNLPVariableBounds", "trajopt_optimizers/trajopt_sqp/src/osqp_eigen_solver.cpp: OSQPEigenSolver::updateBounds"]}
{"id": "C133", "title": "The SQP solver and IfoptQPProblem work together without failure and OSQP always gets the QP of the current point, box and penalties", "statement": "A TrustRegionSQPSolver with an IfoptQPProblem that has been set up and a new OSQPEigenSolver runs without assertion, exception, index out of range or size mismatch, and returns. Every program OSQP is given during the run is the problem convexified at the best point of that moment, in the trust box and with the merit coefficients reported at that moment; the answer taken is OSQP's answer to that program, and a minimiser of it minimises the smooth cost plus the weighted violations of the linearised rows in the trust box.", "quantifier": "every problem (squared costs and constraints with any number of rows), parameters without negative sizes, every sequence of answers, failures and refusals of OSQP, callbacks and clock", "why_tests_cant": "The agreement of solver, problem and QP solver, each with its own copies, has to hold after every sequence of updates, refusals and failures; a stale bound makes the solver optimise another problem without crashing.", "anchors": ["trajopt_optimizers/trajopt_sqp/src/trust_region_sqp_solver.cpp: TrustRegionSQPSolver::solve, stepSQPSolver, runTrustRegionLoop, solveQPProblem, setBoxSize, adjustPenalty", "trajopt_optimizers/trajopt_sqp/src/ifopt_qp_problem.cpp: IfoptQPProblem::convexify, setVariables, setBoxSize, setConstraintMeritCoeff, evaluateConvexCosts", "trajopt_optimizers/trajopt_sqp/src/osqp_eigen_solver.cpp: OSQPEigenSolver"]}
{"id": "C134", "title": "With IfoptQPProblem, kConverged is returned exactly when every row is within tolerance", "statement": "When TrustRegionSQPSolver::solve on an IfoptQPProblem ends, the costs, violations and merit in its results are those of the variables left in the problem, and the status is kConverged exactly when every single row of every constraint set at these variables is within cnt_tolerance of its bounds.", "quantifier": "every problem, parameters, answers of OSQP, callbacks and clock; every constraint set and row", "why_tests_cant": "Needs an invariant over all exits of the nested loops of the whole assembly of solver, problem and QP solver.", "anchors": ["trajopt_optimizers/trajopt_sqp/src/trust_region_sqp_solver.cpp: TrustRegionSQPSolver::solve, verifySQPSolverConvergence", "trajopt_optimizers/trajopt_sqp/src/ifopt_qp_problem.cpp: IfoptQPProblem::getExactConstraintViolations, getExactCosts"]}
{"id": "C135", "title": "With IfoptQPProblem, the SQP solver returns the initial variables or variables within their bounds", "statement": "Whatever status TrustRegionSQPSolver::solve returns, the variables it leaves in an IfoptQPProblem are the initial ones, or they are within the bounds of the variables up to the accuracy to which OSQP satisfies the rows of its programs.", "quantifier": "every problem, accuracy, parameters, answers and failures of OSQP, callbacks, clock and returned status", "why_tests_cant": "Needs that at no point of any run the trust box sent to OSQP is stale or reaches over the bounds of a variable, for all exits of the loops.", "anchors": ["trajopt_optimizers/trajopt_sqp/src/trust_region_sqp_solver.cpp: TrustRegionSQPSolver::solve", "trajopt_optimizers/trajopt_sqp/src/ifopt_qp_problem.cpp: IfoptQPProblem::updateNLPVariableBounds", "trajopt_optimizers/trajopt_sqp/src/osqp_eigen_solver.cpp: OSQPEigenSolver::updateBounds"]}
{"id": "C136", "title": "Joint trajectory problems are accepted, solved, and end within the limits of the variables", "statement": "Build nodes with variables, make joint position, velocity, acceleration and jerk constraints on the position variables, add them to a TrajOptQPProblem as constraints or as squared, absolute or hinge costs, and run TrustRegionSQPSolver with OSQPEigenSolver. When sizes fit, coefficients are positive and bounds are not crossed, nothing throws, asserts or reads out of range, and the solver returns. Whatever the status, every coordinate of every variable the user then reads is within the bounds given for it, up to the accuracy to which OSQP satisfies its programs.", "quantifier": "every number of nodes, variables, joints and terms in any order, every choice of position variables, all targets, limits and coefficients, initial values inside or outside of their limits, parameters, answers and failures of OSQP, callbacks and clock; variables with finite bounds for the second part", "why_tests_cant": "Tests run single robots to success; here layout, clamping of initial values, every constraint class, QP assembly and all exits of the solver have to agree for every problem.", "anchors": ["trajopt_ifopt/src/variable_sets/nodes_variables.cpp: NodesVariables", "trajopt_ifopt/src/variable_sets/var.cpp: Var", "trajopt_ifopt/src/constraints/joint_position_constraint.cpp, joint_velocity_constraint.cpp, joint_acceleration_constraint.cpp, joint_jerk_constraint.cpp", "trajopt_optimizers/trajopt_sqp/src/trajopt_qp_problem.cpp: addCostSet, addConstraintSet, setup, convexify", "trajopt_optimizers/trajopt_sqp/src/trust_region_sqp_solver.cpp: TrustRegionSQPSolver::solve"]}
{"id": "C137", "title": "A joint trajectory reported as converged satisfies its constraints, and only then it is reported", "statement": "For the problems of C136: the status is kConverged exactly when, for every constraint, the sum over its rows of the distance of the trajectory the user reads from the demanded value or interval is below cnt_tolerance. In particular after kConverged every target and limit at every step and every demanded velocity holds up to cnt_tolerance.", "quantifier": "every problem as in C136, every constraint, step and joint", "why_tests_cant": "A wrong index or sign in any constraint class, or a stale value in the solver, would make converged runs miss their targets for some layout only.", "anchors": ["trajopt_optimizers/trajopt_sqp/src/trust_region_sqp_solver.cpp: TrustRegionSQPSolver::solve, verifySQPSolverConvergence", "trajopt_optimizers/trajopt_sqp/src/trajopt_qp_problem.cpp: getExactConstraintViolations", "trajopt_ifopt/src/constraints/joint_position_constraint.cpp, joint_velocity_constraint.cpp, joint_acceleration_constraint.cpp, joint_jerk_constraint.cpp"]}
{"id": "C138", "title": "The reported costs and violations of a joint trajectory are those of the trajectory", "statement": "For the problems of C136: when the solver returns, the best costs in its results are, in this order, the coefficient-weighted sums of squared distances of the squared costs, and the sums of distances of the hinge and of the absolute costs, for the trajectory the user reads; the best constraint violations are the sums of distances of the constraints, each in the order of adding.", "quantifier": "every problem as in C136, every cost and constraint", "why_tests_cant": "Results are kept in several vectors updated on different paths of the solver; tests look at single successful runs.", "anchors": ["trajopt_optimizers/trajopt_sqp/src/trajopt_qp_problem.cpp: getExactCosts, getExactConstraintViolations", "trajopt_optimizers/trajopt_sqp/src/trust_region_sqp_solver.cpp: TrustRegionSQPSolver::solve"]}
{"id": "C139", "title": "Trajectory problems with further constraint sets are solved and the report is right", "statement": "Add any further constraint sets that conform to their interface (pose, collision or user-defined, of fixed or varying size) to a problem of C136, as constraints or costs. The problem is accepted, the solver returns, the status is kConverged exactly when every joint constraint and every further constraint is violated by less than cnt_tolerance in total at the variables the user reads, then every row of every set is within its bounds up to cnt_tolerance, and the reported costs and violations are those of these variables, in a fixed order.", "quantifier": "every joint problem as in C136, every list of conforming sets in any order with any suitable penalty types, parameters, answers and failures of OSQP, callbacks and clock", "why_tests_cant": "The sets are kept in eight lists by kind and size behaviour and flattened in different orders for setup, convexification, merit and results; tests use one or two sets.", "anchors": ["trajopt_optimizers/trajopt_sqp/src/trajopt_qp_problem.cpp: addCostSet, addConstraintSet, setup, update, getExactCosts, getExactConstraintViolations", "trajopt_optimizers/trajopt_sqp/src/trust_region_sqp_solver.cpp: TrustRegionSQPSolver::solve"]}
{"id": "C140", "title": "A converged run with pose constraints has the frames where they have to be", "statement": "Add CartPosConstraint sets on steps of the trajectory to the problems of C139, with existing links of which one moves, six coefficients and bounds. They are accepted. After kConverged every component of the pose error between the two frames whose coefficient is not zero is within its bounds up to cnt_tolerance, computed from the joint values the user reads. The reported violation, hinge or absolute cost of such a set is the total distance of these components to their bounds, the squared cost the coefficient-weighted sum of squares.", "quantifier": "every robot (kinematics as a function), pair of links and offsets, step, coefficients, bounds with or without splitting of ranges, every solver run as in C139", "why_tests_cant": "Tests check one robot at one pose; a wrong variable, index list or stale value only shows for some selections of components and splits.", "anchors": ["trajopt_ifopt/src/constraints/cartesian_position_constraint.cpp: CartPosConstraint", "trajopt_optimizers/trajopt_sqp/src/trajopt_qp_problem.cpp: addCostSet, addConstraintSet", "trajopt_optimizers/trajopt_sqp/test/cart_position_optimization_unit.cpp"]}
{"id": "C141", "title": "A converged run with collision constraints that have one row per contact keeps all margins", "statement": "Add DiscreteCollisionConstraintD or ContinuousCollisionConstraintD sets on steps of the trajectory to the problems of C139, as constraints or hinge costs. They are accepted. After kConverged every contact that the checker finds at the joint values the user reads (for the motion between two steps: every contact that counts for an end that is not fixed), and whose pair does not have coefficient zero, is farther than its margin minus cnt_tolerance. Whatever the status, the reported violation or hinge cost of the set is the total depth by which such contacts are inside their margins.", "quantifier": "every contact checker (a function of the joint values), margins, non-negative buffer, coefficients, fixed ends, every history of the constraint object's cache, every solver run as in C139", "why_tests_cant": "Tests have one robot and two spheres; that no contact is lost between the cache, the rows that appear and vanish from one iteration to the next, and the values the user reads needs all histories.", "anchors": ["trajopt_ifopt/src/constraints/collision/discrete_collision_constraint.cpp: DiscreteCollisionConstraintD", "trajopt_ifopt/src/constraints/collision/continuous_collision_constraint.cpp: ContinuousCollisionConstraintD", "trajopt_optimizers/trajopt_sqp/src/trajopt_qp_problem.cpp: addConstraintSet", "trajopt_optimizers/trajopt_sqp/test/simple_collision_unit.cpp"]}
{"id": "C142", "title": "A converged run with collision constraints that have a fixed number of rows keeps all margins", "statement": "Add DiscreteCollisionConstraint or ContinuousCollisionConstraint sets with any number of rows to the problems of C139, as constraints or hinge costs. They are accepted. After kConverged every contact between two steps that counts for an end that is not fixed is farther than its margin minus cnt_tolerance, however few rows the set has; the same holds for every contact at a step of a discrete set.", "quantifier": "every contact checker, margins, buffer, coefficients, number of rows, fixed ends, every history of the constraint object's cache, every solver run as in C139", "why_tests_cant": "Tests have at most a few contacts; a contact that does not get a row only matters when there are more groups of contacts than rows.", "anchors": ["trajopt_ifopt/src/constraints/collision/discrete_collision_constraint.cpp: DiscreteCollisionConstraint", "trajopt_ifopt/src/constraints/collision/continuous_collision_constraint.cpp: ContinuousCollisionConstraint", "trajopt_ifopt/src/constraints/collision/discrete_collision_evaluators.cpp: calcCollisions"]}
{"id": "C143", "title": "A converged legacy run fulfils the constraint terms of its description at the trajectory the user reads", "statement": "Construct a problem from a description and let a term add constraints to it: a user defined term, a total time limit, a Cartesian pose (fixed or dynamic, with or without tolerances), a Cartesian velocity limit or the avoidance of singularities. When the trust region optimiser then reports OPT_CONVERGED, the returned trajectory fulfils the term as written in the description, at the steps of the description: every error of the user is below cnt_tolerance / coeff (in size for equalities) at every step of the range that is not fixed; the duration is below limit + cnt_tolerance / coeff; every selected component of the pose error is in its tolerance band up to cnt_tolerance / |coeff|; the tool moves by less than the limit plus cnt_tolerance along every axis between consecutive steps; every singular value s has 1/(s + lambda) < 1/(0.1 + lambda) + cnt_tolerance / coeff.", "quantifier": "every description, number of steps and joints, error function, robot, pose calculus and singular value decomposition, coefficients, tolerances, ranges and fixed steps, parameters, and every run of the optimiser whose evaluated violations contain those of the term", "why_tests_cant": "Tests solve a handful of scenes and look at a few numbers; that the row of the error function a coefficient belongs to, the step the term is for and the trajectory the user reads are the same ones for every layout needs a proof over all layouts.", "anchors": ["trajopt/src/problem_description.cpp: UserDefinedTermInfo::hatch, TotalTimeTermInfo::hatch, CartPoseTermInfo::hatch, DynamicCartPoseTermInfo::hatch, CartVelTermInfo::hatch, AvoidSingularityTermInfo::hatch", "trajopt_sco/src/optimizers.cpp: BasicTrustRegionSQP::optimize", "trajopt_sco/src/modeling_utils.cpp: ConstraintFromErrFunc"]}
{"id": "C144", "title": "A converged legacy run keeps the margins of its collision constraints", "statement": "Construct a problem from a description and let a collision term add constraints. When the optimiser reports OPT_CONVERGED, then in the returned trajectory every contact the checker finds is at least margin + buffer dependent distance minus cnt_tolerance / coeff away, for every pair of links with a positive coefficient: with one check per step at every step of the range that is not fixed, with checks between steps for every pair of consecutive steps, counting the contacts a free one of the two steps can influence.", "quantifier": "every description, contact checker (a function of the joint values), margins, buffer, coefficients, range and fixed steps, parameters and every run whose evaluated violations contain those of the term", "why_tests_cant": "Tests have one scene with one obstacle; that no step, pair of steps or contact is left out between the description and the trajectory the user reads is a statement about all ranges, fixed steps and contact sets.", "anchors": ["trajopt/src/problem_description.cpp: CollisionTermInfo::hatch", "trajopt/src/collision_terms.cpp: CollisionConstraint::value, CollisionEvaluator::CalcCollisions", "trajopt_sco/src/optimizers.cpp: BasicTrustRegionSQP::optimize"]}
{"id": "C145", "title": "The Gurobi back-end holds exactly the program the calls pose", "statement": "After every sequence of addVar (with and without bounds), addEqCnt, addIneqCnt (affine and quadratic), removeVars, removeCnts, setVarBounds, setObjective (affine and quadratic), update and optimize calls, no call aborts or accesses memory it does not own, and once nothing waits for removal Gurobi's model is the posed program: column k is the k-th variable that is still in the program, with the bounds last set, and is what its handle refers to; there is one row per remaining constraint; and a point is feasible for Gurobi's model, with the same objective value, exactly if it is for the posed program.", "quantifier": "for all sequences of calls, all bounds, coefficients (including terms that mention a variable twice), constants, all answers of Gurobi in between, debug and release builds", "why_tests_cant": "The index of a variable or row depends on everything that was removed before; tests solve a few fixed programs and Gurobi is not even available in CI.", "anchors": ["trajopt_sco/src/gurobi_interface.cpp: GurobiModel::addVar, addEqCnt, addIneqCnt, removeVars, removeCnts, setVarBounds, setObjective, update", "trajopt_sco/src/solver_interface.cpp: vars2inds, cnts2inds, simplify2"]}
{"id": "C146", "title": "A solution reported by the Gurobi back-end solves the posed program", "statement": "If optimize of the Gurobi back-end returns CVX_SOLVED, the values read with getVarValues through the handles of the program's variables are the coordinates of one feasible point of the posed program that is optimal among its feasible points; if it returns CVX_INFEASIBLE, the posed program has no feasible point.", "quantifier": "for all sequences of calls before optimize, all programs, all answers of a Gurobi that satisfies its specification", "why_tests_cant": "Requires that handle, column and value stay aligned after every history; a test checks one program.", "anchors": ["trajopt_sco/src/gurobi_interface.cpp: GurobiModel::optimize, getVarValues, optimizeFeasRelax"]}
{"id": "C147", "title": "Converged runs of the trust-region optimiser are near-optimal on convex problems", "statement": "If sco::BasicTrustRegionSQP::optimize reports OPT_CONVERGED before its iteration, time and box limits, then the last convex program around the returned point promised only a small improvement. For convex costs and violations that are never negative, and a solver whose answer is no worse than the points of the trust box, the total cost of the result exceeds that of any feasible point by at most max(min_approx_improve, min_approx_improve_frac * merit) times the distance of that point in units of the final trust box (at least 1). If the convexification is exact no step is ever rejected and the box never shrinks.", "quantifier": "all parameters with positive minimal box, all environments (cost and constraint functions, QP solver answers, clocks), all starts, all competing points", "why_tests_cant": "Optimality compares the result with every feasible point; tests check a few runs against known optima and cannot tell a premature stop from convergence in general.", "anchors": ["trajopt_sco/src/optimizers.cpp BasicTrustRegionSQP::optimize", "trajopt_sco/src/optimizers.cpp BasicTrustRegionSQPResults::update"]}
{"id": "C148", "title": "Joint terms are convex, so their converged runs are near-optimal", "statement": "The costs of joint position, velocity, acceleration and jerk terms (without time; no negative coefficients) and the violations of the corresponding constraints are convex functions of the trajectory that are never negative. A problem made of such terms that converges in the sense of C147 with a correct QP solver has a total cost that no trajectory keeping all constraints undercuts by more than the tolerance (plus, for equality constraints only, the excess of the linear over the reported violation at the result) times its distance in units of the final box.", "quantifier": "all joint terms on steps inside the trajectory, all coefficients, targets and tolerances, all trajectories, all converged runs of problems made of such terms", "why_tests_cant": "Convexity and optimality quantify over all pairs of trajectories; a test can only sample them.", "anchors": ["trajopt/src/trajectory_costs.cpp", "trajopt_sco/src/optimizers.cpp BasicTrustRegionSQP::optimize", "trajopt_sco/src/modeling.cpp Constraint::violation"]}
{"id": "C149", "title": "Converged runs of trajopt_sqp are near-optimal on convex problems", "statement": "If TrustRegionSQPSolver::solve reports kConverged without having hit the time limit, the iteration limit, 99 convexifications or the minimal trust box, then the last QP was posed around the returned point with the reported box and promised only a small improvement. For convex costs (of any sign) and convex violations that are never negative, and an answer that is by its model no worse than the points of the box, the total cost of the result exceeds that of any feasible point by at most max(min_approx_improve, min_approx_improve_frac * max(|merit|, 1e-12)) times the distance of that point in units of the final box (at least 1).", "quantifier": "all parameters with positive minimal box, all problems and QP answers, all callbacks, all starts, all competing points", "why_tests_cant": "Optimality compares the result with every feasible point; tests compare a few runs with known optima.", "anchors": ["trajopt_optimizers/trajopt_sqp/src/trust_region_sqp_solver.cpp TrustRegionSQPSolver::solve", "trajopt_optimizers/trajopt_sqp/src/trust_region_sqp_solver.cpp TrustRegionSQPSolver::runTrustRegionLoop"]}
{"id": "C150", "title": "Converged TrajOptQPProblem runs on affine problems are near-optimal", "statement": "If TrustRegionSQPSolver::solve on a TrajOptQPProblem whose squared costs, penalty costs and constraints are all affine with fixed rows (squared costs with targets, the others with weight one) reports kConverged without having hit the time limit, the iteration limit, 99 convexifications or the minimal trust box, and OSQP's answers satisfy their programs and are optimal up to eta, then the returned variables are in their bounds, and their total cost exceeds that of any vector in the bounds that satisfies all constraints by at most (the improvement tolerance + eta + a number below 2e-7((n B)^2 + n B) for the matrix and gradient entries below 1e-7 that are not passed on) times the distance of that vector in units of the final trust box; the same holds for the merit and any vector in the bounds.", "quantifier": "for every such problem, start in the bounds, parameters with growing merit coefficients of at least 1e-7, hash, callbacks, in-place update outcomes of OSQP and OSQP answers within the specification", "why_tests_cant": "The statement connects the whole chain (convexification, slack variables, dropped small entries, transfer to OSQP with in-place updates, trust-region loop, penalty loop) with the user's problem, for all problems and all points one could compare with; tests compare with known optima of examples.", "anchors": ["trajopt_optimizers/trajopt_sqp/src/trust_region_sqp_solver.cpp: solve, stepSQPSolver, runTrustRegionLoop, solveQPProblem", "trajopt_optimizers/trajopt_sqp/src/trajopt_qp_problem.cpp: convexify, evaluateConvexCosts, getExactCosts", "trajopt_optimizers/trajopt_sqp/src/osqp_eigen_solver.cpp: updateHessianMatrix, updateGradient, solve"]}
{"id": "C151", "title": "Reading the result file back", "statement": "The file written by the file write callback can be read back as a table: the lines are the header and, for every call, one line per time step and an empty line; every joint value, pose number, cost and constraint violation stands in the column of its label.", "quantifier": "for every number of calls, time steps, joints, links, costs and constraints and all values, provided names and printed numbers contain neither comma nor line break", "why_tests_cant": "Whether columns line up depends on the number of links of the kinematic group and on a time column; a test looks at one robot.", "anchors": ["trajopt/src/file_write_callback.cpp: WriteFile, WriteCallback"]}
{"id": "C152", "title": "The trajectory shown is the trajectory optimized", "statement": "The plot callbacks show one state per time step, each with the joint names and the joint values of that step.", "quantifier": "for every number of joints and steps and every variable vector", "why_tests_cant": "A single plotted problem without time column looks right; the claim is about all problem layouts.", "anchors": ["trajopt/src/plot_callback.cpp: PlotCosts, PlotProb", "trajopt/src/utils.cpp: getTraj"]}
{"id": "C153", "title": "Trajectories read from variables are the values set", "statement": "After the variables of a variable set have been set to a vector, converting its variables to a trajectory array or a joint trajectory gives one row per variable, in order, with exactly the entries of that vector; variables of different sizes are refused.", "quantifier": "for every layout, every history of settings and every vector", "why_tests_cant": "Holds for every history and layout; tests check one.", "anchors": ["trajopt_ifopt/src/utils/trajopt_utils.cpp: toTrajArray, toJointTrajectory", "trajopt_ifopt/src/variable_sets/nodes_variables.cpp: setVariables"]}
{"id": "C154", "title": "Observers of a variable set are kept up to date", "statement": "An observer constructed for a variable set is registered with it and told of every change of the variables, once per change.", "quantifier": "for every history of constructions, registrations and changes", "why_tests_cant": "That no observer can ever be constructed is a statement about all uses; there is no test that constructs one.", "anchors": ["trajopt_ifopt/src/variable_sets/nodes_observer.cpp: NodesObserver", "trajopt_ifopt/src/variable_sets/nodes_variables.cpp: addObserver, updateObservers"]}
{"id": "C155", "title": "The printed problem table is right", "statement": "Printing the current problem lists the variable set, every constraint set and every cost in order; each line gives the number of rows, the range of rows the set occupies in the overall vector, and the number of its rows that violate their bounds by more than the tolerance (for costs: the value).", "quantifier": "for every list of sets, all values and bounds and every tolerance", "why_tests_cant": "Index ranges and counts must be right for all combinations of set sizes; printed text is not tested.", "anchors": ["trajopt_ifopt/src/core/component.cpp: Component::print", "trajopt_ifopt/src/core/composite.cpp: CompositeDifferentiable::print", "trajopt_ifopt/src/core/cost_term.cpp: CostTerm::print", "trajopt_ifopt/src/core/problem.cpp: Problem::printCurrent"]}
{"id": "C156", "title": "A trust-region SQP optimizer object can be used again", "statement": "One TrustRegionSQPSolver with one OSQPEigenSolver is used for a whole history of calls: the user moves the variables of some TrajOptQPProblem or calls solve for one of them, with other parameters each time. As long as each solve is for a problem that was not solved before or for the one solved last, no call fails (no assertion, exception, index out of range), all calls return, each solve starts from the values its problem has at that moment, changes only that problem, and reports the costs, constraint violations, merit and status of the values it leaves there; converged means exactly that all violations are below cnt_tolerance, and the values keep the bounds of the variables up to the accuracy of OSQP.", "quantifier": "for all finite histories of calls, all problems with regular functions, all sane parameters, all answers of OSQP, callbacks and clocks of each call", "why_tests_cant": "tests solve one problem once with a new optimizer; what an old QP solver object does to a later problem depends on the sizes of both and on the whole history", "anchors": ["trajopt_optimizers/trajopt_sqp/src/trust_region_sqp_solver.cpp: TrustRegionSQPSolver::init, solve, stepSQPSolver", "trajopt_optimizers/trajopt_sqp/src/osqp_eigen_solver.cpp: OSQPEigenSolver"]}
{"id": "C157", "title": "A used optimizer gives the results of a new one", "statement": "If OSQP accepts every program and its answer depends on the program only, then every solve in a history of calls of one TrustRegionSQPSolver ends with the same status, results and variables as a solve with a new optimizer and a new QP solver from the same problem: in-place updates, rebuilds and programs left behind by earlier problems are not visible.", "quantifier": "for all histories of calls as in C156 with bounds inside OSQP's range, all parameters, all outcomes of the updates in place", "why_tests_cant": "a relation between two executions with different histories; tests compare a run with a stored number at most", "anchors": ["trajopt_optimizers/trajopt_sqp/src/trust_region_sqp_solver.cpp: TrustRegionSQPSolver::solve, stepSQPSolver, runTrustRegionLoop, solveQPProblem", "trajopt_optimizers/trajopt_sqp/src/osqp_eigen_solver.cpp: OSQPEigenSolver"]}
{"id": "C158", "title": "A legacy optimizer object can be used again", "statement": "One sco::BasicTrustRegionSQP is used for a history of setParameters, initialize and optimize. If each optimize has an initialize of its own, nothing throws, all calls return, each run gives the result a new optimizer with the parameters set last and the values of that initialize gives, and reports the costs and violations of the values it ends with.", "quantifier": "for all finite histories of calls, all parameters, all convex solvers, functions and clocks of each call", "why_tests_cant": "tests create a new optimizer for each run; what a run leaves behind in the object depends on the history", "anchors": ["trajopt_sco/src/optimizers.cpp: BasicTrustRegionSQP::setParameters, Optimizer::initialize, BasicTrustRegionSQP::optimize, adjustTrustRegion, setTrustRegionSize"]}
{"id": "C159", "title": "Log files tell the truth about the run", "statement": "With result logging on, the optimizer computes what it computes without logging. After initialize and optimize with files that can be opened, every stream is closed again and each of the four files is a table: header once on top, then one row for every solved convex problem, all rows as wide as the header. The old values of a row are the exact values at the iterate reached so far, which can be followed through the log up to the returned variables; the new values are the exact values at the logged variables; columns of costs and constraints add up to the solver's columns. Broken: a second optimize without initialize writes no header; optimize before initialize empties the files and leaks four streams; a file that cannot be opened makes the run end in undefined behaviour.", "quantifier": "all problems, parameters, solver answers, clocks, initial values, names and number formats without separators; all runs that return", "why_tests_cant": "the content of the files depends on the whole history of solver answers and accepted steps; header logic depends on counters carried over from earlier runs", "anchors": ["trajopt_sco/src/optimizers.cpp BasicTrustRegionSQP::optimize", "trajopt_sco/src/optimizers.cpp BasicTrustRegionSQPResults::writeSolver writeVars writeCosts writeConstraints"]}
{"id": "C160", "title": "Saved iterates can be restored", "statement": "After any history of setting, saving and restoring variables of a problem, the current variables and the list of saved iterates are what the calls say: saving appends the current variables, restoring iteration i brings back exactly the i-th saved vector, an iteration that does not exist raises an exception and changes nothing. The constraint values of a restored problem are those at the restored variables provided the constraint sets do not collect data in update(). Broken: restoring does not update the constraint sets, so a set that linearizes or collects contacts in update() is evaluated with the data of the last setVariables.", "quantifier": "all problems, constraint sets with a fixed number of rows, all histories of calls and all int arguments", "why_tests_cant": "the values after a restore depend on the whole history of calls", "anchors": ["trajopt_ifopt/src/core/problem.cpp Problem::saveCurrent", "trajopt_ifopt/src/core/problem.cpp Problem::setOptVariables", "trajopt_ifopt/src/core/problem.cpp Problem::setOptVariablesFinal", "trajopt_ifopt/src/core/problem.cpp Problem::setVariables"]}
{"id": "C161", "title": "The legacy problem holds what it was told", "statement": "After any history of creating variables, setting bounds of all or some of them and adding costs and constraints, the problem lists its variables in the order of creation, the k-th bound is the last one given to the k-th variable, costs are in the order of addition, and the list of constraints has the equalities in order of addition followed by the inequalities in order of addition, nothing lost or doubled. createVariables returns exactly the new variables. Others may add and remove variables on the model in between, provided none is left while variables of the problem are created. Broken: with another variable on the model at that time, the bound of one variable is stored for another one or outside the vector.", "quantifier": "all histories of calls, all numbers of variables, bounds, costs and constraints", "why_tests_cant": "bounds of single variables are addressed through indices owned by another object, so the result depends on everything that happened to the model before", "anchors": ["trajopt_sco/src/modeling.cpp OptProb::createVariables", "trajopt_sco/src/modeling.cpp OptProb::setLowerBounds setUpperBounds", "trajopt_sco/src/modeling.cpp OptProb::addCost addConstraint getConstraints", "trajopt_sco/include/trajopt_sco/modeling.hpp setVec"]}
{"id": "C162", "title": "Comparison of solver parameters", "statement": "Two parameter sets (legacy optimizer or SQP solver) compare equal exactly if every number agrees up to the tolerance of the comparison (absolute or relative) and every integer, flag and string agrees; no setting is forgotten; != is the negation; comparison is reflexive and symmetric. Broken: equal parameter sets need not behave alike (constraint tolerances within 1.2e-7 of each other compare equal but one accepts a violation the other rejects), and the comparison is not transitive.", "quantifier": "all pairs of parameter sets and all tolerances", "why_tests_cant": "18 fields; a forgotten field or an exchanged one shows only for particular pairs of values", "anchors": ["trajopt_sco/src/optimizers.cpp BasicTrustRegionSQPParameters::operator==", "trajopt_optimizers/trajopt_sqp/src/types.cpp SQPParameters::operator=="]}
{"id": "C163", "title": "Callbacks see the run as it is", "statement": "Every time a callback of the trust-region SQP optimizer is called, the problem it gets holds the best point so far; the results it gets carry the number of the QP, the answer to that QP as the new point, the exact costs, violations and merit of the best and of the new point under the merit coefficients and the box of that QP, and improvement figures that follow from them. From one call to the next the best point stays or becomes the new point shown before, only if its exact merit is not larger; the first call shows the initial variables, and the run ends at such a point. The joint state plotter therefore draws the best point. Callbacks of the library never stop the run and work exactly if they have the objects they use.", "quantifier": "all problems, parameters, answers of the QP solver, callbacks and numbers of iterations; every call of a run", "why_tests_cant": "a callback could see the trial point in the problem or stale figures in the results only after a particular sequence of rejected, failed and accepted steps", "anchors": ["trajopt_optimizers/trajopt_sqp/src/trust_region_sqp_solver.cpp TrustRegionSQPSolver::solveQPProblem", "trajopt_optimizers/trajopt_sqp/src/trust_region_sqp_solver.cpp TrustRegionSQPSolver::callCallbacks", "trajopt_optimizers/trajopt_sqp/src/callbacks/joint_state_plotter.cpp JointStatePlottingCallback", "trajopt_optimizers/trajopt_sqp/src/callbacks/clear_plotter.cpp ClearPlotterCallback"]}
{"id": "C164", "title": "Callbacks of the legacy optimizer see consistent results", "statement": "Every callback call of a run of the legacy optimizer after initialize shows a point with the costs and violations of that point. The first call shows the projected initial point; from one call to the next the point stays or becomes the answer of a convex problem built at it, with an exact merit that is not larger under penalty weights the optimizer may use (each the initial weight times a power of the increase ratio); without constraints the total cost never increases. The last call shows exactly the returned result with status and total cost, all calls before it status INVALID. Every point shown is within whatever set contains the projected initial point and all answers of the convex problems, such as the bounds.", "quantifier": "all problems, parameters, initial points, answers of the convex solver, clocks and numbers of iterations; every call of a run", "why_tests_cant": "the call at the start of an iteration and the evaluation it should show are separate statements; only particular sequences of rejections, failures, penalty rounds and time-outs would show stale values", "anchors": ["trajopt_sco/src/optimizers.cpp BasicTrustRegionSQP::optimize", "trajopt_sco/src/optimizers.cpp Optimizer::callCallbacks", "trajopt_sco/include/trajopt_sco/optimizers.hpp OptResults"]}
{"id": "C165", "title": "Merging hulls is greedy and covers everything", "statement": "When the decomposition has more convex hulls than allowed, they are merged in pairs until exactly the allowed number is left; every merge takes a pair whose cost is the lowest among all pairs of hulls present at that moment, no hull is lost or merged twice, and every hull before is contained in one after. The merge never accesses memory outside the cost table.", "quantifier": "all numbers of hulls, all limits, all cost functions and hulls, whatever the table's memory contained", "why_tests_cant": "the table is updated in place by index arithmetic on a packed triangle; an error shows only for particular positions of the merged pair and the number of hulls, or as a read behind the end that a test does not notice", "anchors": ["trajopt_ext/vhacd/src/VHACD.cpp VHACD::MergeConvexHulls", "trajopt_ext/vhacd/src/VHACD.cpp FindMinimumElement", "trajopt_ext/vhacd/include/vhacd/inc/vhacdSArray.h SArray"]}
{"id": "C166", "title": "Asynchronous decomposition", "statement": "An object made by CreateVHACD_ASYNC can be used from one thread without regard to the thread it computes in: no memory is accessed by both at once or after it has been freed; the hulls and counts reported are always those of the last Compute, complete or none; IsReady is true exactly when the computation has ended, and then, unless it was cancelled, all hulls are there; progress and log messages are delivered in order, at most once, to the callback of the computation they belong to; every call returns.", "quantifier": "all sequences of calls, also from inside callbacks, all jobs and messages, all interleavings of the two threads", "why_tests_cant": "the outcome depends on where the two threads are relative to each other; tests see a few of the interleavings, and a data race or a read of freed memory usually goes unnoticed", "anchors": ["trajopt_ext/vhacd/src/VHACD-ASYNC.cpp MyHACD_API", "trajopt_ext/vhacd/include/vhacd/inc/vhacdVHACD.h VHACD::Init", "trajopt_ext/vhacd/include/vhacd/inc/vhacdVHACD.h VHACD::SetCancel", "trajopt_ext/vhacd/include/vhacd/inc/vhacdVHACD.h VHACD::ComputeACD"]}
{"id": "C167", "title": "Voxelization", "statement": "Voxelizing a mesh loses nothing and classifies every voxel correctly: every point of every triangle lies in a voxel of the grid, a voxel is on the surface exactly if its box contains a point of a triangle (degenerate or not), a voxel is outside exactly if it can be reached from the border of the grid through faces without entering the surface, all others are inside, and the numbers of voxels reported are right. No memory outside the grid is accessed, the fill ends, and the longest side gets the number of voxels asked for.", "quantifier": "all point clouds and triangles, all resolutions, all grids", "why_tests_cant": "the fill has to be right for every shape of surface, including narrow channels and cavities, and the overlap test for every position of a triangle relative to a voxel; a test mesh exercises a few of them and a missed voxel only shows as a leak in a later step", "anchors": ["trajopt_ext/vhacd/include/vhacd/inc/vhacdVolume.h Volume::Voxelize", "trajopt_ext/vhacd/include/vhacd/inc/vhacdVolume.h Volume::GetVoxel", "trajopt_ext/vhacd/src/vhacdVolume.cpp TriBoxOverlap", "trajopt_ext/vhacd/src/vhacdVolume.cpp Volume::FillOutsideSurface", "trajopt_ext/vhacd/src/vhacdVolume.cpp Volume::FillInsideSurface"]}
{"id": "C168", "title": "Decomposition keeps every voxel and frees every part", "statement": "Decomposing a voxelized mesh neither loses nor duplicates voxels: if the computation is not cancelled, each voxel is in exactly one of the parts whose hulls are returned, surface voxels stay on the surface of their part, a part which is still too concave occurs only at the maximal depth, and there are at most four times as many parts as hulls asked for.  Whenever it is cancelled, every intermediate part is freed exactly once, nothing is used after it was freed, and no hull is left.", "quantifier": "All voxel sets, all hull volumes and planes found, all depths, and all moments at which the flag may be raised (every read of the flag).", "why_tests_cant": "The moments of cancellation and the trees of cuts are unbounded; leaks and double frees show only at particular moments.", "anchors": ["trajopt_ext/vhacd/src/VHACD.cpp: VHACD::ComputeACD", "trajopt_ext/vhacd/src/vhacdVolume.cpp: VoxelSet::Clip, VoxelSet::ComputeClippedVolumes", "trajopt_ext/vhacd/include/vhacd/inc/vhacdVHACD.h: Clean, Init"]}
{"id": "C169", "title": "Choice of the clipping plane", "statement": "The plane by which V-HACD cuts a part does not depend on how its threads are scheduled: it is the first of the cheapest planes considered, and its concavity is reported.  The planes considered are exactly those after every n-th layer of voxels of the part along each axis, then all within n layers of the best one; cutting at a layer separates the layers up to it from those above and marks the two layers at the cut as surface.", "quantifier": "All orders in which threads finish, all costs, all voxel sets and downsamplings.", "why_tests_cant": "Schedules of threads cannot be enumerated by running the program; ties and orders matter.", "anchors": ["trajopt_ext/vhacd/src/VHACD.cpp: VHACD::ComputeBestClippingPlane, ComputeAxesAlignedClippingPlanes, RefineAxesAlignedClippingPlanes", "trajopt_ext/vhacd/src/vhacdVolume.cpp: VoxelSet::ComputeBB, VoxelSet::Clip"]}
{"id": "C170", "title": "Growing array of V-HACD", "statement": "An array of V-HACD behaves as a list: for every history of appending, removing, resizing, inserting, erasing, clearing and assigning, its elements are those of a list treated in the same way, whether they are kept inside the object or on the heap, and no memory outside of its buffers is touched.", "quantifier": "All element types which can be copied bytewise, all inner sizes from one, all sequences of operations on any number of arrays.", "why_tests_cant": "Growth, the switch between the inner buffer and the heap, and reuse after clearing interact over whole histories.", "anchors": ["trajopt_ext/vhacd/include/vhacd/inc/vhacdSArray.h: SArray"]}
{"id": "C171", "title": "Circular lists of V-HACD", "statement": "A circular list of V-HACD is the sequence its history makes it: adding puts the new element behind the head and moves the head to it, deleting removes the head or the given element, moving rotates, assigning copies the data in order. Going round forward or backward from the head visits exactly these elements, the size is their number, other lists are not touched, no dangling or unset pointer is used and no element is leaked or deleted twice.", "quantifier": "All programs using any number of lists and data, in any order of operations.", "why_tests_cant": "A wrong link shows only after particular sequences of insertions, deletions and moves, and often only as access to freed memory.", "anchors": ["trajopt_ext/vhacd/include/vhacd/inc/vhacdCircularList.h: CircularList, CircularListElement", "trajopt_ext/vhacd/include/vhacd/inc/vhacdCircularList.inl: Add, Delete, Next, Prev, operator="]}
{"id": "C172", "title": "Volumes of meshes in V-HACD", "statement": "The volume V-HACD computes for a closed mesh is its enclosed signed volume: it does not depend on the reference point, is multiplied by the determinant under affine maps, changes sign if the triangles are turned round and adds up over the parts of a mesh. The meshes made from voxels or tetrahedra of a class are closed and have the volume of these voxels or tetrahedra; the five tetrahedra a voxel is cut into fill exactly the voxel. A point that is said to be outside a convex mesh is outside the convex hull of its points.", "quantifier": "All meshes with valid corner numbers, all affine maps, all sets of voxels and tetrahedra, all points.", "why_tests_cant": "Volumes are compared with each other to decide where to cut; a wrongly oriented triangle or a reference point that matters gives plausible but wrong numbers for particular shapes and positions only.", "anchors": ["trajopt_ext/vhacd/src/vhacdMesh.cpp: Mesh::ComputeVolume, Mesh::IsInside, Mesh::Clip", "trajopt_ext/vhacd/src/vhacdVolume.cpp: VoxelSet::Convert, VoxelSet::GetPoints, Volume::Convert, TetrahedronSet::Convert, TetrahedronSet::ComputeVolume", "trajopt_ext/vhacd/include/vhacd/inc/vhacdVector.inl: ComputeVolume4"]}
{"id": "C173", "title": "Cutting sets of tetrahedra in V-HACD", "statement": "Dividing a set of tetrahedra at a plane never fails. Every tetrahedron of a part lies within a tetrahedron of the set and on the right side of the plane, and is positively oriented and not too small; those that the plane does not cut are kept. The counters for surface and inside agree with the tetrahedra, and the two parts together have the volume of the set.", "quantifier": "All sets of tetrahedra within their box, all planes, all bounds on the volume. The counters only if no tetrahedron is too small; the volume only if no cut comes too near to a corner.", "why_tests_cant": "A cut leaves one of fourteen patterns of corners, in which tables with fifteen rows and faces of three tetrahedra are searched for the largest volume; which comes out depends on all coordinates, and what is lost shows only in the sum of the volumes.", "anchors": ["trajopt_ext/vhacd/src/vhacdVolume.cpp: TetrahedronSet::Clip, TetrahedronSet::AddClippedTetrahedra, TetrahedronSet::Add"]}
{"id": "C174", "title": "Principal axes in V-HACD", "statement": "For every symmetric matrix the function for the principal axes returns a right-handed orthonormal frame Q and the matrix D of the given one in that frame, so that nothing is lost: A = Q D Qt. When it ends because D is diagonal, the columns of Q are eigenvectors with the eigenvalues on the diagonal; a matrix that is diagonal already comes back with the axes of coordinates. It never divides by the length of a zero quaternion.", "quantifier": "All symmetric matrices, whatever turn the loop ends at. That the turns are enough for D to be diagonal is not proved.", "why_tests_cant": "The loop has up to 24 turns with a choice of rotation in each, and its quaternion is updated in place by a formula that is not the product; that the frame stays orthonormal depends on all of them.", "anchors": ["trajopt_ext/vhacd/src/vhacdVolume.cpp: Diagonalize"]}
{"id": "C175", "title": "Principal axes and back in V-HACD", "statement": "In the tetrahedron mode a part is turned to its principal axes before it is cut and its parts are turned back. The box is the smallest around the corners and the barycenter their mean; the turn is a rigid motion about the barycenter, which keeps volumes, and the matrix of eigenvalues is that of the covariances after the turn. A part that is not divided gets back exactly its tetrahedra; dividing never fails, and every tetrahedron of a part lies, in the coordinates of the model, within one of the set and on its side of one plane. The convex hulls are returned in the coordinates of the mesh, whatever alignment was used for the voxels.", "quantifier": "All sets of tetrahedra, planes and grids of voxels, with and without the option for principal axes, with and without assertions.", "why_tests_cant": "The axes depend on all corners through a matrix of covariances and an iteration; that the way back uses the same centre and axes as the way there rests on the copying of members in the cut and on the barycenter staying fixed when it is computed anew.", "anchors": ["trajopt_ext/vhacd/src/vhacdVolume.cpp: TetrahedronSet::ComputeBB, TetrahedronSet::ComputePrincipalAxes, TetrahedronSet::AlignToPrincipalAxes, TetrahedronSet::RevertAlignToPrincipalAxes, Volume::AlignToPrincipalAxes", "trajopt_ext/vhacd/src/VHACD.cpp: VHACD::ComputeACD", "trajopt_ext/vhacd/include/vhacd/inc/vhacdVHACD.h: VHACD::AlignMesh", "trajopt_ext/vhacd/include/vhacd/inc/vhacdVolume.h: ComputeAlignedPoint"]}
{"id": "C176", "title": "The hulls of V-HACD cover the model", "statement": "In the voxel mode every point of every triangle of the mesh, and every point of every voxel inside of it, lies in the convex hull of one of the parts that the decomposition returns. The hull of a set of voxels is computed without overrunning the array of points, has the boxes of every n-th surface voxel in it (all of them for the sampling of one used for the result) and nothing that these do not force. Turning the grid into a set of voxels keeps the voxels on and inside the surface and their counts.", "quantifier": "All meshes that were turned into voxels, all parameters of the decomposition, all planes across the axes, all moments of cancellation for which the computation runs to its end, all computations of hulls that are correct on points.", "why_tests_cant": "That nothing is lost needs the fill of the inside, every cut and the hull of every part together; a test sees the hulls of a few meshes, where a missing sliver does not show.", "anchors": ["trajopt_ext/vhacd/src/vhacdVolume.cpp: VoxelSet::ComputeConvexHull, Volume::Convert", "trajopt_ext/vhacd/src/VHACD.cpp: VHACD::ComputeACD", "trajopt_ext/vhacd/include/vhacd/inc/vhacdVolume.h: Volume::Voxelize"]}
{"id": "C177", "title": "The cost of a clipping plane in V-HACD", "statement": "The planes compared lie across an axis, between two layers of voxels. The hulls of the two sides of a plane always exist, lie on their side of the plane and within the hull of the part; computed exactly with a downsampling of one they have all surface voxels of the side in them, computed approximately those next to the plane and the points of the hull of the part. The concavity of a plane is the volume by which the hulls of its sides exceed the part, and among planes with equal hulls the one that divides the part more evenly is cheaper.", "quantifier": "All sets of voxels with a surface, planes across the axes, downsamplings, both ways to compute hulls, weights and volumes of hulls; the last sentence for voxels and for tetrahedra.", "why_tests_cant": "The cost decides silently between thousands of planes; a wrong side or volume gives a worse, still plausible decomposition.", "anchors": ["trajopt_ext/vhacd/src/VHACD.cpp: VHACD::ComputeBestClippingPlane, ComputeConcavity", "trajopt_ext/vhacd/src/vhacdVolume.cpp: VoxelSet::SelectOnSurface, VoxelSet::Intersect, VoxelSet::GetPoints, TetrahedronSet::ComputeClippedVolumes", "trajopt_ext/vhacd/src/vhacdMesh.cpp: Mesh::Clip"]}
{"id": "C178", "title": "The preferred cutting direction of V-HACD", "statement": "V-HACD asks for planes through the axis about which a part is most nearly symmetric: the axis whose two other axes have the most similar spreads. Planes through it cost nothing more, planes across it cost up to the weight beta, all of it just if the two spreads are equal. The spreads are those of the part about its mean, along its own axes.", "quantifier": "All sets of voxels with coordinates from zero to 32767, all spreads and weights.", "why_tests_cant": "The direction only shifts the choice between planes; a wrong axis gives a different, still plausible decomposition.", "anchors": ["trajopt_ext/vhacd/src/VHACD.cpp: ComputePreferredCuttingDirection", "trajopt_ext/vhacd/src/vhacdVolume.cpp: VoxelSet::ComputePrincipalAxes, VoxelSet::ComputeBB"]}
{"id": "C179", "title": "Projecting the points of hulls onto the model", "statement": "A ray cast finds just the points at which the ray meets the triangles steeply enough, and returns the one nearest to a given point with its distance, if it is nearer than the ray is long. Before hulls are simplified their points are kept or moved onto the model: by at most five hundredths of the diagonal of the hull, points already on the model not at all, and a point is dropped only if another one is kept within a hundredth of the diagonal.", "quantifier": "All triangles, rays, points and constants above zero, without rounding.", "why_tests_cant": "Results depend on all triangles and on the order of points; a point moved wrongly still gives a plausible hull.", "anchors": ["trajopt_ext/vhacd/src/vhacdRaycastMesh.cpp: rayIntersectsTriangle, MyRaycastMesh::raycast", "trajopt_ext/vhacd/src/VHACD.cpp: VHACD::SimplifyConvexHull", "trajopt_ext/vhacd/include/vhacd/inc/vhacdVector.h: Vec3::GetCenter, Vec3::UpdateMinMax, Vec3::GetDistanceSquared"]}
{"id": "C180", "title": "Simplifying hulls of V-HACD", "statement": "Hulls are simplified by starting with a triangle and adding the point that adds the most volume, as long as it adds at least the least volume asked for and fewer points than allowed were added. After each point the surface is closed and consistently oriented, and encloses just the volume more that was computed for the point; points are left out only if they are inside.", "quantifier": "All closed surfaces, all positions of points, all orders of points, all limits, any number of steps.", "why_tests_cant": "Unit tests look at finished hulls of a few solids; that the surface is closed after each step for every position of the points, and what the threshold is compared with, cannot be seen from them.", "anchors": ["trajopt_ext/vhacd/src/vhacdICHull.cpp: ICHull::Process, ICHull::FindMaxVolumePoint, ICHull::ComputePointVolume, ICHull::ProcessPoint, ICHull::MakeConeFace, ICHull::MakeCCW, ICHull::DoubleTriangle", "trajopt_ext/vhacd/src/VHACD.cpp: VHACD::SimplifyConvexHull"]}
