# Formal model of trajopt: design

Subject: tesseract-robotics/trajopt at the pinned commit in /repo (read only, never built).
Prover: Lean 4.33.0 with Mathlib, sources under `lean/Verif/`.

Layout
- `Verif/Model/*.lean`  the model: one definition per C++ function, each citing file and lines.
- `Verif/Props/*.lean`  the specifications (written without the model's helpers) and the property theorems,
  each followed by a non-vacuity `example`.

## Trusted base

1. Lean's kernel, and the axioms `propext`, `Classical.choice`, `Quot.sound` (nothing else; no `sorry`,
   no own axioms, no `native_decide`, no `bv_decide`).
2. The reading of the C++ code: each definition cites the lines it models; nothing checks the citation mechanically.
3. The conversions of jsoncpp (`asInt`, `asBool`, … in Verif/Model/JsonRead.lean), copied from its documentation.
4. For C145 and C146, the abstract Gurobi of Verif/Model/Gurobi.lean, from its reference manual: `UpdateMode=1`, deletions pending until
   `GRBupdatemodel` or `GRBoptimize`, renumbering in order, `NUMVARS` as of the last update, index errors rejected.
5. The simplifications below.

Global simplifications
- `double` is an arbitrary linearly ordered field `K` (theorems hold in ℚ and ℝ); no rounding, no NaN.
  Infinite bounds are a separate datatype (`Ext K`: −∞, finite, +∞) where the code uses them.
- `int`/`size_t` are ℤ/ℕ; no overflow, except where a property is about it.
- External libraries (Eigen, OSQP, tesseract collision checking, kinematics) are not modelled:
  the QP solver is an arbitrary oracle, error functions and contact checkers are arbitrary functions.
- `assert` is absent (release build): where the code relies on an assert, the model either returns a distinct
  outcome (`throw`, `ub`) or the theorem has the assertion as an explicit hypothesis.

## Plan per property

| id | model | proof |
|----|-------|-------|
| C01–C02 | expressions as lists of (coeff, var) terms; operations as in expr_ops | structural induction on the term lists, `ring` |
| C03 | cleanupAff as a filter | induction, triangle inequality |
| C04 | simplify2 / exprToEigen(Aff) with an insertion-sorted association list for std::map | induction; sortedness, denotation |
| C05 | triplets → symmetric matrix as a function ℕ→ℕ→K | induction over terms |
| C06 | eigenToCSC on column lists | round trip by induction over columns |
| C07–C09 | ConvexObjective as a record of slack variables, rows and quad; feasibility of a slack assignment | min attained and lower bound for lists of hinges/abs by induction; C09 is violated: negation + partial |
| C10, C13 | OSQPModel as a state machine over calls | inductive invariant over call histories |
| C11 | componentwise function with extended bounds | violated: negation + partial |
| C12 | names table and enum order as in the two files | violated: negation + partial |
| C14 | rows from expressions + bound rows | equivalence by list induction |
| C15 | objective state of the OSQP model | violated for affine after quadratic: negation + partial |
| C16 | setTrustBoxConstraints with extended bounds | order reasoning |
| C17–C20 | optimize() as nested loops over an arbitrary QP/clock oracle | loop invariants, fuel/termination measure; C17 violated on time-out before first evaluation |
| C21–C25 | TrustRegionSQPSolver::solve likewise | loop invariants; C22 violated |
| C26–C29 | QP rows, slack layout, merit coefficient indexing, setup/update flags | LP minimum; C28, C29 violated |
| C74–C77 | QP objective, convex and exact costs of TrajOptQPProblem | algebra over the specification of convexify; small entries, slack columns and weights violated |
| C78 | all calls of TrajOptQPProblem | invariant over histories |
| C79–C84 | IfoptQPProblem: QP rows, objective, exact costs, histories | specification of convexify, algebra; C80 and C81 violated |
| C85–C86 | input arrays of BPMPD and qpOASES through the handles | list induction; reuse of C04–C06 |
| C87–C88 | limits and step decision of TrustRegionSQPSolver | case analysis, invariants over the loops of C21–C25 |
| C89–C91 | step decision, penalties, limits of BasicTrustRegionSQP | case analysis, invariants over the loops of C17–C20 |
| C92–C96 | the collision constraints on top of the evaluators (C46–C48, C62, C70) and the cache (C42–C43) | rows from the grouping invariant, Jacobian as a fold of block writes; C92, C93, C96 partly violated |
| C97–C100 | OSQPEigenSolver as a state machine over an OsqpEigen whose updates may be refused, and the transfer in stepSQPSolver | invariant "the workspace or the data object holds the posed program"; algebra; C98 partly, C99, C100 violated |
| C101–C104 | legacy collision_terms.cpp: gradients, distance expressions, filters, value/convex of cost and constraint | equality with sums over contacts; partial minimum of the built program (as C53); HasDerivAt over ℝ for the gradient; C101 violated in debug builds |
| C105–C107 | CartPosConstraint and the legacy (Dynamic)CartPose calculators over abstract kinematics and pose errors | case analysis on selections and bounds; reuse of C38 for the split; C106, C107 partly violated |
| C108 | CartLineConstraint over ℝ³ and an abstract rotation type | projection on a segment; several regions violated |
| C109–C111 | InverseKinematicsConstraint, Cartesian velocity and singularity terms with their hatch functions, over abstract kinematics, solver and decomposition | fold invariant for the nearest solution; HasDerivAt; perturbation of a singular value; all three partly violated |
| C112–C116 | ConstructProblem with generateInitTraj, term types, hatch functions of the joint, total time and user defined terms | monadic folds over steps and joints; refinement of the cost and constraint classes of C53–C55, C61, C72; all partly violated |
| C117–C120 | reading problems from JSON (json_marshal, all `fromJson` of problem_description.cpp), offsets, OptimizeProblem parameters | relational specification of the format, refinement of readers, inversion of accepted documents; all partly violated |
| C121–C122 | `optimize` of the OSQP and qpOASES models as state machines around the solver's workspace | Model/LegacySolvers | refinement of a user-level specification over all histories; solver answers are universally quantified |
| C123–C125 | YAML and cereal conversion and comparison of the collision settings | Model/Yaml; nodes of yaml-cpp as a datatype, iteration orders universally quantified; invariants of the table over histories (reuse of C45) |
| C126–C127 | construction, joint terms and trust-region loop together: what a returned trajectory satisfies | Model/EndToEnd on top of Model/Construct and Model/Legacy; invariant of the point over the three loops, composition of C17, C112 and C114 |
| C128–C129 | multi-threaded optimiser: parallel evaluation and convexification at the granularity of memory accesses | Model/Parallel: threads, mutex, `std::vector` with blocks and reallocation; inductive invariant over all schedules, bounded-fairness termination, races as counterexamples |
| C130–C132 | whole runs of `TrustRegionSQPSolver` + `TrajOptQPProblem` + `OSQPEigenSolver` | Model/SqpRun: the solver over an abstract `QPProblem` interface with the concrete QP solver object; Props: laws of a conforming problem (`Lawful`), invariant of the run, simulation by the oracle model of C21–C25, proof that `TrajOptQPProblem` conforms |
| C133–C135 | whole runs of `TrustRegionSQPSolver` + `IfoptQPProblem` + `OSQPEigenSolver` | Model/SqpRunIfopt: `IfoptQPProblem` as an instance of the interface of Model/SqpRun; Props: proof that it conforms (`ifopt_lawful`), then the same generic run theorems |
| C136–C138 | joint trajectory problems from nodes to the trajectory read after the run | Model/IfoptPlan composes Model/VarSets, Model/JointConstraints and Model/SqpRun; Props/IfoptPlanRows computes the rows of every constraint class from C37 and C38; Props/IfoptPlan instantiates C130–C132 and restates them on joints and steps; Props/SqpRunRange shows that the programs stay in the range of OSQP |
| C139–C140 | joint trajectory problems with further constraint sets, and with Cartesian pose constraints in particular | Model/IfoptScene composes Model/IfoptPlan with Model/Cartesian; Props/IfoptScene is generic in the sets (`SetOk`), Props/IfoptScenePose computes the rows of pose constraints (C105) and shows that they fit |
| C141–C142 | joint trajectory problems with collision constraints | Props/IfoptSceneCollision: the answers of the four collision classes after any history (C92, C94, C95) fit C139; a converged run read on contacts through `continuous_level` and `discrete_level` (C93) |
| C143–C144 | constraint terms of a legacy problem description, from the description to the returned trajectory | Model/TermHatch (CartPose, DynamicCartPose and Collision hatch); Props/TermHatch: hatch results (C58, C61, C105–C111, C114–C116) composed with C17 through the layout of the variables; `Demo.converges` shows that a run with any list of fulfilled constraints converges, so the hypotheses can be met for each of the seven theorems |
| C145–C146 | the Gurobi back-end (`GurobiModel`) on an abstract Gurobi with positions, pending deletions and renumbering | refinement relation between wrapper, Gurobi model and the posed program (`Posed`), kept by every call; semantic agreement of rows and objective on points; transfer of optimality |
| C147–C148 | optimality of converged runs of `BasicTrustRegionSQP` on convex problems; convexity of the joint terms | reason for leaving the loops by induction (improvement test, box, iteration limit); the last QP as a certificate; local to global minimum through convexity; joint terms: n-th differences are affine, squares, hinges and absolute values of affine functions are convex |
| C149 | optimality of converged runs of `TrustRegionSQPSolver` on convex problems | as C147, on the oracle model of the solver; the last QP as a certificate |
| C150 | optimality of converged runs of `TrustRegionSQPSolver` with `TrajOptQPProblem` and `OSQPEigenSolver` on affine problems | C149's argument on the whole-run model: the last QP is the problem in the box (C26, C74, C98), dropped entries bounded explicitly; `C150_plan_partial` for joint plans (C136), whose terms are shown to be affine |
| C151 | `WriteCallback`, `WriteFile`: what can be read back from the file | reader (split at a separator) as specification; split of a concatenation glues the border pieces; exact condition for alignment; violations for time columns, other than one link, and the last joint |
| C152 | what `PlotCallback` and `PlotProbCallback` give to the plotter | row-major reading of the variable array; violations for time columns and extra variables |
| C153 | `toTrajArray`, `toJointTrajectory` | C39 (layout and set/get of variable sets) composed with the conversion |
| C154 | `NodesObserver`, `addObserver`, `updateObservers` | induction over histories: no observer object ever exists |
| C155 | `Component::print`, `CompositeDifferentiable::print`, `CostTerm::print`, `Problem::printCurrent` | induction over the list of sets; violated rows as a duplicate-free list; violation for the cost index |
| C156 | One `TrustRegionSQPSolver` used for several problems, several times: nothing fails, all calls return, every report is about the problem it belongs to | `Model/SqpSession.lean`, `Props/SqpSession.lean`: histories of `setVariables` and `solve`; invariant by induction over the history from the theorems on one run (C130-C132) with a used QP solver |
| C157 | A used optimizer gives the results a new one gives | `Props/SqpTwin.lean`: two-run simulation through all loops of the optimizer; `Props/SqpSession.lean` |
| C158 | One `BasicTrustRegionSQP` used several times: what each run starts from and reports | `Model/LegacySession.lean`, `Props/LegacySession.lean`: histories of `setParameters`, `initialize`, `optimize`; induction over the history |
| C159 | the log files of the legacy optimizer | loops with ghost log, erasure, invariant by induction over the run; reading the text back as a table; whole classes of violations |
| C160 | saved iterates of an ifopt problem | history as state machine, refinement of a small relational specification by induction; stale data as a whole class of violations |
| C161 | variables, bounds, costs and constraints of the legacy problem | history as state machine refining a relational specification; foreign model variables as a whole class of violations |
| C162 | comparison of solver parameters | decision logic characterised field by field; exactness without tolerance; violations for whole classes |
| C163 | what callbacks of a trajopt_sqp run are given | log entries come from loop states (invariant over all loops of the whole-run model); chain of best points |
| C164 | what callbacks of the legacy optimizer are given | loops repeated with the list of calls, projection to the unrecorded loops; invariant over the list of calls |
| C165 | merging of convex hulls in the bundled V-HACD | packed cost triangle as buffer with capacity; loop invariant (every entry is the cost of its pair), effect lemmas per loop, inverse of the triangular index |
| C166 | asynchronous V-HACD interface | small-step interleavings of the using thread and the worker; invariant on the shapes of both programs, races as adjacent conflicting accesses, history variables for messages, decreasing measure for progress |
| C167 | voxelization of a mesh in V-HACD | array of voxels with explicit addresses and `short` conversions; invariant of the breadth-first fill against reachability, separating axis test shown exact for all triangles with Helly's theorem (in the plane of the triangle, on a line if it is degenerate), floor arithmetic for the ranges |
| C168 | decomposition loop of V-HACD under cancellation | heap of numbered objects with a mistake flag, every read of the cancel flag asks an arbitrary (sticky) function; invariant over parts, inputs and new parts; multisets of voxels |
| C169 | choice of the clipping plane in V-HACD | order of entry into the critical section as an arbitrary list; invariant "first of the cheapest"; `short` loop indices |
| C170 | the growing array of V-HACD | inner and heap buffer with explicit bounds, unspecified cells; refinement of every operation to a family of lists, by induction for all sequences |
| C171 | the circular list of V-HACD | elements with links in a memory shared by any number of lists, dangling and uninitialised pointers explicit; refinement to sequences with a frame, by induction for all programs |
| C172 | volumes of meshes in V-HACD, points inside, voxels and tetrahedra as meshes | closed surface as a balanced multiset of directed edges; independence of the reference point from it, affine maps, unions by induction; the cube and the five tetrahedra by polynomial identities |
| C173 | cutting sets of tetrahedra at a plane (`TetrahedronSet::Clip`, `AddClippedTetrahedra`, `Add`) | the parts by an invariant over the loops (corners taken from the points given); the volume by following the loops over tables and faces for the three forms a part can have (prism, two orders of a wedge), in affine coordinates |
| C174 | principal axes of a symmetric matrix (`Diagonalize`) | unit quaternions through the loop; the products against sums over all indices; eigenvectors from the diagonal form |
| C175 | turning parts and meshes to their principal axes and back (`TetrahedronSet::ComputeBB`, `ComputePrincipalAxes`, `AlignToPrincipalAxes`, `RevertAlignToPrincipalAxes`, `Volume::AlignToPrincipalAxes`, the uses in `AlignMesh`, `ComputeACD`) | folds for box, mean and covariances; rigid motions from the frame of C174; the cut through C173 |
| C176 | the hulls of the parts and the cover of the model (`VoxelSet::ComputeConvexHull`, `Volume::Convert`, joined with the models of `Voxelize` (C167) and `ComputeACD` (C168)) | the two loops over voxels and clusters, overrun as no result; the hull of an array of points is a parameter |
| C177 | the cost of a clipping plane (`ComputeBestClippingPlane` before its critical section, `VoxelSet::SelectOnSurface`, `Intersect`, `Mesh::Clip`, `ComputeConcavity`, `TetrahedronSet::ComputeClippedVolumes`) | folds over voxels with two counters; half spaces and hulls by induction on convex combinations; hulls and their volumes are parameters |
| C178 | the preferred cutting direction (`ComputePreferredCuttingDirection`, `VoxelSet::ComputePrincipalAxes`, the centre of `VoxelSet::ComputeBB`) | case analysis over the three gaps; moments moved to the mean; Cauchy-Schwarz with the frame of C174 |
| C179 | projecting the points of hulls onto the model (`MyRaycastMesh::raycast`, `rayIntersectsTriangle`, first part of `VHACD::SimplifyConvexHull`) | Cramer's rule in both directions; invariant of the fold over triangles (nearest so far); invariant of the fold over points (kept ones apart); valid indices assumed |
| C180 | simplifying hulls point by point (`ICHull::Process`, `FindMaxVolumePoint`, `ComputePointVolume`, `ProcessPoint`, `MakeCCW`) | the border of the visible part has as many edges into a vertex as out of it (permutations of edge lists); volume seen from the new point; induction over the loop | Model/IncHull, Props/IncHull |
| C30–C31 | cost expressions of the two QP problems | algebra; violated for k ≥ 2 costs / zero Hessians / one variable |
| C32–C33 | Bounds and bound utilities | case analysis, order reasoning |
| C34–C35 | Composite, Problem | list induction; C35 violated |
| C36 | costs on bound errors | algebra |
| C37 | joint difference constraints on trajectories ℕ→ℕ→K | algebra, all lengths |
| C38 | range split | list induction; UB for short coefficient vectors shown |
| C39 | layout of Var/Node/NodesVariables | list induction |
| C40–C41 | interpolate, num_diff | induction, `field_simp` |
| C42–C43 | Cache as state machine with slots | refinement to an abstract LRU list by induction on operations |
| C44–C48 | collision utilities | arithmetic, fold induction |
| C49 | LVS count | ceiling arithmetic |
| C50 | BasicArray with bounds-checked `at` | arithmetic; middleRows violated |
| C51 | searchsorted/interp2d | loop invariant |
| C52 | bpmpd_io serialisation on byte lists with an arbitrary read schedule | round trip; short reads violate |
| C53–C55 | joint terms: expression building vs. matrix differences | list induction using C01–C02 |
| C56–C60 | problem construction | list/arith reasoning; boundary violations shown |
| C61 | velocity with time | algebra |
| C62 | contact filter | decision logic |
| C63 | memcmp-based pattern comparison on byte lists | violated: negation + partial |
| C64 | err-func convexification | uses C03, C07, C08 |
| C65–C66 | trust box and penalty adjustment of TrustRegionSQPSolver | loop invariants over the model of C21–C25 |
| C67 | two-entry circular cache of the legacy collision terms | invariant over histories; violated for the default key |
| C68 | cntsToCosts on the OSQP model | partial minimum, reuses C07–C08 |
| C69 | CostFromFunc::convex on top of the numerical differentiation model | second-order expansion identity, PSD from clipping |
| C70 | grouping loop of the collision evaluators (`std::map` as sorted list) | induction over the contacts |
| C71 | the joint constraints of trajectory_costs.cpp and ConvexConstraints::violation | both sides reduced to a sum over the cells; violated for the equality constraints |
| C72 | TimeCostCalculator and its Jacobian | field identity, tangent inequality for 1/x, `HasDerivAt` over the reals |
| C73 | acceleration and jerk calculators with time | `HasDerivAt` along every line; the scale of the error is violated |

Disagreements between code and property are recorded in section "Findings" below as they are proved.

## Findings

Each entry names the theorem that proves the disagreement on a concrete witness or for a whole class of inputs.

- C09 `ConvexObjective::addMax` (modeling.cpp 75-84): the auxiliary variable is never put into the objective, so
  the minimum over it is 0 for every list (`C09_violated_max_ignored`, `C09_violated`).
- C10 `addMax` does not record its variable in `vars_`, so destroying the objective leaves the variable in the
  model (`C10_violated_by_addMax`).
- C11 `getClosestFeasiblePoint` (componentwise version) does not raise components below the lower bound, moves
  pinned variables out of their bounds and changes points that are already inside (`C11_violated*`).
- C12 names of OSQP, QPOASES and BPMPD do not map to their own enum value (`C12_*violated*`).
- C13 a handle used after its entry was removed and compacted away aliases another entry
  (`C13_stale_handle_aliases`).
- C15 `setObjective(AffExpr)` keeps the quadratic terms of the previous objective (`C15_violated`,
  `C15_affine_keeps_quadratic`).
- C16 inconsistent variable bounds are undefined behaviour in `setTrustBoxConstraints`
  (`C16_inconsistent_bounds_undefined`).
- C17 the legacy optimizer reports OPT_CONVERGED without any evaluation when the first clock reading is past
  `max_time` (`C17_violated_on_early_timeout`).
- C19 a second `optimize()` without `initialize()` can report results of another point
  (`C19_violated_on_second_call`).
- C22 the trust-region SQP solver never reports its failure statuses; with no constraints it always reports
  convergence, even if every QP failed (`C22_violated_*`).
- C43 colliding hashes return the results of another configuration (`C43_violated*`).
- C44 the key of shape s without sub shapes equals the key of some shape with a sub shape, e.g. (3, none) and (2, 0)
  (`C44_violated`, `C44_violated_every_shape`).
- C47 the discrete evaluator compares `max_error[0].error`, i.e. the errors of link A only: a group in which only link
  B moves sorts last however deep the collision is, and is dropped first (`C47_violated`).
- C52 `bpmpd_io` (bpmpd_io.hpp): the length returned by `read` is only asserted, so in release builds a read that
  returns fewer bytes leaves the value half filled and shifts every later one (`C52_violated_short_read`,
  `C52_violated_message`); the check character at the end of a message is read but never compared.
- C67 a configuration whose hash equals the default key gets an empty result; a duplicate put stays stale
  (`C67_violated*`).
- C63 `updateObjective`/`updateConstraints` (osqp_interface.cpp 198-202, 268-272) call `memcmp` with an element
  count instead of a byte count: only the first eighth of the pattern is compared, a changed pattern is reported
  unchanged and the workspace keeps the old row indices (`C63_violated`).
- C64 a negative weight makes the convexified squared/absolute cost disagree with the value
  (`C64_violated_negative_weight`); Jacobian entries below 1e-7 are dropped, so the model no longer touches the
  cost (`C64_violated_small_jacobian`).
- C71 the joint equality constraints report `coeff * d^2` per cell while their linear model is `coeff * d`: the two
  violations of the same point are `sum |c| d^2` and `sum |c| |d|` (`C71_violated_formula`, `C71_violated`).
- C50 `middleRows` writes its result at the source row, so it throws for every non-empty range that does not start at
  row 0, and `bottomRows` with it (`C50_violated_middleRows`, `C50_violated_bottomRows`); a column outside the matrix
  silently addresses another row (`C50_violated_column`, `C50_violated_negative_column`).
- C51 `interp2d` needs sorted new points; on unsorted ones the running index is never reset (`C51_unsorted_wrong`).
- C56 the range checks of fixed_timesteps and fixed_dofs are off by one: with a time column joint `n_dof` pins the time
  steps (`C56_violated_time`), otherwise the access is outside the initial trajectory (`C56_violated_boundary`);
  duplicates add the constraint twice (`C56_violated_duplicates`).
- C57 a negative first_step is not corrected (`C57_violated_negative`); acceleration terms of one step at n-2 become too
  short (`C57_violated_acc`); jerk terms of one step at n-4 end one step past the trajectory (`C57_violated_jerk`).
- C58 the check for two adjacent fixed steps is unreachable; the pair gets a term that varies the second fixed step
  (`C58_violated`).
- C73 the acceleration calculator divides by the sum of the 1/dt values instead of the mean dt, so its value is not the
  acceleration (`C73_violated_scale`); the calculators are public but no term uses them.
- C34 a composite that is not marked dynamic keeps the row count it had when its components were added, so a component
  that later changes its rows is stacked wrongly or out of range (`C34_static_update`).
- C35 `Problem` collects its costs in a stacking composite and returns row 0 only: with two or more cost rows value and
  gradient are those of the first row (`C35_violated`, `C35_violated_gradient`).
- C36 `AbsoluteCost` returns a zero gradient for errors with 0 < |e| < 1e-12 (`C36_violated_near_zero`).
- C37 the constraints need their variables in increasing coordinate order (`C37_order_required`).
- C38 with range splitting (the default) the coefficient vector is indexed per joint without the documented replication:
  empty or single coefficients are read out of range (`C38_violated`).
- C39 a variable without elements reads element 0 of its own empty storage (`C39_empty_variable`).
- C27 `convexify` drops Jacobian entries below 1e-7 from the rows (they still enter the constants), so the row is not the
  linearisation away from the expansion point (`C27_violated_small_entries`).
- C28 The index into the merit coefficients only advances over non-empty constraint sets (continue before the increment), so
  an empty dynamic set gives its coefficient to the next set (`C28_violated_shift`, `C28_violated_witness`).
- C29 A second `setup()` in a row resets the cached row counts to zero and `update()` returns early, so all rows vanish while
  the old bounds stay; `x = 5` becomes `0 = 5` (`C29_violated_rows_vanish`, `C29_violated_infeasible`).
- C74 Hessian entries below 1e-7 are dropped while the gradient is kept (`C74_violated_small_hessian`): a squared cost with a
  small weight becomes linear.
- C75 `evaluateConvexCosts` includes the slack columns in the rows of hinge/absolute costs, so the reported penalty is zero
  at every feasible point of the QP (`C75_violated_penalty_zero`).
- C77 `getExactCosts` does not weight hinge/absolute costs by their coefficients although the QP does
  (`C77_violated_unweighted`).
- C31 `QuadExprs::create` drops the linear part of every row whose Hessian stores nothing, so the expansion misses the
  function value by `J x0` (`C31_violated_zero_hessian`); with one variable the 1x1 matrix is taken for the squared affine
  encoding and squared again (`C31_violated_one_variable`).
- C30 `IfoptQPProblem` adds the whole quadratic and linear part to every cost, so with n costs the total convex cost changes n
  times as much as the QP objective (`C30_multiplied`, `C30_violated_many_costs`, `C30_violated_witness`).
- C80 The exact squared cost ignores the coefficients that the QP uses (`C80_violated_weights`); absolute costs are squared in
  the QP (`C80_violated_absolute`).
- C81 `addCostSet` of `IfoptQPProblem` stores a hinge cost before it throws, so the rejected cost is part of every later QP
  (`C81_violated_hinge`, `C81_violated_witness`).
- C92 rows without a contact keep the coefficient of the last contact they carried, so the same point has different
  coefficients after different histories (discrete_collision_constraint.cpp 81-83, `C92_violated_coefficients`).
- C93 with more shape pairs in contact than rows the discrete evaluator sorts by the errors of link A (C47), so a deep contact
  is dropped and the constraint reads satisfied (`C93_violated_discrete`); a negative buffer makes a scene without contacts
  violated (`C93_violated_negative_buffer`).
- C96 `ContinuousCollisionNumericalConstraint` (continuous_collision_numerical_constraint.cpp 179-224) displaces the end
  configuration but passes it as the start: the second block is the quotient along (q1 + d, q1), not (q0, q1 + d)
  (`C96_violated_continuous`).
- C95 `ContinuousCollisionConstraintD` inserts its entries with insertBack, so it needs variable 0 before variable 1 in the
  column order (a hypothesis of `C95_continuous`; Eigen asserts otherwise).
- C35 `getTotalExactCost` of `IfoptQPProblem` returns only its first cost (`C35_violated_total_exact`,
  `C35_violated_total_witness`).
- C97 solving a second problem with the same optimizer: if it has the same number of QP variables but another number of rows
  and its sizes do not change in its first convexify (`IfoptQPProblem`), the in-place update asserts
  (`C97_violated_other_problem`; without assertions the library refuses the matrix and the solver is rebuilt).
- C98 `OSQPEigenSolver::updateGradient` sets entries below 1e-7 to zero, among them merit coefficients of slacks
  (`C98_violated_small_gradient`).
- C99 `setWarmStart` divides a non-negative violation by the slack coefficient, so slacks of upper bounds (coefficient -1)
  start at zero (`C99_violated_upper`); it uses the number of a constraint as a matrix row, although `TrajOptQPProblem` reports
  one violation per constraint set and puts the cost rows first (`C99_violated_index`).
- C100 after one failed solve the status stays kFailed through later successful solves until a rebuild
  (`C100_violated_sticky`).
- C101 `CollisionEvaluator::removeInvalidContactResults` (collision_terms.cpp 558-599) drops a contact if either link is at the
  fixed state, `trajopt_common::removeInvalidContactResults` only if no link is away from it; the evaluators assert that both
  keep equally many contacts, so a contact between two moving links, one at the fixed state and one further along, aborts debug
  builds (`C101_violated_end_free`, `C101_violated_start_free`).
- C102 `CalcDistExpressionsSingleTimeStep` discards the result of `cleanupAff`, so single-time-step expressions keep entries that
  the other kinds drop (no harm: the single-time-step model is the exact one).
- C106 without numeric differentiation `CartPosConstraint::calcJacobianBlock` assigns a vector of six entries to
  `jac0.col(c).tail(3)` (cartesian_position_constraint.cpp) (`C106_violated_analytic`).
- C107 legacy pose terms drop tolerances whose lower and upper vectors are almost equal, so an exact nonzero offset cannot be
  asked for (`C107_violated_equal`); `CartPoseJacCalculator` leaves out the source when both frames move
  (`C107_violated_both_active`).
- C108 `CartLineConstraint::getLinePoint` (cartesian_line_constraint.cpp 271-308) compares a length with 1 instead of the length of
  the segment (`C108_violated_long`, `C108_violated_short`), takes absolute values of the coordinates (`C108_violated_behind`),
  returns a point in the target frame (`C108_violated_frame`) and interpolates the orientation with a length
  (`C108_violated_orientation`); the Jacobian always runs over six indices and indexes twice (`C108_violated_few`,
  `C108_violated_order`); `setBounds` asserts six bounds (`C108_violated_bounds`).
- C109 `InverseKinematicsConstraint::getValues` returns zero (satisfied) when the solver finds nothing; only an assertion guards it
  (`C109_violated_unreachable`). `tcp_offset` is stored and never read (`C109_violated_offset`). Wrong sizes of variable and bounds
  are only logged (`C109_violated_size`, `C109_violated_bounds`).
- C110 `CartVelTermInfo::hatch` reads the row after `last_step`, which may be the last row (`C110_violated_last`); the limit holds per
  axis although documented for the change in position (`C110_violated_oblique`); with `TT_USE_TIME` nothing is added
  (`C110_violated_time`).
- C111 `AvoidSingularityTermInfo::hatch` uses the absolute penalty, so above the threshold the cost grows with the distance from a
  singularity (`C111_violated_cost`); the subset calculators call `getSubset` and `updateFromSubset` inside `assert`
  (`C111_violated_release`).
- C112 a joint-interpolated trajectory with one step is the end, not the current state (`C112_violated_single`, from the convention of
  `LinSpaced`); starting values outside the limits are accepted (`C112_violated_bounds`).
- C113 `ConstructProblem` never compares `term_type` with the list a term is in: declared types decide (`C113_violated_list`), a term
  without a type adds nothing (`C113_violated_undeclared`), and `TT_COST | TT_CNT` adds costs only, or for collisions constraints only
  (`C113_violated_both`).
- C114 tolerances are compared with 1e-5: if all are smaller the target is demanded exactly (`C114_violated_tiny`); velocities with time
  then get two equalities that contradict each other when the tolerances differ (`C114_violated_time_tiny`). Equality costs with time
  count each row twice (`C114_violated_time_double`). `TT_USE_TIME` accelerations and jerks are logged and dropped
  (`C114_violated_time_ignored`).
- C115 `TotalTimeTermInfo::hatch` uses the last column whether or not the problem has time (`C115_violated_no_time`).
- C116 `UserDefinedTermInfo` with its default steps `-1 .. -1` throws (`C116_violated_default`).
- C117 `fromJsonArray` iterates over any value, so that a number or text in place of a list is the empty list: `"coeffs": 5` for a joint
  term means weight 1 (`C117_violated_coeffs`), `"fixed_timesteps": 3` fixes nothing and `"costs": 3` means no costs
  (`C117_violated_lists`). `asInt` truncates fractions (`C117_violated_fraction`). The names BPMPD, OSQP and QPOASES select another
  solver than named (`C117_violated_solver`). `safety_margin_buffer` is read for collision terms and then rejected as unknown member
  (`C117_violated_buffer`). A negative `evaluator_type` passes the check (`C117_violated_evaluator`). Unknown members are looked for only
  in `params`; in `opt_info` they are ignored (`C117_violated_misspelt`).
- C118 `basic_info.use_time` without terms that use time reads well and then throws in `ConstructProblem` (`C118_violated_flag`). `use_time` in the
  `params` of velocity and acceleration terms is allowed and has no effect (`C118_violated_params`).
- C119 quaternions of offsets are not normalised (`C119_violated_unnormalised`).
- C120 `OptimizeProblem` never looks at `opt_info` and sets its own four parameters (`C120_violated_ignored`).
* **C121 (workspace reuse).** With `update_workspace` the OSQP model keeps a solved workspace if the new matrices "have the same
  sparsity"; the comparison passes element counts to `memcmp` (C63), so replacing `x1 = 1` by `x2 = 1` in a model of three
  variables goes unnoticed: the values are loaded into the old pattern and `optimize()` reports "solved" for the old constraint.
  The default configuration is not affected (`C121_every_history`), nor is the trust region loop (`C121_trust_box_partial`).
* **C122 (budget).** `nWSR` is passed by reference to `hotstart`, which overwrites it with the recalculations made; the following
  `init` then runs with that number instead of 255. A model that a fresh object solves can fail in one that was used before.
* **C124 (alias).** The YAML reader of `TrajOptCollisionConfig` announces the legacy alias `buffer` for
  `collision_margin_buffer` in a comment but only looks up the new name: documents with the alias are accepted and the value is
  dropped. A scalar or null given for `pair_coeff_data` is accepted and ignored as well.
* **C125 (transitivity).** `operator==` compares numbers with a tolerance and is therefore not transitive.
- C129: `Model::addVar(name, lb, ub)` (solver_interface.cpp 111-116) holds the model's mutex only inside `addVar(name)`; the following
  `setVarBounds` of OSQP, qpOASES and BPMPD stores into `lbs_`/`ubs_` without it.  With `BasicTrustRegionSQPMultiThreaded` another thread can
  be in a reallocating `push_back` at that time: the bound is written into the block that is given up (the hinge variable keeps the bound
  `-infinity` of `addVar(name)`, so that a satisfied hinge is rewarded; `C129_violated_lost`, `C129_violated_hinges`) or into freed memory
  (`C129_violated_freed`).  Gurobi's model overrides the call and takes the lock around all of it.
- The multi-threaded optimiser passes `param_.num_threads` to the `num_threads` clause; its default is 0, and OpenMP requires a positive value.
  Exceptions thrown by a term inside the parallel region (e.g. by `PRINT_AND_THROW`) cannot leave it and end the program.  Neither is modelled.
- C130: if all squared costs are dynamic and lose their rows (e.g. a squared collision cost when no contact is left), `n_objective_terms` is 0 and
  `convexify` leaves `squared_objective_nlp` as it was (trajopt_qp_problem.cpp 861), while `evaluateConvexCosts` still evaluates it because
  `objective_term_infos` is not empty (148-155): `QuadExprs::values` assigns the old `constants` to an empty block (expressions.cpp 126), an
  assertion in debug builds and a write behind the scratch vector otherwise (`C130_violated_lost_rows`).
- C145/C146 (Gurobi back-end, `gurobi_interface.cpp`): `removeCnts`/`removeVars` of a handle removed before the last `update` is accepted
  and deletes the row or column that now has its old index (`C145_stale_handle_violated`); `addIneqCnt(QuadExpr)` returns a null `Cnt`,
  and passing it to `removeCnts` dereferences null (`C145_quadratic_handle_violated`); `setObjective` before `update` asserts or, in
  release builds, writes behind the vector `obj` (`C145_objective_before_update_violated`); `optimize` without `update` after
  `removeVars` makes `getVarValues` return other variables' values (`C146_missing_update_violated`); `optimizeFeasRelax` passes the
  addresses of single doubles where `GRBfeasrelax` reads one penalty per column and row (`C146_feas_relax_violated`).
- C147: `BasicTrustRegionSQP` tests `approx_merit_improve / old_merit < min_approx_improve_frac` without an absolute value (optimizers.cpp,
  trust-region loop). With a negative merit (costs may be negative, e.g. user-defined ones) the quotient is negative for every promised
  improvement, so the optimiser stops at once with `OPT_CONVERGED` (`C147_negative_merit_violated`). `trajopt_sqp` divides by
  `max(|merit|, tiny)` and is not affected.
- C147: `OPT_CONVERGED` is also the status after the trust box has shrunk below its minimum and after `max_iter` inner iterations when the
  constraints are satisfied; for such runs nothing about optimality follows, and the status does not distinguish them.
- C149: `kConverged` is also the status after the iteration limit, the time limit, 99 convexifications or a collapsed trust box when the
  constraints are satisfied (`penaltyLoop` tests the constraints before it looks at the status); only the reported iteration counts and box
  tell such runs from converged ones.
- C150: because matrix entries and gradient entries below 1e-7 are not passed to OSQP, the QP's optimum can differ from the problem's by up to
  2e-7((nB)^2+nB) in the objective, which for large variable bounds exceeds the convergence tolerances; penalty costs and constraints with a
  weight other than one are optimized with that weight but compared without it (C77), so C150 needs weight one.
- C151: in the file written by the file write callback every link of the kinematic group adds seven cells to a row while the header has seven
  pose labels once, and a time column has no label, so costs and constraints stand under the wrong names unless there is exactly one link and no
  time column; the name of the first link is appended to the value of the last joint without a comma.
- C152: `PlotProb` cuts the vector of all variables into rows of as many entries as there are joint names; a time column or extra variables
  shift every later row.  `PlotCosts` passes the time as an extra joint value.
- C154: `NodesObserver` cannot be constructed (`shared_from_this()` in the constructor throws `bad_weak_ptr`), so the observer interface is dead.
- C155: `CostTerm::print` does not advance the index, so every cost is listed at index 0.
- **C156 (coming back to an earlier problem).** `TrustRegionSQPSolver::stepSQPSolver` decides whether the QP solver must be set up again by comparing the QP sizes of
  the problem with its own sizes before `convexify`, not with the sizes the QP solver has. When one optimizer solves problem A, then B, then A again, and the two have
  the same number of QP variables but not of QP rows, the third call fails the assertion in `updateLinearConstraintsMatrix`
  (`C156_violated_coming_back`, from runs of the whole model). Solving new problems one after the other, and solving the last problem again, are safe (`C156_never_fails`).
- **C158 (stale trust box).** `BasicTrustRegionSQP::optimize` shrinks and expands `param_.trust_box_size` itself and `initialize` does not reset it. When a run ends with a box below
  `min_trust_box_size`, the next `initialize` and `optimize` without `setParameters` solve no QP at all: feasible initial values are returned unchanged as `OPT_CONVERGED`
  (`C158_violated_stale_box`, for all problems; the example shows a history where it happens).
- (C159) `BasicTrustRegionSQP::optimize` writes the headers of its log files if `n_func_evals == 1`; a second `optimize` without `initialize` therefore empties the files and writes them without headers (`C159_second_run_violated`).
- (C159) `optimize` opens (and empties) its log files before it checks for missing initial values: the throw leaves four streams open and the log of the last run is gone (`C159_uninitialized_violated`).
- (C159) with `log_results` and a directory that cannot be written the run succeeds and then calls `fclose(nullptr)`, which is undefined (`C159_unopened_violated`).
- (C160) `Problem::setOptVariables` and `setOptVariablesFinal` set the variables without calling `constraints_.update()` and `costs_.update()` as `setVariables` does, so a restored problem evaluates its constraint sets with the data collected at the last `setVariables` (`C160_stale_violated`).
- (C161) `OptProb::setLowerBounds(lb, vars)` and `setUpperBounds(ub, vars)` address the problem's bound vectors with the variable's index in the model. If anybody has created variables on the model before the problem creates its own, bounds are given to the wrong variables or written behind the end of the vector (`C161_foreign_violated`).
- (C162) `operator==` of both parameter types compares every number with the absolute tolerance `numeric_limits<float>::epsilon()`; tolerances below 1.2e-7 cannot be told apart (1e-8 equals 1e-7) although they give different verdicts (`C162_tolerance_violated`), and the comparison is not transitive (`C162_transitive_violated`).
- (C163) `ClearPlotterCallback` and `WaitForInputCallback` dereference their plotter without a check and `JointStatePlottingCallback` its state solver, although the other callbacks accept a null plotter; `C163_library` characterises when the library's callbacks work.
- (C164) `BasicTrustRegionSQP::optimize` calls the callbacks at the beginning of the first pass before anything is evaluated (754 stands before 761): the first call always shows empty cost and violation vectors, so a callback that indexes costs by number, or the result file of `WriteCallback`, gets a first entry without costs (`C164_violated_first_call`).
- (C165) `VHACD::MergeConvexHulls`: the last pass of the loop at VHACD.cpp 1602-1606 reads `costMatrix[n (n+1) / 2]`, one element behind the matrix, whenever the pair merged does not contain the last hull. The value is never used, but from twelve hulls on the buffer has exactly as many elements as the matrix, so the first merge reads behind the heap allocation (`C165_violated_overread`). `m_maxConvexHulls = 0` never satisfies the exit condition and ends with the cheapest pair of an empty matrix, index -1 (`C165_violated_zero`).
- (C166) `MyHACD_API` (VHACD-ASYNC.cpp): (a) the destructor calls `releaseHACD()` before `Cancel()`, so `Release` during a computation frees the input the worker reads (`C166_violated_release`); (b) `mCallback` and `mLogger` are plain pointers written by the worker and read by `IsReady`; since every `Compute` after the first leaves the message `Convex Decomposition thread canceled`, an `IsReady` right after it is a data race (`C166_violated_logger`), can call a null callback (`C166_violated_null`) and can hand a message of the earlier computation to the new callback (`C166_violated_stale`); (c) the base computation reads `m_cancel` without its mutex in six places (`C166_violated_flag`), and outside debug builds the mutex does nothing, because `VHACD_VERIFY(x)` is `assert(x)` and the pthread calls are its argument; (d) a `Cancel` before the base computation starts is forgotten and then waits for the whole computation (`C166_violated_cancel_lost`); `mCancel` of the interface is never set; (e) `mMessageMutex` is held while the user's callback runs, so a callback that calls `Cancel` never returns (`C166_violated_cancel_in_callback`); (f) `IsReady` may return true with the last message still waiting (`C166_violated_last`).
- (C167) `Volume` (vhacdVolume.h): (a) the assertions in `GetVoxel` compare all three indices with `m_dim[0]`, so a debug build aborts for every mesh noticeably longer along the second or third axis than along the first (`C167_violated_debug`); (b) the longest side is found with strict comparisons, so if the first two are equal and longer than the third, the third is taken: a square plate gets `dim * length / thickness` voxels along its sides (`C167_violated_square`), and a flat square divides by zero and converts the result to `size_t` (`C167_violated_flat`).
- (C168) `VHACD::ComputeACD`: (a) asked for more than 2^31 hulls (for instance `UINT32_MAX` as "no limit") the loop which computes the depth never ends, because the 32-bit `hullCount` wraps to zero (`C168_violated_depth`); (b) `m_convexHulls.Resize(0)` drops the pointers of an earlier computation without deleting the hulls, so a second `Compute` without `Clean` leaks them (`C168_violated_leak`).  Not proved, seen while reading: the progress reported divides by `1 - m_concavity`; `ComputePrincipalAxes` computes `m_barycenterPCA` but takes the covariance about the rounded `m_barycenter`.
- (C169) Clipping planes: (a) a `m_planeDownsampling` of zero, or any multiple of 65536 (it is converted to `short`), makes the loop over the planes endless (`C169_violated_zero`); (b) the planes include the one after the last layer of the set, which cuts nothing; if it is chosen one of the two parts is empty and yields an empty hull (`C169_violated_empty`).
- (C170) `SArray`: (a) `PushBack` of a reference to an element of the array itself, when the array is full and already lives on the heap, reads the buffer just deleted (`C170_violated_own`); (b) `PopBack` on an empty array wraps the size to 2^64 - 1 (`C170_violated_pop`); `Resize` to a greater size exposes elements removed before or never stored; with `N = 0` nothing can be stored.
- (C171) `CircularList`: (a) the copy constructor (vhacdCircularList.inl 127-140) initialises neither `m_head` nor `m_size` before it calls `Add`: a copy of an empty list has the size that happened to be in memory, a copy of another list uses a wild pointer unless that size was zero (`C171_violated_copy`); copies of `TMMesh` and `ICHull` would be affected, the library makes none. (b) `Delete(element)` on a list with one element deletes that element whatever the argument is and returns true (`C171_violated_only`).
- **A quarter of a tetrahedron lost (C173, `C173_violated_volume`).** `TetrahedronSet::AddClippedTetrahedra` divides six points into three tetrahedra. Looking for the third, over the faces of the first it computes volumes under the point `a0`, which already belongs to the second, and not under `a1` (vhacdVolume.cpp 1461-1462). With no corner of the tetrahedron on the plane this does not matter (`C173_volume_partial`). If a corner lies on the plane, the third tetrahedron may be missed: `x + y = z` takes a quarter from a corner of the unit cube. In a simulation outside Lean all losses disappeared with `a1` in place of `a0`.
- **Small tetrahedra disappear (C173, `C173_violated_small`).** `TetrahedronSet::Add` drops tetrahedra with six times the volume below `1e-10`, whatever the scale of the model. A voxel with a side below about `3.6e-4` (metres: a third of a millimetre) is lost altogether in the first cut in the tetrahedron mode. `Clip` counts the tetrahedra dropped all the same (1625-1633, 1637-1645).
- **Five points (C173).** The branch of `AddClippedTetrahedra` for five points adds the second tetrahedron if none was found (`h1 == -1`, 1378) and so would read what was never written. `Clip` never gets there: the sides of a cut have four or six points (`C173_parts`).
- **A product of quaternions in place (C174, `product_in_place`).** `Diagonalize` multiplies its quaternion by that of the rotation in four assignments, each of which reads what those before it wrote (vhacdVolume.cpp 380-383). The result is not the product, and a turn rotates by another angle than the one computed. Since the quaternion is normalised afterwards and `D` is computed from it anew, the frame and the products stay right (`C174_frame`, `C174_product`); a matrix with one element off the diagonal, which a Jacobi rotation makes diagonal at once, needs several turns. In a simulation outside Lean with random matrices up to 12 turns of 24 were needed in place of 8.
- **Moments about a rounded centre (C178, `C178_violated_centre`).** `VoxelSet::ComputePrincipalAxes` computes the mean of the voxels in `m_barycenterPCA` and then takes the moments about `m_barycenter`, the same point rounded to whole numbers (vhacdVolume.cpp 796-816). The spreads it finds are up to 3/4 of a voxel's square too large (`C178_spread_partial`); for small sets of voxels another cutting direction can come out than about the mean. `TetrahedronSet` and `Volume` use the mean (`C175_spread`).
- **A downsampling of zero takes no points (C176).** `VoxelSet::ComputeConvexHull` counts surface voxels up and takes one when the counter equals `sampling` (vhacdVolume.cpp 458-462). With `sampling == 0` this never happens and the hull of any set is empty (`C176_violated_sampling`). `Parameters::m_convexhullDownsampling` is passed on unchecked (VHACD.cpp 1271), so zero makes every candidate plane look equally concave. The final hulls use one and are not affected.
- **No balance with tetrahedra (C177, `C177_violated_balance`).** `TetrahedronSet::ComputeClippedVolumes` (vhacdVolume.cpp 1519-1526) sets neither of its results, so in the tetrahedron mode the volumes of both sides of every plane are zero (VHACD.cpp 1025-1026). The term for even divisions is always zero and `Parameters::m_alpha` has no effect; the concavity that the search reports is the volume of the hulls. The order of planes by concavity alone is not changed (`C177_tetrahedra_partial`).
- **Ties between cutting directions (C178, `C178_violated_tie`).** `ComputePreferredCuttingDirection` (VHACD.cpp 519-551) takes the z axis whenever no other axis has strictly the smallest difference. If x and y tie for the smallest, the axis with the largest difference is taken; spreads of one, three and two give the z axis.
- **Principal axes named by axes of the grid (C178, `C178_turned`).** The direction is the axis of the grid with the same number as the principal axis found. Sets of voxels are never turned to their principal axes (`VoxelSet::AlignToPrincipalAxes` is empty, vhacdVolume.h 147), so for parts that lie askew the penalty `m_beta` is put on planes across an axis of the grid that has no relation to the symmetry of the part. Only for parts without correlations the two are the same (`C178_aligned`).
- **Ends and distances of ray casts (C179, `C179_violated_end`, `C179_violated_far`).** `RaycastMesh::raycast` (vhacdRaycastMesh.cpp 96-161) is documented with an ending point and returns 'the distance the ray traveled'. It finds points beyond the end, misses points before the end whose distance to `closestToPoint` is at least the length of the ray, and returns the distance to `closestToPoint`.
- **Small triangles are invisible to ray casts (C179, `C179_violated_small`).** `rayIntersectsTriangle` drops triangles if the determinant is below the absolute constant `0.00001` (line 30). The determinant is at most the product of two edges, so triangles with edges of three millimetres in a model in metres are never hit, and with `m_projectHullVertices` (on by default) the points of hulls stay off the surface of finely meshed models.
- **The box of a hull leaves out its first point (C179, `C179_violated_box`, `C179_violated_single`).** `VHACD::SimplifyConvexHull` (VHACD.cpp 1635-1642) starts `bmax` with `inputPoints[1]` and loops from one, so the first point never counts for the upper end. The centre and the diagonal, and with it both thresholds, come out too small; with a single point the read is outside of the array.
- **Thin hulls are lost (C179, `C179_violated_needle`).** Points of a hull within a hundredth of its diagonal of another one are dropped before the simplification (VHACD.cpp 1683-1701). Of a tetrahedron of length one and thickness 1/200 two points are left. `ICHull::Process` then returns `ICHullErrorNotEnoughPoints`, which `SimplifyConvexHull` does not look at, and the hull ends with points but without triangles. This is the default path (`m_projectHullVertices`).
- **The least volume of a point counts six times (C180, `C180_violated_factor`).** `VHACD::SimplifyConvexHull` passes `m_volumeCH0 * m_minVolumePerCH`, a part of a volume, to `ICHull::Process`. `FindMaxVolumePoint` (vhacdICHull.cpp 360-396) compares it with the sum of determinants of `ComputePointVolume`. By `C180_volume` this sum is six times the volume the point adds. Points are kept down to a sixth of the volume asked for. The threshold is used only after more than four points were added (261).
- **Names are not exchanged (read, not proved).** `FindMaxVolumePoint` exchanges the positions of two vertices, but writes the saved name back to the first one (vhacdICHull.cpp 388-393), so that both vertices keep their names while their positions are exchanged. The exchange is left out of the model of C180.
- **Numbers as flags (C117, `C117_violated_flag`).** `fromJson` for `bool` (json_marshal.cpp 9-19) uses `asBool`, which takes every number but zero as true. A document with a number in place of a flag is accepted.
