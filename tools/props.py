# generates /verif/properties.jsonl
import json
P=[]
def p(id,title,statement,quant,why,anchors):
    P.append(dict(id=id,title=title,statement=statement,quantifier=quant,why_tests_cant=why,anchors=anchors))
D="ocp_qp/x_ocp_qp_dim.c"
Q="ocp_qp/x_ocp_qp.c"
R="ocp_qp/x_ocp_qp_res.c"
KK="ocp_qp/x_ocp_qp_kkt.c"
I="ocp_qp/x_ocp_qp_ipm.c"
CA="ipm_core/x_core_qp_ipm_aux.c"
C0="ipm_core/x_core_qp_ipm.c"
RD="ocp_qp/x_ocp_qp_red.c"
CD="cond/x_cond.c"
CX="cond/x_cond_aux.c"
PC="cond/x_part_cond.c"
ST="tree_ocp_qp/scenario_tree.c"
p("C01","Number of box constraints always equals state boxes plus input boxes",
  "Whatever sequence of dimension setters (set by field name, per-field setters, set_all, copy_all, deepcopy) is applied to a freshly created OCP QP dimension object, at every stage the total number of box constraints is the number of state boxes plus the number of input boxes.",
  "all horizons, all finite sequences of dimension API calls with all stage indices and values","the call histories are unbounded",[D+":OCP_QP_DIM_SET",D+":OCP_QP_DIM_SET_NBX",D+":OCP_QP_DIM_SET_NBU",D+":OCP_QP_DIM_SET_ALL"])
p("C02","Dimension set/get round trip and frame",
  "Setting a dimension field of one stage makes the corresponding getter return that value for that stage, and leaves what every getter reports for every other field or stage unchanged; an unknown field name is refused (the process exits) and changes nothing.",
  "all fields, stages, values and prior contents","infinitely many states and values",[D+":OCP_QP_DIM_SET",D+":OCP_QP_DIM_GET"])
p("C03","Copying dimensions reproduces every getter",
  "After deepcopy (or copy_all between objects of the same horizon) the destination answers every getter as the source does, and set_all reproduces the arrays it was given but does not touch the equality counts.",
  "all horizons and contents","infinitely many contents",[D+":OCP_QP_DIM_DEEPCOPY",D+":OCP_QP_DIM_COPY_ALL",D+":OCP_QP_DIM_SET_ALL"])
p("C04","memsize is enough for create",
  "For every problem size and every address of the memory block, the create routines carve all their arrays out of [mem, mem+memsize) where memsize is the value returned by the matching memsize routine: nothing is placed past the end.",
  "all dimensions, all base addresses (aligned or not), all BLASFEO panel sizes","memory layouts depend on unbounded dimensions and on the address returned by malloc",[D+":OCP_QP_DIM_MEMSIZE",C0+":MEMSIZE_CORE_QP_IPM",Q+":OCP_QP_MEMSIZE",Q+":OCP_QP_CREATE",RD+":OCP_QP_REDUCE_EQ_DOF_WS_MEMSIZE","ocp_qp/x_ocp_qp_sol.c:OCP_QP_SOL_MEMSIZE"])
p("C05","Arrays carved by create do not overlap",
  "The arrays carved out by a create routine are pairwise disjoint, so writing one array never changes another, and the floating-point area starts at a multiple of 64 bytes.",
  "all dimensions and base addresses","unbounded dimensions and addresses",[C0+":CREATE_CORE_QP_IPM",Q+":OCP_QP_CREATE"])
p("C06","zero_memset clears exactly the given range",
  "hpipm_zero_memset sets every byte of [mem, mem+size) to zero and no byte outside it.",
  "all sizes and memory contents","unbounded size; boundary cases around multiples of 8 and 64",["auxiliary/aux_mem.c:hpipm_zero_memset"])
p("C07","QP data set/get round trip",
  "Each numeric setter of an OCP QP (A, B, b, Q, S, R, q, r, bounds, general constraints, slack penalties, masks) followed by the getter of the same field returns exactly the value set, bounds with the user's sign although upper bounds are stored negated.",
  "all dimensions, stages, values, prior contents","infinitely many values and dimensions; index arithmetic in a packed layout",[Q+":OCP_QP_SET",Q+":OCP_QP_GET"])
p("C08","QP data setters do not disturb other fields",
  "A numeric setter changes no other field of the same stage and nothing at other stages.",
  "all pairs of fields, stages, dimensions and contents","the number of field pairs times all dimensions",[Q+":OCP_QP_SET"])
p("C09","Upper bounds are stored negated consistently",
  "For every QP and every point, the lower and upper residual of a box or general constraint produced by the residual routine are lower-(value)-slack+t and (value)-upper-slack+t with the user's bounds: the negated storage of upper bounds is consistent between setters, residuals and getters.",
  "all QPs and points","universal over reals",[Q+":OCP_QP_SET_UB",R+":OCP_QP_RES_COMPUTE"])
p("C10","Softening map set/get and reset",
  "Setting the list of softened constraints makes constraint idxs[i] use slack i, and reading the list back returns it; setting a QP to all zero removes every softening.  (The code violates the last part: the reset loop runs over the number of slacks, not the number of constraints.)",
  "all dimensions, lists and prior maps","histories of maps",[Q+":OCP_QP_SET_IDXS",Q+":OCP_QP_GET_IDXS",Q+":OCP_QP_SET_ALL_ZERO"])
p("C11","Selection matrices are translated to index lists",
  "Setting state/input bounds or slack selections by a 0/1 matrix with one nonzero per row yields the index list that selects the same components, so that the bound rows equal J times the variable.",
  "all dimensions and selection matrices","infinitely many matrices",[Q+":OCP_QP_SET_JBX",Q+":OCP_QP_SET_JBU",Q+":OCP_QP_SET_JSBX"])
p("C12","Equality flags set by a selection vector",
  "Setting the equality flags of state/input boxes by a vector marks as equalities exactly the constraints flagged nonzero.  (The code violates it: the loop condition uses 'or' where 'and' is needed, so leading constraints are marked whatever the vector says and more nonzeros than declared equalities write past the list.)",
  "all vectors and declared counts","universal; the failure needs specific patterns",[Q+":OCP_QP_SET_JBXE",Q+":OCP_QP_SET_JBUE",Q+":OCP_QP_SET_JGE"])
p("C13","Step length never leaves the positive orthant",
  "The primal and dual step lengths computed from strictly positive slacks and multipliers lie in [0,1], and any fraction of them keeps all slacks and multipliers nonnegative (full step: nonnegative; strictly shorter step: positive).",
  "all numbers of constraints, iterates and directions","universal over reals",[CA+":COMPUTE_ALPHA_QP"])
p("C14","Update keeps slacks and multipliers positive",
  "The variable update, with its step shortening factor and optional clipping, keeps every slack and multiplier strictly positive when they were strictly positive, and at least t_min / lam_min when clipping is on.",
  "all iterates, directions, step lengths computed by the step length routine, and clipping settings","universal over reals",[CA+":UPDATE_VAR_QP",CA+":COMPUTE_ALPHA_QP"])
p("C15","Multiplier and slack steps satisfy the linearised equations",
  "The multiplier and slack steps recovered from the primal step satisfy exactly the linearised complementarity lam*dt + t*dlam = -res_m and the linearised constraint equation.",
  "all iterates and right-hand sides with nonzero slacks","universal over reals",[CA+":COMPUTE_LAM_T_QP"])
p("C16","Elimination of slacks and multipliers is exact",
  "The diagonal weights and gradient terms computed for the inequality constraints are exactly those obtained by eliminating multiplier and slack steps from the Newton system (without clipping).",
  "all iterates and right-hand sides","universal over reals",[CA+":COMPUTE_GAMMA_GAMMA_QP"])
p("C17","Predicted complementarity is the average at the trial point",
  "The affine complementarity measure is the average over non-masked constraints of the products of slack and multiplier after the predictor step with the computed step lengths, and is nonnegative when the step lengths respect the boundary.",
  "all iterates, steps, step lengths","universal over reals",[CA+":COMPUTE_MU_AFF_QP"])
p("C18","Centering right-hand side",
  "The corrector right-hand side is the complementarity residual plus the second order term minus the centering target, and the target is never below the requested minimum barrier.",
  "all iterates and parameters","universal over reals",[CA+":COMPUTE_CENTERING_CORRECTION_QP",CA+":COMPUTE_CENTERING_QP",CA+":COMPUTE_TAU_MIN_QP"])
p("C19","Residuals are the KKT residuals",
  "The residual routine returns, for every QP and point, exactly the gradient of the Lagrangian with respect to inputs, states and slacks, the dynamics defect, the inequality defects and the complementarity products of the QP as documented.",
  "all QPs, dimensions and points","universal over reals and dimensions",[R+":OCP_QP_RES_COMPUTE"])
p("C20","Zero residuals mean a global optimum",
  "For a convex QP, a point with zero residuals and nonnegative multipliers and slacks is feasible and has the smallest objective among all feasible points.",
  "all convex QPs and all feasible points","needs a proof over all feasible points",[R+":OCP_QP_RES_COMPUTE","include/hpipm_common.h:SUCCESS"])
p("C21","Duality gap is meaningful",
  "The duality gap reported with the residuals equals the objective minus the dual objective; when the equality, inequality and stationarity residuals vanish it equals the sum of slack times multiplier, and for a convex QP it bounds the distance of the objective from the optimum.",
  "all QPs and points","universal over reals",[R+":OCP_QP_RES_COMPUTE"])
p("C22","Residual norms bound every component",
  "The four residual norms reported are upper bounds of the absolute value of each residual component of their group and are attained (or zero when the group is empty).",
  "all residual vectors","universal over reals",[R+":OCP_QP_RES_COMPUTE_INF_NORM"])
p("C23","Residual of the Newton system is the linearised KKT residual",
  "The linear-system residual routine evaluates exactly the derivative of the KKT residual in the step direction plus the right hand side: when it is zero, a full step changes the stationarity, dynamics and inequality residuals to zero and the complementarity residual to the second-order term.",
  "all QPs, points and steps","universal over reals",[R+":OCP_QP_RES_COMPUTE_LIN"])
p("C24","Unconstrained solve is exact",
  "For a QP without inequality constraints and with positive definite factorised stages, the solution returned has zero dynamics residuals and a stationarity residual equal to minus the primal regularisation times the solution (zero without regularisation), with both Riccati variants; with a strictly convex objective no pivot vanishes and the unregularised solution is the global minimiser.",
  "all horizons, dimensions, data with nonsingular pivots","universal over reals, unbounded horizon",[KK+":OCP_QP_FACT_SOLVE_KKT_UNCONSTR"])
p("C25","Search direction solves the Newton system",
  "Whenever the factorise-and-solve routine returns, its step solves the Newton system whose Hessian carries the regularisation the routine reports; for a strictly convex regularised objective and an interior iterate it returns after one sweep; with zero regularisation a full step zeroes the linear residuals.",
  "all horizons, dimensions, iterates with positive slacks","universal over reals, unbounded horizon",[KK+":OCP_QP_FACT_SOLVE_KKT_STEP"])
p("C26","Elimination of soft-constraint slacks is exact",
  "Condensing the slacks of soft constraints before the factorisation and expanding them afterwards gives the same step as the full system whenever no slack is shared; with one slack shared by two constraints the code drops the coupling and the step is not the Newton step.",
  "all soft constraint maps and data","universal; failure needs shared slacks",[KK+":COND_SLACKS_FACT_SOLVE",KK+":EXPAND_SLACKS"])
p("C27","Re-solve with a stored factorisation agrees",
  "Solving again with the stored factorisation gives the Newton step for any new right-hand side, and for the same right-hand side the same step as the factorise-and-solve routine.",
  "all data","universal over reals",[KK+":OCP_QP_SOLVE_KKT_STEP",KK+":OCP_QP_FACT_SOLVE_KKT_STEP"])
p("C28","The Newton step is unique for a strictly convex stage cost",
  "For a convex QP with positive definite condensed Hessian, the Newton system has at most one solution, so all solution routes give the same step.",
  "all convex QPs","universal over reals",[KK+":OCP_QP_FACT_SOLVE_KKT_STEP"])
p("C29","The solver stops within iter_max iterations",
  "The solver performs at most iter_max iterations and reports the number performed.",
  "all step computations (whatever the steps return) and arguments","unbounded executions",[I+":OCP_QP_IPM_SOLVE"])
p("C30","Meaning of the return status",
  "Status success in the relative formulation implies that no residual norm exceeds its tolerance; max-iter implies that exactly iter_max iterations were done; min-step implies that a step length fell to alpha_min or below; NaN implies that the complementarity is NaN.  (Success does not exclude a NaN residual, and in the absolute formulation it speaks only about complementarity.)",
  "all executions, including those producing NaN","unbounded executions and special values",[I+":OCP_QP_IPM_SOLVE"])
p("C31","All iterates keep slacks and multipliers positive",
  "With clipping (t_lam_min=2, the setting of all modes but the fastest) at every iteration of the solver, in both formulations and whatever the search directions and step lengths, all slacks are strictly positive, all multipliers of non-masked constraints are strictly positive and those of masked constraints are zero; the same holds for the returned solution whatever the status.",
  "all executions, any number of iterations, any search directions","unbounded executions",[I+":OCP_QP_IPM_SOLVE",I+":OCP_QP_IPM_DELTA_STEP",CA+":UPDATE_VAR_QP"])
p("C32","Initialisation is strictly interior",
  "The initialisation leaves every slack and multiplier strictly positive for every QP, every previous solution and every warm start setting: with warm_start<2 every product lam*t equals mu0, with warm_start 2 or 3 slacks and multipliers are the previous ones lifted to the threshold (1/10, or t0_min/lam0_min).",
  "all QPs, previous contents and settings","universal over reals and settings",[I+":OCP_QP_INIT_VAR"])
p("C33","Statistics stay inside their table",
  "Every statistics write of the solver lands inside the allocated statistics table, whatever the number of iterations.",
  "all iter_max, stat_max, iterations","unbounded",[I+":OCP_QP_IPM_SOLVE",I+":OCP_QP_IPM_WS_MEMSIZE"])
p("C34","Solver arguments: set/get, defaults and copies",
  "After any history of argument settings by name the last value set for a name is the one in force, whatever was set in between for other names (comp_res_exit also forces comp_dual_sol_eq); unknown names stop the program; the defaults of each mode do not depend on the previous contents; and a deep copy reproduces all settings.  (The deep copy misses t0_init.)",
  "all values and prior contents","universal",[I+":OCP_QP_IPM_ARG_SET_DEFAULT",I+":OCP_QP_IPM_ARG_DEEPCOPY"])
p("C35","Masked constraints have no influence",
  "Residuals of a QP do not depend on the bound, multiplier or slack values of masked-out constraints: their inequality and complementarity residuals are zero and their multipliers do not enter stationarity.",
  "all QPs, points and masks","universal over reals",[R+":OCP_QP_RES_COMPUTE"])
p("C36","Iterative refinement never returns a worse step than it started from",
  "After iterative refinement the residual norm of the accepted step is not larger than that of the original step; in the corrector phase no refinement step that increased the norm is kept.  (In the predictor phase the comparison is with the original norm because of a shadowed variable, so an increase between refinement steps can be kept.)",
  "all sequences of refinement steps","unbounded sequences",[I+":OCP_QP_IPM_DELTA_STEP"])
p("C37","Equality reduction keeps dimensions consistent",
  "Removing fixed variables yields dimensions with the fixed ones subtracted, again satisfying nb = nbx+nbu, and no remaining input equality.",
  "all dimensions","universal",[RD+":OCP_QP_DIM_REDUCE_EQ_DOF"])
p("C38","Equality reduction preserves the problem",
  "For every point whose removed variables have their fixed values, the reduced QP has the same dynamics defect, the same general constraint residuals and an objective that differs by a constant from the original.",
  "all QPs, fixed sets, points","universal over reals and index sets",[RD+":OCP_QP_REDUCE_EQ_DOF"])
p("C39","Reduced box constraints refer to the right variables",
  "In the reduced QP each remaining box constraint bounds the same variable as in the original.  (The code copies variable indices without renumbering, so it holds only if no removed variable precedes a bounded one.)",
  "all fixed sets and bound lists","universal; the failure needs specific patterns",[RD+":OCP_QP_REDUCE_EQ_DOF",RD+":OCP_QP_REDUCE_EQ_DOF_LHS"])
p("C40","Restoring a reduced solution",
  "Restoring writes the fixed values, leaves the others, and sets the multipliers of removed equalities so that stationarity in the removed variables holds up to lam_min; reducing the restored solution gives back the reduced solution.",
  "all QPs and reduced solutions","universal over reals",[RD+":OCP_QP_RESTORE_EQ_DOF",RD+":OCP_QP_REDUCE_EQ_DOF_SOL"])
p("C41","Partial condensing block sizes",
  "The computed block sizes add up to the horizon, the last is zero, and the others differ by at most one.",
  "all N and N2>0","universal over naturals",[PC+":PART_COND_QP_COMPUTE_BLOCK_SIZE"])
p("C42","Condensed dimensions conserve variables and constraints",
  "Full and partial condensing conserve the number of inputs, slacks and constraints and keep nb=nbx+nbu (partial condensing with all block sizes but the last at least one and summing to N).",
  "all dimensions and block sizes","universal over naturals",[CD+":COND_QP_COMPUTE_DIM",PC+":PART_COND_QP_COMPUTE_DIM"])
p("C43","Condensed dynamics reproduce the simulation",
  "For every input sequence and initial state, the states given by the condensed prediction matrices equal the states obtained by simulating the dynamics stage by stage.",
  "all horizons, dimensions, data, inputs","unbounded horizon",[CX+":COND_BABT",CX+":COND_B",CX+":EXPAND_SOL"])
p("C44","Condensed cost equals the original cost",
  "For every input sequence and initial state, the condensed objective equals the original objective along the simulated trajectory up to a constant.",
  "all horizons, dimensions, data, inputs","unbounded horizon, universal over reals",[CX+":COND_RSQRQ",CX+":COND_RSQ",CX+":COND_RQ"])
p("C45","Condensed gradient of the N3 variant with final inputs",
  "Both condensing algorithms produce the same condensed gradient.  (The cubic-in-N variant writes a shifted gradient when the last condensed stage has inputs.)",
  "all data","universal; failure needs nu>0 at the last condensed stage",[CX+":COND_RSQRQ"])
p("C46","Condensed constraints are the original constraints",
  "For every point satisfying the dynamics, each bound on a state and each general constraint of the original QP has the same residual in the condensed QP.",
  "all horizons, dimensions, data, points","unbounded horizon",[CX+":COND_DCTD"])
p("C47","Expanded solution satisfies the dynamics and state stationarity",
  "The expanded primal solution satisfies the dynamics exactly, and the expanded equality multipliers make the stationarity residual vanish in all condensed states.",
  "all data and dense solutions","unbounded horizon",[CX+":EXPAND_SOL"])
p("C48","Scenario tree shape",
  "For branching factor md>=1, robust horizon Nr<=Nh the created tree has exactly the number of nodes computed in advance, every node written lies inside the allocated array, children point back to their parent, stages increase by one, and there are no cycles.",
  "all md, Nr, Nh","unbounded trees",[ST+":sctree_create",ST+":sctree_node_number"])
p("C49","String comparison is equality",
  "hpipm_strcmp returns one exactly when the two zero terminated strings are equal, and never reads past either terminator.",
  "all strings","unbounded strings",["auxiliary/aux_string.c:hpipm_strcmp"])
p("C50","Integer power of the scenario tree",
  "The square-and-multiply power routine returns base to the exponent.",
  "all bases and exponents","universal over naturals",[ST+":ipow"])
p("C51","A cold start forgets the previous solution",
  "With warm_start=0 the initial point of the solver is the same whatever the solution object contained before the call.",
  "all QPs, settings with warm_start=0, previous contents","universal over memory contents",[I+":OCP_QP_INIT_VAR"])
p("C52","A solve leaves the QP as the user sees it",
  "After a solve (constrained or not, either formulation, any arguments) every getter of the QP object returns what it returned before, although the solver uses rows of the user's matrices as work space.",
  "all QPs, arguments, workspace contents, numbers of iterations","unbounded executions, in-place work space",[I+":OCP_QP_IPM_SOLVE",KK+":OCP_QP_FACT_SOLVE_KKT_STEP",KK+":OCP_QP_FACT_SOLVE_KKT_UNCONSTR"])
p("C54","Optimality and residuals survive the removal of fixed variables",
  "If every remaining box bounds a variable in front of which nothing was removed and the removed boxes are tight, hard and active, then a global minimiser of the reduced QP, restored, is a global minimiser of the original QP (and conversely), and the residuals of the restored solution in all remaining variables, dynamics and constraints are those of the reduced solution.",
  "all QPs, fixed sets, solutions","universal over reals and index sets",[RD+":OCP_QP_REDUCE_EQ_DOF",RD+":OCP_QP_RESTORE_EQ_DOF",RD+":OCP_QP_REDUCE_EQ_DOF_SOL"])
p("C55","Separate reduction of matrices and vectors; seeds",
  "Reducing the matrices once and afterwards only the vectors gives, after every update of the vectors, the same as a full reduction; reducing a sensitivity seed and restoring a sensitivity solution are the same operations on the problem whose vectors are the seed.",
  "all QPs, all sequences of vector updates","unbounded call sequences",[RD+":OCP_QP_REDUCE_EQ_DOF_LHS",RD+":OCP_QP_REDUCE_EQ_DOF_RHS",RD+":OCP_QP_REDUCE_EQ_DOF_SEED",RD+":OCP_QP_RESTORE_EQ_DOF_SEED"])
p("C53","The solver returns on every QP, convex or not",
  "With reg_prim >= 0, the factorise-and-solve routine returns for every QP (convex or not), every iterate and every workspace content: increasing regularisation always ends; hence the whole solve returns after at most iter_max iterations.  With reg_prim <= -1e-4 the regularisation never becomes positive and the routine can loop forever.",
  "all QPs with N >= 1 and valid indices, all iterates, all workspace contents, all arguments with reg_prim >= 0","termination for every input is not observable by running",
  ["ocp_qp/x_ocp_qp_kkt.c:OCP_QP_FACT_SOLVE_KKT_STEP","ocp_qp/x_ocp_qp_ipm.c:OCP_QP_IPM_SOLVE"])
p("C56","The starting point respects the box constraints",
  "With the default initialisation (no dual warm start), every variable with a two-sided box at least 1/5 wide starts inside it with margin 1/10; a value already that far inside is kept and its bound slacks are the distances to the bounds.  (Narrower boxes can be left: the code then reports a slack that hides the violation.)",
  "all QPs, bounds, masks and previous solutions","universal over reals",[I+":OCP_QP_INIT_VAR"])
SV="interfaces/c/x_ocp_qp_solver.c"
p("C57","Options given to the solver interface reach the solver",
  "A solver object created from an argument object works with exactly the options set there (real and integer options, reduce_eq_dof), each later setter changes the named option only, and other field names are refused.  (Known exceptions, proved: t0_init is always zero after creation; an argument object reused for a second problem keeps the first one's reduced sizes; an even nonzero reduce_eq_dof uses sizes that were never computed.)",
  "all modes, all setter sequences before and after creation, all sizes","sequences of API calls are unbounded",[SV+":OCP_QP_SOLVER_ARG_SET,OCP_QP_SOLVER_ARG_DEEPCOPY,OCP_QP_SOLVER_WS_CREATE,OCP_QP_SOLVER_SET"])
p("C58","SUCCESS of the solver interface is a statement about the caller's problem",
  "If the solver interface reports SUCCESS (relative formulation, some active constraint left), then the residuals of the caller's own QP at the returned solution are within the tolerances, also when fixed variables were removed internally: kept variables, slacks, dynamics and kept constraints within tolerance, fixed variables exactly at their values, removed boxes and fixed variables with residual 1e-16.  This holds after any history of setters and solves.",
  "all QPs, sizes, options, histories of calls and contents of the solution object","universal over reals and call histories",[SV+":OCP_QP_SOLVER_SOLVE","ocp_qp/x_ocp_qp_red.c:OCP_QP_REDUCE_EQ_DOF,OCP_QP_RESTORE_EQ_DOF"])
p("C59","With removal of fixed variables the result does not depend on the caller's solution object",
  "When reduce_eq_dof is on, two solves from the same solver state with different contents of the caller's solution object return the same status, iteration count and primal-dual solution (a warm start through the solution object is ignored).",
  "all QPs, options, solver states, contents of the solution object","universal over reals",[SV+":OCP_QP_SOLVER_SOLVE"])
p("C60","The Riccati getters describe the optimal feedback and the cost to go",
  "After a solve, the matrices and vectors returned by the Riccati getters (K, k, P, p, Lr, Ls, lr) satisfy: the returned inputs are u = K x + k and the multipliers of the dynamics pi = P x + p at every stage; and for every stage and every trajectory of the dynamics from there on, the remaining cost (with regularisation, and with the quadratic barrier model if there are inequality constraints) is 1/2 x'Px + p'x + const plus half the squared norm of Lr'(u - Kx - k) - so the law is the unique optimal policy and P, p the optimal cost to go.  The results do not depend on the contents of the scratch memory, nor on the Riccati variant.",
  "all QPs (strictly convex if unconstrained), iterates, both Riccati variants, all stages, all trajectories","universal over reals and trajectories",[I+":OCP_QP_IPM_GET_RIC_P,OCP_QP_IPM_GET_RIC_K,OCP_QP_IPM_GET_RIC_LR,OCP_QP_IPM_GET_RIC_LS,OCP_QP_IPM_GET_RIC_P_VEC,OCP_QP_IPM_GET_RIC_K_VEC,OCP_QP_IPM_GET_RIC_LR_VEC"])
SE="ocp_qp/x_ocp_qp_seed.c"
p("C61","Forward sensitivities are the derivative of the solution",
  "Setting a seed field perturbs exactly the QP field of the same name (upper bounds included, in spite of the internal sign); for differentiable problem data and a differentiable path of interior points with zero residuals, the forward sensitivity call after a solve at the path's point returns the derivative of primal variables, multipliers and slacks with respect to the parameter; in general it returns the solution of the linearised optimality conditions for the seeds.  The call may be repeated with other seeds.",
  "all QPs (strictly convex for the derivative statement), iterates, seeds, data paths","derivatives and linear systems over the reals, all seeds",[I+":OCP_QP_IPM_SENS_FRW",SE+":OCP_QP_SEED_SET,OCP_QP_SEED_SET_ZERO"])
p("C62","Adjoint sensitivities are the transpose of forward sensitivities",
  "For every pair of seeds, pairing the output seed with the forward sensitivities of the input seed equals pairing the adjoint sensitivities of the output seed with the input seed; the adjoint call leaves the caller's seed object as it was and may be repeated.",
  "all QPs, iterates, seed pairs, both Riccati variants","universal over reals",[I+":OCP_QP_IPM_SENS_ADJ,OCP_QP_IPM_SENS_FRW"])
p("C63","Prediction moves along the Newton step of the new data",
  "After a solve, prediction for new vectors (same matrices) returns a point whose dynamics and inequality residuals in the new problem are (1 - a) times those of the saved iterate, with a the step length in the workspace (zero for full steps), and in absolute form zero; reported residuals are those of the returned point.  (Known exceptions, proved: a is the step length of the last solve, not 1; in absolute form the predicted point is never in the interior.)",
  "all QPs, new data, saved iterates, step lengths","universal over reals",[I+":OCP_QP_IPM_PREDICT"])
IPM="ocp_qp/x_ocp_qp_ipm.c"; ERK="sim_core/x_sim_erk.c"; RK="sim_core/x_sim_rk.c"
p("C64","The integrator performs the Runge-Kutta method of the tableau",
  "Whatever the scratch memory holds, SIM_ERK_SOLVE performs the requested number of steps of the explicit Runge-Kutta method given by the loaded Butcher tableau on state and sensitivities, for right-hand sides that do not depend on time; the tableau loaded by SET_ALL is the one handed over, the defaults ERK4 and ERK2 are the classical method (order 4, Taylor polynomial of the exponential for linear systems) and the midpoint method.  (Known exceptions, proved: time reaches the callbacks truncated to an integer; entries on and above the diagonal of the tableau are ignored without notice.)",
  "all tableaux, numbers of stages and steps, step lengths, right-hand sides, initial states, scratch contents","universal over reals and right-hand sides",[ERK+":SIM_ERK_SOLVE",RK+":SIM_RK_DATA_INIT_DEFAULT",RK+":SIM_RK_DATA_SET_ALL"])
p("C65","Forward sensitivities are the derivatives of the numerical solution",
  "If the forward variational equation supplied is the derivative of the right-hand side and the sensitivities loaded are the derivatives of the initial state, then the sensitivities read after the integration are the derivatives of the state after the same number of steps of the Runge-Kutta method, exactly (no discretisation error between the two).",
  "all tableaux, right-hand sides, numbers of steps, parameter directions","a limit statement over all perturbations",[ERK+":SIM_ERK_SOLVE"])
p("C66","Memory and setters of the integrator",
  "The arrays of tableau and workspace fill the memory requested by MEMSIZE without overlap; values set are the values read; with at most nf_max sensitivities the integrator writes only inside its arrays; more are refused by SET_ALL.  (Known exceptions, proved: SET_NF does not refuse; with adjoints SET_ALL writes past its array unless nx+np <= nf_max; with adjoints the integrator always ends the process.)",
  "all dimensions, all values","universal over sizes",[ERK+":SIM_ERK_WS_MEMSIZE",ERK+":SIM_ERK_WS_CREATE",ERK+":SIM_ERK_WS_SET_ALL",RK+":SIM_RK_DATA_MEMSIZE"])
p("C67","Constraint violation shrinks by one common factor per iteration",
  "In every iteration of the interior point method, in both formulations and with any combination of predictor-corrector, conditional correction, iterative refinement and masks, all residuals of the dynamics are multiplied by one factor 1-a, where a is the (shortened) primal step length, and so are the residuals of the active inequality constraints except those whose slack was raised to t_min.  Hence the dynamics residual of the returned solution is the product of the factors times that of the initial iterate: a consistent initial trajectory stays consistent, one full step makes the dynamics exact for good, and (without complementarity targets, with clipping) the reported norm of the dynamics residual never increases.  Holds for indefinite problems and inexact factorisations as well.",
  "all problems, masks, initial guesses, options, numbers of iterations","universal over problems and iteration histories",[IPM+":OCP_QP_IPM_SOLVE",IPM+":OCP_QP_IPM_DELTA_STEP",IPM+":OCP_QP_IPM_ABS_STEP","ipm_core/x_core_qp_ipm_aux.c:UPDATE_VAR_QP"])
DQ="dense_qp/x_dense_qp.c"
p("C68","Data of dense QPs: what is set is what is read",
  "For every field of a dense QP the getter returns what the setter was given (masks: 1 for every nonzero entry) and no setter changes what the other getters return; set_all is the sequence of the single setters, leaves masks alone and clears the complementarity targets; row-major and column-major variants agree entry by entry; the index list of soft constraints and its inverse agree; selection matrices select; copy transfers every field; creation and set_all_zero make an empty problem without softened constraints; exactly the documented field names are accepted.",
  "all sizes, fields, values, prior contents","universal over sizes and values",[DQ+":DENSE_QP_SET_ALL,DENSE_QP_GET_ALL,DENSE_QP_SET,DENSE_QP_SET_JB,DENSE_QP_SET_JSB,DENSE_QP_SET_IDXS,DENSE_QP_COPY_ALL,DENSE_QP_SET_ALL_ZERO,DENSE_QP_CREATE"])
DR="dense_qp/x_dense_qp_res.c"
p("C69","Residuals of dense QPs are the optimality conditions",
  "For every dense QP (boxes, general and equality constraints, soft constraints, masks) and every point: res_g is the gradient of the Lagrangian, res_b, res_d and res_m are the defects of equalities, inequalities and complementarity, the objective is the objective, the complementarity measure is the mean over present constraints, the norms are the infinity norms; the duality gap bounds the distance to the optimum; zero residuals with nonnegative multipliers and slacks are a certificate of global optimality already if the objective is convex on the null space of the equality constraints; the residual of the linearised system predicts the residual after a full step; masked-out constraints do not matter.",
  "all sizes, problem data, points, masks","universal over reals",[DR+":DENSE_QP_RES_COMPUTE,DENSE_QP_RES_COMPUTE_LIN,DENSE_QP_RES_COMPUTE_INF_NORM"])
DK="dense_qp/x_dense_qp_kkt.c"
p("C70","Dense KKT solver returns a Newton step",
  "Whenever the factorise-and-solve routine of a dense QP returns, whatever method the options select (null space or Schur complement, scaled or not, with or without equality constraints, softened constraints included), the step in the workspace solves the linearised KKT system at the current iterate up to the regularisation actually used; exactly if the regularisation is zero and no pivot broke down. Taking the full step then zeroes the stationarity, equality and inequality residuals and leaves the second order term in complementarity. The stored factorisation can be reused for any number of solves with other gradients and right-hand sides.",
  "all sizes, problem data, iterates with nonzero slacks, methods, options, previous workspace contents","universal over reals, over all code paths and histories of the workspace",[DK+":DENSE_QP_FACT_SOLVE_KKT_STEP,DENSE_QP_SOLVE_KKT_STEP"])
p("C71","Dense KKT solver terminates, and when it does not",
  "On a convex dense QP (strictly convex if there is no primal regularisation; for the null space method only on the null space of the equality constraints) with independent equality constraints (or dual regularisation) the factorise-and-solve routine returns after one pass at every interior iterate without raising the regularisation, and all methods return the same step. On nonconvex problems the regularisation loop still ends for the null space method, without equality constraints, and for the scaled methods unless the objective is concave along a single variable. It never ends (defect of the code) for the default Schur method without scaling if the Hessian is not positive definite off the feasible set, for scaled methods with a negative diagonal entry, and for dependent equality constraints when reg_dual = 0 and reg_prim is not.",
  "all sizes, problem data, interior iterates, methods, options","termination of an unbounded loop over all real data",[DK+":DENSE_QP_FACT_SOLVE_KKT_STEP,compute_preg,compute_dreg"])
p("C72","Dense QP without inequality constraints is solved directly",
  "A dense QP without inequality constraints, with independent equality constraints and an objective that is strictly convex (for the null space method: on the null space of the equality constraints), is solved in one go: stationarity and equality residuals of the result are zero and the point is the global optimum, whatever the workspace held before. The null space method requires the Hessian in full symmetric storage (a defect: every other routine reads the lower triangle only).",
  "all sizes, problem data, workspace contents, both methods","universal over reals",[DK+":DENSE_QP_FACT_SOLVE_KKT_UNCONSTR"])
DI="dense_qp/x_dense_qp_ipm.c"
p("C73","Dense solver: it returns, with the right status",
  "The dense interior point solver makes at most iter_max iterations and never writes outside its statistics table; on a convex problem with clipping it returns for every guess and previous workspace contents, without a second factorisation attempt. The status is MAX_ITER exactly when the iterations are used up, MIN_STEP exactly when they are not and the last step was too short, otherwise SUCCESS; SUCCESS of the relative formulation means that the residual routine, run by anybody on the caller's QP and the returned solution, reports stationarity, equality, inequality, complementarity residuals and duality gap within the tolerances, SUCCESS of the absolute formulation that the mean complementarity is within its tolerance. Without present inequality constraints it reports success after zero iterations.",
  "all problems, options, guesses, workspace contents, sizes of the statistics table","universal over iteration histories",[DI+":DENSE_QP_IPM_SOLVE,DENSE_QP_IPM_DELTA_STEP,DENSE_QP_IPM_ABS_STEP"])
p("C74","Dense solver: initial point",
  "Cold and primal warm starts of the dense solver start with strictly positive slacks and multipliers whose products all equal mu0, whatever the problem; a cold start does not depend on the previous contents of the solution object; warm start 2 and hot start keep the primal point and equality multipliers and lift slacks and multipliers to the thresholds. (Known exceptions, proved: with t0_init = 2 a variable with close bounds is started outside of them, and the slack of the upper side of general constraints starts at upper+value.)",
  "all problems, options, guesses","universal over reals",[DI+":DENSE_QP_INIT_VAR"])
p("C75","Dense solver: iterates stay inside",
  "With clipping (t_lam_min = 2) and positive lam_min, t_min, every iterate of the dense solver and the returned solution have positive slacks, positive multipliers of present constraints (at least t_min and lam_min after the first iteration) and zero multipliers of masked constraints, in both formulations, whatever the status.",
  "all problems, masks, options, guesses, iteration counts","an invariant of all histories",[DI+":DENSE_QP_IPM_SOLVE","ipm_core/x_core_qp_ipm_aux.c:UPDATE_VAR_QP"])
p("C76","Dense solver: what success means for the caller's problem",
  "When the dense solver reports success (relative formulation, clipping): the returned point satisfies the equality constraints up to res_b_max and every present inequality, softened or not, up to res_d_max; the Lagrangian at the returned multipliers changes along any direction to first order by at most res_g_max times the 1-norm of the direction; multiplier times slack is within res_m_max of its target and both are positive; and if the objective is convex no feasible point is better by more than dual_gap_max plus res_g_max times the 1-norm of that point. With compute_obj the reported objective is the objective of the returned point. A problem without inequalities is solved to global optimality in one call. (Known exceptions, proved: without compute_obj a stale objective stays marked valid; in the absolute formulation with scaling the result depends on a flag left in the workspace.)",
  "all problems, tolerances, guesses, workspace contents, comparison points","compares with all feasible points",[DI+":DENSE_QP_IPM_SOLVE",DK+":DENSE_QP_COMPUTE_OBJ"])
p("C77","OCP solver: what success means for the caller's optimal control problem",
  "When the OCP solver reports success (relative formulation, clipping): the returned trajectory satisfies the dynamics up to res_b_max and every present inequality of every stage, softened or not, up to res_d_max; the Lagrangian at the returned multipliers changes along any direction of inputs, states and slacks to first order by at most res_g_max times the 1-norm of the direction; multiplier times slack is within res_m_max of its target and both are positive, masked constraints have zero multiplier; and if the objective is convex no feasible trajectory is better by more than dual_gap_max plus res_g_max times the 1-norm of that trajectory.",
  "all problems, horizons, tolerances, guesses, workspace contents, comparison trajectories","compares with all feasible trajectories",[IPM+":OCP_QP_IPM_SOLVE"])
p("C78","Full condensing: condense, solve the dense QP, expand",
  "Condensing an OCP QP completely (COND_QP_COND) into a dense QP with the computed sizes and expanding a dense solution (COND_QP_EXPAND_SOL): the two objectives differ by a constant; every expanded point satisfies the dynamics exactly and satisfies the constraints iff the dense point does; every trajectory satisfying the dynamics is an expansion; the expanded point is optimal iff the dense point is; residuals of the OCP at the expanded solution are bounded exactly when those of the dense QP are; convexity and masks carry over; the caller's data survive and the dense QP can be condensed into again.  If the dense interior point solver reports success on the condensed problem, the expanded solution has exact dynamics, residuals within the tolerances and, for a convex problem, no feasible trajectory is better by more than dual_gap_max plus res_g_max times its 1-norm.",
  "all OCP problems with split box lists, both condensing algorithms where applicable, all dense solutions, workspace contents","quantifies over all problems, points and feasible trajectories",["cond/x_cond.c:COND_QP_COND","cond/x_cond.c:COND_QP_EXPAND_SOL","cond/x_cond_aux.c:COND_RSQRQ","cond/x_cond_aux.c:COND_DCTD","cond/x_cond_aux.c:EXPAND_SOL"])
p("C79","Residuals of the tree-structured QP are its KKT residuals",
  "For a QP on a tree (root node, every node with any number of kids, edge data set with set_A, set_B, set_b), the residual routine returns in res_g the gradient of the Lagrangian of the tree QP, in res_b the defect of the dynamics of every edge from the dad node to the kid, in res_d and res_m the inequality and complementarity defects of the present constraints, and the objective and duality gap of the tree QP; objective minus gap bounds the optimum of a convex QP from below when res_g is zero, and a point with zero residuals and nonnegative multipliers and slacks is a global optimum. The linear residual routine returns the residuals after a full step up to the second order term. The norms are the largest components. Every tree made by the scenario tree creator is accepted. Multipliers of masked constraints must be zero for this: unlike the OCP routine, the tree routine does not ignore them.",
  "all trees, all node dimensions, all QP data, masks, points, workspaces",
  "a test compares a few trees with a reference solution; the statement ranges over every tree shape and every point",
  ["tree_ocp_qp/x_tree_ocp_qp_res.c:TREE_OCP_QP_RES_COMPUTE,TREE_OCP_QP_RES_COMPUTE_LIN,TREE_OCP_QP_RES_COMPUTE_INF_NORM","tree_ocp_qp/x_tree_ocp_qp.c:TREE_OCP_QP_SET_A,TREE_OCP_QP_SET_B,TREE_OCP_QP_SET_BVEC","tree_ocp_qp/scenario_tree.c:sctree_create,sctree_cast_to_tree"])
p("C80","The tree-structured KKT solver computes the Newton step",
  "For a QP on a tree with node constraints (simple bounds, general constraints, soft constraints whose slacks are not shared) and an interior iterate, the factorise-and-solve routine returns the step of the linearised KKT system of the tree QP with the Hessian shifted by reg_prim: after a full step the dynamics residuals of all edges and all inequality residuals are zero, the stationarity residual is minus reg_prim times the step, the complementarity residual is the second order term. A later re-solve with the stored factorisation returns the Newton step of any other right-hand side (the stored products Pb may be used when the dynamics offsets are the same). Without inequality constraints the one-shot solver returns the global minimiser and zero residuals. All of this needs positive definite node Hessians (strict convexity with the shift): a tree QP with a unique minimiser but an indefinite node Hessian is answered with a wrong point and no error.",
  "all trees, all node dimensions and constraint sets, all strictly convex QP data, all interior iterates, all prior workspace contents, all right-hand sides",
  "a test solves a few trees; the Riccati recursion must hold for every tree shape, every branching and every stage dimension",
  ["tree_ocp_qp/x_tree_ocp_qp_kkt.c:TREE_OCP_QP_FACT_SOLVE_KKT_STEP,TREE_OCP_QP_SOLVE_KKT_STEP,TREE_OCP_QP_FACT_SOLVE_KKT_UNCONSTR"])
p("C81","The tree-structured interior point solver terminates and keeps its promises",
  "The tree solver makes at most iter_max iterations and always returns; it never writes outside its statistics array. With cold or primal warm start every slack and multiplier starts positive with product mu0; with primal-dual warm start or hot start they are the previous values lifted to the thresholds. With clipping enabled every iterate and the returned point have positive slacks and positive multipliers of present constraints, and zero multipliers of masked constraints. Status MAX_ITER is returned exactly when the iteration limit was reached, MIN_STEP exactly when it was not and a step length is at most alpha_min. Status SUCCESS in the relative formulation means: the dynamics of every edge hold up to res_b_max, every present inequality up to res_d_max, the Lagrangian of the tree QP is stationary up to res_g_max, every product of slack and multiplier is within res_m_max of its target, and for a convex QP no feasible point is better than the returned one by more than dual_gap_max plus res_g_max times its 1-norm. In the absolute formulation SUCCESS only bounds the mean of the products. Without inequality constraints a strictly convex tree QP is solved exactly in zero iterations. Limit: with the heuristic start, a narrow two-sided bound moves a feasible warm start point out of its box.",
  "all trees, all QP data and masks, all solver arguments, all starting points, all prior workspace contents, all numbers of iterations",
  "a test runs a few problems with a few settings; the meaning of the status must hold for every run",
  ["tree_ocp_qp/x_tree_ocp_qp_ipm.c:TREE_OCP_QP_IPM_SOLVE,TREE_OCP_QP_INIT_VAR,TREE_OCP_QP_IPM_ABS_STEP,TREE_OCP_QP_IPM_DELTA_STEP"])
p("C82","The QCQP residuals are the KKT residuals of the user's quadratically constrained problem",
  "The quadratic-constraint setters (Hessian blocks, gradient, upper bound, mask) put each entry where the user's problem has it and change nothing else of it. After OCP_QCQP_RES_COMPUTE the stationarity residual is the gradient of the Lagrangian of the QCQP (including the curvature of every quadratic constraint weighted by its multiplier), the dynamics residual is the defect of the dynamics, the inequality residual of a quadratic constraint is uq - 1/2 z'Hz - g'z - t (with its slack when softened), the complementarity residual is lam*t - m, the objective is the user's objective, the duality gap bounds the suboptimality of the point for a convex QCQP up to the residuals, and if all residuals vanish with nonnegative multipliers and slacks, the point is a global minimiser. The cached evaluation used inside the solver gives the same residuals as the direct one. Limit: computed on a QCQP as the setters leave it, the residuals also count a lower bound on every quadratic constraint which the user never asked for.",
  "all dimensions, all QCQP data, masks and soft-constraint maps, all iterates, all prior residual and workspace contents",
  "the identity with the user's Lagrangian and the optimality of a zero-residual point range over all data and all feasible competitors",
  ["ocp_qp/x_ocp_qcqp_res.c:OCP_QCQP_RES_COMPUTE,OCP_QCQP_RES_COMPUTE_INF_NORM","ocp_qp/x_ocp_qcqp.c:OCP_QCQP_SET_QQ,OCP_QCQP_SET_SQ,OCP_QCQP_SET_RQ,OCP_QCQP_SET_QQVEC,OCP_QCQP_SET_RQVEC,OCP_QCQP_SET_UQ,OCP_QCQP_SET_UQ_MASK"])
p("C83","The QCQP interior point solver returns near-optimal points of the caller's QCQP when it reports success",
  "OCP_QCQP_IPM_SOLVE makes at most iter_max iterations; it returns for every QCQP, convex or not, provided the regularisation remembered in the workspace is positive or equals reg_prim (C84 shows what happens otherwise) and the start does not read the unassigned mask pointers. All iterates and the returned point have strictly positive slacks, strictly positive multipliers of constraints that are taken into account and zero multipliers of the others; the status says exactly which exit test fired; statistics are written inside their array. On SUCCESS (relative formulation): the point satisfies the caller's dynamics, boxes, linear and quadratic constraints up to the tolerances, the gradient of the Lagrangian of the caller's QCQP and the complementarity products are within tolerance, and for a convex QCQP the objective exceeds that of any feasible point by at most the duality gap plus the tolerances weighted by the competitor's distance. The caller's data is unchanged except for masks. Limits: the heuristic cold start of a QCQP with general linear constraints reads two pointers that are never assigned; the call clears, permanently, the caller's masks of the lower bounds of slacks that soften quadratic constraints, so those bounds are not enforced.",
  "all QCQPs (dimensions, data, masks, soft constraints), all guesses, all arguments with t_lam_min = 2 where positivity is claimed, all earlier workspace contents",
  "positivity, termination and suboptimality bounds range over all problems, iterates and competitors",
  ["ocp_qp/x_ocp_qcqp_ipm.c:OCP_QCQP_IPM_SOLVE,OCP_QCQP_INIT_VAR,OCP_QCQP_APPROX_QP,OCP_QCQP_UPDATE_QP,OCP_QCQP_UPDATE_QP_ABS_STEP,OCP_QCQP_SOL_CONV_QP_SOL,OCP_QP_SOL_CONV_QCQP_SOL,OCP_QCQP_RES_CONV_QP_RES","ocp_qp/x_ocp_qp_ipm.c:OCP_QP_IPM_DELTA_STEP,OCP_QP_IPM_ABS_STEP"])
p("C84","On nonconvex problems the QCQP solver terminates only if its workspace remembers a usable regularisation",
  "OCP_QP_IPM_SOLVE sets the remembered regularisation at entry, OCP_QCQP_IPM_SOLVE does not: it keeps the zero written at workspace creation (or what an earlier call left). Whenever that value is positive or equals reg_prim, a call returns. From a freshly created workspace with reg_prim > 0 (the default of every mode), a factorisation that fails with reg_prim is retried with regularisation 0 for ever: the call never returns on a feasible, bounded, nonconvex QCQP, whereas the same call with the remembered value set to reg_prim, as the QP solver does, returns.",
  "all QCQPs and workspaces for the positive part; for the negative part all numbers of retries, on a concrete QCQP, and all factorisations whose first pivot is not positive",
  "non-termination is not observable by a test; the positive part ranges over all problems",
  ["ocp_qp/x_ocp_qcqp_ipm.c:OCP_QCQP_IPM_SOLVE","ocp_qp/x_ocp_qp_kkt.c:OCP_QP_FACT_SOLVE_KKT_STEP","ocp_qp/x_ocp_qp_ipm.c:OCP_QP_IPM_WS_CREATE"])
p("C85","Options of the QCQP solver","Setting an option of the QCQP solver arguments by name (other than tol_eq, tol_ineq and t0_init) does exactly what the QP solver's option of that name does, in the QCQP arguments and in the arguments of the inner QP solver, and nothing else; unknown names are rejected; the default modes give the documented values with the exceptions listed. Negative: tol_eq and tol_ineq overwrite the inner stationarity tolerance; t0_init writes t_lam_min, and no history of calls ever initialises t0_init of the QCQP arguments, which the solver reads.","every option name, value, mode, previous content of the arguments and history of calls","a test of an option checks one value from one starting content; a never written field shows only for particular garbage in the caller's struct","ocp_qp/x_ocp_qcqp_ipm.c:OCP_QCQP_IPM_ARG_SET,OCP_QCQP_IPM_ARG_SET_DEFAULT,OCP_QCQP_IPM_ARG_SET_TOL_EQ,OCP_QCQP_IPM_ARG_SET_T0_INIT".split("|"))
p("C86","Start, unconstrained branch, reported residuals and slack bounds of the QCQP solver","The QCQP solver should start every slack and multiplier strictly positive for each start scheme, solve problems without inequalities, report the residuals of the point it returns, and respect the lower bounds of slacks. Each of the four is false of the code in the case stated, and the negation is proved: start schemes 0 and 1 leave the last 2 nq rows of each stage as the solution object had them; without inequalities and with a stage transition success is reported at a non-optimal point; in the absolute formulation the residuals on exit are those of a different constraint value; a lower slack that softens only quadratic constraints and has a linear cost above the stationarity tolerance is negative at every reported success.","every problem, argument, solution object (start scheme, slack sign); concrete runs for the other two","the examples of the project use start scheme 2, constraints, the relative formulation and slack costs without linear part","ocp_qp/x_ocp_qcqp_ipm.c:OCP_QCQP_INIT_VAR,OCP_QCQP_APPROX_QP,OCP_QCQP_UPDATE_QP_ABS_STEP,OCP_QCQP_IPM_SOLVE".split("|"))
p("C87","One call solves a QP whose inequality constraints are all absent or switched off","If an OCP QP has no soft constraints, all its bounds and general constraints are masked out (or absent) and the objective plus the proximal term of the primal regularisation is strictly convex, ocp_qp_ipm_solve returns status success after zero iterations and the returned inputs and states satisfy the dynamics and globally minimise objective + reg_prim/2 |u|^2 (+ reg_prim/2 |x|^2 with the square-root Riccati), for reg_prim = 0 the objective itself; whatever comp_dual_sol_eq, the other arguments, the caller's old solution and the workspace contain.","all horizons, dimensions and data, both Riccati variants, all arguments, all previous contents of solution and workspace","optimality is a statement about every feasible point, over all problem sizes and stale memory contents",["ocp_qp/x_ocp_qp_ipm.c:OCP_QP_IPM_SOLVE","ocp_qp/x_ocp_qp_kkt.c:OCP_QP_FACT_SOLVE_KKT_UNCONSTR"])
p("C88","Tree solver: constraint violations contract","In the tree solver every iteration multiplies the defect of the dynamics of every edge exactly by one minus the primal step length it took (the step length of core workspace, shortened as the update shortens it), and the violation of every inequality (residual with slack) by the same factor, except where a slack was raised to t_min. Hence the defect of the returned point is the product of these factors times the defect of the starting point: a start that satisfies the dynamics keeps satisfying them in every iterate, and one full step makes them exact for good, whatever happens afterwards. With clipping and m = 0 the factors lie between 0 and 1, so violations never grow (up to t_min).","all trees, QP data, masks, both formulations, all arguments, guesses, workspaces and iteration counts; both factorisations (the LQ one as a parameter that computes the states from the dynamics)","a statement about every iteration of every run",["tree_ocp_qp/x_tree_ocp_qp_ipm.c:TREE_OCP_QP_IPM_SOLVE,TREE_OCP_QP_IPM_DELTA_STEP,TREE_OCP_QP_IPM_ABS_STEP","tree_ocp_qp/x_tree_ocp_qp_kkt.c:TREE_OCP_QP_FACT_SOLVE_KKT_STEP","ipm_core/x_core_qp_ipm_aux.c:UPDATE_VAR_QP"])
p("C89", "A solve is a run of Mehrotra's predictor-corrector method",
  "For a problem whose (regularised) objective is strictly convex, with at least one constraint that is switched on, t_lam_min = 2, no iterative refinement and no LQ factorisation, every OCP QP solve returns, and it is exactly a run of Mehrotra's predictor-corrector method on the caller's problem: the documented initial point; each iteration takes the affine direction aiming at products m+tau_min, then the corrected direction aiming at m+max((mu_aff/mu)^3 mu, tau_min) with the second order term (dropped by the conditional variant exactly when the corrected step more than doubles mu_aff), the ratio-test step lengths, the shortened step, and the clipping; it goes on exactly while both step lengths exceed alpha_min and a residual of the current point exceeds its tolerance (relative) or the mean complementarity defect is off target (absolute), up to iter_max; the status is the one of that rule. Without regularisation the two formulations make the same iterations.",
  "every strictly convex OCP QP of any dimensions with soft and masked constraints, every argument setting in the stated class (both formulations, both factorisation forms, pred_corr, cond_pred_corr, split_step, warm start), every initial content of all workspaces, every number of iterations",
  "The directions are defined implicitly as solutions of linear systems; that each of the solver's direction computations (factorisation, later resolves with a new right-hand side, the absolute/relative change of variables) is that solution holds for every problem and history, which tests can only sample.",
  ["ocp_qp/x_ocp_qp_ipm.c:OCP_QP_IPM_SOLVE, OCP_QP_IPM_DELTA_STEP, OCP_QP_IPM_ABS_STEP", "ipm_core/x_core_qp_ipm_aux.c", "ocp_qp/x_ocp_qp_kkt.c"])
p("C90", "The result of a solve depends on problem, arguments and guess only",
  "Two OCP QP solves of the same strictly convex problem with the same arguments make the same number of iterations, report the same status and return the same primal-dual solution, whatever the workspaces held before (fresh, or left by solves of other problems), whether they were created for the classical or the square root factorisation, with any size of the statistics; with a cold start the contents of the solution object do not matter either.",
  "every strictly convex problem and argument setting of C89, every pair of histories (workspace contents), every pair of factorisation forms, every guess",
  "It is a statement about pairs of executions from arbitrary memory contents; a test compares finitely many pairs.",
  ["ocp_qp/x_ocp_qp_ipm.c:OCP_QP_IPM_SOLVE", "ocp_qp/x_ocp_qp_kkt.c:OCP_QP_FACT_SOLVE_KKT_STEP, OCP_QP_SOLVE_KKT_STEP"])
p("C91", "Removal of dependent equality constraints never excludes a feasible point and is undone",
  "With remove_lin_dep_eq set, the dense solver works on a QP whose equality constraints are distinct constraints of the caller's QP and which is otherwise the caller's QP, so every point that satisfies the caller's equality constraints satisfies its constraints; when no constraint is removed the QP is not touched; the restore after the solve gives the caller back exactly the QP passed in, provided at least one equality constraint was kept and the workspace has not been used with more equality constraints; with threshold 0 in exact arithmetic the status 'inconsistent equality constraints' is only reported when no point satisfies them. (The converse guarantees fail, findings 69-73: an independent constraint can be dropped, dependent ones kept, an inconsistency missed, and the restore can fail.)",
  "every dense QP with at most nv+1 equality constraints, every threshold, every content of the workspace",
  "The pivot order, the search for pivots and the elimination depend on all values of A and b; soundness must hold for every matrix, rank and pattern of zeros.",
  ["dense_qp/x_dense_qp_kkt.c:DENSE_QP_REMOVE_LIN_DEP_EQ, DENSE_QP_RESTORE_LIN_DEP_EQ"])
p("C92", "Options of the dense and tree solvers: last call wins, nothing else changes, documented defaults",
  "For the dense QP solver every option name sets exactly its setting, an unknown name is rejected, after any successful history of option calls a setting holds the value of the last call naming it, and setting the defaults accepts exactly the four modes and gives every setting its documented value whatever the object held. For the tree OCP QP solver a named option does exactly what it does in the OCP QP solver and any other name is rejected; its defaults give every setting its documented value except comp_res_exit, which is taken from an unassigned local variable, and comp_dual_sol_eq, which is switched on when that variable is nonzero.",
  "every option name, value, mode, previous content of the argument object, every history of calls, every value of the unassigned variable",
  "A history of option calls of any length; independence of the previous memory contents and of stack contents is a statement about all of them, and the unassigned variable usually happens to be harmless in a test.",
  ["dense_qp/x_dense_qp_ipm.c:DENSE_QP_IPM_ARG_SET, DENSE_QP_IPM_ARG_SET_DEFAULT, DENSE_QP_IPM_ARG_GET", "tree_ocp_qp/x_tree_ocp_qp_ipm.c:TREE_OCP_QP_IPM_ARG_SET, TREE_OCP_QP_IPM_ARG_SET_DEFAULT"])
p("C93", "Split condensing: matrices once, vectors many times",
  "After COND_QP_COND_LHS on a problem and any sequence of COND_QP_COND_RHS calls on problems with the same matrices, sizes and index lists (vectors, bounds and masks arbitrary), the dense QP is equivalent to the last of these problems: the expansion of a dense point satisfies its dynamics, is feasible exactly when the dense point is, costs the same up to one constant, and is a solution exactly when the dense point is. Holds for problems without soft constraints and the default algorithm, in the square-root variant with positive definite state costs; the complementarity right-hand side of the dense QP is never written. With soft constraints the split functions number the slacks differently from COND_QP_COND and EXPAND_SOL and the equivalence fails.",
  "every problem with at least one stage, every number and content of later right-hand sides, every previous content of the work space and the dense QP, every dense point",
  "The correctness of a right-hand side update depends on what all earlier calls left in the work space; a test runs one or two updates on a few sizes, and the slack numbering only shows with particular mixes of soft constraints.",
  ["cond/x_cond.c:COND_QP_COND_LHS, COND_QP_COND_RHS, COND_QP_EXPAND_SOL", "cond/x_cond_aux.c:COND_BAT, COND_B, COND_RSQ, COND_RQ, COND_DCT, COND_D"])
p("C94", "Solution objects: every name reads and writes the component it names",
  "Reading a field of a solution object by name at an existing stage fills the user's buffer with exactly the components of the primal-dual point the field stands for (the ones the optimality guarantees speak about: controls, states, slacks, multipliers of the dynamics, of each side of each bound and general constraint, of each slack bound) and nothing beyond its length; writing sets exactly those components and changes no other component and no inequality slack. After any sequence of writes every component has the value of the last call covering it. GET_ALL, SET_ALL, COPY_ALL and SET_ZERO agree with this for all components. Unknown names end the process; there is no range check on the stage.",
  "every dimension with nb = nbu + nbx at every stage, every field, stage, buffer and previous content, every sequence of writes; OCP, dense and (read access) tree objects",
  "Offsets of fifteen fields depend on seven sizes per stage and overlap (lam_lb contains lam_lbu and lam_lbx); a wrong offset shows only for particular size combinations and a history of writes only for particular orders.",
  ["ocp_qp/x_ocp_qp_sol.c:OCP_QP_SOL_GET, OCP_QP_SOL_SET, OCP_QP_SOL_GET_ALL, OCP_QP_SOL_SET_ALL, OCP_QP_SOL_COPY_ALL, OCP_QP_SOL_SET_ZERO", "dense_qp/x_dense_qp_sol.c:DENSE_QP_SOL_GET, DENSE_QP_SOL_SET, DENSE_QP_SOL_GET_ALL", "tree_ocp_qp/x_tree_ocp_qp_sol.c:TREE_OCP_QP_SOL_GET"])
p("C95", "Memory of the dense and tree objects: create stays inside the block announced by memsize",
  "For the QP data, solution, residual, residual work space and solver work space of the dense solver and for the dimensions, QP data, residual and solver work space of the tree solver: whatever the sizes, the options and the address of the user's block (aligned or not), every array placed by the create routine lies inside the number of bytes returned by the memsize routine, and no two arrays overlap.",
  "all sizes, all option combinations (LQ factorisation, null-space algorithm, removal of dependent equalities, length of the statistics), all addresses of the block, any platform sizes of C types and of BLASFEO objects (a vector of n elements having room for n reals)",
  "The two routines are separate transcriptions of the same long list, with several options that add arrays; an array forgotten in one of them shows only for particular sizes, options and alignments, and then as silent corruption.",
  ["dense_qp/x_dense_qp.c:DENSE_QP_MEMSIZE, DENSE_QP_CREATE", "dense_qp/x_dense_qp_sol.c:DENSE_QP_SOL_MEMSIZE, DENSE_QP_SOL_CREATE", "dense_qp/x_dense_qp_res.c:DENSE_QP_RES_MEMSIZE, DENSE_QP_RES_CREATE, DENSE_QP_RES_WS_MEMSIZE, DENSE_QP_RES_WS_CREATE", "dense_qp/x_dense_qp_ipm.c:DENSE_QP_IPM_WS_MEMSIZE, DENSE_QP_IPM_WS_CREATE", "tree_ocp_qp/x_tree_ocp_qp.c:TREE_OCP_QP_MEMSIZE, TREE_OCP_QP_CREATE", "tree_ocp_qp/x_tree_ocp_qp_ipm.c:TREE_OCP_QP_IPM_WS_MEMSIZE, TREE_OCP_QP_IPM_WS_CREATE"])
p("C96", "Memory of the condensing and QCQP objects: create stays inside the block announced by memsize",
  "For the work space of full condensing (both algorithms), the options and work space of partial condensing (any partition of the horizon, any choice of algorithm per block), the dimensions, data, residual work space and solver work space of QCQPs: every array placed by the create routine lies inside the number of bytes returned by the memsize routine, and no two arrays overlap, whatever the address of the block.",
  "all sizes, block partitions, options and addresses of the block, any platform sizes",
  "As for C95; the nested objects (one condensing work space per block, a whole QP solver work space inside the QCQP one) each align their own start, so an overflow depends on the address modulo 64.",
  ["cond/x_cond.c:COND_QP_WS_MEMSIZE, COND_QP_WS_CREATE", "cond/x_part_cond.c:PART_COND_QP_ARG_MEMSIZE, PART_COND_QP_ARG_CREATE, PART_COND_QP_WS_MEMSIZE, PART_COND_QP_WS_CREATE", "ocp_qp/x_ocp_qcqp_dim.c:OCP_QCQP_DIM_MEMSIZE, OCP_QCQP_DIM_CREATE", "ocp_qp/x_ocp_qcqp.c:OCP_QCQP_MEMSIZE, OCP_QCQP_CREATE", "ocp_qp/x_ocp_qcqp_res.c:OCP_QCQP_RES_WS_MEMSIZE, OCP_QCQP_RES_WS_CREATE", "ocp_qp/x_ocp_qcqp_ipm.c:OCP_QCQP_IPM_WS_MEMSIZE, OCP_QCQP_IPM_WS_CREATE"])
p("C97", "QCQP dimensions: the inner QP always has the sizes of the QCQP",
  "The QCQP dimension object keeps a second dimension object for the QP solved in each iteration. After any sequence of settings by name (inside the horizon) and copies, the inner object has the same numbers of states, inputs, bounds, softened and equality constraints, and as many general constraints as the QCQP has general and quadratic ones; the number of bounds is the sum of state and input bounds. Setting a size changes that size only. Copying all sizes transfers every size except the number of softened constraints, which keeps the value of the destination.",
  "every horizon, every history of settings and copies, every stage inside the horizon",
  "Settings of ng and nq both update the same inner size from each other's current value, so a mistake shows only in some orders of the calls.",
  ["ocp_qp/x_ocp_qcqp_dim.c:OCP_QCQP_DIM_CREATE, OCP_QCQP_DIM_SET, OCP_QCQP_DIM_SET_NX, OCP_QCQP_DIM_SET_NG, OCP_QCQP_DIM_SET_NQ, OCP_QCQP_DIM_SET_NGE, OCP_QCQP_DIM_SET_NQE, OCP_QCQP_DIM_COPY_ALL, OCP_QCQP_DIM_GET"])
p("C98", "Options of the dense QCQP and tree QCQP solvers reach the solver and its inner QP solver",
  "Each documented option name of the dense QCQP solver sets exactly the setting it names, in the solver's own arguments and in those of the inner QP solver, and nothing else; after any history of calls both hold the value of the last call. Unknown names are rejected. The default routine accepts exactly the four modes and then determines every setting; the deviations from the documented defaults are stated (comp_res_exit is 0 in every mode). For the tree QCQP solver the same holds except for tol_eq and tol_ineq, which overwrite the stationarity tolerance of the inner solver, and comp_res_exit, whose default is the value of an unassigned variable.",
  "all option names and values, all histories of option calls, all prior contents of the structures, all modes, all values of the unassigned variables",
  "The settings live twice, and a setter that writes the wrong one of the two copies shows only in convergence behaviour; the unassigned variable depends on the stack.",
  ["dense_qp/x_dense_qcqp_ipm.c:DENSE_QCQP_IPM_ARG_SET, DENSE_QCQP_IPM_ARG_SET_DEFAULT", "tree_ocp_qp/x_tree_ocp_qcqp_ipm.c:TREE_OCP_QCQP_IPM_ARG_SET, TREE_OCP_QCQP_IPM_ARG_SET_DEFAULT"])
p("C99","Residuals and data of the dense QCQP","For a dense QP with quadratic constraints 1/2 v'Hq v + gq'v <= uq (+ slack) the residual routine returns the gradient of the Lagrangian, the defects of the equalities and of every present inequality (boxes, linear, quadratic, slack bounds), lam*t-m, the objective and a duality gap that bounds the optimal value of a convex problem; a point with zero residuals and nonnegative multipliers and slacks is a global optimum, with or without cached constraint values. What the setters store is what the getters return and what the residuals are computed from; no setter touches another field; a fresh object has all constraints present except the (nonexistent) lower sides of the quadratic ones.","all sizes, data, masks, index lists in range, points, workspaces and stale outputs; all fields and user arrays for the accessors","the identities range over all problems and directions; optimality quantifies over all feasible points",["dense_qp/x_dense_qcqp_res.c:DENSE_QCQP_RES_COMPUTE,DENSE_QCQP_RES_COMPUTE_INF_NORM","dense_qp/x_dense_qcqp.c:DENSE_QCQP_CREATE,DENSE_QCQP_SET,DENSE_QCQP_GET,DENSE_QCQP_SET_HQ,DENSE_QCQP_SET_GQ,DENSE_QCQP_SET_UQ"])
p("C100","Interior point solver of the dense QCQP","The dense QCQP solver makes at most iter_max steps and reports MAX_ITER, MIN_STEP or SUCCESS exactly by its exit test. All iterates it visits and the point it returns have strictly positive slacks, strictly positive multipliers for present constraints, at least t_min and lam_min after a step, and zero multipliers for absent ones. When it reports SUCCESS after at least one step (relative formulation), the residuals recomputed by the residual routine at the returned point are within the tolerances, and the returned point satisfies every equality, box, linear, quadratic and slack bound the caller stated up to the tolerances. It writes no statistics outside the table, and of the caller's problem it changes only the masks of lower sides of quadratic constraints and of the lower bounds of the slacks that soften them. A success reported before the first step is not covered: there a warm-started multiplier of an absent side can hide a stationarity residual (witness), and the start heuristic ignores upper bounds (witness).","all dimensions, data, masks, warm starts, tolerances, iteration limits, factorisation variants of the QP step, number of steps","the loop length is data dependent and the claims are about every iterate; the first linearisation depends on the contents of the solution object",["dense_qp/x_dense_qcqp_ipm.c:DENSE_QCQP_INIT_VAR, DENSE_QCQP_APPROX_QP, DENSE_QCQP_UPDATE_QP, DENSE_QCQP_UPDATE_QP_ABS_STEP, DENSE_QCQP_IPM_SOLVE"])
p("C101","Condensing the quadratic constraints of a QCQP","Condensing an OCP QCQP to a dense QCQP replaces a quadratic constraint of a stage after the first by a quadratic constraint of the condensed variables. For every value of the condensed variables, the quadratic part of the caller's constraint at the trajectory they generate equals the condensed quadratic and linear part, plus the constant by which the condensed bounds are corrected, plus one term that the code does not add: inputs times S times the states reached with zero inputs and zero initial state. So, for a constraint without linear part for which that term is zero, and when no earlier stage has linear general constraints, the condensed constraint is satisfied or violated by exactly the same amount as the caller's. The caller's Hessians keep their lower triangles, and a nonzero flag left unset in the condensed problem means a block of zeros. Otherwise the claim fails (witnesses): linear parts of quadratic constraints are dropped, the S term is dropped, constraints of the first stage are given the Hessian of another constraint or one past the array, and with linear general constraints in earlier stages the correction is applied to another constraint.","all horizons, dimensions, data, truthful nonzero flags, values of the condensed variables, prior contents of target and workspace","equality of two quadratic functions for all arguments and sizes; wrong terms vanish for common test data (no affine term, no linear part)",["cond/x_cond_qcqp.c:COND_QCQP_QC, COND_QCQP_COND","cond/x_cond_aux.c:COND_BABT, COND_DCTD"])
p("C102","Condensing of quadratic constraints in two parts","Condensing the quadratic constraints of a QCQP in two calls (matrices first, vectors later) computes the same condensed Hessians, nonzero flags, gradients and bounds as condensing at once, provided the dynamics matrices both start from carry the affine terms in their last rows, as the one-call condensing leaves them. The first call leaves bounds alone; the second writes nothing of the target but bounds. With the dynamics as the two-call interface itself leaves them, the claim fails (witness): the condensed gradient is then taken from stale memory.","all horizons, dimensions, data, flags, prior contents of target and workspace","equality of two programs on all states; differs from the one-call result only if the affine terms are nonzero",["cond/x_cond_qcqp.c:COND_QCQP_QC_LHS, COND_QCQP_QC_RHS, COND_QCQP_COND_LHS, COND_QCQP_COND_RHS"])
p("C103","Expansion of the solution of a condensed QCQP","Expanding the solution of the dense QCQP gives, for every dense solution and with all parts requested: the trajectory of the caller's dynamics for the inputs and first state of the dense solution (zero dynamics residual); inequality multipliers and slacks taken from the positions of the condensed problem; and equality multipliers for which the stationarity residual of the QCQP, curvature of the quadratic constraints included, is zero in every state after the first, whenever multipliers of masked sides and of the absent lower sides of quadratic constraints are zero. A quadratic constraint that condensing treats correctly (C101) is satisfied or violated at the expanded point by the same amount as the condensed one at the dense point. Prior contents of the workspace have no influence. With one stage, the Hessians of the quadratic constraints are copied and nothing else is condensed. A request flag with an even nonzero value is treated as zero.","all horizons, dimensions, data, dense solutions, prior contents of solution and workspace","statement about residuals for all problems and all dense points, not only optimal ones",["cond/x_cond_qcqp.c:COND_QCQP_EXPAND_SOL, COND_QCQP_QC","cond/x_cond_aux.c:EXPAND_SOL"])
p("C104","Condensing of a solution is inverted by expansion","Condensing an OCP solution (for instance a warm start) and expanding the result again returns, for problems without slacks and with all parts requested, the inputs and states of every condensed stage for every trajectory that satisfies the dynamics, the multipliers and slacks of every box and general constraint whatever their values, and the last equality multiplier when the last stage is not condensed; prior contents of the dense solution, of the expanded solution and of the workspace have no influence. With one stage the round trip keeps soft-constraint slacks too. With soft constraints at several stages it may exchange slacks of different stages. With no part requested nothing is written.","all horizons, dimensions, data, constraint indices, trajectories, multipliers, prior contents","inverse of each other for all problems; index arithmetic over all splits of boxes into inputs and states",["cond/x_cond_aux.c:COND_SOL, EXPAND_SOL","cond/x_cond.c:COND_QP_COND_SOL"])
p("C105","Partial condensing of a solution is inverted by expansion","Condensing an OCP solution block by block (for instance a warm start for the partially condensed problem) and expanding the result again returns, for problems without slacks and with all parts requested: at every stage of the original horizon the inputs and states, for every trajectory that satisfies the dynamics; the multipliers and slacks of every box and general constraint; and the equality multipliers between blocks. Prior contents of the condensed solution, of the expanded solution and of the workspaces have no influence.","all horizons, block sizes, dimensions, data, trajectories, multipliers, prior contents","inverse of each other for all partitions of the horizon; aliased pointers into the stages",["cond/x_part_cond.c:PART_COND_QP_COND_SOL, PART_COND_QP_EXPAND_SOL"])
p("C106","Condensing of a QCQP solution is inverted by expansion","Condensing the solution of an OCP QCQP and expanding the result again returns, for problems without slacks and with odd request flags, the inputs and states of every condensed stage for every trajectory that satisfies the dynamics, the multipliers and slacks of every box, general and quadratic constraint, and the last equality multiplier when the last stage is not condensed; prior contents of workspaces and of both solution objects have no influence.","all horizons, dimensions, numbers of quadratic constraints, data, trajectories, multipliers, prior contents","inverse of each other for all problems, although expansion runs in two passes with the constraints linearised in between",["cond/x_cond_qcqp.c:COND_QCQP_COND_SOL, COND_QCQP_EXPAND_SOL"])
p("C107","Condensing of seeds","After the matrices of a problem have been condensed and the vectors of any number of problems with the same matrices, condensing the seeds of a sensitivity computation gives exactly the vectors of the condensed seed problem: the dense QP with the condensed seeds in place of gradient and bounds is equivalent to the OCP QP with the seeds in place of dynamics offset, gradient and bounds. For every dense point its expansion satisfies the seed dynamics, has the same objective up to one constant, is feasible exactly when the dense point is and optimal exactly when the dense point is. Prior contents of the dense seeds have no influence.","all horizons at least one, dimensions, matrices, sequences of vectors, seeds, dense points, prior contents","statement about the whole call history and all points of two optimisation problems",["cond/x_cond.c:COND_QP_COND_SEED","cond/x_cond_aux.c:COND_B, COND_RQ, COND_D"])
open('/verif/properties.jsonl','w').write(''.join(json.dumps(x)+'\n' for x in P))
print(len(P))
