# Formal model of giaf/hpipm in Lean 4 — design

Source under study: `/repo` (C, templates `x_*.c` instantiated for double/single).
Model and proofs: `/verif/lean/Verif/*.lean`.  Properties: `/verif/properties.jsonl`.
Status of each property: `/verif/MANIFEST.json`.

## 1. Trusted base

* Lean 4.33.0 kernel, Mathlib as installed.  No axioms of our own.  Every theorem
  depends at most on `propext`, `Classical.choice`, `Quot.sound`
  (checked by the gate for every theorem; no other axiom is used).
* Hand translation C -> Lean of the functions listed in section 3.  Every model
  definition carries the `/repo` file and line range it models.
* Scalars: `REAL` is an arbitrary linearly ordered field `K` (the reals where square
  roots are needed).  **Floating-point rounding and overflow are not modelled.**  NaN is
  modelled where the code branches on it (solver loop, `Verif/Ipm*.lean`), as a
  scalar for which every comparison is false.
* BLASFEO kernels (VECCP, GEMV, SYRK, POTRF ...) are modelled by their documented
  mathematical effect on (sub)vectors and (sub)matrices (`Verif/Blas.lean`);
  Cholesky is modelled by the actual column recurrence, not by a postulated spec.
  Panel-major storage and assembly kernels are out of scope.
* C `int` is modelled by `Nat`/`Int` without overflow; pointers into one memory block
  by natural-number addresses (`Verif/Mem*.lean`).  Vectors are total functions
  `Nat -> K` with explicit lengths in the dims; a write outside the length is visible
  in the model as a change outside the range, and the frame theorems exclude it.
* Not modelled at all: text printing / code generation (`*_utils.c`), timing, Matlab /
  Python interfaces, mixed precision `m_*` files, QCQP variants unless
  listed in section 3.

## 2. Properties: what is modelled and how it is proved

| id | model | proof idea |
|----|-------|-----------|
| C01-C03 | `Dim.lean`: dims object as record of arrays, setters by field name | invariant by induction on call sequences; case analysis on fields |
| C04-C05 | `Mem.lean`: memsize sums and pointer walk of create | arithmetic on naturals, induction over stages |
| C06 | `AuxC.lean`: byte memory as function, the three loops | loop invariants |
| C07-C12 | `OcpQp.lean`: per-stage data with packed layouts | extensionality, index arithmetic; counterexamples for the two defects |
| C13-C18 | `Core.lean`: fold over constraints | loop invariants, ordered field algebra |
| C19-C23, C35 | `Res.lean` vs. `KktSpec.lean` (independent spec) | sums over ranges; convexity argument |
| C24-C28 | `Chol.lean`, `Riccati.lean`, `KktStep.lean` | induction on stages, Cholesky recurrence |
| C29-C34, C36 | `Ipm*.lean`: control flow of solve loop parametrised by the step | invariants by induction on iterations |
| C37-C40 | `Red.lean` | index compression lemmas; counterexample for idxb |
| C41-C47 | `PartCond.lean`, `Cond*.lean` | induction over stages |
| C48, C50 | `Tree.lean` | loop invariant on node counters |
| C49 | `AuxC.lean` | induction on strings |
| C53 | `KktReg.lean`, `IpmEnds*.lean` | bound on the Schur complements independent of the regularisation, diagonal dominance |
| C51, C52 | `IpmInitProps.lean`, `IpmMat.lean` | frame lemmas through every routine of the solver |
| C54, C55 | `Red*.lean` | as C37-C40 |
| C56 | `IpmInitBox.lean` | case analysis per box, loop over distinct indices |
| C57-C59 | `Solver.lean`, `SolverProps.lean` | induction on call histories; composition of C30 with C37-C40 |
| C60 | `RicVal.lean` (dynamic programming identity of a factorised recursion), `Ric.lean` (getters), `RicProps.lean` | completing the square per stage, induction on the stages from the end of the horizon; contents of the vectors after the forward sweeps |
| C61-C63 | `Sens.lean` (seeds, SENS_FRW, SENS_ADJ, PREDICT), `SensProps.lean`, `SensDer.lean`, `Move.lean`, `SensPred.lean`, `SensEx.lean` | contents of the workspace after a solve (`FactAt`), re-solve theorem C27, uniqueness C28, differentiation of the residual equations, reciprocity of the symmetrised KKT matrix, residuals along a Newton step |
| C64-C66 | `ErkSpec.lean` (Butcher tableaux, steps and runs, order conditions; nothing of the code), `Erk.lean` (sim_core: RK data, ERK workspace, setters, SOLVE), `ErkProps.lean`, `ErkDer.lean`, `ErkTab.lean`, `ErkMem.lean`, `ErkEx.lean` | stages by recursion, induction over stages and steps; differentiation of the stage recursion; closed forms of the setter loops |
| C67 | `KktPrim.lean` (primal part of a direction, no pivot or convexity hypotheses), `IpmDir.lean` (all ways a pass of the loop can produce its direction), `IpmContract.lean` (update of the iterate, step lengths), `IpmContractRun.lean` (runs and solves) | forward sweeps define the states by the dynamics; refinement corrections are homogeneous; induction over the passes of a run |
| C68 | `DenseQp.lean` (packed layouts of dense_qp/x_dense_qp.c), `DenseQpProps.lean` | extensionality, index arithmetic, case analysis over pairs of fields |
| C69 | `DenseRes.lean` (dense_qp/x_dense_qp_res.c), spec `DenseSpec.lean`, view `DenseView.lean`, theorems `DenseResProps.lean` | closed forms through a single stage OCP QP plus the equality block; Lagrangian identities as for C19-C23 |
| C70 | `DenseKkt.lean` (dense_qp/x_dense_qp_kkt.c), algebra `DenseLin.lean`, closed forms `DenseKktVal.lean`, methods `DenseKktFac.lean`, one pass and the loop `DenseKktStep.lean`, theorems `DenseKktProps.lean`, examples `DenseKktEx.lean` | each method solves the condensed saddle point system (LQ / Cholesky identities), slack elimination as for C25, induction over the retry loop |
| C71 | `DenseKktConv.lean` | positive definiteness of the factorised matrix of each method; geometric growth of the regularisation; invariants of the loop that exclude success; energy argument for uniqueness |
| C72 | `DenseKkt.lean` (dunconstr), `DenseUnc.lean` | the stored factors are those of the C70 methods with zero regularisation; zero residuals + C69 certificate |
| C73 | `DenseIpm.lean` (whole DENSE_QP_IPM_SOLVE), `DenseIpmFrame`, `DenseIpmProps`, `DenseIpmEnds` | frame lemmas, loop invariants; termination by the invariant 'interior, masks, cached LQ valid' and C71 |
| C74 | DENSE_QP_INIT_VAR with its three heuristics and warm starts (`DenseIpm`, `DenseIpmInit`, witnesses `DenseIpmShow`) | loop invariants on the centred entries, relational invariant for independence |
| C75 | `DenseIpmPos` | invariant over the runs of the dense loop |
| C76 | `DenseIpmUser`, `DenseIpmObj`, examples `DenseIpmShow` | C73 and C75 composed with the residual theorems of C69, stated on the user's problem (`DenseSpec`); C72 for the direct branch |
| C77 | `IpmUser` | C30 and C31 composed with the residual theorems C19-C21, stated on the caller's problem (`KktSpec`); the gap bound is extended to nonzero stationarity residuals |
| C78 | `CondFull`, `CondFullUser`, `CondFullEx` | the dense QP is related to a one-stage OCP QP with `nx 0` states (`cview`), which is the block decomposition of C43-C47 with a single block; objective, feasibility, optimality, residuals transported; composed with C75/C76 for the contract |
| C79 | TreeSpec, TreeQp, TreeRes, TreeResProps, TreeResEx | node body = stage body of the OCP routine on the one-node QP followed by the kids loop; kids sums = edge sums by a bijection (TreeOk); then the KKT algebra of ResProps with the edge operator |
| C80 | TreeKkt, TreeKktBack, TreeKktFwd, TreeKktStep, TreeKktSolve, TreeKktUnc, TreeKktEx | Riccati recursion over the nodes in reverse order; every node is factorised with the costs-to-go of its kids (loop invariant over kids, frame over nodes), the forward sweep makes dynamics and multipliers of every edge consistent; local Schur complement identities (RicStage) give stationarity of every node |
| C81 | TreeIpm, TreeIpmFrame, TreeIpmProps, TreeIpmUser | whole-solver model sharing the loop, the core step and the update with the OCP solver; frame lemmas show that only the update changes the iterate; loop invariants give clipping, masking and the meaning of the status; the residual theorems of C79 translate SUCCESS into the user's problem |
| C82 | QcqpSpec, Qcqp, QcqpVal, QcqpProps, QcqpEx | separate UserQcqp specification on top of UserQp; the residual pass is shown equal to the QP residual pass on the QP linearised at the iterate plus curvature terms, then transferred by the identity between the two Lagrangians |
| C83 | QcqpIpm, QcqpIpmVal, QcqpIpmInit, QcqpIpmProps, QcqpIpmRun, QcqpIpmUser, QcqpIpmOpt, QcqpIpmEnds, QcqpIpmEx | the QP in the workspace is shown to be the linearisation of the QCQP at the iterate (invariant of the loop), so each pass is a pass of the QP solver of C31/C53; residual theorems of C82 give the meaning of the exit tests for the caller's problem |
| C84 | QcqpIpmEnds, QcqpIpmHang | termination transferred from C53 through the loop invariant; the retry sequence is shown to be reg_prim, 0, 0, ... and every sweep to fail at the first pivot |
| C85 | QcqpArg.lean | the setter chain is modelled name by name; theorems quantify over table entries and values, histories by induction |
| C86 | QcqpBad.lean | frame lemmas for the start; the stationarity residual of a cut slack for the sign; two runs evaluated by the kernel |
| C87 | IpmUnc | the returned point is the KKT point of the problem with the regularisation added to the Hessian diagonal (proxQp); constraints that are switched off are removed (bareQp); optimality by C01's residual theorem |
| C88 | TreePrim, TreeContract | the forward sweep of both tree KKT routines satisfies the linearised dynamics whatever the factor is (TPrim); itref adds homogeneous corrections; an invariant of the passes carries the factor |
| C89 | MehSpec, MehStop (spec), MehMats, MehDir, MehRef, MehPass, MehRun, MehUser, MehForm, MehEx | refinement: invariant of the solver state (residual arrays, mu, row blocks of the shared matrices are those of the iterate), every pass is a `MehIter`, the loop guard is `GoOn` |
| C90 | MehStop, MehUser, MehEx | the Mehrotra run is unique (strict convexity gives unique directions), both solves are such runs |
| C91 | LinDep (model), LinDepProps, LinDepIncons, LinDepEx | rows: invariant of the main loop (kept rows are rows p(0..k-1) of A for a permutation p); inconsistency: every point satisfying Ax=b satisfies the eliminated system at every step, so a zero row with nonzero right-hand side is impossible |
| C92 | DenseArg | tables of option names as specification, induction over histories of calls; defaults by cases over modes and fields |
| C93 | CondSplit, CondSplitCost, CondSplitCon, CondSplitUser, CondSplitEx | invariant over the sequence of calls: the work space holds the cost-to-go matrices and the transition products; the gradient recursion and the bounds are those of the last problem; constraints related step by step to COND_DCTD |
| C94 | SolAcc, SolAccProps, SolAccDense, SolAccEx | components of the mathematical point as specification; case analysis over the names, induction over the sequence of writes, loop invariants for the bulk routines |
| C95 | DenseMem | carving combinators of MemProps; the bound of a create routine is collected from its parts and compared with the size formula for each option combination |
| C96 | CondMem | as C95; blocks by induction over their number |
| C97 | QcqpDim | invariant over the inductively defined reachable objects; loop invariants for the copy loops |
| C98 | DQcqpArg | case analysis over the option table, reduction to the dense and tree QP setters (C92); induction over histories |
| C99 | DQcqpSpec, DQcqp, DQcqpRes, DQcqpProps, DQcqpData | the residual routine is that of a one-stage OCP QCQP (C82) plus the equality rows; Lagrangian identities transferred through that view; accessors case by case |
| C100 | DQcqpIpm, DQcqpIpmProps, DQcqpIpmRun, DQcqpIpmUser, DQcqpIpmEx | invariant of the loop: the workspace QP is the linearisation at the current iterate, the caches of constraint values and adjoint are those of the iterate, multipliers are masked; residuals then equal the uncached ones (C99) |
| C101 | CondQc, CondQcVal, CondQcProps, CondQcUser, CondQcEx, CondQcFlags | frame over the nested loops for one position of the condensed problem; algebra of the form under the affine state map given by COND_BABT (C43); bounds from the condensed general constraints |
| C102 | CondQcSplit | relational invariant between the loops of the two parts and the loops of the whole |
| C103 | CondQcExp | the two passes equal one expansion (C43) with constraints linearised at the expanded point; residual characterisation of the QCQP (C82) |
| C104 | CondSol, CondSolEx | every write of COND_SOL puts the wanted value at the position of the condensed problem, positions injective; then C43 (EXPAND_SOL) and uniqueness of the trajectory |
| C105 | PartCondSol, PartCondSolEx | loop invariant over blocks (each block writes its own stage), then C104 for every block and covering of the horizon by blocks |
| C106 | CondQcSol | C104 for the aliased QP whose general constraints include the quadratic ones, C103 for the expansion |
| C107 | CondSeed | COND_QP_COND_SEED is the vector part of the split condensing (C93) on the aliased problem; frame: only gradient, bounds and mask are written, the mask equals that of the last vectors |

Every property above can be expressed; restrictions (no rounding, exact linear algebra)
are inherited from section 1.

## 3. What is modelled / not modelled

See the section "Coverage" at the end (kept current as the model grows).

## 4. Disagreements between code and expected behaviour found while modelling

1. `OCP_QP_SET_ALL_ZERO` (ocp_qp/x_ocp_qp.c) resets `idxs_rev` only for the first `ns`
   entries; stale softenings survive (C10).
2. `OCP_QP_SET_JBUE/JBXE/JGE` use `|` for `&` in the guard (C12).
3. `COND_SLACKS_*` is not an exact elimination when one slack is shared (C26).
4. `OCP_QP_IPM_ARG_DEEPCOPY` does not copy `t0_init` (C34).
5. `OCP_QP_IPM_DELTA_STEP`: in the predictor refinement loop `max_itref_qp_norm` is
   shadowed (C36); masks are applied to `sol_step` instead of `sol_itref`.
6. `OCP_QP_REDUCE_EQ_DOF(_LHS)` copies `idxb` without renumbering (C39).
7. `COND_RSQRQ` with `cond_alg==1` extracts the gradient shifted by `nu[N]` (C45).
8. `COND_DCTD` never writes `-1` into `idxs_rev2` (stale softening when a dense QP is re-used).
9. `OCP_QP_IPM_SOLVE`: `MAX_ITER` is reported when convergence happens exactly in the last
   allowed iteration; in absolute form `SUCCESS` says nothing on feasibility; a NaN residual with
   non-NaN complementarity gives `SUCCESS` (C30).
10. `OCP_QP_DIM_SET_ALL` leaves `nbxe/nbue/nge` (C03).
11. `COMPUTE_ALPHA_QP`, joint step (`split_step != 1`): after the step was shortened by a multiplier, the slack test does
    not start from the shortened value; the multipliers may then leave the orthant (only clipping repairs it) (C13).
12. Without clipping (`t_lam_min != 2`) a full step can end exactly on the boundary (C14).
13. The `m != 0` path of the joint step divides by `dlam*dt`, which may be zero (NaN): `computeAlpha_joint_divides_by_zero`.
    In the split `m != 0` path, an iterate whose product `lam*t` is below the safeguarded target yields a negative dual step
    (`computeAlpha_split_negative`); above it the steps are in [0,1] and safe (`computeAlpha_split_target`).
14. `PART_COND_QP_COMPUTE_BLOCK_SIZE` divides by zero for `N2 = 0` (C41); block sizes 0 duplicate stages (C42).
15. `sctree_create` overruns its array for `Nr > Nh` (C48).
16. `OCP_QP_SET_JBX/JBU/JSBX/JSBU/JSG`: a row of zeros leaves the stale index (C11).
17. `OCP_QP_SET_RHS_ZERO` does not reset the copies of `b` and `r,q` in the last matrix rows (`qp_setRhsZero_rows`).
18. `OCP_QP_GET` by name knows only `A`, `lbx`/`lx`, `ubx`/`ux`.
19. KKT: the LQ variant assigns instead of accumulating box weights (duplicate `idxb` lose terms); the LQ variant stores
    the `l` vector of the last stage with the opposite sign; after a fallback to the classical sweep
    `ws->square_root_alg` keeps its value, so a later `SOLVE_KKT_STEP` reads the wrong factor; `N = 0` reads stage 1; the
    regularisation of the unconstrained classical sweep shifts only the inputs, that of the square-root sweep everything.
20. The unconstrained return leaves `res_workspace->valid_nc_mask = 1`.
21. With all constraints masked the unconstrained branch leaves multipliers, slacks and the slack part of `ux` stale.
22. Status: a negative `iter_max` reports `SUCCESS` without iterating; convergence exactly at `iter_max` reports
    `MAX_ITER`; the duality gap is tested without absolute value.
23. `OCP_QP_INIT_VAR` tests the upper slack with the wrong sign (only decides whether the slack is moved).
24. `OCP_QP_RESTORE_EQ_DOF` with `comp_prim_sol = 0` and `comp_dual_sol_ineq = 1` recovers the multipliers of the removed
    boxes from the old content of `ux`; it also ignores the masks of the constraints.
25. `OCP_QP_REDUCE_EQ_DOF(_LHS)` does not write `idxe` (nor the copies of `b`, `r,q` in the last matrix rows) of a stage with
    removed variables, so `idxe` of the reduced QP is stale there.
26. Condensing: `cond_alg = 1` symmetrises the user's `RSQrq` in place (upper triangle overwritten; the lower one, which is what the
    solver reads, is kept: `partCond_keeps`); `COND_RSQ` (LHS only) has no fallback for singular blocks in the square-root
    algorithm; `COND_RHS`/`COND_*_SEED` do not condense `m` ("TODO cond m"); a block of size 0 that is not the last one is
    condensed as `N = -1` (nothing written); `cond_last_stage = 0` in full condensing dereferences NULL.
27. `EXPAND_SOL` computes the equality multipliers from unmasked inequality multipliers, while the residuals mask them: exact
    stationarity needs multipliers of masked constraints to be zero (`LamMasked`).
28. `OCP_QP_FACT_SOLVE_KKT_STEP` with a negative `reg_prim` (`<= -1e-4`): the retries start from `reg_prim + 1e-4 <= 0` and only multiply,
    so the regularisation never becomes positive: endless loop (`factSolve_forever`).  With `reg_prim >= 0` it always ends
    (`factSolve_ends`, C53).
29. `OCP_QP_INIT_VAR` (x_ocp_qp_ipm.c:1795-1818): a variable below its lower bound is put at `lb + 0.1` without looking at the upper
    bound, and the upper slack is the distance from the old position; with a box narrower than 0.2 the start is outside the box
    with a positive recorded slack (`initVar_box_escapes`, C56).
30. Solver interface: `OCP_QP_SOLVER_WS_CREATE` deep-copies the arguments into zeroed memory and `OCP_QP_IPM_ARG_DEEPCOPY` omits `t0_init`
    (finding 4), so every solver runs with `t0_init = 0` although the default is 2, unless `OCP_QP_SOLVER_SET("t0_init")` is
    called (`solver_t0_init_lost`, C57).
31. `OCP_QP_SOLVER_WS_MEMSIZE` computes the reduced sizes once per argument object (`valid_red_dim`): a second solver created from the
    same arguments for another problem gets the first problem's sizes (`solver_stale_sizes`).
32. In `if(arg->reduce_eq_dof & arg->valid_red_dim==0)` the `&` is bitwise: an even nonzero `reduce_eq_dof` leaves all reduced sizes
    zero while the removal is on (`solver_even_flag`).
33. With `reduce_eq_dof` the caller's solution object is never read: warm starts through it have no effect (`solver_guess_ignored`, C59).
34. The vector getters `get_ric_lr/p/k` vectors of the delta form re-solve with the user's `m` (zero unless set) as complementarity right-hand side, i.e. for the target `lam⁺ t + lam t⁺ = -m`; wherever the last iterate has `lam t ≠ 0` the law they return does not reproduce the returned solution, only approximately (`ric_vec_differs`, C60). `get_ric_lr` unpacks the full square block of the factor, whose upper triangle is not part of the factor.
35. `OCP_QP_IPM_PREDICT` (x_ocp_qp_ipm.c:3350) sets `cws->alpha = 1.0` ("TODO fix alpha=1"), a member no routine reads; `UPDATE_VAR_QP` uses `alpha_prim`, `alpha_dual` of the last `COMPUTE_ALPHA_QP`, shortened.  The predicted point therefore keeps `1 - a` of the residuals of the new problem (`predict_residuals`, C63).
36. With `abs_form`, `OCP_QP_IPM_PREDICT` passes the user's `m` as complementarity right-hand side where `ABS_STEP` passes `-res_m - 2m`: the prediction satisfies `lam0 t + lam t0 = -m` instead of `lam0 t0 + m`, so for `m >= 0` no constraint has positive multiplier and positive slack (`predict_abs_not_inside`).
37. `SENS_FRW`/`SENS_ADJ`/`PREDICT` overwrite the Riccati vectors but leave `valid_ric_vec`: if it was set, the vector getters afterwards describe the problem whose data are the seeds (`sens_ric_vec`).
38. `OCP_QP_SEED_SET` has no field for `seed_m`, although both sensitivity routines read it.
39. The callbacks of the ERK integrator are declared with `int t` (include/hpipm_d_sim_erk.h:59-61) and receive `t+h*C_rk[ss]`: the time is truncated to an integer.  For `x' = t`, two midpoint steps of length 1/2, the integrator returns 0 instead of 1/2 (`erk_time_truncated`).  C64 therefore holds for right-hand sides that do not depend on time, or with the truncated time.
40. `SIM_ERK_SOLVE` never looks at `expl`; entries of the tableau on and above the diagonal are ignored without notice (`erk_solve_lower`, `erk_implicit_ignored`: implicit Euler becomes explicit Euler).
41. `SIM_ERK_WS_SET_ALL` with `na>0` writes entries `(np+nx)*steps .. (np+nx)*(steps+1)-1` of `l`, which has `nf_max*(steps+1)` entries: past the end unless `nx+np <= nf_max` (`erk_l_overrun`).  The adjoint sweep itself cannot be reached: `SIM_ERK_SOLVE` ends the process for `na>0` (`erk_adjoint_exit`).
42. `SIM_ERK_WS_SET_NF` does not compare with `nf_max`; the next `SIM_ERK_WS_SET_FS` then writes past the end of `x_for` (`erk_nf_overrun`).
43. `UPDATE_VAR_QP` shortens local copies of the step lengths (x_core_qp_ipm_aux.c:504-510); the statistics columns 0, 1, 4, 5 record the unshortened ones, so that the factor by which residuals really shrink (`ipm_contraction`, C67) cannot be read from the table directly.
44. The mask setters of the dense QP normalise every nonzero entry to 1, those of the OCP QP store the value as given; DENSE_QP_SET_ALL does not touch the masks; a zero row of Jb, Jsb or Jsg leaves the old index in place without notice (`dqp_setJs_spec`).
45. Default method of the dense solver (kkt_fact_alg = 1, scale = 0, equality constraints): the retry after a failed pivot raises `preg`, but the factorised matrix is built with `arg->reg_prim` (x_dense_qp_kkt.c:1557), so the routine loops for ever whenever H + reg_prim I + barrier is not positive definite, even if the QP is strictly convex on the feasible set (`dfactSolve_schur_loops`, witness in `DenseKktEx`; the null space method solves the same QP, `exDK_total0`).
46. `compute_dreg` (x_dense_qp_kkt.c:1276-1311) compares `dreg_last` with `reg_prim` instead of `reg_dual`; with reg_dual = 0 ≠ reg_prim the dual regularisation stays 0 and dependent equality constraints are retried for ever (`dfactSolve_dreg_loops`).
47. With `scale = 1` a negative diagonal entry of the condensed Hessian gives sqrt of a negative number for every regularisation: the loop never ends (`dfactSolve_scale_loops_var`).
48. SOLVE_KKT_STEP decides on `ws->scale`, FACT_SOLVE_KKT_STEP on `arg->scale`; the former is only set in the delta step of the solver (x_dense_qp_ipm.c:1724).  The model passes one flag to both.
49. DENSE_QP_FACT_SOLVE_KKT_UNCONSTR with kkt_fact_alg = 0 multiplies by the full Hessian matrix (GEMM with Hg, x_dense_qp_kkt.c:315-497) while all other routines, the setters' documentation and the residuals read only its lower triangle: with anything else above the diagonal the result is wrong (`dunconstr_upper_matters`).
50. DENSE_QP_INIT_VAR (x_dense_qp_ipm.c:1468-1504), `t0_init = 2`: the midpoint of close bounds is computed as `0.5*(d_lb0 + d_ub0)` with `d_ub0` the negated upper bound (the OCP version has a minus): the variable starts outside its bounds (`dinit_midpoint_wrong`).
51. Same routine, general constraints (1511-1523): the upper slack starts from `+C v` instead of `-C v` (`dinit_general_upper_wrong`).  Both only degrade the starting point; interiority (C74) is unaffected.
52. `valid_obj` is set by `compute_obj` and cleared only at creation: a later solve without `compute_obj` leaves the old objective marked valid (`dipm_stale_objective`).
53. `ws->scale` is written by DENSE_QP_IPM_DELTA_STEP and by the LQ factorisation only; DENSE_QP_FACT_SOLVE_KKT_STEP reads `arg->scale`, DENSE_QP_SOLVE_KKT_STEP reads `ws->scale`, DENSE_QP_IPM_WS_CREATE does not initialise it: in the absolute formulation with `scale = 1` the corrector is solved with an uninitialised or stale flag (`dipm_stale_scale`).
54. The branch without present constraints leaves `valid_nc_mask = 1` and writes its statistics one column to the left of the other branches (x_dense_qp_ipm.c:2400-2425); with all constraints masked and `ns > 0` it does not write the slack part of `v`.
55. DENSE_QP_FACT_LQ_SOLVE_KKT_STEP computes Gamma, gamma only if `nb+ng > 0` (the classical routine: `nb+ng+ns > 0`).
56. DENSE_QP_IPM_PREDICT sets `alpha` fields nobody reads and none of mask, m, scale.
57. TREE_OCP_QP_RES_COMPUTE computes the constraint part of `res_g` from `lam` instead of the masked copy (x_tree_ocp_qp_res.c:515) and the duality gap from `lam` (:567), so a nonzero multiplier of a masked-out constraint changes both (`tres_masked_lam_leaks`); OCP_QP_RES_COMPUTE masks it. The tree solver keeps such multipliers at zero after its first iteration.
58. The tree solver always factorises whole node Hessians (square-root recursion) and never checks the pivots: for a tree QP that is strictly convex on the dynamics but has an indefinite node Hessian, TREE_OCP_QP_FACT_SOLVE_KKT_UNCONSTR returns a point that is not optimal, with no error (`tree_unconstr_indefinite_wrong`); OCP_QP has the classical recursion for this case. TREE_OCP_QP_FACT_SOLVE_KKT_UNCONSTR also ignores `reg_prim`, which FACT_SOLVE_KKT_STEP applies.
59. TREE_OCP_QP_INIT_VAR computes the middle of a narrow box as `0.5*(d_lb0 + d_ub0)` although `d_ub` holds the negated upper bound (the OCP version subtracts): with the heuristic start and 1 <= u <= 21/20 a warm start at 51/50 is moved to -1/40 (`tinitVar_box_wrong`). The slack variables still start positive, so the solver proceeds. TREE_OCP_QP_IPM_SOLVE also stores the objective in statistics column 10 in the unconstrained branch, where all other branches and solvers keep the duality gap.
60. OCP_QCQP_CREATE (x_ocp_qcqp.c:355-369) leaves d_mask = 1 on the lower rows of quadratic constraints, no setter writes that bound or its mask, and only OCP_QCQP_IPM_SOLVE clears it. OCP_QCQP_RES_COMPUTE called on a QCQP which has not been through SOLVE counts this nonexistent lower bound in res_d, res_m and res_mu: `qres_lower_side_wrong` reports infeasibility 2 at the optimum of a one-variable example.
61. OCP_QCQP_INIT_VAR (x_ocp_qcqp_ipm.c:882-1297), heuristic start: `d_lg_mask` and `d_ug_mask` are declared but never assigned and are dereferenced as soon as some stage has general linear constraints (`qipm_uninit_iff`); `d_ub_mask` is taken at offset nb+ng although the upper bounds start at nb+ng+nq.\n62. OCP_QCQP_IPM_SOLVE clears the masks of the caller's QCQP for the lower sides of quadratic constraints and, for softened ones, of the lower bound of their lower slack (x_ocp_qcqp_ipm.c:1697-1712), and does not restore them: those slack bounds are not enforced (`qafter_masks`).
63. OCP_QCQP_IPM_SOLVE never sets `qp_ws->preg_last` (only OCP_QP_IPM_SOLVE does, x_ocp_qp_ipm.c:2867; creation sets 0.0, line 1234). With reg_prim > 0 (default 1e-15) `compute_preg` (x_ocp_qp_kkt.c:1147-1178) then yields 0/3 = 0, 0*8 = 0, ...: on a nonconvex QCQP the solver loops forever (`qipm_hangs`).
64. `OCP_QCQP_IPM_ARG_SET_T0_INIT` (ocp_qp/x_ocp_qcqp_ipm.c:587) writes `arg->t_lam_min`; the field `arg->t0_init` read by OCP_QCQP_INIT_VAR is never written by any function (`qarg_t0_never`). `SET_TOL_EQ` and `SET_TOL_INEQ` (432, 441) call the TOL_STAT setter of the inner arguments, so after the defaults the inner stationarity tolerance is the inequality tolerance (`qargSet_tol_wrong`, `qargSetDefault_values`). In mode SPEED_ABS `comp_dual_sol_eq` is not initialised either.
65. OCP_QCQP_INIT_VAR, t0_init 0 and 1 (x_ocp_qcqp_ipm.c:997, 1010): the loops stop at `2*nb+2*ng+2*ns`, the last `2*nq` rows keep their old values (`qinitVar_stale`). 66. OCP_QCQP_APPROX_QP line 1354 copies `rqz+ii` into `qp->rqz` (stage 0): the unconstrained branch, which uses `rqz`, reports success at a wrong point (`qipm_unconstrained_wrong`). 67. OCP_QCQP_UPDATE_QP_ABS_STEP stores `-1/2 x'Hx` in the cache `q_fun` (1470-1483): exit residuals of the absolute formulation are wrong (`qipm_abs_residual_wrong`). 68. OCP_QCQP_IPM_SOLVE (1694-1709) removes the lower bound of slacks of quadratic constraints while their cost stays in the objective: positive linear cost makes them negative (`qipm_slack_negative`), and with zero quadratic cost the problem unbounded.
69. `DENSE_QP_REMOVE_LIN_DEP_EQ` can remove a constraint that is independent of the others (`lost_constraint`): the search for a pivot only looks at rows `ii..min(ne-1,jj)`, and rows below are not cleared when the column is passed. The solver then returns a point that violates the caller's equality constraints, with status success (its own residuals are those of the reduced QP).
70. The elimination at x_dense_qp_kkt.c:2999-3007 uses `tmp = fabs(entry)` as the entry: rows with a negative entry are doubled instead of cleared, so equal constraints are both kept (`dep_kept`).
71. With `ne > nv` the column of the right hand side takes part in the pivoting, and inconsistent constraints are not reported (`incons_missed`); `ne > nv+1` reads pivots never written and columns outside the matrix.
72. When every equality constraint is removed, `DENSE_QP_RESTORE_LIN_DEP_EQ` does nothing (`ne > 0` is its condition), the caller's QP and dimensions are left with `ne = 0` and matrices pointing into the solver workspace (`restore_fails`).
73. `ne_bkp` is neither set by `DENSE_QP_IPM_WS_CREATE` (the struct is caller memory, e.g. malloc'ed in the examples, so the first RESTORE can read an uninitialised value) nor reset by REMOVE: a workspace created in nonzero memory, or used with more equality constraints, makes RESTORE overwrite a later QP of which nothing was removed (`restore_stale`). The multipliers of the removed constraints are not recovered (TODO in the code).
74. `TREE_OCP_QP_IPM_ARG_SET_DEFAULT` passes the local variable `comp_res_pred`, never assigned, to the setter of `comp_res_exit` (x_tree_ocp_qp_ipm.c:64, 236): the default of `comp_res_exit`, and in mode SPEED_ABS that of `comp_dual_sol_eq`, is whatever the stack held (`targSetDefault_junk`). The options `lam0_min`, `t0_min`, `t0_init`, `comp_dual_sol_eq` of the tree solver have no name in its setter although its getter knows the first two.
75. `COND_DCT` and `COND_D` (split condensing) number the slacks in order of appearance of the soft constraints (x_cond_aux.c:1260-1267), while `COND_DCTD` and `EXPAND_SOL` use one block per stage: with soft bounds and soft general constraints on different stages the split result does not fit the expansion (`split_slack_order_differs`, `split_soft_wrong`); two constraints sharing a slack would get two slacks and run past `ns2`.
76. `COND_RSQ` with the square-root variant (the default) has no fallback when the cost-to-go is not positive definite, `COND_RSQRQ` has (x_cond_aux.c:305 against 476): `COND_QP_COND_LHS` then writes another Hessian than `COND_QP_COND` (`split_sqrt_no_fallback`).
77. `COND_D` does not condense `m` (a TODO in the code): after a split condensing the dense QP keeps an old `m` (`split_keeps_m`, `split_stale_m`).
78. `TREE_OCP_QP_SOL_GET` has no `lam_ls`, `lam_us` (x_tree_ocp_qp_sol.c:251-297): the multipliers of the slack bounds of a tree solution can be read only with `_GET_ALL`; the names known from the OCP interface end the process (`tsol_slack_mult_missing`).
79. `valid_obj` of a dense solution is set by `DENSE_QP_COMPUTE_OBJ` (x_dense_qp_kkt.c:3120) and never cleared: after a later `DENSE_QP_SOL_SET`, or a later solve with `compute_obj` off, `DENSE_QP_SOL_GET_VALID_OBJ` answers 1 and `_GET_OBJ` a stale number (`dsol_obj_stale`, `dsol_obj_stale_witness`).
80. `OCP_QCQP_DIM_COPY_ALL` does not copy `ns` (x_ocp_qcqp_dim.c:166-185 has no loop for it): copying the sizes of a QCQP with softened constraints into a new object gives an object without them, outside and inside (`qdim_copyAll_loses_ns`). The function for QPs copies `ns`.
81. `DENSE_QCQP_IPM_ARG_SET_DEFAULT` passes `&comp_res_pred` to the `comp_res_exit` setter (x_dense_qcqp_ipm.c:277), so `comp_res_exit` is 0 in every mode, in both argument structures, although 1 is selected for SPEED, BALANCE, ROBUST (`dqargSetDefault_comp_res_exit`). It also passes `&reg_prim` to the `reg_dual` setter (line 266), harmless since both are 1e-15.
82. `TREE_OCP_QCQP_IPM_ARG_SET_TOL_EQ`, `_TOL_INEQ` call the `tol_stat` setter of the inner arguments (lines 431, 440; `tqargSet_tol_wrong`), as in the OCP QCQP solver; `TREE_OCP_QCQP_IPM_ARG_SET_DEFAULT` passes an unassigned local to the `comp_res_exit` setter (line 281) and never assigns `comp_dual_sol_eq` otherwise (`tqargSetDefault_values`).
83. `DENSE_QCQP_IPM_SOLVE` does not mask the initial multipliers before the first linearisation (the OCP solver does, x_ocp_qcqp_ipm.c:1716). The cached adjoint of the quadratic constraints then contains multipliers of absent sides, and the residuals of the starting point are computed from it: with a warm start the solver reports SUCCESS at iteration 0 although the stationarity residual of the returned point is above its tolerance (`exDQ0_success_wrong`, default duality gap tolerance). After the first step the multipliers are masked (`dqipm_success`).
84. `DENSE_QCQP_INIT_VAR` reads the mask of the upper bound `ii` at `nb+ng+ii` instead of `nb+ng+nq+ii` (x_dense_qcqp_ipm.c:953). With quadratic constraints this is the mask of a lower side of a quadratic constraint, which the solver has set to zero: the upper bounds of the first `nq` boxes are ignored by the starting heuristic (`exDQ_init_ub_ignored`). The iterates stay interior all the same (`dqinitVar_interior`).
85. (text only) In the absolute formulation the QCQP solvers make the core workspace's `res_m` an alias of the step QP's `m` (dense 1515, OCP 1831, tree 1671), and no later call undoes it; a later relative solve with the same workspace then reads and overwrites the wrong vector.
86. `COND_QCQP_QC` copies the Hessian of constraint `jj` of stage 0 from `Hq[0]+nq[jj]` instead of `Hq[0]+jj` (x_cond_qcqp.c:488): the Hessian of another constraint (`condQc_first`, `condQcqp_first_wrong`) or, e.g. whenever only stage 0 has quadratic constraints, memory past the array (`condQc_only_first_ub`); `nq[jj]` itself is read past its end when `jj>N`.
87. `COND_QCQP_QC` sets the columns of the quadratic constraints in `Ct` to zero (465) after `COND_DCTD` has written their condensed linear parts there: linear terms of quadratic constraints are lost (`condQc_drops_linear`, `condQcqp_loses_linear`).
88. The gradient taken from the last row of the condensed Hessian starts after the inputs of the stage (540), so the product of `S` with the affine part of the states is lost (`condQc_value`, `condQcqp_loses_cross`).
89. `COND_DCTD` stores the constraints of a stage as `ng` linear then `nq` quadratic ones, `COND_QCQP_QC` assumes all linear ones of all stages first. The two agree iff no earlier stage has linear general constraints (`condQc_position`, `condQcqp_misplaced`).
90. (text only) `COND_QCQP_COND` does not set `m` of its temporary QP, which `COND_DCTD` dereferences (x_cond_aux.c:821), nor `diag_H_flag`, which the second condensing algorithm reads; with one stage `COND_QCQP_QC` does not set the nonzero flags of the target.
91. `COND_QCQP_COND_LHS` calls `COND_BAT`, which does not write the last rows of `Gamma`; `COND_QCQP_QC_LHS` takes the gradient of the condensed quadratic constraints from them (x_cond_qcqp.c:680-681) and `COND_QCQP_QC_RHS` does not set it: condensing in two parts gives a stale gradient, e.g. zero while the bounds are corrected (`condQcSplit_stale`). The gradient depends on `b`, so it belongs in the second part.
92. `COND_QCQP_EXPAND_SOL` combines the request flags with `1 &`: a flag set to 2 (true for `EXPAND_SOL` of the QP) is treated as zero (`condQcExp_even`).
93. `COND_SOL` numbers slacks "all boxes first" (x_cond_aux.c:1915, "this keeps the same order as in cond"), but `COND_DCTD` and `EXPAND_SOL` number them stage by stage: with a soft box at one stage and a soft general constraint at a later one, condensing a warm start exchanges their slacks (`condSol_soft_swapped`).

## Coverage

| C source | Lean module(s) | not modelled there |
|---|---|---|
| ocp_qp/x_ocp_qp_dim.c | `Dim`, `DimProps` | printing |
| auxiliary/aux_mem.c, aux_string.c | `AuxC` | |
| tree_ocp_qp/scenario_tree.c | `Tree` | |
| cond/x_part_cond.c (dims, block sizes), cond/x_cond.c (COMPUTE_DIM) | `PartCond` | |
| cond/x_cond_aux.c (COND_BABT, COND_RSQRQ both algorithms, COND_DCTD, EXPAND_SOL), cond/x_part_cond.c (ARG_SET_DEFAULT, COND, EXPAND_SOL, COND_SOL) | `Cond`, `CondDyn`, `CondQuad`, `CondRsq*`, `CondCon*`, `CondBlock`, `CondEquiv`, `CondRun`, `CondExpand`, `CondAdj`, `CondExpRun`, `CondProps`, `PartCondSol`, `PartCondUser` (spec: `CondSpec`, `KktSpec`) | LHS/RHS/UPDATE/SEED variants |
| ocp_qp/x_ocp_qp.c | `OcpQp`, `OcpQpProps`, `OcpQpMore` | printing |
| memsize/create of OCP dims, qp, sol, res, core, ipm ws | `Mem`, `MemProps` | |
| ipm_core/x_core_qp_ipm_aux.c | `Core`, `CoreProps` | single-precision guards |
| ocp_qp/x_ocp_qp_res.c | `Res`, `ResVal`, `ResProps` (spec: `KktSpec`, `View`) | |
| ocp_qp/x_ocp_qp_kkt.c (FACT_SOLVE, SOLVE, UNCONSTR, COND/EXPAND_SLACKS; both Riccati variants) | `Chol`, `Riccati`, `RicChain`, `Kkt*` | LQ factorisation, FACT_KKT_STEP |
| ocp_qp/x_ocp_qp_ipm.c (ARG_*, INIT_VAR, ABS_STEP, DELTA_STEP, SOLVE, GET_RIC_*, PREDICT, SENS_*) | `Arg*`, `IpmInit*`, `IpmCtl*`, `Ipm*`, `Ric*`, `Sens*`, `Move` | scalar getters |
| ocp_qp/x_ocp_qp_seed.c (SET_ZERO, SET) | `Sens`, `SensProps` | memsize/create |
| ocp_qp/x_ocp_qp_red.c (all REDUCE_*/RESTORE_* routines) | `Red`, `RedVal`, `RedStage`, `RedSolVal`, `RedProps`, `RedOpt`, `RedRes`, `RedSplit` (spec: `RedSpec`) | later sharing of memory under `alias_unchanged` |
| ipm_core step rules with nonzero targets, iterative refinement, start at boxes | `CoreAlpha`, `IpmItref`, `IpmItrefEx`, `IpmInitBox` | |
| sim_core/x_sim_rk.c, sim_core/x_sim_erk.c | `Erk`, `ErkProps`, `ErkDer`, `ErkTab`, `ErkMem`, `ErkEx` (spec: `ErkSpec`) | the adjoint sweep (unreachable) |
| dense_qp/x_dense_qp.c | `DenseQp`, `DenseQpProps` | printing |
| dense_qp/x_dense_qp_res.c (COMPUTE, COMPUTE_LIN, INF_NORM) | `DenseRes`, `DenseView`, `DenseResProps` (spec: `DenseSpec`) | RES_GET_ALL |
| dense_qp/x_dense_qp_kkt.c (FACT_SOLVE_KKT_UNCONSTR, FACT_SOLVE_KKT_STEP, SOLVE_KKT_STEP, COND/EXPAND slacks) | `DenseKkt`, `DenseLin`, `DenseKktVal`, `DenseKktFac`, `DenseKktStep`, `DenseKktProps`, `DenseKktConv`, `DenseKktEx` | FACT_KKT_STEP, LQ and LU variants, eigenvalue regularisation |
| dense_qp/x_dense_qp_ipm.c | DenseIpm*, claims C73-C76 | WS create, LQ/LU factorisation, REMOVE/RESTORE_LIN_DEP_EQ, PREDICT, SENS |
| cond/x_cond.c (COND_QP_COND, COND_QP_COND_LHS, COND_QP_COND_RHS, COND_QP_EXPAND_SOL), cond/x_cond_aux.c (COND_BAT, COND_B, COND_RSQ, COND_RQ, COND_DCT, COND_D) | `CondFull`, `CondSplit*`, `CondSol` (COND_SOL), `CondSeed` (COND_QP_COND_SEED) | memory, COND_QP_UPDATE |
| tree_ocp_qp/x_tree_ocp_qp_res.c, x_tree_ocp_qp.c (edge setters; node setters via OCP) | TreeQp, TreeRes*, TreeResEx | memory layout, SET_ALL |
| tree_ocp_qp/x_tree_ocp_qp_kkt.c | TreeKkt* | the LQ variant (624-848) |
| tree_ocp_qp/x_tree_ocp_qp_ipm.c | TreeIpm*, DenseArg (options, C92) | memsize/create (564-1130), the LQ factorisation |
| ocp_qp/x_ocp_qcqp.c, x_ocp_qcqp_res.c | Qcqp* | memsize/create, whole-array SET_ALL, getters, linear part of the setters (same code as x_ocp_qp.c), equality/JQE setters |
| ocp_qp/x_ocp_qcqp_ipm.c | QcqpIpm* | memsize/create, getters |
| ocp_qp/x_ocp_qp_sol.c, dense_qp/x_dense_qp_sol.c, tree_ocp_qp/x_tree_ocp_qp_sol.c (accessors) | SolAcc, SolAccDense | the deprecated TREE GET_ALL |
| memsize/create of dense qp, sol, res, ipm ws; tree dim, qp, sol, res, ipm ws | `DenseMem` | LU/eigenvalue arrays are modelled as arrays only |
| memsize/create of cond ws, part cond arg/ws; qcqp dim, qcqp, sol, res, ipm ws | `CondMem` | dense and tree QCQP objects |
| ocp_qp/x_ocp_qcqp_dim.c | `QcqpDim` | print functions |
| dense_qp/x_dense_qcqp_ipm.c 103-586, tree_ocp_qp/x_tree_ocp_qcqp_ipm.c 108-579 | `DQcqpArg` | arg memsize/create; the solvers themselves |
| dense_qp/x_dense_qcqp.c, x_dense_qcqp_res.c | DQcqp | sizes of memory, `Hq_nzero`, setters of idxb/idxs/Jb/Jsb/Jsg/Jsq, COPY_ALL, SET_ALL_ZERO |
| dense_qp/x_dense_qcqp_ipm.c | DQcqpArg (arguments), DQcqpIpm (solver) | memory sizes, getters of the statistics, use_hess_fact |
| cond/x_cond_qcqp.c | CondQc, CondQcSplit, CondQcExp, CondQcSol | dimensions and memory |
| interfaces/c/x_ocp_qp_solver.c | `Solver`, `SolverProps` | SENS_FRW; memory layout of the solver object |

In `Ipm.lean` the LQ factorisation and the exit factorisation are parameters of the environment `Env` (any functions; the
theorems that need it assume that they leave the user's matrix rows alone, `Env.Keeps`).
