{
 "claims": [
  {
   "property": "C01",
   "status": "proved",
   "theorems": [
    "Hpipm.dim_nb_eq_nbx_add_nbu"
   ],
   "note": "invariant over all finite histories of the dims API"
  },
  {
   "property": "C02",
   "status": "proved",
   "theorems": [
    "Hpipm.dim_get_set_same",
    "Hpipm.dim_get_set_other",
    "Hpipm.dim_set_defined_iff",
    "Hpipm.dim_set_out_of_range_corrupts"
   ],
   "note": "out-of-range stage is shown to corrupt a neighbour array"
  },
  {
   "property": "C03",
   "status": "proved",
   "theorems": [
    "Hpipm.dim_deepcopy_get",
    "Hpipm.dim_copyAll_get",
    "Hpipm.dim_setAll_get"
   ],
   "note": ""
  },
  {
   "property": "C04",
   "status": "proved",
   "theorems": [
    "Hpipm.dim_create_fits",
    "Hpipm.qp_create_fits",
    "Hpipm.qp_create_inside",
    "Hpipm.sol_create_fits",
    "Hpipm.resWs_create_fits",
    "Hpipm.core_create_fits",
    "Hpipm.ws_create_fits"
   ],
   "note": "objects: dims, QP, solution, residuals, residual workspace, core workspace, OCP IPM workspace"
  },
  {
   "property": "C05",
   "status": "proved",
   "theorems": [
    "Hpipm.dim_create_fits",
    "Hpipm.qp_create_fits",
    "Hpipm.sol_create_fits",
    "Hpipm.resWs_create_fits",
    "Hpipm.core_create_fits",
    "Hpipm.ws_create_fits",
    "Hpipm.qp_fp_aligned"
   ],
   "note": "disjointness is the second half of Fits"
  },
  {
   "property": "C06",
   "status": "proved",
   "theorems": [
    "Hpipm.zeroMemset_spec"
   ],
   "note": ""
  },
  {
   "property": "C07",
   "status": "proved",
   "theorems": [
    "Hpipm.qp_get_set_same",
    "Hpipm.qp_setEl_get",
    "Hpipm.qp_setIdxb_lists",
    "Hpipm.qp_setAll_get",
    "Hpipm.qp_setAll_idxb",
    "Hpipm.qp_copyAll_get",
    "Hpipm.qp_copyAll_ints",
    "Hpipm.qp_setAllZero_get",
    "Hpipm.qp_setM_pairs",
    "Hpipm.qp_setM_val",
    "Hpipm.qp_setMAll_val",
    "Hpipm.qp_fieldOfName",
    "Hpipm.qp_setName_get"
   ],
   "note": ""
  },
  {
   "property": "C08",
   "status": "proved",
   "theorems": [
    "Hpipm.qp_get_set_other",
    "Hpipm.qp_set_keeps_ints",
    "Hpipm.qp_setM_get",
    "Hpipm.qp_setRhsZero_get",
    "Hpipm.qp_setRhsZero_rest",
    "Hpipm.qp_setRhsZero_rows"
   ],
   "note": ""
  },
  {
   "property": "C09",
   "status": "proved",
   "theorems": [
    "Hpipm.res_inequalities",
    "Hpipm.qp_get_set_same"
   ],
   "note": "the QP data are read through the user getters, the residuals are written by the residual routine"
  },
  {
   "property": "C10",
   "status": "proved",
   "theorems": [
    "Hpipm.qp_setIdxs_spec",
    "Hpipm.qp_getIdxs_setIdxs",
    "Hpipm.qp_setAllZero_idxs_rev",
    "Hpipm.qp_setAllZero_removes_iff",
    "Hpipm.qp_setAllZero_keeps_softening"
   ],
   "note": "the reset part is false of the code; the exact condition under which it holds and a witness of the failure are proved"
  },
  {
   "property": "C100",
   "status": "proved",
   "theorems": [
    "Hpipm.dqipm_iter_le",
    "Hpipm.dqipm_status",
    "Hpipm.dqipm_success",
    "Hpipm.dqipm_success_feasible",
    "Hpipm.dqipm_iterates_inside",
    "Hpipm.dqipm_solution_inside",
    "Hpipm.dqipm_stat_inside",
    "Hpipm.dqinitVar_interior",
    "Hpipm.dqmaskLower_mask",
    "Hpipm.dqipm_data",
    "Hpipm.dapproxQp_val",
    "Hpipm.dupdateQp_val",
    "Hpipm.exDQ0_success_wrong",
    "Hpipm.exDQ_init_ub_ignored"
   ],
   "note": "exact arithmetic; use_hess_fact not modelled; a workspace on which a solve with abs_form precedes one without is not modelled (finding 85)"
  },
  {
   "property": "C101",
   "status": "proved",
   "theorems": [
    "Hpipm.condQc_value",
    "Hpipm.condQc_exact",
    "Hpipm.condQcqp_exact",
    "Hpipm.condQc_drops_linear",
    "Hpipm.condQc_keeps",
    "Hpipm.condQc_first",
    "Hpipm.condQc_only_first_ub",
    "Hpipm.condQc_position",
    "Hpipm.condQcqp_loses_linear",
    "Hpipm.condQcqp_loses_cross",
    "Hpipm.condQcqp_first_wrong",
    "Hpipm.condQcqp_first_ub",
    "Hpipm.condQcqp_misplaced",
    "Hpipm.condQc_flags_truthful",
    "Hpipm.condQc_first_flags_wrong"
   ],
   "note": "exact arithmetic; the temporary QP of COND_QCQP_COND is given m and diag_H_flag, which the code leaves unset (finding 90); expansion of the solution is C103"
  },
  {
   "property": "C102",
   "status": "proved",
   "theorems": [
    "Hpipm.condQcLhs_eq",
    "Hpipm.condQcRhs_eq",
    "Hpipm.condQcSplit_eq",
    "Hpipm.condQcSplit_stale"
   ],
   "note": "exact arithmetic; the quadratic part only: the linear parts of the two calls are C93; condQcSplit_stale is the witness for the two-call interface (finding 91)"
  },
  {
   "property": "C103",
   "status": "proved",
   "theorems": [
    "Hpipm.condQcExp_eq",
    "Hpipm.condQcExp_val",
    "Hpipm.condQcExp_point",
    "Hpipm.condQcExp_dynamics",
    "Hpipm.condQcExp_stationary",
    "Hpipm.condQcExp_exact",
    "Hpipm.condQcExp_even",
    "Hpipm.condQc_one_stage"
   ],
   "note": "exact arithmetic; full condensing (last stage condensed) for the residual statements; the positions of the condensed multipliers are those of COND_DCTD, which differ from those of COND_QCQP_QC when earlier stages have linear general constraints (finding 89)"
  },
  {
   "property": "C104",
   "status": "proved",
   "theorems": [
    "Hpipm.condSol_round",
    "Hpipm.condSol_one_soft",
    "Hpipm.condSol_soft_swapped",
    "Hpipm.condSol_none",
    "Hpipm.csInputs_val",
    "Hpipm.csIneq_val"
   ],
   "note": "exact arithmetic; the statement for several stages is for problems without slacks, because with slacks the code does not have it (condSol_soft_swapped, finding 93)"
  },
  {
   "property": "C105",
   "status": "proved",
   "theorems": [
    "Hpipm.partCondSol_round",
    "Hpipm.partCondSol_blk",
    "Hpipm.condSol_round_of"
   ],
   "note": "exact arithmetic; problems without slacks (finding 93); equality multipliers inside a block are recomputed by the expansion (C43), not copied"
  },
  {
   "property": "C106",
   "status": "proved",
   "theorems": [
    "Hpipm.condQcSol_round"
   ],
   "note": "exact arithmetic; problems without slacks (finding 93); the aliased QP shares index lists and dimensions with the QCQP"
  },
  {
   "property": "C107",
   "status": "proved",
   "theorems": [
    "Hpipm.condSeed_equivalent",
    "Hpipm.seed_tgt",
    "Hpipm.rhs_frame",
    "Hpipm.split_done"
   ],
   "note": "exact arithmetic; problems without soft constraints, last stage condensed, default algorithm (as C93); seed_m is not condensed by the code"
  },
  {
   "property": "C11",
   "status": "proved",
   "theorems": [
    "Hpipm.qp_setJbx_spec",
    "Hpipm.qp_setJbu_spec",
    "Hpipm.qp_setJs_spec"
   ],
   "note": ""
  },
  {
   "property": "C12",
   "status": "proved",
   "theorems": [
    "Hpipm.qp_setJbue_spec",
    "Hpipm.qp_setJbue_overrun",
    "Hpipm.qp_setJbue_wrong",
    "Hpipm.qp_setIdxe_lists"
   ],
   "note": "exact characterisation of what the flag setter does (it is right only for leading flags) and refutation witness; the index-list setters are right"
  },
  {
   "property": "C13",
   "status": "proved",
   "theorems": [
    "Hpipm.computeAlpha_split_max",
    "Hpipm.computeAlpha_joint_max",
    "Hpipm.not_both_blocking",
    "Hpipm.corrector_rhs_le",
    "Hpipm.isMaxStep_pos",
    "Hpipm.fraction_of_step",
    "Hpipm.computeAlpha_joint_leaves_orthant",
    "Hpipm.computeAlpha_split_target",
    "Hpipm.computeAlpha_joint_target",
    "Hpipm.joint_target_good",
    "Hpipm.computeAlpha_split_negative",
    "Hpipm.computeAlpha_joint_divides_by_zero"
   ],
   "note": "zero-target paths: exact largest step; the joint rule under the proviso that lam and t of one constraint do not both block (witness of failure otherwise). nonzero-target paths: the returned steps keep every entry inside the orthant and every product above the safeguarded target, provided lam*t >= m_safe*m (split; witness of a negative step otherwise) and not both entries block and no zero divisor (joint; NaN witness otherwise)"
  },
  {
   "property": "C14",
   "status": "proved",
   "theorems": [
    "Hpipm.updateVar_val",
    "Hpipm.backupVar_val",
    "Hpipm.updateVar_positive",
    "Hpipm.alpha_update_positive",
    "Hpipm.updateVar_can_reach_zero"
   ],
   "note": "strict positivity needs clipping or a step below the boundary; the exact-zero case is proved to occur otherwise"
  },
  {
   "property": "C15",
   "status": "proved",
   "theorems": [
    "Hpipm.computeLamT_linearised"
   ],
   "note": ""
  },
  {
   "property": "C16",
   "status": "proved",
   "theorems": [
    "Hpipm.gammaGamma_elimination",
    "Hpipm.gamma_elimination"
   ],
   "note": ""
  },
  {
   "property": "C17",
   "status": "proved",
   "theorems": [
    "Hpipm.computeMuAff_eq",
    "Hpipm.computeMuAff_avg"
   ],
   "note": ""
  },
  {
   "property": "C18",
   "status": "proved",
   "theorems": [
    "Hpipm.centeringCorrection_eq",
    "Hpipm.centering_eq",
    "Hpipm.tauMin_eq",
    "Hpipm.corrector_target"
   ],
   "note": ""
  },
  {
   "property": "C19",
   "status": "proved",
   "theorems": [
    "Hpipm.res_stationarity",
    "Hpipm.res_dynamics",
    "Hpipm.res_inequalities",
    "Hpipm.res_complementarity",
    "Hpipm.res_objective",
    "Hpipm.res_mu_mean"
   ],
   "note": ""
  },
  {
   "property": "C20",
   "status": "proved",
   "theorems": [
    "Hpipm.res_zero_optimal"
   ],
   "note": ""
  },
  {
   "property": "C21",
   "status": "proved",
   "theorems": [
    "Hpipm.res_dual_gap",
    "Hpipm.res_gap_bound"
   ],
   "note": ""
  },
  {
   "property": "C22",
   "status": "proved",
   "theorems": [
    "Hpipm.res_norms"
   ],
   "note": ""
  },
  {
   "property": "C23",
   "status": "proved",
   "theorems": [
    "Hpipm.resLin_zero_full_step"
   ],
   "note": ""
  },
  {
   "property": "C24",
   "status": "proved",
   "theorems": [
    "Hpipm.unconstr_residual",
    "Hpipm.unconstr_piv",
    "Hpipm.unconstr_optimal"
   ],
   "note": "both Riccati variants, N >= 1; with reg_prim the stationarity residual equals minus the shift times the solution (shift on all variables in the square-root variant, on inputs only in the classical one); exact square root over an ordered field"
  },
  {
   "property": "C25",
   "status": "proved",
   "theorems": [
    "Hpipm.factSolve_newton",
    "Hpipm.factSolve_total",
    "Hpipm.factSolve_full_step"
   ],
   "note": "Newton system with the applied regularisation; totality for strictly convex (regularised) problems at interior iterates; LQ-factorisation variant not modelled; N >= 1"
  },
  {
   "property": "C26",
   "status": "proved",
   "theorems": [
    "Hpipm.factSolve_newton",
    "Hpipm.shared_slack_not_newton"
   ],
   "note": "positive part for unshared slacks; negation with a concrete shared-slack QP"
  },
  {
   "property": "C27",
   "status": "proved",
   "theorems": [
    "Hpipm.resolve_newton",
    "Hpipm.resolve_agrees"
   ],
   "note": "re-solve with the stored factorisation is a Newton step for any right-hand side and agrees with the factorise-and-solve step"
  },
  {
   "property": "C28",
   "status": "proved",
   "theorems": [
    "Hpipm.newton_unique"
   ],
   "note": "any two steps satisfying the Newton equations of a strictly convex (shifted) QP at an interior iterate agree"
  },
  {
   "property": "C29",
   "status": "proved",
   "theorems": [
    "Hpipm.ipmLoop_iter_le",
    "Hpipm.ipmLoop_terminates",
    "Hpipm.ipm_iter_le",
    "Hpipm.ipm_terminates"
   ],
   "note": "generic loop with an arbitrary body, and the full solver model; ipm_terminates assumes that each factorisation returns (its regularisation loop has no bound in the code)"
  },
  {
   "property": "C30",
   "status": "proved",
   "theorems": [
    "Hpipm.status_meaning",
    "Hpipm.status_success_iff",
    "Hpipm.status_negative_limit",
    "Hpipm.status_converged_at_limit",
    "Hpipm.ipm_success",
    "Hpipm.ipm_status",
    "Hpipm.ipm_unconstrained"
   ],
   "note": "generic status logic over values that may be NaN; full solver model in exact arithmetic"
  },
  {
   "property": "C31",
   "status": "proved",
   "theorems": [
    "Hpipm.ipm_iterates_inside",
    "Hpipm.ipm_solution_inside"
   ],
   "note": "clipping on, interior initialisation (C32)"
  },
  {
   "property": "C32",
   "status": "proved",
   "theorems": [
    "Hpipm.initVar_cen",
    "Hpipm.initVar_interior",
    "Hpipm.initVar_warm",
    "Hpipm.initVar_warm_keeps",
    "Hpipm.initVar_agree"
   ],
   "note": "all five initialisation variants (cold/primal warm with three slack rules, primal-dual warm, hot); sq mu0 is an exact positive root"
  },
  {
   "property": "C33",
   "status": "proved",
   "theorems": [
    "Hpipm.ipm_stat_inside"
   ],
   "note": "ghost flag raised by any write outside the table of 21*(1+stat_max) entries"
  },
  {
   "property": "C34",
   "status": "proved",
   "theorems": [
    "Hpipm.argSet_real",
    "Hpipm.argSet_int",
    "Hpipm.argSet_unknown",
    "Hpipm.argSet_real_ub",
    "Hpipm.argSet_int_ub",
    "Hpipm.argSet_type",
    "Hpipm.arg_last_real",
    "Hpipm.arg_last_int",
    "Hpipm.arg_get_set",
    "Hpipm.argDeepcopy_spec",
    "Hpipm.argDeepcopy_t0_init",
    "Hpipm.argDeepcopy_incomplete",
    "Hpipm.argSetDefault_indep",
    "Hpipm.argSetDefault_modes",
    "Hpipm.argSetDefault_sane",
    "Hpipm.argSetDefault_values"
   ],
   "note": "the deep-copy half is false of the code for t0_init: proved exactly which fields are copied and that t0_init is not, with witness"
  },
  {
   "property": "C35",
   "status": "proved",
   "theorems": [
    "Hpipm.res_masked"
   ],
   "note": "residual routine; see also the step theorems"
  },
  {
   "property": "C36",
   "status": "proved",
   "theorems": [
    "Hpipm.itref_not_worse",
    "Hpipm.itref_corr_monotone",
    "Hpipm.pred_refine",
    "Hpipm.corr_refine",
    "Hpipm.pred_refine_not_monotone"
   ],
   "note": "for both loops: returned residual <= initial, strictly smaller if a correction is reported kept, statistics show the returned step; corrector: monotone in the number of passes; predictor: witness of a kept increase (shadowed variable)"
  },
  {
   "property": "C37",
   "status": "proved",
   "theorems": [
    "Hpipm.dimReduce_spec"
   ],
   "note": ""
  },
  {
   "property": "C38",
   "status": "proved",
   "theorems": [
    "Hpipm.redQp_reduced",
    "Hpipm.red_dynamics",
    "Hpipm.red_general",
    "Hpipm.red_slacks",
    "Hpipm.red_objective"
   ],
   "note": "Reduced is the closed form established by redQp_reduced for the code; the dims routine gives RedDim (dimReduce_redDim)"
  },
  {
   "property": "C39",
   "status": "proved",
   "theorems": [
    "Hpipm.red_box_index",
    "Hpipm.red_box",
    "Hpipm.red_box_index_wrong"
   ],
   "note": "false of the code in general: proved exactly when the index is right, and a concrete QP where the reduced problem is feasible and the original is not"
  },
  {
   "property": "C40",
   "status": "proved",
   "theorems": [
    "Hpipm.restore_values",
    "Hpipm.reduce_restore",
    "Hpipm.restore_stationary"
   ],
   "note": "all three switches of the argument object on; stationarity assumes that multipliers of switched-off constraints are zero (the code ignores masks)"
  },
  {
   "property": "C41",
   "status": "proved",
   "theorems": [
    "Hpipm.blockSize_spec",
    "Hpipm.blockSize_undefined"
   ],
   "note": "N2>=1; N2=0 divides by zero"
  },
  {
   "property": "C42",
   "status": "proved",
   "theorems": [
    "Hpipm.partCondDim_conserves",
    "Hpipm.partCondDim_zero_block_duplicates",
    "Hpipm.condDim_conserves"
   ],
   "note": ""
  },
  {
   "property": "C43",
   "status": "proved",
   "theorems": [
    "Hpipm.partCond_simulation",
    "Hpipm.dyn_sem",
    "Hpipm.partCond_keeps"
   ],
   "note": "partial condensing with any block sizes; full condensing is a single block"
  },
  {
   "property": "C44",
   "status": "proved",
   "theorems": [
    "Hpipm.partCond_objective",
    "Hpipm.partCond_optimal",
    "Hpipm.partCond_complete"
   ],
   "note": "both algorithms; the square-root variant with an exact square root"
  },
  {
   "property": "C45",
   "status": "proved",
   "theorems": [
    "Hpipm.condAlg1_gradient_shifted",
    "Hpipm.condRsqrq_alg1",
    "Hpipm.partCond_objective"
   ],
   "note": "false of the code when the last condensed stage has inputs: concrete witness; the exact shift, and correctness when it has none, are proved"
  },
  {
   "property": "C46",
   "status": "proved",
   "theorems": [
    "Hpipm.partCond_feasible",
    "Hpipm.partCond_residuals"
   ],
   "note": "target object freshly created (stale soft-constraint indices are not cleared by the code)"
  },
  {
   "property": "C47",
   "status": "proved",
   "theorems": [
    "Hpipm.partCond_inner",
    "Hpipm.partCond_residuals",
    "Hpipm.partCond_signs",
    "Hpipm.partCond_optimal"
   ],
   "note": "multipliers of masked constraints are assumed zero (the expansion does not mask them)"
  },
  {
   "property": "C48",
   "status": "proved",
   "theorems": [
    "Hpipm.sctreeNodeNumber_eq",
    "Hpipm.sctree_wellformed",
    "Hpipm.sctree_overrun_if_Nr_gt_Nh"
   ],
   "note": ""
  },
  {
   "property": "C49",
   "status": "proved",
   "theorems": [
    "Hpipm.strcmp_eq_iff",
    "Hpipm.strcmp_no_overrun"
   ],
   "note": ""
  },
  {
   "property": "C50",
   "status": "proved",
   "theorems": [
    "Hpipm.ipow_eq"
   ],
   "note": ""
  },
  {
   "property": "C51",
   "status": "proved",
   "theorems": [
    "Hpipm.initVar_cold_indep"
   ],
   "note": ""
  },
  {
   "property": "C52",
   "status": "proved",
   "theorems": [
    "Hpipm.solve_getters",
    "Hpipm.solve_view"
   ],
   "note": "LQ factorisation and exit factorisation are abstract functions assumed to keep the user rows (Env.Keeps)"
  },
  {
   "property": "C53",
   "status": "proved",
   "theorems": [
    "Hpipm.factSolve_ends",
    "Hpipm.ipm_ends",
    "Hpipm.factSolve_forever"
   ],
   "note": "exact arithmetic (Archimedean field with square roots of positive numbers); if the LQ factorisation is switched on it is assumed to return; boundary theorem: reg_prim <= -1e-4 never returns on a concrete class of QPs"
  },
  {
   "property": "C54",
   "status": "proved",
   "theorems": [
    "Hpipm.red_feasible",
    "Hpipm.restore_optimal",
    "Hpipm.reduce_optimal",
    "Hpipm.red_residuals"
   ],
   "note": ""
  },
  {
   "property": "C55",
   "status": "proved",
   "theorems": [
    "Hpipm.redRhs_update",
    "Hpipm.redSeed_is_rhs",
    "Hpipm.restoreSeed_is_sol"
   ],
   "note": ""
  },
  {
   "property": "C56",
   "status": "proved",
   "theorems": [
    "Hpipm.initVar_box",
    "Hpipm.initVar_box_inside",
    "Hpipm.initVar_box_escapes"
   ],
   "note": "t0_init=2, var_init_scheme=0; boxes refer to distinct variables; witness for narrow boxes"
  },
  {
   "property": "C57",
   "status": "proved",
   "theorems": [
    "Hpipm.solver_create_args",
    "Hpipm.solver_set_real",
    "Hpipm.solver_set_int",
    "Hpipm.solver_set_unknown",
    "Hpipm.solverArgSet_ok",
    "Hpipm.argHist_ok",
    "Hpipm.solver_t0_init_lost",
    "Hpipm.solver_default_t0_init",
    "Hpipm.solver_stale_sizes",
    "Hpipm.solver_even_flag",
    "Hpipm.solver_settable"
   ],
   "note": "negative theorems for t0_init, reused argument objects, even flags (findings 30-32)"
  },
  {
   "property": "C58",
   "status": "proved",
   "theorems": [
    "Hpipm.solver_success_reduced",
    "Hpipm.solver_success_plain"
   ],
   "note": "relative formulation; problem data WF, masks 0/1, equality list consistent (EqOk, Aligned, Tight); unmodelled kernels leave the user's rows alone"
  },
  {
   "property": "C59",
   "status": "proved",
   "theorems": [
    "Hpipm.solver_guess_ignored"
   ],
   "note": ""
  },
  {
   "property": "C60",
   "status": "proved",
   "theorems": [
    "Hpipm.ric_unconstr",
    "Hpipm.ric_factSolve",
    "Hpipm.ric_ensure",
    "Hpipm.ric_after_step",
    "Hpipm.RicDp.optimal",
    "Hpipm.ric_vec_differs"
   ],
   "note": "N>=1; the dynamic programming identity with inequalities is for problems without soft constraints (law and multipliers in general); delta form: the vectors describe the Newton step at the saved iterate with the user's m, not the iterate itself (finding 34)"
  },
  {
   "property": "C61",
   "status": "proved",
   "theorems": [
    "Hpipm.seed_set_qp",
    "Hpipm.seed_get",
    "Hpipm.seed_names",
    "Hpipm.seed_zero",
    "Hpipm.sensFrw_newton",
    "Hpipm.sensFrw_derivative",
    "Hpipm.factAt_after_step",
    "Hpipm.seed_dispatch"
   ],
   "note": "N>=1, each slack softens one constraint, comp_dual_sol_eq on, unregularised factorisation for the derivative; masked-out slacks are not claimed; after a sensitivity call the Riccati vector getters can return the vectors of the seed problem (sens_ric_vec, finding 37)"
  },
  {
   "property": "C62",
   "status": "proved",
   "theorems": [
    "Hpipm.sensAdj_transpose",
    "Hpipm.sensAdj_newton"
   ],
   "note": "N>=1, each slack softens one constraint, comp_dual_sol_eq on"
  },
  {
   "property": "C63",
   "status": "proved",
   "theorems": [
    "Hpipm.predict_residuals",
    "Hpipm.predict_moves",
    "Hpipm.predict_abs",
    "Hpipm.predict_abs_not_inside",
    "Hpipm.predict_norms",
    "Hpipm.predict_abs_norms"
   ],
   "note": "no clipping (t_lam_min != 2), masks 0/1; findings 35, 36"
  },
  {
   "property": "C64",
   "status": "proved",
   "theorems": [
    "Hpipm.erk_solve_run",
    "Hpipm.erk_solve_lower",
    "Hpipm.erk_solve_autonomous",
    "Hpipm.rkRun_unique",
    "Hpipm.rk_init_default",
    "Hpipm.classic4_order",
    "Hpipm.midpoint_order",
    "Hpipm.classic4_linear",
    "Hpipm.midpoint_linear",
    "Hpipm.rk_set_all",
    "Hpipm.erk_time_truncated",
    "Hpipm.erk_implicit_ignored"
   ],
   "note": "callbacks read and write the entries of state and sensitivities; findings 39, 40"
  },
  {
   "property": "C65",
   "status": "proved",
   "theorems": [
    "Hpipm.erk_sensitivities"
   ],
   "note": "over the reals; the callback meets the contract VdeFor"
  },
  {
   "property": "C66",
   "status": "proved",
   "theorems": [
    "Hpipm.rk_layout",
    "Hpipm.erk_layout",
    "Hpipm.erk_set_all",
    "Hpipm.erk_set_get",
    "Hpipm.erk_solve_inside",
    "Hpipm.erk_l_inside",
    "Hpipm.erk_l_overrun",
    "Hpipm.erk_nf_overrun",
    "Hpipm.erk_adjoint_exit"
   ],
   "note": "findings 41, 42"
  },
  {
   "property": "C67",
   "status": "proved",
   "theorems": [
    "Hpipm.ipm_contraction",
    "Hpipm.ipm_dynamics_exact",
    "Hpipm.ipm_contraction_bounded",
    "Hpipm.factSolve_prim",
    "Hpipm.solve_prim"
   ],
   "note": "N >= 1, masks 0/1, at least one active constraint; for lq_fact > 0 the LQ factorisation is assumed to compute the states from the dynamics (LqPrim); finding 43"
  },
  {
   "property": "C68",
   "status": "proved",
   "theorems": [
    "Hpipm.dqp_get_set_same",
    "Hpipm.dqp_get_set_other",
    "Hpipm.dqp_set_keeps_ints",
    "Hpipm.dqp_setM_get",
    "Hpipm.dqp_setM_spec",
    "Hpipm.dqp_setAll_eq",
    "Hpipm.dqp_setAll_get",
    "Hpipm.dqp_setAll_m",
    "Hpipm.dqp_setAll_idxb",
    "Hpipm.dqp_setAllRow",
    "Hpipm.dqp_getAll_eq",
    "Hpipm.dqp_getAllRow",
    "Hpipm.dqp_getIdxs_setIdxs",
    "Hpipm.dqp_getIdxsRev_setIdxsRev",
    "Hpipm.dqp_setJb_spec",
    "Hpipm.dqp_setJs_spec",
    "Hpipm.dqp_blank",
    "Hpipm.dqp_copyAll",
    "Hpipm.dqp_setRhsZero",
    "Hpipm.dqp_names",
    "Hpipm.dqp_names_only",
    "Hpipm.dqp_names_rest"
   ],
   "note": "finding 44"
  },
  {
   "property": "C69",
   "status": "proved",
   "theorems": [
    "Hpipm.dres_stationarity",
    "Hpipm.dres_equalities",
    "Hpipm.dres_inequalities",
    "Hpipm.dres_complementarity",
    "Hpipm.dres_objective",
    "Hpipm.dres_mu_mean",
    "Hpipm.dres_dual_gap",
    "Hpipm.dres_gap_bound",
    "Hpipm.dres_zero_optimal",
    "Hpipm.dres_norms",
    "Hpipm.dresLin_full_step",
    "Hpipm.dres_masked"
   ],
   "note": "index lists in range; masks 0/1 where stated; workspace flags valid only for the current masks"
  },
  {
   "property": "C70",
   "status": "proved",
   "theorems": [
    "Hpipm.dfactSolve_newton",
    "Hpipm.dfactSolve_full_step",
    "Hpipm.dsolve_newton",
    "Hpipm.dfact_then_solve"
   ],
   "note": "exact real arithmetic; a slack shared by several constraints excluded (finding 3); LQ factorisation of the library assumed to be one (L lower triangular, Q orthogonal)"
  },
  {
   "property": "C71",
   "status": "proved",
   "theorems": [
    "Hpipm.dfactSolve_total",
    "Hpipm.dfactSolve_ends",
    "Hpipm.dfactSolve_ends_scaled",
    "Hpipm.dfactSolve_schur_loops",
    "Hpipm.dfactSolve_scale_loops",
    "Hpipm.dfactSolve_scale_loops_var",
    "Hpipm.dfactSolve_dreg_loops",
    "Hpipm.dnewton_unique",
    "Hpipm.dmethods_agree"
   ],
   "note": "exact real arithmetic; the loops that do not end are proved to run for ever (findings 45-47)"
  },
  {
   "property": "C72",
   "status": "proved",
   "theorems": [
    "Hpipm.dunconstr_optimal",
    "Hpipm.dunconstr_upper_matters"
   ],
   "note": "exact real arithmetic; LQ factorisation assumed to be one; dunconstr_upper_matters is the defect (finding 49)"
  },
  {
   "property": "C73",
   "status": "proved",
   "theorems": [
    "Hpipm.dipm_iter_le",
    "Hpipm.dipm_terminates",
    "Hpipm.dipm_returns",
    "Hpipm.dipm_stat_inside",
    "Hpipm.dipm_success",
    "Hpipm.dipm_status",
    "Hpipm.dipm_unconstrained"
   ],
   "note": "exact arithmetic (no NaN status); remove_lin_dep_eq = 0; LQ/LU factorisation a parameter; dipm_returns for lq_fact = 0"
  },
  {
   "property": "C74",
   "status": "proved",
   "theorems": [
    "Hpipm.dinitVar_interior",
    "Hpipm.dinitVar_warm",
    "Hpipm.dinitVar_cold_indep",
    "Hpipm.dinit_midpoint_wrong",
    "Hpipm.dinit_general_upper_wrong"
   ],
   "note": "the last two are witnesses of defects (findings 50, 51)"
  },
  {
   "property": "C75",
   "status": "proved",
   "theorems": [
    "Hpipm.dipm_iterates_inside",
    "Hpipm.dipm_solution_inside",
    "Hpipm.dipm_run"
   ],
   "note": "exact arithmetic"
  },
  {
   "property": "C76",
   "status": "proved",
   "theorems": [
    "Hpipm.dipm_success_feasible",
    "Hpipm.dipm_success_stationary",
    "Hpipm.dipm_success_complementary",
    "Hpipm.dipm_success_subopt",
    "Hpipm.dres_gap_approx",
    "Hpipm.dipm_objective",
    "Hpipm.dipm_noineq_optimal",
    "Hpipm.dipm_stale_objective",
    "Hpipm.dipm_stale_scale"
   ],
   "note": "exact arithmetic; the stale theorems are witnesses of defects (findings 52, 53)"
  },
  {
   "property": "C77",
   "status": "proved",
   "theorems": [
    "Hpipm.ipm_success_feasible",
    "Hpipm.ipm_success_stationary",
    "Hpipm.ipm_success_complementary",
    "Hpipm.ipm_success_subopt",
    "Hpipm.res_gap_approx"
   ],
   "note": "exact arithmetic; composes the solver theorems (C30, C31) with the residual theorems (C19-C21)"
  },
  {
   "property": "C78",
   "status": "proved",
   "theorems": [
    "Hpipm.fullCond_objective",
    "Hpipm.fullCond_feasible",
    "Hpipm.fullCond_complete",
    "Hpipm.fullCond_optimal",
    "Hpipm.fullCond_residuals",
    "Hpipm.fullCond_signs",
    "Hpipm.fullCond_keeps",
    "Hpipm.fullCond_mask01",
    "Hpipm.fullCond_again",
    "Hpipm.fullCond_convex",
    "Hpipm.cond_wf",
    "Hpipm.condQpCond_eq",
    "Hpipm.condSolve_contract"
   ],
   "note": "exact arithmetic; cond_last_stage = 1 (the default; otherwise NULL is dereferenced, modelled as none); algorithm 1 only without inputs at the last stage (see C45)"
  },
  {
   "property": "C79",
   "status": "proved",
   "theorems": [
    "Hpipm.tres_stationarity",
    "Hpipm.tres_dynamics",
    "Hpipm.tres_inequalities",
    "Hpipm.tres_complementarity",
    "Hpipm.tres_objective",
    "Hpipm.tres_mu_mean",
    "Hpipm.tres_dual_gap",
    "Hpipm.tres_gap_bound",
    "Hpipm.tres_zero_optimal",
    "Hpipm.tres_norms",
    "Hpipm.tresLin_full_step",
    "Hpipm.tree_set_A",
    "Hpipm.tree_set_B",
    "Hpipm.tree_set_b",
    "Hpipm.tree_set_frame",
    "Hpipm.scenario_treeOk",
    "Hpipm.tres_masked_lam_leaks"
   ],
   "note": "TreeSpec states the tree QP independently; LamMasked (multipliers of masked constraints are zero, as the tree solver keeps them) is needed, tres_masked_lam_leaks shows it."
  },
  {
   "property": "C80",
   "status": "proved",
   "theorems": [
    "Hpipm.tree_newton",
    "Hpipm.tree_newton_convex",
    "Hpipm.tree_newton_resLin",
    "Hpipm.tree_full_step",
    "Hpipm.tree_resolve_newton",
    "Hpipm.tree_unconstr_optimal",
    "Hpipm.tree_unconstr_indefinite_wrong"
   ],
   "note": "Exact arithmetic; sq is any exact square root on the positives. The LQ variant of the factorisation (x_tree_ocp_qp_kkt.c:624-848) is not modelled. tree_unconstr_indefinite_wrong is the stated limit."
  },
  {
   "property": "C81",
   "status": "proved",
   "theorems": [
    "Hpipm.tipm_iter_le",
    "Hpipm.tipm_terminates",
    "Hpipm.tipm_stat_inside",
    "Hpipm.tinitVar_interior",
    "Hpipm.tinitVar_warm",
    "Hpipm.tipm_iterates_inside",
    "Hpipm.tipm_solution_inside",
    "Hpipm.tipm_success",
    "Hpipm.tipm_status",
    "Hpipm.tipm_success_feasible",
    "Hpipm.tipm_success_stationary",
    "Hpipm.tipm_success_complementary",
    "Hpipm.tipm_success_subopt",
    "Hpipm.tipm_unconstrained",
    "Hpipm.tinitVar_box_wrong"
   ],
   "note": "Exact arithmetic (no NaN, hence no NAN_SOL). The LQ factorisation is a parameter of the model (any function on the KKT workspace). tinitVar_box_wrong is the stated limit."
  },
  {
   "property": "C82",
   "status": "proved",
   "theorems": [
    "Hpipm.setQq_view",
    "Hpipm.setSq_view",
    "Hpipm.setRq_view",
    "Hpipm.setQqvec_view",
    "Hpipm.setRqvec_view",
    "Hpipm.setUq_view",
    "Hpipm.setUqMask_view",
    "Hpipm.qres_stationarity",
    "Hpipm.qres_dynamics",
    "Hpipm.qres_inequalities",
    "Hpipm.qres_complementarity",
    "Hpipm.qres_objective",
    "Hpipm.qres_dual_gap",
    "Hpipm.qres_gap_bound",
    "Hpipm.qres_zero_optimal",
    "Hpipm.qres_cached",
    "Hpipm.qres_mu",
    "Hpipm.qres_lower_side",
    "Hpipm.qres_lower_side_wrong",
    "Hpipm.qres_gap_approx"
   ],
   "note": "Exact arithmetic over a linearly ordered field. No assumption on the lower masks of quadratic rows: their multipliers are zeroed by the code, and qres_zero_optimal does not ask anything of their res_d; qres_lower_side_wrong is the stated limit."
  },
  {
   "property": "C83",
   "status": "proved",
   "theorems": [
    "Hpipm.qipm_iter_le",
    "Hpipm.qipm_terminates",
    "Hpipm.qipm_ends",
    "Hpipm.qipm_uninit_iff",
    "Hpipm.qinitVar_interior",
    "Hpipm.qipm_iterates_inside",
    "Hpipm.qipm_solution_inside",
    "Hpipm.qipm_stat_inside",
    "Hpipm.qipm_success",
    "Hpipm.qipm_status",
    "Hpipm.qipm_data",
    "Hpipm.qafter_masks",
    "Hpipm.qipm_success_feasible",
    "Hpipm.qipm_success_stationary",
    "Hpipm.qipm_success_complementary",
    "Hpipm.qipm_success_subopt"
   ],
   "note": "Exact arithmetic over a linearly ordered field (qipm_ends: archimedean, exact square root). The success theorems are about the relative formulation, with QCQP data as the caller passed it; slack bounds whose masks the call clears are excluded, as the statement says. Factorisation routines for lq_fact > 0 are parameters."
  },
  {
   "property": "C84",
   "status": "proved",
   "theorems": [
    "Hpipm.qipm_ends",
    "Hpipm.factSolve_stuck",
    "Hpipm.qipm_hangs",
    "Hpipm.qipm_hangs_repaired"
   ],
   "note": "A defect of the code, proved as such: the positive part under the condition, the negative part by a witness for every bound on the retries. Exact arithmetic."
  },
  {
   "property": "C85",
   "status": "proved",
   "theorems": [
    "Hpipm.qargSet_real",
    "Hpipm.qargSet_int",
    "Hpipm.qargSet_unknown",
    "Hpipm.qargSet_tol_wrong",
    "Hpipm.qargSet_t0_wrong",
    "Hpipm.qargSetDefault_modes",
    "Hpipm.qargSetDefault_values",
    "Hpipm.qarg_t0_never",
    "Hpipm.qarg_t0_witness"
   ],
   "note": "for tol_eq, tol_ineq and t0_init the property is false of the code and the negation is proved"
  },
  {
   "property": "C86",
   "status": "proved",
   "theorems": [
    "Hpipm.qinitVar_stale",
    "Hpipm.qipm_unconstrained_wrong",
    "Hpipm.qipm_abs_residual_wrong",
    "Hpipm.qipm_slack_negative",
    "Hpipm.exF_negative"
   ],
   "note": "defects of the code: the negations are proved; qinitVar_stale and qipm_slack_negative are universal, the other two exhibit a run"
  },
  {
   "property": "C87",
   "status": "proved",
   "theorems": [
    "Hpipm.ipm_off_prox",
    "Hpipm.ipm_off_optimal"
   ],
   "note": "exact arithmetic; soft constraints excluded, because the code leaves their slacks unset (finding 21)"
  },
  {
   "property": "C88",
   "status": "proved",
   "theorems": [
    "Hpipm.tipm_contraction",
    "Hpipm.tipm_dynamics_exact",
    "Hpipm.tipm_contraction_bounded",
    "Hpipm.tkkt_prim",
    "Hpipm.tsolve_prim"
   ],
   "note": "masks 0/1, at least one active constraint; for lq_fact > 0 the LQ factorisation is assumed to compute the states from the dynamics (TLqPrim)"
  },
  {
   "property": "C89",
   "status": "proved",
   "theorems": [
    "Hpipm.ipm_mehrotra",
    "Hpipm.pass_meh",
    "Hpipm.start_meh",
    "Hpipm.guard_goOn",
    "Hpipm.MehIter.unique",
    "Hpipm.MehIter.form"
   ],
   "note": "MehStop.lean/MehSpec.lean are the specification (MehSolve, MehIter, GoOn); step lengths are those of COMPUTE_ALPHA (C13), the initial point that of INIT_VAR (C32, C51). Exact arithmetic; hypotheses in MHyp."
  },
  {
   "property": "C90",
   "status": "proved",
   "theorems": [
    "Hpipm.ipm_history_independent",
    "Hpipm.MehSolve.unique",
    "Hpipm.startPt_congr",
    "Hpipm.GoOn.congr"
   ],
   "note": "In exact arithmetic; corollary of C89 and of the uniqueness of the Mehrotra run."
  },
  {
   "property": "C91",
   "status": "proved",
   "theorems": [
    "Hpipm.remove_rows",
    "Hpipm.remove_feasible",
    "Hpipm.remove_none",
    "Hpipm.remove_restore",
    "Hpipm.remove_incons_sound",
    "Hpipm.lost_constraint",
    "Hpipm.dep_kept",
    "Hpipm.incons_missed",
    "Hpipm.restore_fails",
    "Hpipm.restore_stale"
   ],
   "note": "Positive part for all QPs; lost_constraint, dep_kept, incons_missed, restore_fails, restore_stale are kernel-checked counterexamples to the guarantees the routine is meant to give. GETRF_RP (BLASFEO) is modelled by its documented function."
  },
  {
   "property": "C92",
   "status": "proved",
   "theorems": [
    "Hpipm.dargSet_real",
    "Hpipm.dargSet_int",
    "Hpipm.dargSet_unknown",
    "Hpipm.darg_last",
    "Hpipm.darg_get_set",
    "Hpipm.dargSetDefault_values",
    "Hpipm.targSet_eq",
    "Hpipm.targSet_real",
    "Hpipm.targSet_int",
    "Hpipm.targSetDefault_values",
    "Hpipm.targSetDefault_junk",
    "Hpipm.dargSet_confused"
   ],
   "note": "Typed values behind void*; a wrong type is the outcome ub. targSetDefault_junk: the tree defaults are not determined by the mode."
  },
  {
   "property": "C93",
   "status": "proved",
   "theorems": [
    "Hpipm.split_equivalent",
    "Hpipm.split_optimal",
    "Hpipm.split_keeps_m",
    "Hpipm.split_slack_order_differs",
    "Hpipm.split_soft_wrong",
    "Hpipm.split_sqrt_no_fallback",
    "Hpipm.split_stale_m"
   ],
   "note": "Default algorithm (cond_alg 0), no soft constraints, at least one stage; the second algorithm of COND_RSQ and COND_RQ is modelled but nothing is proved about it. The last four are the disagreements, proved on concrete problems."
  },
  {
   "property": "C94",
   "status": "proved",
   "theorems": [
    "Hpipm.sol_get_field",
    "Hpipm.sol_set_field",
    "Hpipm.sol_set_get",
    "Hpipm.sol_set_history",
    "Hpipm.sol_unknown",
    "Hpipm.sol_stage_range",
    "Hpipm.sol_get_all",
    "Hpipm.sol_set_all",
    "Hpipm.sol_copy_all",
    "Hpipm.sol_set_zero",
    "Hpipm.tsol_get_field",
    "Hpipm.tsol_slack_mult_missing",
    "Hpipm.dsol_get_field",
    "Hpipm.dsol_set_field",
    "Hpipm.dsol_set_get",
    "Hpipm.dsol_unknown",
    "Hpipm.dsol_get_all",
    "Hpipm.dsol_obj_stale",
    "Hpipm.dsol_obj_stale_witness"
   ],
   "note": "tsol_slack_mult_missing and dsol_obj_stale are disagreements with what a user expects. TREE_OCP_QP_SOL_GET_ALL is not modelled."
  },
  {
   "property": "C95",
   "status": "proved",
   "theorems": [
    "Hpipm.dqp_create_fits",
    "Hpipm.dqs_create_fits",
    "Hpipm.dqrWs_create_fits",
    "Hpipm.dws_create_fits",
    "Hpipm.tdim_create_fits",
    "Hpipm.tqp_create_fits",
    "Hpipm.tres_create_fits",
    "Hpipm.tws_create_fits",
    "Hpipm.dws_create_inside",
    "Hpipm.tws_create_inside"
   ],
   "note": "Fits (MemProps.lean): every array inside the block, pairwise disjoint. Differences nv-ne are modelled for ne <= nv. The views laid over the dense core work space are its arrays."
  },
  {
   "property": "C96",
   "status": "proved",
   "theorems": [
    "Hpipm.condWs_create_fits",
    "Hpipm.pcArg_create_fits",
    "Hpipm.pcWs_create_fits",
    "Hpipm.qdim_create_fits",
    "Hpipm.qresWs_create_fits",
    "Hpipm.qqp_create_fits",
    "Hpipm.qws_create_fits",
    "Hpipm.qws_create_inside",
    "Hpipm.pcWs_create_inside"
   ],
   "note": "QCQP solution and residual objects have the layout of the QP ones with ng+nq general constraints (solMemsize, solCreate of C04)."
  },
  {
   "property": "C97",
   "status": "proved",
   "theorems": [
    "Hpipm.qdim_consistent",
    "Hpipm.qdim_set",
    "Hpipm.qdim_set_names",
    "Hpipm.qdim_get",
    "Hpipm.qdim_copyAll",
    "Hpipm.qdim_copyAll_loses_ns"
   ],
   "note": "qdim_copyAll_loses_ns is a disagreement with what the name promises."
  },
  {
   "property": "C98",
   "status": "proved",
   "theorems": [
    "Hpipm.dqargSet_both",
    "Hpipm.dqargSet_real",
    "Hpipm.dqargSet_int",
    "Hpipm.dqargSet_unknown",
    "Hpipm.dqarg_history",
    "Hpipm.dqargSetDefault_values",
    "Hpipm.dqargSetDefault_comp_res_exit",
    "Hpipm.tqargSet_eq",
    "Hpipm.tqargSet_both",
    "Hpipm.tqargSet_tol_wrong",
    "Hpipm.tqargSetDefault_values"
   ],
   "note": "dqargSetDefault_comp_res_exit and tqargSet_tol_wrong are disagreements (findings 81, 82)."
  },
  {
   "property": "C99",
   "status": "proved",
   "theorems": [
    "Hpipm.dqres_stationarity",
    "Hpipm.dqres_equalities",
    "Hpipm.dqres_inequalities",
    "Hpipm.dqres_complementarity",
    "Hpipm.dqres_objective",
    "Hpipm.dqres_dual_gap",
    "Hpipm.dqres_mu",
    "Hpipm.dqres_gap_approx",
    "Hpipm.dqres_zero_optimal",
    "Hpipm.dqres_cached",
    "Hpipm.dqcqp_get_set_same",
    "Hpipm.dqcqp_get_set_other",
    "Hpipm.dqcqp_set_keeps_ints",
    "Hpipm.dqview_set",
    "Hpipm.dqview_set_other",
    "Hpipm.dqview_get",
    "Hpipm.dqcqp_create_view"
   ],
   "note": "the setters of the index lists and the Js* matrices of the dense QCQP are not modelled"
  }
 ]
}