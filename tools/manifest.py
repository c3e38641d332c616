#!/usr/bin/env python3
"""Generates /verif/MANIFEST.json."""
import json
C = {}
def claim(pid, status, theorems, note=""):
    C[pid] = dict(property=pid, status=status, theorems=["Hpipm."+t.removeprefix("Hpipm.") for t in theorems], note=note)
claim("C01","proved",["dim_nb_eq_nbx_add_nbu"],"invariant over all finite histories of the dims API")
claim("C02","proved",["dim_get_set_same","dim_get_set_other","dim_set_defined_iff","dim_set_out_of_range_corrupts"],"out-of-range stage is shown to corrupt a neighbour array")
claim("C03","proved",["dim_deepcopy_get","dim_copyAll_get","dim_setAll_get"])
claim("C06","proved",["zeroMemset_spec"])
claim("C48","proved",["sctreeNodeNumber_eq","sctree_wellformed","sctree_overrun_if_Nr_gt_Nh"])
claim("C49","proved",["strcmp_eq_iff","strcmp_no_overrun"])
claim("C50","proved",["ipow_eq"])
claim("C13","proved",["computeAlpha_split_max","computeAlpha_joint_max","not_both_blocking","corrector_rhs_le","isMaxStep_pos","fraction_of_step","computeAlpha_joint_leaves_orthant","computeAlpha_split_target","computeAlpha_joint_target","joint_target_good","computeAlpha_split_negative","computeAlpha_joint_divides_by_zero"],"zero-target paths: exact largest step; the joint rule under the proviso that lam and t of one constraint do not both block (witness of failure otherwise). nonzero-target paths: the returned steps keep every entry inside the orthant and every product above the safeguarded target, provided lam*t >= m_safe*m (split; witness of a negative step otherwise) and not both entries block and no zero divisor (joint; NaN witness otherwise)")
claim("C14","proved",["updateVar_val","backupVar_val","updateVar_positive","alpha_update_positive","updateVar_can_reach_zero"],"strict positivity needs clipping or a step below the boundary; the exact-zero case is proved to occur otherwise")
claim("C15","proved",["computeLamT_linearised"])
claim("C16","proved",["gammaGamma_elimination","gamma_elimination"])
claim("C17","proved",["computeMuAff_eq","computeMuAff_avg"])
claim("C18","proved",["centeringCorrection_eq","centering_eq","tauMin_eq","corrector_target"])
claim("C37","proved",["dimReduce_spec"])
claim("C41","proved",["blockSize_spec","blockSize_undefined"],"N2>=1; N2=0 divides by zero")
claim("C42","proved",["partCondDim_conserves","partCondDim_zero_block_duplicates","condDim_conserves"])
claim("C07","proved",["qp_get_set_same","qp_setEl_get","qp_setIdxb_lists","qp_setAll_get","qp_setAll_idxb","qp_copyAll_get","qp_copyAll_ints","qp_setAllZero_get"])
claim("C08","proved",["qp_get_set_other","qp_set_keeps_ints","qp_setM_get"])
claim("C10","proved",["qp_setIdxs_spec","qp_getIdxs_setIdxs","qp_setAllZero_idxs_rev","qp_setAllZero_removes_iff","qp_setAllZero_keeps_softening"],"the reset part is false of the code; the exact condition under which it holds and a witness of the failure are proved")
claim("C11","proved",["qp_setJbx_spec","qp_setJbu_spec","qp_setJs_spec"])
claim("C12","proved",["qp_setJbue_spec","qp_setJbue_overrun","qp_setJbue_wrong","qp_setIdxe_lists"],"exact characterisation of what the flag setter does (it is right only for leading flags) and refutation witness; the index-list setters are right")
claim("C04","proved",["dim_create_fits","qp_create_fits","qp_create_inside","sol_create_fits","resWs_create_fits","core_create_fits","ws_create_fits"],"objects: dims, QP, solution, residuals, residual workspace, core workspace, OCP IPM workspace")
claim("C05","proved",["dim_create_fits","qp_create_fits","sol_create_fits","resWs_create_fits","core_create_fits","ws_create_fits","qp_fp_aligned"],"disjointness is the second half of Fits")
claim("C09","proved",["res_inequalities","qp_get_set_same"],"the QP data are read through the user getters, the residuals are written by the residual routine")
claim("C19","proved",["res_stationarity","res_dynamics","res_inequalities","res_complementarity","res_objective","res_mu_mean"])
claim("C20","proved",["res_zero_optimal"])
claim("C21","proved",["res_dual_gap","res_gap_bound"])
claim("C22","proved",["res_norms"])
claim("C23","proved",["resLin_zero_full_step"])
claim("C35","proved",["res_masked"],"residual routine; see also the step theorems")
claim("C24","proved",["unconstr_residual","unconstr_piv","unconstr_optimal"],"both Riccati variants, N >= 1; with reg_prim the stationarity residual equals minus the shift times the solution (shift on all variables in the square-root variant, on inputs only in the classical one); exact square root over an ordered field")
claim("C25","proved",["factSolve_newton","factSolve_total","factSolve_full_step"],"Newton system with the applied regularisation; totality for strictly convex (regularised) problems at interior iterates; LQ-factorisation variant not modelled; N >= 1")
claim("C26","proved",["factSolve_newton","shared_slack_not_newton"],"positive part for unshared slacks; negation with a concrete shared-slack QP")
claim("C27","proved",["resolve_newton","resolve_agrees"],"re-solve with the stored factorisation is a Newton step for any right-hand side and agrees with the factorise-and-solve step")
claim("C28","proved",["newton_unique"],"any two steps satisfying the Newton equations of a strictly convex (shifted) QP at an interior iterate agree")
claim("C32","proved",["initVar_cen","initVar_interior","initVar_warm"],"all five initialisation variants (cold/primal warm with three slack rules, primal-dual warm, hot); sq mu0 is an exact positive root")
claim("C34","proved",["argSet_real","argSet_int","argSet_unknown","argSet_real_ub","argSet_int_ub","argSet_type","arg_last_real","arg_last_int","arg_get_set","argDeepcopy_spec","argDeepcopy_t0_init","argDeepcopy_incomplete","argSetDefault_indep","argSetDefault_modes","argSetDefault_sane"],"the deep-copy half is false of the code for t0_init: proved exactly which fields are copied and that t0_init is not, with witness")
claim("C51","proved",["initVar_cold_indep"])
claim("C29","proved",["ipmLoop_iter_le","ipmLoop_terminates","ipm_iter_le","ipm_terminates"],"generic loop with an arbitrary body, and the full solver model; ipm_terminates assumes that each factorisation returns (its regularisation loop has no bound in the code)")
claim("C30","proved",["status_meaning","status_success_iff","status_negative_limit","status_converged_at_limit","ipm_success","ipm_status","ipm_unconstrained"],"generic status logic over values that may be NaN; full solver model in exact arithmetic")
claim("C31","proved",["ipm_iterates_inside","ipm_solution_inside"],"clipping on, interior initialisation (C32)")
claim("C33","proved",["ipm_stat_inside"],"ghost flag raised by any write outside the table of 21*(1+stat_max) entries")
claim("C52","proved",["solve_getters","solve_view"],"LQ factorisation and exit factorisation are abstract functions assumed to keep the user rows (Env.Keeps)")
C["C07"]["theorems"] += ["Hpipm."+x for x in ["qp_setM_pairs","qp_setM_val","qp_setMAll_val","qp_fieldOfName","qp_setName_get"]]
C["C08"]["theorems"] += ["Hpipm."+x for x in ["qp_setRhsZero_get","qp_setRhsZero_rest","qp_setRhsZero_rows"]]
claim("C38","proved",["redQp_reduced","red_dynamics","red_general","red_slacks","red_objective"],"Reduced is the closed form established by redQp_reduced for the code; the dims routine gives RedDim (dimReduce_redDim)")
claim("C39","proved",["red_box_index","red_box","red_box_index_wrong"],"false of the code in general: proved exactly when the index is right, and a concrete QP where the reduced problem is feasible and the original is not")
claim("C40","proved",["restore_values","reduce_restore","restore_stationary"],"all three switches of the argument object on; stationarity assumes that multipliers of switched-off constraints are zero (the code ignores masks)")
claim("C54","proved",["red_feasible","restore_optimal","reduce_optimal","red_residuals"])
claim("C55","proved",["redRhs_update","redSeed_is_rhs","restoreSeed_is_sol"])
claim("C43","proved",["partCond_simulation","dyn_sem","partCond_keeps"],"partial condensing with any block sizes; full condensing is a single block")
claim("C44","proved",["partCond_objective","partCond_optimal","partCond_complete"],"both algorithms; the square-root variant with an exact square root")
claim("C45","proved",["condAlg1_gradient_shifted","condRsqrq_alg1","partCond_objective"],"false of the code when the last condensed stage has inputs: concrete witness; the exact shift, and correctness when it has none, are proved")
claim("C46","proved",["partCond_feasible","partCond_residuals"],"target object freshly created (stale soft-constraint indices are not cleared by the code)")
claim("C47","proved",["partCond_inner","partCond_residuals","partCond_signs","partCond_optimal"],"multipliers of masked constraints are assumed zero (the expansion does not mask them)")
claim("C53","proved",["factSolve_ends","ipm_ends","factSolve_forever"],"exact arithmetic (Archimedean field with square roots of positive numbers); if the LQ factorisation is switched on it is assumed to return; boundary theorem: reg_prim <= -1e-4 never returns on a concrete class of QPs")
claim("C36","proved",["itref_not_worse","itref_corr_monotone","pred_refine","corr_refine","pred_refine_not_monotone"],"for both loops: returned residual <= initial, strictly smaller if a correction is reported kept, statistics show the returned step; corrector: monotone in the number of passes; predictor: witness of a kept increase (shadowed variable)")
claim("C56","proved",["initVar_box","initVar_box_inside","initVar_box_escapes"],"t0_init=2, var_init_scheme=0; boxes refer to distinct variables; witness for narrow boxes")
claim("C57","proved",["solver_create_args","solver_set_real","solver_set_int","solver_set_unknown","solverArgSet_ok","argHist_ok","solver_t0_init_lost","solver_default_t0_init","solver_stale_sizes","solver_even_flag"],"negative theorems for t0_init, reused argument objects, even flags (findings 30-32)")
claim("C58","proved",["solver_success_reduced","solver_success_plain"],"relative formulation; problem data WF, masks 0/1, equality list consistent (EqOk, Aligned, Tight); unmodelled kernels leave the user's rows alone")
claim("C59","proved",["solver_guess_ignored"],"")
claim("C60","proved",["ric_unconstr","ric_factSolve","ric_ensure","ric_after_step","RicDp.optimal","ric_vec_differs"],"N>=1; the dynamic programming identity with inequalities is for problems without soft constraints (law and multipliers in general); delta form: the vectors describe the Newton step at the saved iterate with the user's m, not the iterate itself (finding 34)")
C["C57"]["theorems"] += ["Hpipm.solver_settable"]
C["C34"]["theorems"] += ["Hpipm.argSetDefault_values"]
claim("C61","proved",["seed_set_qp","seed_get","seed_names","seed_zero","sensFrw_newton","sensFrw_derivative","factAt_after_step"],"N>=1, each slack softens one constraint, comp_dual_sol_eq on, unregularised factorisation for the derivative; masked-out slacks are not claimed; after a sensitivity call the Riccati vector getters can return the vectors of the seed problem (sens_ric_vec, finding 37)")
claim("C62","proved",["sensAdj_transpose","sensAdj_newton"],"N>=1, each slack softens one constraint, comp_dual_sol_eq on")
claim("C63","proved",["predict_residuals","predict_moves","predict_abs","predict_abs_not_inside"],"no clipping (t_lam_min != 2), masks 0/1; findings 35, 36")
C["C61"]["theorems"] += ["Hpipm.seed_dispatch"]
C["C63"]["theorems"] += ["Hpipm.predict_norms","Hpipm.predict_abs_norms"]
claim("C64","proved",["erk_solve_run","erk_solve_lower","erk_solve_autonomous","rkRun_unique","rk_init_default","classic4_order","midpoint_order","classic4_linear","midpoint_linear","rk_set_all","erk_time_truncated","erk_implicit_ignored"],"callbacks read and write the entries of state and sensitivities; findings 39, 40")
claim("C65","proved",["erk_sensitivities"],"over the reals; the callback meets the contract VdeFor")
claim("C66","proved",["rk_layout","erk_layout","erk_set_all","erk_set_get","erk_solve_inside","erk_l_inside","erk_l_overrun","erk_nf_overrun","erk_adjoint_exit"],"findings 41, 42")
claim("C67","proved",["ipm_contraction","ipm_dynamics_exact","ipm_contraction_bounded","factSolve_prim","solve_prim"],"N >= 1, masks 0/1, at least one active constraint; for lq_fact > 0 the LQ factorisation is assumed to compute the states from the dynamics (LqPrim); finding 43")
claim("C68","proved",["dqp_get_set_same","dqp_get_set_other","dqp_set_keeps_ints","dqp_setM_get","dqp_setM_spec","dqp_setAll_eq","dqp_setAll_get","dqp_setAll_m","dqp_setAll_idxb","dqp_setAllRow","dqp_getAll_eq","dqp_getAllRow","dqp_getIdxs_setIdxs","dqp_getIdxsRev_setIdxsRev","dqp_setJb_spec","dqp_setJs_spec","dqp_blank","dqp_copyAll","dqp_setRhsZero","dqp_names","dqp_names_only","dqp_names_rest"],"finding 44")
claim("C69","proved",["dres_stationarity","dres_equalities","dres_inequalities","dres_complementarity","dres_objective","dres_mu_mean","dres_dual_gap","dres_gap_bound","dres_zero_optimal","dres_norms","dresLin_full_step","dres_masked"],"index lists in range; masks 0/1 where stated; workspace flags valid only for the current masks")
claim("C70","proved",["dfactSolve_newton","dfactSolve_full_step","dsolve_newton","dfact_then_solve"],"exact real arithmetic; a slack shared by several constraints excluded (finding 3); LQ factorisation of the library assumed to be one (L lower triangular, Q orthogonal)")
claim("C71","proved",["dfactSolve_total","dfactSolve_ends","dfactSolve_ends_scaled","dfactSolve_schur_loops","dfactSolve_scale_loops","dfactSolve_scale_loops_var","dfactSolve_dreg_loops","dnewton_unique","dmethods_agree"],"exact real arithmetic; the loops that do not end are proved to run for ever (findings 45-47)")
claim("C72","proved",["dunconstr_optimal","dunconstr_upper_matters"],"exact real arithmetic; LQ factorisation assumed to be one; dunconstr_upper_matters is the defect (finding 49)")
claim("C73","proved",["dipm_iter_le","dipm_terminates","dipm_returns","dipm_stat_inside","dipm_success","dipm_status","dipm_unconstrained"],"exact arithmetic (no NaN status); remove_lin_dep_eq = 0; LQ/LU factorisation a parameter; dipm_returns for lq_fact = 0")
claim("C74","proved",["dinitVar_interior","dinitVar_warm","dinitVar_cold_indep","dinit_midpoint_wrong","dinit_general_upper_wrong"],"the last two are witnesses of defects (findings 50, 51)")
claim("C75","proved",["dipm_iterates_inside","dipm_solution_inside","dipm_run"],"exact arithmetic")
claim("C76","proved",["dipm_success_feasible","dipm_success_stationary","dipm_success_complementary","dipm_success_subopt","dres_gap_approx","dipm_objective","dipm_noineq_optimal","dipm_stale_objective","dipm_stale_scale"],"exact arithmetic; the stale theorems are witnesses of defects (findings 52, 53)")
claim("C77","proved",["ipm_success_feasible","ipm_success_stationary","ipm_success_complementary","ipm_success_subopt","res_gap_approx"],"exact arithmetic; composes the solver theorems (C30, C31) with the residual theorems (C19-C21)")
claim("C78","proved",["fullCond_objective","fullCond_feasible","fullCond_complete","fullCond_optimal","fullCond_residuals","fullCond_signs","fullCond_keeps","fullCond_mask01","fullCond_again","fullCond_convex","cond_wf","condQpCond_eq","condSolve_contract"],"exact arithmetic; cond_last_stage = 1 (the default; otherwise NULL is dereferenced, modelled as none); algorithm 1 only without inputs at the last stage (see C45)")
claim("C79","proved",["Hpipm.tres_stationarity","Hpipm.tres_dynamics","Hpipm.tres_inequalities","Hpipm.tres_complementarity","Hpipm.tres_objective","Hpipm.tres_mu_mean","Hpipm.tres_dual_gap","Hpipm.tres_gap_bound","Hpipm.tres_zero_optimal","Hpipm.tres_norms","Hpipm.tresLin_full_step","Hpipm.tree_set_A","Hpipm.tree_set_B","Hpipm.tree_set_b","Hpipm.tree_set_frame","Hpipm.scenario_treeOk","Hpipm.tres_masked_lam_leaks"],"TreeSpec states the tree QP independently; LamMasked (multipliers of masked constraints are zero, as the tree solver keeps them) is needed, tres_masked_lam_leaks shows it.")
claim("C80","proved",["Hpipm.tree_newton","Hpipm.tree_newton_convex","Hpipm.tree_newton_resLin","Hpipm.tree_full_step","Hpipm.tree_resolve_newton","Hpipm.tree_unconstr_optimal","Hpipm.tree_unconstr_indefinite_wrong"],"Exact arithmetic; sq is any exact square root on the positives. The LQ variant of the factorisation (x_tree_ocp_qp_kkt.c:624-848) is not modelled. tree_unconstr_indefinite_wrong is the stated limit.")
claim("C81","proved",["Hpipm.tipm_iter_le","Hpipm.tipm_terminates","Hpipm.tipm_stat_inside","Hpipm.tinitVar_interior","Hpipm.tinitVar_warm","Hpipm.tipm_iterates_inside","Hpipm.tipm_solution_inside","Hpipm.tipm_success","Hpipm.tipm_status","Hpipm.tipm_success_feasible","Hpipm.tipm_success_stationary","Hpipm.tipm_success_complementary","Hpipm.tipm_success_subopt","Hpipm.tipm_unconstrained","Hpipm.tinitVar_box_wrong"],"Exact arithmetic (no NaN, hence no NAN_SOL). The LQ factorisation is a parameter of the model (any function on the KKT workspace). tinitVar_box_wrong is the stated limit.")
claim("C82","proved",["Hpipm.setQq_view","Hpipm.setSq_view","Hpipm.setRq_view","Hpipm.setQqvec_view","Hpipm.setRqvec_view","Hpipm.setUq_view","Hpipm.setUqMask_view","Hpipm.qres_stationarity","Hpipm.qres_dynamics","Hpipm.qres_inequalities","Hpipm.qres_complementarity","Hpipm.qres_objective","Hpipm.qres_dual_gap","Hpipm.qres_gap_bound","Hpipm.qres_zero_optimal","Hpipm.qres_cached","Hpipm.qres_mu","Hpipm.qres_lower_side","Hpipm.qres_lower_side_wrong"],"Exact arithmetic over a linearly ordered field. No assumption on the lower masks of quadratic rows: their multipliers are zeroed by the code, and qres_zero_optimal does not ask anything of their res_d; qres_lower_side_wrong is the stated limit.")
claim("C83","proved",["Hpipm.qipm_iter_le","Hpipm.qipm_terminates","Hpipm.qipm_ends","Hpipm.qipm_uninit_iff","Hpipm.qinitVar_interior","Hpipm.qipm_iterates_inside","Hpipm.qipm_solution_inside","Hpipm.qipm_stat_inside","Hpipm.qipm_success","Hpipm.qipm_status","Hpipm.qipm_data","Hpipm.qafter_masks","Hpipm.qipm_success_feasible","Hpipm.qipm_success_stationary","Hpipm.qipm_success_complementary","Hpipm.qipm_success_subopt"],"Exact arithmetic over a linearly ordered field (qipm_ends: archimedean, exact square root). The success theorems are about the relative formulation, with QCQP data as the caller passed it; slack bounds whose masks the call clears are excluded, as the statement says. Factorisation routines for lq_fact > 0 are parameters.")
claim("C84","proved",["Hpipm.qipm_ends","Hpipm.factSolve_stuck","Hpipm.qipm_hangs","Hpipm.qipm_hangs_repaired"],"A defect of the code, proved as such: the positive part under the condition, the negative part by a witness for every bound on the retries. Exact arithmetic.")
C["C82"]["theorems"] += ["Hpipm.qres_gap_approx"]
claim("C85","proved",["qargSet_real","qargSet_int","qargSet_unknown","qargSet_tol_wrong","qargSet_t0_wrong","qargSetDefault_modes","qargSetDefault_values","qarg_t0_never","qarg_t0_witness"],"for tol_eq, tol_ineq and t0_init the property is false of the code and the negation is proved")
claim("C86","proved",["qinitVar_stale","qipm_unconstrained_wrong","qipm_abs_residual_wrong","qipm_slack_negative","exF_negative"],"defects of the code: the negations are proved; qinitVar_stale and qipm_slack_negative are universal, the other two exhibit a run")
claim("C87","proved",["ipm_off_prox","ipm_off_optimal"],"exact arithmetic; soft constraints excluded, because the code leaves their slacks unset (finding 21)")
claim("C88","proved",["tipm_contraction","tipm_dynamics_exact","tipm_contraction_bounded","tkkt_prim","tsolve_prim"],"masks 0/1, at least one active constraint; for lq_fact > 0 the LQ factorisation is assumed to compute the states from the dynamics (TLqPrim)")
claim("C89","proved",["ipm_mehrotra","pass_meh","start_meh","guard_goOn","MehIter.unique","MehIter.form"],"MehStop.lean/MehSpec.lean are the specification (MehSolve, MehIter, GoOn); step lengths are those of COMPUTE_ALPHA (C13), the initial point that of INIT_VAR (C32, C51). Exact arithmetic; hypotheses in MHyp.")
claim("C90","proved",["ipm_history_independent","MehSolve.unique","startPt_congr","GoOn.congr"],"In exact arithmetic; corollary of C89 and of the uniqueness of the Mehrotra run.")
C["C32"]["theorems"] += ["Hpipm.initVar_warm_keeps", "Hpipm.initVar_agree"]
claim("C91","proved",["remove_rows","remove_feasible","remove_none","remove_restore","remove_incons_sound","lost_constraint","dep_kept","incons_missed","restore_fails","restore_stale"],"Positive part for all QPs; lost_constraint, dep_kept, incons_missed, restore_fails, restore_stale are kernel-checked counterexamples to the guarantees the routine is meant to give. GETRF_RP (BLASFEO) is modelled by its documented function.")
claim("C92","proved",["dargSet_real","dargSet_int","dargSet_unknown","darg_last","darg_get_set","dargSetDefault_values","targSet_eq","targSet_real","targSet_int","targSetDefault_values","targSetDefault_junk"],"Typed values behind void*; a wrong type is the outcome ub. targSetDefault_junk: the tree defaults are not determined by the mode.")
claim("C93","proved",["split_equivalent","split_optimal","split_keeps_m","split_slack_order_differs","split_soft_wrong","split_sqrt_no_fallback","split_stale_m"],"Default algorithm (cond_alg 0), no soft constraints, at least one stage; the second algorithm of COND_RSQ and COND_RQ is modelled but nothing is proved about it. The last four are the disagreements, proved on concrete problems.")
claim("C94","proved",["sol_get_field","sol_set_field","sol_set_get","sol_set_history","sol_unknown","sol_stage_range","sol_get_all","sol_set_all","sol_copy_all","sol_set_zero","tsol_get_field","tsol_slack_mult_missing","dsol_get_field","dsol_set_field","dsol_set_get","dsol_unknown","dsol_get_all","dsol_obj_stale","dsol_obj_stale_witness"],"tsol_slack_mult_missing and dsol_obj_stale are disagreements with what a user expects. TREE_OCP_QP_SOL_GET_ALL is not modelled.")
claim("C95","proved",["dqp_create_fits","dqs_create_fits","dqrWs_create_fits","dws_create_fits","tdim_create_fits","tqp_create_fits","tres_create_fits","tws_create_fits","dws_create_inside","tws_create_inside"],"Fits (MemProps.lean): every array inside the block, pairwise disjoint. Differences nv-ne are modelled for ne <= nv. The views laid over the dense core work space are its arrays.")
claim("C96","proved",["condWs_create_fits","pcArg_create_fits","pcWs_create_fits","qdim_create_fits","qresWs_create_fits","qqp_create_fits","qws_create_fits","qws_create_inside","pcWs_create_inside"],"QCQP solution and residual objects have the layout of the QP ones with ng+nq general constraints (solMemsize, solCreate of C04).")
claim("C97","proved",["qdim_consistent","qdim_set","qdim_set_names","qdim_get","qdim_copyAll","qdim_copyAll_loses_ns"],"qdim_copyAll_loses_ns is a disagreement with what the name promises.")
claim("C98","proved",["dqargSet_both","dqargSet_real","dqargSet_int","dqargSet_unknown","dqarg_history","dqargSetDefault_values","dqargSetDefault_comp_res_exit","tqargSet_eq","tqargSet_both","tqargSet_tol_wrong","tqargSetDefault_values"],"dqargSetDefault_comp_res_exit and tqargSet_tol_wrong are disagreements (findings 81, 82).")
claim("C99","proved",["dqres_stationarity","dqres_equalities","dqres_inequalities","dqres_complementarity","dqres_objective","dqres_dual_gap","dqres_mu","dqres_gap_approx","dqres_zero_optimal","dqres_cached","dqcqp_get_set_same","dqcqp_get_set_other","dqcqp_set_keeps_ints","dqview_set","dqview_set_other","dqview_get","dqcqp_create_view"],"the setters of the index lists and the Js* matrices of the dense QCQP are not modelled")
claim("C100","proved",["dqipm_iter_le","dqipm_status","dqipm_success","dqipm_success_feasible","dqipm_iterates_inside","dqipm_solution_inside","dqipm_stat_inside","dqinitVar_interior","dqmaskLower_mask","dqipm_data","dapproxQp_val","dupdateQp_val","exDQ0_success_wrong","exDQ_init_ub_ignored"],"exact arithmetic; use_hess_fact not modelled; a workspace on which a solve with abs_form precedes one without is not modelled (finding 85)")
C["C92"]["theorems"] += ["Hpipm.dargSet_confused"]
claim("C101","proved",["condQc_value","condQc_exact","condQcqp_exact","condQc_drops_linear","condQc_keeps","condQc_first","condQc_only_first_ub","condQc_position","condQcqp_loses_linear","condQcqp_loses_cross","condQcqp_first_wrong","condQcqp_first_ub","condQcqp_misplaced","condQc_flags_truthful","condQc_first_flags_wrong"],"exact arithmetic; the temporary QP of COND_QCQP_COND is given m and diag_H_flag, which the code leaves unset (finding 90); expansion of the solution is C103")
claim("C102","proved",["condQcLhs_eq","condQcRhs_eq","condQcSplit_eq","condQcSplit_stale"],"exact arithmetic; the quadratic part only: the linear parts of the two calls are C93; condQcSplit_stale is the witness for the two-call interface (finding 91)")
claim("C103","proved",["condQcExp_eq","condQcExp_val","condQcExp_point","condQcExp_dynamics","condQcExp_stationary","condQcExp_exact","condQcExp_even","condQc_one_stage"],"exact arithmetic; full condensing (last stage condensed) for the residual statements; the positions of the condensed multipliers are those of COND_DCTD, which differ from those of COND_QCQP_QC when earlier stages have linear general constraints (finding 89)")
claim("C104","proved",["condSol_round","condSol_one_soft","condSol_soft_swapped","condSol_none","csInputs_val","csIneq_val"],"exact arithmetic; the statement for several stages is for problems without slacks, because with slacks the code does not have it (condSol_soft_swapped, finding 93)")
claim("C105","proved",["partCondSol_round","partCondSol_blk","condSol_round_of"],"exact arithmetic; problems without slacks (finding 93); equality multipliers inside a block are recomputed by the expansion (C43), not copied")
claim("C106","proved",["condQcSol_round"],"exact arithmetic; problems without slacks (finding 93); the aliased QP shares index lists and dimensions with the QCQP")
claim("C107","proved",["condSeed_equivalent","seed_tgt","rhs_frame","split_done"],"exact arithmetic; problems without soft constraints, last stage condensed, default algorithm (as C93); seed_m is not condensed by the code")
#--MORE--
json.dump({"claims":[C[k] for k in sorted(C)]}, open("/verif/MANIFEST.json","w"), indent=1)
# every name must be a declared theorem
import glob, re
_d = set()
for f in glob.glob("/verif/lean/Verif/*.lean"):
    _d |= set(re.findall(r"^(?:private |protected )?theorem ([\w'.₀-₉]+)", open(f).read(), re.M))
for c in C.values():
    for t in c["theorems"]:
        if t.removeprefix("Hpipm.") not in _d:
            print("MISSING THEOREM", c["property"], t)
