/-
Model of the solver arguments `struct OCP_QP_IPM_ARG` (include/hpipm_d_ocp_qp_ipm.h) and of its
setters, getters, defaults and copy, ocp_qp/x_ocp_qp_ipm.c:69-678.

A `void *value` argument is a typed value; writing an `int` through a `REAL *` or the other way
round is undefined behaviour and gives the outcome `ub`.  `exit(1)` gives the outcome `exit`.
The fields `dim` and `memsize` are written only by the creation routine and are not modelled.
-/
import Verif.Blas

namespace Hpipm

/-- the `REAL` fields of `struct OCP_QP_IPM_ARG`, include/hpipm_d_ocp_qp_ipm.h -/
inductive RArg
  | mu0 | alpha_min | res_g_max | res_b_max | res_d_max | res_m_max | dual_gap_max | reg_prim
  | lam_min | t_min | tau_min | lam0_min | t0_min | m_safe
deriving DecidableEq

/-- the `int` fields of `struct OCP_QP_IPM_ARG`, include/hpipm_d_ocp_qp_ipm.h -/
inductive IArg
  | iter_max | stat_max | pred_corr | cond_pred_corr | itref_pred_max | itref_corr_max | warm_start
  | square_root_alg | lq_fact | abs_form | comp_dual_sol_eq | comp_res_exit | comp_res_pred
  | split_step | var_init_scheme | t_lam_min | t0_init | update_fact_exit | mode
deriving DecidableEq

/-- `struct OCP_QP_IPM_ARG` -/
structure IpmArg (K : Type*) where
  r : RArg → K
  i : IArg → ℤ

/-- assignment to a `REAL` field -/
def IpmArg.setR {K : Type*} (a : IpmArg K) (f : RArg) (x : K) : IpmArg K :=
  { a with r := fun g => if g = f then x else a.r g }

/-- assignment to an `int` field -/
def IpmArg.setI {K : Type*} (a : IpmArg K) (f : IArg) (z : ℤ) : IpmArg K :=
  { a with i := fun g => if g = f then z else a.i g }

/-- a value behind a `void *` -/
inductive CVal (K : Type*)
  | real (x : K)
  | int (z : ℤ)

/-- outcome of a call -/
inductive Out (α : Type*)
  | ok (a : α)
  | exit
  | ub

/-- OCP_QP_IPM_ARG_SET_COMP_RES_EXIT, ocp_qp/x_ocp_qp_ipm.c:498-505 -/
def argSetCompResExit {K : Type*} (z : ℤ) (a : IpmArg K) : IpmArg K :=
  let a := a.setI .comp_res_exit z
  if z ≠ 0 then a.setI .comp_dual_sol_eq 1 else a

/-- the `REAL *` setters, ocp_qp/x_ocp_qp_ipm.c:394-448, 516-565 -/
def argReal {K : Type*} (f : RArg) (v : CVal K) (a : IpmArg K) : Out (IpmArg K) :=
  match v with
  | .real x => .ok (a.setR f x)
  | .int _ => .ub

/-- the `int *` setters that write one field, ocp_qp/x_ocp_qp_ipm.c:386-392, 450-497, 507-513, 548-600 -/
def argInt {K : Type*} (f : IArg) (v : CVal K) (a : IpmArg K) : Out (IpmArg K) :=
  match v with
  | .int z => .ok (a.setI f z)
  | .real _ => .ub

/-- OCP_QP_IPM_ARG_SET, ocp_qp/x_ocp_qp_ipm.c:264-382 -/
def argSet {K : Type*} (field : String) (v : CVal K) (a : IpmArg K) : Out (IpmArg K) :=
  if field = "iter_max" then argInt .iter_max v a
  else if field = "alpha_min" then argReal .alpha_min v a
  else if field = "mu0" then argReal .mu0 v a
  else if field = "tol_stat" then argReal .res_g_max v a
  else if field = "tol_eq" then argReal .res_b_max v a
  else if field = "tol_ineq" then argReal .res_d_max v a
  else if field = "tol_comp" then argReal .res_m_max v a
  else if field = "tol_dual_gap" then argReal .dual_gap_max v a
  else if field = "reg_prim" then argReal .reg_prim v a
  else if field = "warm_start" then argInt .warm_start v a
  else if field = "pred_corr" then argInt .pred_corr v a
  else if field = "cond_pred_corr" then argInt .cond_pred_corr v a
  else if field = "ric_alg" then argInt .square_root_alg v a
  else if field = "comp_dual_sol_eq" then argInt .comp_dual_sol_eq v a
  else if field = "comp_res_exit" then
    match v with
    | .int z => .ok (argSetCompResExit z a)
    | .real _ => .ub
  else if field = "comp_res_pred" then argInt .comp_res_pred v a
  else if field = "lam_min" then argReal .lam_min v a
  else if field = "t_min" then argReal .t_min v a
  else if field = "tau_min" then argReal .tau_min v a
  else if field = "lam0_min" then argReal .lam0_min v a
  else if field = "t0_min" then argReal .t0_min v a
  else if field = "split_step" then argInt .split_step v a
  else if field = "m_safe" then argReal .m_safe v a
  else if field = "var_init_scheme" then argInt .var_init_scheme v a
  else if field = "t_lam_min" then argInt .t_lam_min v a
  else if field = "t0_init" then argInt .t0_init v a
  else if field = "update_fact_exit" then argInt .update_fact_exit v a
  else .exit

/-- OCP_QP_IPM_ARG_GET, ocp_qp/x_ocp_qp_ipm.c:604-636 (only two fields are known) -/
def argGet {K : Type*} (field : String) (a : IpmArg K) : Out K :=
  if field = "lam0_min" then .ok (a.r .lam0_min)
  else if field = "t0_min" then .ok (a.r .t0_min)
  else .exit

/-- OCP_QP_IPM_ARG_DEEPCOPY, ocp_qp/x_ocp_qp_ipm.c:642-678, assignment by assignment (there is none
for `t0_init`) -/
def argDeepcopy {K : Type*} (s d : IpmArg K) : IpmArg K :=
  let d := d.setR .mu0 (s.r .mu0)
  let d := d.setR .alpha_min (s.r .alpha_min)
  let d := d.setR .res_g_max (s.r .res_g_max)
  let d := d.setR .res_b_max (s.r .res_b_max)
  let d := d.setR .res_d_max (s.r .res_d_max)
  let d := d.setR .res_m_max (s.r .res_m_max)
  let d := d.setR .dual_gap_max (s.r .dual_gap_max)
  let d := d.setR .reg_prim (s.r .reg_prim)
  let d := d.setR .lam_min (s.r .lam_min)
  let d := d.setR .t_min (s.r .t_min)
  let d := d.setR .tau_min (s.r .tau_min)
  let d := d.setR .lam0_min (s.r .lam0_min)
  let d := d.setR .t0_min (s.r .t0_min)
  let d := d.setI .iter_max (s.i .iter_max)
  let d := d.setI .stat_max (s.i .stat_max)
  let d := d.setI .pred_corr (s.i .pred_corr)
  let d := d.setI .cond_pred_corr (s.i .cond_pred_corr)
  let d := d.setI .itref_pred_max (s.i .itref_pred_max)
  let d := d.setI .itref_corr_max (s.i .itref_corr_max)
  let d := d.setI .warm_start (s.i .warm_start)
  let d := d.setI .square_root_alg (s.i .square_root_alg)
  let d := d.setI .lq_fact (s.i .lq_fact)
  let d := d.setI .abs_form (s.i .abs_form)
  let d := d.setI .comp_dual_sol_eq (s.i .comp_dual_sol_eq)
  let d := d.setI .comp_res_exit (s.i .comp_res_exit)
  let d := d.setI .comp_res_pred (s.i .comp_res_pred)
  let d := d.setI .split_step (s.i .split_step)
  let d := d.setR .m_safe (s.r .m_safe)
  let d := d.setI .var_init_scheme (s.i .var_init_scheme)
  let d := d.setI .t_lam_min (s.i .t_lam_min)
  let d := d.setI .update_fact_exit (s.i .update_fact_exit)
  let d := d.setI .mode (s.i .mode)
  d

/-- the values chosen per mode in OCP_QP_IPM_ARG_SET_DEFAULT, ocp_qp/x_ocp_qp_ipm.c:75-214.  The C
locals are uninitialised before; every one is assigned in each branch. -/
structure ArgDef (K : Type*) where
  mu0 : K
  res_g_max : K
  res_b_max : K
  res_d_max : K
  iter_max : ℤ
  itref_corr_max : ℤ
  lq_fact : ℤ
  abs_form : ℤ
  comp : ℤ
  split_step : ℤ
  m_safe : K

section
variable {K : Type*} [Field K]

/-- ocp_qp/x_ocp_qp_ipm.c:75-214: the values that differ between modes (`enum HPIPM_MODE` values
SPEED_ABS=0, SPEED=1, BALANCE=2, ROBUST=3, include/hpipm_common.h); the remaining values are the
same in the four branches and are written out in `argSetDefault`.  `comp` stands for the three equal
locals comp_dual_sol_eq, comp_res_exit, comp_res_pred. -/
def argDef (mode : ℤ) : Option (ArgDef K) :=
  if mode = 0 then
    some ⟨10, 1, 1, 1, 15, 0, 0, 1, 0, 1, 3 / 10⟩
  else if mode = 1 then
    some ⟨10, 1 / 10 ^ 6, 1 / 10 ^ 8, 1 / 10 ^ 8, 15, 0, 0, 0, 1, 1, 3 / 10⟩
  else if mode = 2 then
    some ⟨10, 1 / 10 ^ 6, 1 / 10 ^ 8, 1 / 10 ^ 8, 30, 2, 1, 0, 1, 0, 1 / 2⟩
  else if mode = 3 then
    some ⟨100, 1 / 10 ^ 6, 1 / 10 ^ 8, 1 / 10 ^ 8, 100, 8, 2, 0, 1, 0, 1 / 2⟩
  else none

/-- OCP_QP_IPM_ARG_SET_DEFAULT, ocp_qp/x_ocp_qp_ipm.c:69-260 (the order of the setter calls of lines
223-256 is kept: comp_res_exit is set last and from comp_res_pred) -/
def argSetDefault (mode : ℤ) (a : IpmArg K) : Out (IpmArg K) :=
  match (argDef mode : Option (ArgDef K)) with
  | none => .exit
  | some p =>
    let a := a.setR .mu0 p.mu0
    let a := a.setR .alpha_min (1 / 10 ^ 12)
    let a := a.setR .res_g_max p.res_g_max
    let a := a.setR .res_b_max p.res_b_max
    let a := a.setR .res_d_max p.res_d_max
    let a := a.setR .res_m_max (1 / 10 ^ 8)
    let a := a.setR .dual_gap_max (10 ^ 15)
    let a := a.setI .iter_max p.iter_max
    let a := a.setI .stat_max p.iter_max
    let a := a.setI .pred_corr 1
    let a := a.setI .cond_pred_corr 1
    let a := a.setI .square_root_alg 1
    let a := a.setI .itref_pred_max 0
    let a := a.setI .itref_corr_max p.itref_corr_max
    let a := a.setR .reg_prim (1 / 10 ^ 15)
    let a := a.setI .lq_fact p.lq_fact
    let a := a.setR .lam_min (1 / 10 ^ 16)
    let a := a.setR .t_min (1 / 10 ^ 16)
    let a := a.setR .tau_min (1 / 10 ^ 16)
    let a := a.setR .lam0_min (1 / 10 ^ 9)
    let a := a.setR .t0_min (1 / 10 ^ 9)
    let a := a.setI .warm_start 0
    let a := a.setI .abs_form p.abs_form
    let a := a.setI .comp_dual_sol_eq p.comp
    let a := a.setI .comp_res_pred p.comp
    let a := argSetCompResExit p.comp a
    let a := a.setI .split_step p.split_step
    let a := a.setR .m_safe p.m_safe
    let a := a.setI .var_init_scheme 0
    let a := a.setI .t_lam_min 2
    let a := a.setI .t0_init 2
    let a := a.setI .update_fact_exit 1
    let a := a.setI .mode mode
    .ok a

end

end Hpipm
