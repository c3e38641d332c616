/-
The arguments of the QCQP solver, `struct OCP_QCQP_IPM_ARG` (include/hpipm_d_ocp_qcqp_ipm.h), and their
setters and defaults, ocp_qp/x_ocp_qcqp_ipm.c:108-592 (C85).

The struct contains a pointer to the arguments of the inner QP solver, `qp_arg`; each setter is meant
to write both.  The fields of the outer struct are those of `IpmArg` except `var_init_scheme` and
`update_fact_exit`, which it does not have; the model keeps these two slots and never writes them.
-/
import Verif.ArgProps

namespace Hpipm

/-- `struct OCP_QCQP_IPM_ARG`: its own fields and the struct behind `qp_arg` -/
structure QArg (K : Type*) where
  top : IpmArg K
  qp : IpmArg K

section
variable {K : Type*}

/-- a setter that writes the `REAL` field `f` and then the field `g` of `qp_arg`,
ocp_qp/x_ocp_qcqp_ipm.c:403-571 -/
def QArg.setR (a : QArg K) (f g : RArg) (x : K) : QArg K := ⟨a.top.setR f x, a.qp.setR g x⟩

/-- a setter that writes the `int` field `f` and then the field `g` of `qp_arg`,
ocp_qp/x_ocp_qcqp_ipm.c:394-592 -/
def QArg.setI (a : QArg K) (f g : IArg) (z : ℤ) : QArg K := ⟨a.top.setI f z, a.qp.setI g z⟩

/-- the typed version of `QArg.setR`; an `int` behind the `REAL *` is undefined behaviour -/
def qargReal (f g : RArg) (v : CVal K) (a : QArg K) : Out (QArg K) :=
  match v with
  | .real x => .ok (a.setR f g x)
  | .int _ => .ub

/-- the typed version of `QArg.setI`; a `REAL` behind the `int *` is undefined behaviour -/
def qargInt (f g : IArg) (v : CVal K) (a : QArg K) : Out (QArg K) :=
  match v with
  | .int z => .ok (a.setI f g z)
  | .real _ => .ub

/-- OCP_QCQP_IPM_ARG_SET_COMP_RES_EXIT, ocp_qp/x_ocp_qcqp_ipm.c:511-520 -/
def qargSetCompResExit (z : ℤ) (a : QArg K) : QArg K :=
  ⟨argSetCompResExit z a.top, argSetCompResExit z a.qp⟩

/-- OCP_QCQP_IPM_ARG_SET, ocp_qp/x_ocp_qcqp_ipm.c:294-390, with the setters 394-592.  The setters of
`tol_eq` (430-437) and `tol_ineq` (439-446) call the `tol_stat` setter of the QP arguments, the setter
of `t0_init` (585-592) writes `t_lam_min`. -/
def qargSet (field : String) (v : CVal K) (a : QArg K) : Out (QArg K) :=
  if field = "iter_max" then qargInt .iter_max .iter_max v a
  else if field = "alpha_min" then qargReal .alpha_min .alpha_min v a
  else if field = "mu0" then qargReal .mu0 .mu0 v a
  else if field = "tol_stat" then qargReal .res_g_max .res_g_max v a
  else if field = "tol_eq" then qargReal .res_b_max .res_g_max v a
  else if field = "tol_ineq" then qargReal .res_d_max .res_g_max v a
  else if field = "tol_comp" then qargReal .res_m_max .res_m_max v a
  else if field = "tol_dual_gap" then qargReal .dual_gap_max .dual_gap_max v a
  else if field = "reg_prim" then qargReal .reg_prim .reg_prim v a
  else if field = "warm_start" then qargInt .warm_start .warm_start v a
  else if field = "pred_corr" then qargInt .pred_corr .pred_corr v a
  else if field = "cond_pred_corr" then qargInt .cond_pred_corr .cond_pred_corr v a
  else if field = "ric_alg" then qargInt .square_root_alg .square_root_alg v a
  else if field = "comp_res_exit" then
    match v with
    | .int z => .ok (qargSetCompResExit z a)
    | .real _ => .ub
  else if field = "comp_res_pred" then qargInt .comp_res_pred .comp_res_pred v a
  else if field = "lam_min" then qargReal .lam_min .lam_min v a
  else if field = "t_min" then qargReal .t_min .t_min v a
  else if field = "tau_min" then qargReal .tau_min .tau_min v a
  else if field = "split_step" then qargInt .split_step .split_step v a
  else if field = "m_safe" then qargReal .m_safe .m_safe v a
  else if field = "t_lam_min" then qargInt .t_lam_min .t_lam_min v a
  else if field = "t0_init" then qargInt .t_lam_min .t0_init v a
  else .exit

/-- assignment to an own `int` field only -/
def QArg.topI (a : QArg K) (f : IArg) (z : ℤ) : QArg K := ⟨a.top.setI f z, a.qp⟩

/-- assignment to an own `REAL` field only -/
def QArg.topR (a : QArg K) (f : RArg) (x : K) : QArg K := ⟨a.top.setR f x, a.qp⟩

variable [Field K]

/-- the values chosen per mode, ocp_qp/x_ocp_qcqp_ipm.c:116-248: those of the QP arguments
(`argDef`), except that ROBUST has `itref_corr_max = 4` instead of 8 -/
def qargDef (mode : ℤ) : Option (ArgDef K) :=
  (argDef mode).map fun p => if mode = 3 then { p with itref_corr_max := 4 } else p

/-- OCP_QCQP_IPM_ARG_SET_DEFAULT, ocp_qp/x_ocp_qcqp_ipm.c:108-290, in the order of the code -/
def qargSetDefault (mode : ℤ) (a : QArg K) : Out (QArg K) :=
  match argSetDefault mode a.qp with
  | .exit => .exit
  | .ub => .ub
  | .ok q =>
    match (qargDef mode : Option (ArgDef K)) with
    | none => .exit
    | some p =>
      let a : QArg K := ⟨a.top, q⟩
      let a := a.setR .mu0 .mu0 p.mu0
      let a := a.setR .alpha_min .alpha_min (1 / 10 ^ 12)
      let a := a.setR .res_g_max .res_g_max p.res_g_max
      let a := a.setR .res_b_max .res_g_max p.res_b_max
      let a := a.setR .res_d_max .res_g_max p.res_d_max
      let a := a.setR .res_m_max .res_m_max (1 / 10 ^ 8)
      let a := a.setR .dual_gap_max .dual_gap_max (10 ^ 15)
      let a := a.setI .iter_max .iter_max p.iter_max
      let a := a.topI .stat_max p.iter_max
      let a := a.setI .pred_corr .pred_corr 1
      let a := a.setI .cond_pred_corr .cond_pred_corr 1
      let a := a.setI .square_root_alg .square_root_alg 1
      let a := a.topI .itref_pred_max 0
      let a := a.topI .itref_corr_max p.itref_corr_max
      let a := a.setR .reg_prim .reg_prim (1 / 10 ^ 15)
      let a := a.topI .lq_fact p.lq_fact
      let a := a.setR .lam_min .lam_min (1 / 10 ^ 16)
      let a := a.setR .t_min .t_min (1 / 10 ^ 16)
      let a := a.topR .lam0_min (1 / 10 ^ 9)
      let a := a.topR .t0_min (1 / 10 ^ 9)
      let a := a.setR .tau_min .tau_min (1 / 10 ^ 16)
      let a := a.setI .warm_start .warm_start 0
      let a := a.topI .abs_form p.abs_form
      let a := a.setI .comp_res_pred .comp_res_pred p.comp
      let a := qargSetCompResExit p.comp a
      let a := a.setI .split_step .split_step p.split_step
      let a := a.setR .m_safe .m_safe p.m_safe
      let a := a.setI .t_lam_min .t_lam_min 2
      let a := a.setI .t_lam_min .t0_init 2
      let a := a.topI .mode mode
      .ok a

end

/-! ### specification -/

/-- specification: the option names of the QCQP solver (a subset of those of the QP solver), and the
setting each one stands for -/
def qargTable : List (String × (RArg ⊕ IArg)) :=
  argTable.filter fun p =>
    p.1 ≠ "comp_dual_sol_eq" ∧ p.1 ≠ "lam0_min" ∧ p.1 ≠ "t0_min" ∧ p.1 ≠ "var_init_scheme" ∧
      p.1 ≠ "update_fact_exit"

/-- specification: the options whose setter is right -/
def qargGood : List (String × (RArg ⊕ IArg)) :=
  qargTable.filter fun p => p.1 ≠ "tol_eq" ∧ p.1 ≠ "tol_ineq" ∧ p.1 ≠ "t0_init"

theorem qargTable_eq : qargTable =
  [("iter_max", .inr .iter_max), ("alpha_min", .inl .alpha_min), ("mu0", .inl .mu0),
   ("tol_stat", .inl .res_g_max), ("tol_eq", .inl .res_b_max), ("tol_ineq", .inl .res_d_max),
   ("tol_comp", .inl .res_m_max), ("tol_dual_gap", .inl .dual_gap_max), ("reg_prim", .inl .reg_prim),
   ("warm_start", .inr .warm_start), ("pred_corr", .inr .pred_corr),
   ("cond_pred_corr", .inr .cond_pred_corr), ("ric_alg", .inr .square_root_alg),
   ("comp_res_exit", .inr .comp_res_exit),
   ("comp_res_pred", .inr .comp_res_pred), ("lam_min", .inl .lam_min), ("t_min", .inl .t_min),
   ("tau_min", .inl .tau_min),
   ("split_step", .inr .split_step), ("m_safe", .inl .m_safe),
   ("t_lam_min", .inr .t_lam_min),
   ("t0_init", .inr .t0_init)] := by decide

theorem qargGood_eq : qargGood =
  [("iter_max", .inr .iter_max), ("alpha_min", .inl .alpha_min), ("mu0", .inl .mu0),
   ("tol_stat", .inl .res_g_max),
   ("tol_comp", .inl .res_m_max), ("tol_dual_gap", .inl .dual_gap_max), ("reg_prim", .inl .reg_prim),
   ("warm_start", .inr .warm_start), ("pred_corr", .inr .pred_corr),
   ("cond_pred_corr", .inr .cond_pred_corr), ("ric_alg", .inr .square_root_alg),
   ("comp_res_exit", .inr .comp_res_exit),
   ("comp_res_pred", .inr .comp_res_pred), ("lam_min", .inl .lam_min), ("t_min", .inl .t_min),
   ("tau_min", .inl .tau_min),
   ("split_step", .inr .split_step), ("m_safe", .inl .m_safe),
   ("t_lam_min", .inr .t_lam_min)] := by decide

variable {K : Type*}

/-- **C85** a real option other than `tol_eq`, `tol_ineq`: the call does to the QCQP arguments and to
the arguments of the inner solver what the option of the same name of the QP solver does (`argSet`,
whose effect is the one of C34). -/
theorem qargSet_real (n : String) (f : RArg) (h : (n, Sum.inl f) ∈ qargGood) (x : K) (a : QArg K) :
    ∃ a', qargSet n (.real x) a = .ok a' ∧ argSet n (.real x) a.top = .ok a'.top ∧
      argSet n (.real x) a.qp = .ok a'.qp := by
  rw [qargGood_eq] at h
  simp only [List.mem_cons, Prod.mk.injEq, List.not_mem_nil, or_false, reduceCtorEq,
    and_false, false_or, Sum.inl.injEq] at h
  rcases h with ⟨rfl, rfl⟩ | ⟨rfl, rfl⟩ | ⟨rfl, rfl⟩ | ⟨rfl, rfl⟩ | ⟨rfl, rfl⟩ | ⟨rfl, rfl⟩ | ⟨rfl, rfl⟩ |
    ⟨rfl, rfl⟩ | ⟨rfl, rfl⟩ | ⟨rfl, rfl⟩
  all_goals exact ⟨_, rfl, rfl, rfl⟩

example : ("tol_comp", Sum.inl RArg.res_m_max) ∈ qargGood := by simp [qargGood_eq]

/-- **C85** an integer option other than `t0_init`. -/
theorem qargSet_int (n : String) (f : IArg) (h : (n, Sum.inr f) ∈ qargGood) (z : ℤ) (a : QArg K) :
    ∃ a', qargSet n (.int z) a = .ok a' ∧ argSet n (.int z) a.top = .ok a'.top ∧
      argSet n (.int z) a.qp = .ok a'.qp := by
  rw [qargGood_eq] at h
  simp only [List.mem_cons, Prod.mk.injEq, List.not_mem_nil, or_false, reduceCtorEq,
    and_false, false_or, Sum.inr.injEq] at h
  rcases h with ⟨rfl, rfl⟩ | ⟨rfl, rfl⟩ | ⟨rfl, rfl⟩ | ⟨rfl, rfl⟩ | ⟨rfl, rfl⟩ | ⟨rfl, rfl⟩ | ⟨rfl, rfl⟩ |
    ⟨rfl, rfl⟩ | ⟨rfl, rfl⟩
  all_goals exact ⟨_, rfl, rfl, rfl⟩

example : ("comp_res_exit", Sum.inr IArg.comp_res_exit) ∈ qargGood := by simp [qargGood_eq]

/-- a name outside the table is rejected -/
theorem qargSet_unknown (n : String) (h : ∀ f, (n, f) ∉ qargTable) (v : CVal K) (a : QArg K) :
    qargSet n v a = .exit := by
  have hh : ∀ m ∈ qargTable.map Prod.fst, n ≠ m := by
    rintro m hm rfl
    obtain ⟨⟨m', f⟩, hmf, rfl⟩ := List.mem_map.1 hm
    exact h f hmf
  rw [qargTable_eq] at hh
  simp only [List.map_cons, List.map_nil, List.mem_cons, List.not_mem_nil, or_false,
    forall_eq_or_imp, forall_eq] at hh
  simp only [qargSet, hh, if_false]

/-- the QCQP solver does not know `update_fact_exit`, which the QP solver does -/
example : ∀ f, ("update_fact_exit", f) ∉ qargTable := by
  intro f; simp [qargTable_eq]

/-- **C85, negative**: for every value, `tol_eq` and `tol_ineq` arrive in the QCQP arguments, but in
the arguments of the inner solver they overwrite the stationarity tolerance and leave their own
tolerance as it was. -/
theorem qargSet_tol_wrong (x : K) (a : QArg K) :
    (∃ a', qargSet "tol_eq" (.real x) a = .ok a' ∧ a'.top = a.top.setR .res_b_max x ∧
      a'.qp.r .res_g_max = x ∧ a'.qp.r .res_b_max = a.qp.r .res_b_max) ∧
    (∃ a', qargSet "tol_ineq" (.real x) a = .ok a' ∧ a'.top = a.top.setR .res_d_max x ∧
      a'.qp.r .res_g_max = x ∧ a'.qp.r .res_d_max = a.qp.r .res_d_max) :=
  ⟨⟨_, rfl, rfl, rfl, rfl⟩, ⟨_, rfl, rfl, rfl, rfl⟩⟩

/-- **C85, negative**: `t0_init` of the QCQP arguments is not written; `t_lam_min` is, so that a value
below 2 switches off the clipping of the final solution. -/
theorem qargSet_t0_wrong (z : ℤ) (a : QArg K) :
    ∃ a', qargSet "t0_init" (.int z) a = .ok a' ∧ a'.top.i .t_lam_min = z ∧
      a'.top.i .t0_init = a.top.i .t0_init ∧ a'.qp.i .t0_init = z ∧
      a'.qp.i .t_lam_min = a.qp.i .t_lam_min :=
  ⟨_, rfl, rfl, rfl, rfl, rfl⟩

/-! ### histories -/

/-- a call on the arguments: the defaults or one option -/
inductive QArgOp (K : Type*)
  | dflt (mode : ℤ)
  | opt (name : String) (v : CVal K)

section
variable [Field K]

/-- one call -/
def qargStep : QArgOp K → QArg K → Out (QArg K)
  | .dflt mode, a => qargSetDefault mode a
  | .opt n v, a => qargSet n v a

/-- a history of calls; it ends at the first call that does not succeed -/
def qargRun : List (QArgOp K) → QArg K → Out (QArg K)
  | [], a => .ok a
  | o :: l, a =>
    match qargStep o a with
    | .ok a' => qargRun l a'
    | .exit => .exit
    | .ub => .ub

theorem qargSet_t0 (n : String) (v : CVal K) (a a' : QArg K) (h : qargSet n v a = .ok a') :
    a'.top.i .t0_init = a.top.i .t0_init := by
  by_cases hn : ∃ f, (n, f) ∈ qargTable
  · obtain ⟨f, hf⟩ := hn
    rw [qargTable_eq] at hf
    simp only [List.mem_cons, Prod.mk.injEq, List.not_mem_nil, or_false] at hf
    rcases hf with ⟨rfl, -⟩ | ⟨rfl, -⟩ | ⟨rfl, -⟩ | ⟨rfl, -⟩ | ⟨rfl, -⟩ | ⟨rfl, -⟩ | ⟨rfl, -⟩ | ⟨rfl, -⟩ |
      ⟨rfl, -⟩ | ⟨rfl, -⟩ | ⟨rfl, -⟩ | ⟨rfl, -⟩ | ⟨rfl, -⟩ | ⟨rfl, -⟩ | ⟨rfl, -⟩ | ⟨rfl, -⟩ | ⟨rfl, -⟩ |
      ⟨rfl, -⟩ | ⟨rfl, -⟩ | ⟨rfl, -⟩ | ⟨rfl, -⟩ | ⟨rfl, -⟩
    all_goals
      cases v with
      | real x => first | (cases h; done) | (cases h; rfl)
      | int z =>
        first
          | (cases h; done)
          | (cases h; rfl)
          | (cases h
             show (argSetCompResExit z a.top).i .t0_init = _
             unfold argSetCompResExit
             by_cases hz : z = 0 <;> simp [IpmArg.setI, hz])
  · rw [qargSet_unknown n (fun f hf => hn ⟨f, hf⟩)] at h
    cases h

/-- exactly the four modes are accepted -/
theorem qargSetDefault_modes (mode : ℤ) (a : QArg K) :
    (∃ d, qargSetDefault mode a = .ok d) ↔ (0 ≤ mode ∧ mode ≤ 3) := by
  constructor
  · rintro ⟨d, h⟩
    refine (argSetDefault_modes mode a.qp).1 ?_
    unfold qargSetDefault at h
    cases hq : argSetDefault mode a.qp with
    | exit => rw [hq] at h; cases h
    | ub => rw [hq] at h; cases h
    | ok q => exact ⟨q, rfl⟩
  · intro hm
    have : mode = 0 ∨ mode = 1 ∨ mode = 2 ∨ mode = 3 := by omega
    rcases this with rfl | rfl | rfl | rfl <;> exact ⟨_, rfl⟩

/-- **C85** the default of every setting in every mode: in the QCQP arguments the documented values
of the QP solver (`defReal`, `defInt`), with four iterative refinement steps in mode ROBUST, and with
the exceptions stated: `t0_init` is not set, `comp_dual_sol_eq` is not set in mode SPEED_ABS (and
`var_init_scheme`, `update_fact_exit` do not exist); in the arguments of the inner solver the
documented values, except that the stationarity tolerance is the one meant for the inequalities. -/
theorem qargSetDefault_values (mode : ℤ) (a d : QArg K) (h : qargSetDefault mode a = .ok d) :
    d.top.r = defReal mode ∧
    (∀ f, f ≠ .t0_init → f ≠ .comp_dual_sol_eq → f ≠ .var_init_scheme → f ≠ .update_fact_exit →
      f ≠ .itref_corr_max → d.top.i f = defInt mode f) ∧
    d.top.i .itref_corr_max = (if mode = 3 then 4 else defInt mode .itref_corr_max) ∧
    d.top.i .t0_init = a.top.i .t0_init ∧
    d.top.i .comp_dual_sol_eq = (if mode = 0 then a.top.i .comp_dual_sol_eq else 1) ∧
    (∀ f, f ≠ .res_g_max → d.qp.r f = defReal mode f) ∧
    d.qp.r .res_g_max = defReal mode .res_d_max ∧ d.qp.i = defInt mode := by
  have hm := (qargSetDefault_modes mode a).1 ⟨d, h⟩
  have : mode = 0 ∨ mode = 1 ∨ mode = 2 ∨ mode = 3 := by omega
  rcases this with rfl | rfl | rfl | rfl
  all_goals
    have hd := Out.ok.inj h
    rw [← hd]
    refine ⟨?_, ?_, rfl, rfl, rfl, ?_, rfl, ?_⟩
    · funext f; cases f <;> rfl
    · intro f h1 h2 h3 h4 h5
      cases f <;> first | rfl | exact absurd rfl h1 | exact absurd rfl h2 | exact absurd rfl h3 |
        exact absurd rfl h4 | exact absurd rfl h5
    · intro f h1
      cases f <;> first | rfl | exact absurd rfl h1
    · funext f; cases f <;> rfl

example (a : QArg ℚ) : ∃ d, qargSetDefault 3 a = .ok d ∧ d.top.i .iter_max = 100 ∧
    d.top.i .itref_corr_max = 4 ∧ d.qp.i .itref_corr_max = 8 ∧
    d.qp.r .res_g_max = 1 / 10 ^ 8 ∧ d.top.r .res_g_max = 1 / 10 ^ 6 :=
  ⟨_, rfl, rfl, rfl, rfl, rfl, rfl⟩

/-- **C85, negative**: whatever the history of calls, including the defaults and calls of the option
`t0_init` itself, the field `t0_init` of the QCQP arguments, which decides how the solver starts,
holds what it held before the first call: it is never initialised. -/
theorem qarg_t0_never (l : List (QArgOp K)) (a a' : QArg K) (h : qargRun l a = .ok a') :
    a'.top.i .t0_init = a.top.i .t0_init := by
  induction l generalizing a with
  | nil => cases h; rfl
  | cons o l ih =>
    simp only [qargRun] at h
    cases hs : qargStep o a with
    | exit => rw [hs] at h; cases h
    | ub => rw [hs] at h; cases h
    | ok b =>
      rw [hs] at h
      rw [ih b h]
      cases o with
      | dflt mode => exact (qargSetDefault_values mode a b hs).2.2.2.1
      | opt n v => exact qargSet_t0 n v a b hs

example (a : QArg ℚ) : ∃ a', qargRun [.dflt 2, .opt "t0_init" (.int 1), .opt "mu0" (.real 3)] a = .ok a' ∧
    a'.top.i .t_lam_min = 1 ∧ a'.top.r .mu0 = 3 ∧ a'.qp.i .t0_init = 1 :=
  ⟨_, rfl, rfl, rfl, rfl⟩

end

/-- setting the option that was meant does not have the meant effect: after the defaults and
`t0_init := 0` the solver does not start with the requested scheme unless it would have without the
call (shown for a struct that held 1 in this field before) -/
theorem qarg_t0_witness : ∃ (a a' : QArg ℚ),
    qargRun [.dflt 2, .opt "t0_init" (.int 0)] a = .ok a' ∧ a'.top.i .t0_init ≠ 0 ∧
      a'.top.i .t_lam_min ≠ 2 :=
  ⟨⟨⟨fun _ => 0, fun _ => 1⟩, ⟨fun _ => 0, fun _ => 1⟩⟩, _, rfl, by decide, by decide⟩

end Hpipm
