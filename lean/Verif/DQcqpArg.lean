/-
C98: the arguments of the dense QCQP solver, `struct DENSE_QCQP_IPM_ARG` (include/hpipm_d_dense_qcqp_ipm.h), and of the tree OCP QCQP
solver, `struct TREE_OCP_QCQP_IPM_ARG` (include/hpipm_d_tree_ocp_qcqp_ipm.h:58-93): setters and defaults.

Both structs contain a pointer `qp_arg` to the arguments of the inner QP solver.  The dense struct has the fields of `DSolArg` except
kkt_fact_alg, remove_lin_dep_eq, compute_obj and update_fact_exit; the tree struct has the fields of the tree QP struct.  The model
keeps the missing slots and never writes them.
-/
import Verif.DenseArg
import Verif.QcqpArg

namespace Hpipm

/-! ### model: dense QCQP -/

/-- `struct DENSE_QCQP_IPM_ARG`: its own fields and the struct behind `qp_arg` -/
structure DQArg (K : Type*) where
  top : DSolArg K
  qp : DSolArg K

section
variable {K : Type*}

/-- a `REAL *` setter that writes the own field `f` and then the field `g` of `qp_arg`, dense_qp/x_dense_qcqp_ipm.c:401-566 -/
def DQArg.setR (a : DQArg K) (f g : DRArg) (x : K) : DQArg K := ⟨a.top.setR f x, a.qp.setR g x⟩

/-- an `int *` setter that writes the own field `f` and then the field `g` of `qp_arg`, dense_qp/x_dense_qcqp_ipm.c:392-584 -/
def DQArg.setI (a : DQArg K) (f g : DIArg) (z : ℤ) : DQArg K := ⟨a.top.setI f z, a.qp.setI g z⟩

/-- the typed version of `DQArg.setR` -/
def dqargReal (f g : DRArg) (v : CVal K) (a : DQArg K) : Out (DQArg K) :=
  match v with
  | .real x => .ok (a.setR f g x)
  | .int _ => .ub

/-- the typed version of `DQArg.setI` -/
def dqargInt (f g : DIArg) (v : CVal K) (a : DQArg K) : Out (DQArg K) :=
  match v with
  | .int z => .ok (a.setI f g z)
  | .real _ => .ub

/-- DENSE_QCQP_IPM_ARG_SET, dense_qp/x_dense_qcqp_ipm.c:290-388, with the setters 392-586 -/
def dqargSet (field : String) (v : CVal K) (a : DQArg K) : Out (DQArg K) :=
  if field = "iter_max" then dqargInt .iter_max .iter_max v a
  else if field = "alpha_min" then dqargReal .alpha_min .alpha_min v a
  else if field = "mu0" then dqargReal .mu0 .mu0 v a
  else if field = "tol_stat" then dqargReal .res_g_max .res_g_max v a
  else if field = "tol_eq" then dqargReal .res_b_max .res_b_max v a
  else if field = "tol_ineq" then dqargReal .res_d_max .res_d_max v a
  else if field = "tol_comp" then dqargReal .res_m_max .res_m_max v a
  else if field = "tol_dual_gap" then dqargReal .dual_gap_max .dual_gap_max v a
  else if field = "reg_prim" then dqargReal .reg_prim .reg_prim v a
  else if field = "reg_dual" then dqargReal .reg_dual .reg_dual v a
  else if field = "warm_start" then dqargInt .warm_start .warm_start v a
  else if field = "pred_corr" then dqargInt .pred_corr .pred_corr v a
  else if field = "cond_pred_corr" then dqargInt .cond_pred_corr .cond_pred_corr v a
  else if field = "comp_res_pred" then dqargInt .comp_res_pred .comp_res_pred v a
  else if field = "comp_res_exit" then dqargInt .comp_res_exit .comp_res_exit v a
  else if field = "lam_min" then dqargReal .lam_min .lam_min v a
  else if field = "t_min" then dqargReal .t_min .t_min v a
  else if field = "tau_min" then dqargReal .tau_min .tau_min v a
  else if field = "split_step" then dqargInt .split_step .split_step v a
  else if field = "m_safe" then dqargReal .m_safe .m_safe v a
  else if field = "t_lam_min" then dqargInt .t_lam_min .t_lam_min v a
  else if field = "t0_init" then dqargInt .t0_init .t0_init v a
  else .exit

/-- assignment to an own `int` field only -/
def DQArg.topI (a : DQArg K) (f : DIArg) (z : ℤ) : DQArg K := ⟨a.top.setI f z, a.qp⟩

/-- assignment to an own `REAL` field only -/
def DQArg.topR (a : DQArg K) (f : DRArg) (x : K) : DQArg K := ⟨a.top.setR f x, a.qp⟩

variable [Field K]

/-- DENSE_QCQP_IPM_ARG_SET_DEFAULT, dense_qp/x_dense_qcqp_ipm.c:103-286, in the order of the code; the per-mode values are those of
`qargDef`.  Line 266 passes `reg_prim` to the `reg_dual` setter (both locals are 1e-15), line 277 passes the local `comp_res_pred`,
which is 0 in every mode, to the `comp_res_exit` setter. -/
def dqargSetDefault (mode : ℤ) (a : DQArg K) : Out (DQArg K) :=
  match dargSetDefault mode a.qp with
  | .exit => .exit
  | .ub => .ub
  | .ok q =>
    match (qargDef mode : Option (ArgDef K)) with
    | none => .exit
    | some p =>
      let a : DQArg K := ⟨a.top, q⟩
      let a := a.setR .mu0 .mu0 p.mu0
      let a := a.setR .alpha_min .alpha_min (1 / 10 ^ 12)
      let a := a.setR .res_g_max .res_g_max p.res_g_max
      let a := a.setR .res_b_max .res_b_max p.res_b_max
      let a := a.setR .res_d_max .res_d_max p.res_d_max
      let a := a.setR .res_m_max .res_m_max (1 / 10 ^ 8)
      let a := a.setR .dual_gap_max .dual_gap_max (10 ^ 15)
      let a := a.setI .iter_max .iter_max p.iter_max
      let a := a.topI .stat_max p.iter_max
      let a := a.setI .pred_corr .pred_corr 1
      let a := a.setI .cond_pred_corr .cond_pred_corr 1
      let a := a.topI .itref_pred_max 0
      let a := a.topI .itref_corr_max p.itref_corr_max
      let a := a.setR .reg_prim .reg_prim (1 / 10 ^ 15)
      let a := a.setR .reg_dual .reg_dual (1 / 10 ^ 15)
      let a := a.topI .lq_fact p.lq_fact
      let a := a.topI .scale 0
      let a := a.setR .lam_min .lam_min (1 / 10 ^ 16)
      let a := a.setR .t_min .t_min (1 / 10 ^ 16)
      let a := a.topR .lam0_min (1 / 10 ^ 9)
      let a := a.topR .t0_min (1 / 10 ^ 9)
      let a := a.setR .tau_min .tau_min (1 / 10 ^ 16)
      let a := a.setI .warm_start .warm_start 0
      let a := a.topI .abs_form p.abs_form
      let a := a.setI .comp_res_pred .comp_res_pred 0
      let a := a.setI .comp_res_exit .comp_res_exit 0
      let a := a.setI .split_step .split_step p.split_step
      let a := a.setR .m_safe .m_safe p.m_safe
      let a := a.setI .t_lam_min .t_lam_min 2
      let a := a.setI .t0_init .t0_init 2
      let a := a.topI .mode mode
      .ok a

end

/-! ### model: tree QCQP (the pair of structs is `QArg`) -/

section
variable {K : Type*}

/-- TREE_OCP_QCQP_IPM_ARG_SET, tree_ocp_qp/x_tree_ocp_qcqp_ipm.c:294-388, with the setters 392-579.  The setters of `tol_eq` (428-433)
and `tol_ineq` (437-442) call the `tol_stat` setter of the QP arguments. -/
def tqargSet (field : String) (v : CVal K) (a : QArg K) : Out (QArg K) :=
  if field = "iter_max" then qargInt .iter_max .iter_max v a
  else if field = "alpha_min" then qargReal .alpha_min .alpha_min v a
  else if field = "mu0" then qargReal .mu0 .mu0 v a
  else if field = "tol_stat" then qargReal .res_g_max .res_g_max v a
  else if field = "tol_eq" then qargReal .res_b_max .res_g_max v a
  else if field = "tol_ineq" then qargReal .res_d_max .res_g_max v a
  else if field = "tol_comp" then qargReal .res_m_max .res_m_max v a
  else if field = "tol_dual_gap" then qargReal .dual_gap_max .dual_gap_max v a
  else if field = "reg_prim" then qargReal .reg_prim .reg_prim v a
  else if field = "warm_start" then qargInt .warm_start .warm_start v a
  else if field = "pred_corr" then qargInt .pred_corr .pred_corr v a
  else if field = "cond_pred_corr" then qargInt .cond_pred_corr .cond_pred_corr v a
  else if field = "comp_res_exit" then
    match v with
    | .int z => .ok (qargSetCompResExit z a)
    | .real _ => .ub
  else if field = "lam_min" then qargReal .lam_min .lam_min v a
  else if field = "t_min" then qargReal .t_min .t_min v a
  else if field = "tau_min" then qargReal .tau_min .tau_min v a
  else if field = "split_step" then qargInt .split_step .split_step v a
  else if field = "m_safe" then qargReal .m_safe .m_safe v a
  else if field = "t_lam_min" then qargInt .t_lam_min .t_lam_min v a
  else .exit

variable [Field K]

/-- TREE_OCP_QCQP_IPM_ARG_SET_DEFAULT, tree_ocp_qp/x_tree_ocp_qcqp_ipm.c:108-290.  `junkIn` is the unassigned local of
TREE_OCP_QP_IPM_ARG_SET_DEFAULT (see `targSetDefault`), `junk` the value of the local `comp_res_pred` of this function, declared at
line 114, never assigned (its assignments are commented out) and passed to SET_COMP_RES_EXIT at line 281. -/
def tqargSetDefault (junkIn junk : ℤ) (mode : ℤ) (a : QArg K) : Out (QArg K) :=
  match targSetDefault junkIn mode a.qp with
  | .exit => .exit
  | .ub => .ub
  | .ok q =>
    match (qargDef mode : Option (ArgDef K)) with
    | none => .exit
    | some p =>
      let a : QArg K := ⟨a.top, q⟩
      let a := a.setR .mu0 .mu0 p.mu0
      let a := a.setR .alpha_min .alpha_min (1 / 10 ^ 12)
      let a := a.setR .res_g_max .res_g_max p.res_g_max
      let a := a.setR .res_b_max .res_g_max p.res_b_max
      let a := a.setR .res_d_max .res_g_max p.res_d_max
      let a := a.setR .res_m_max .res_m_max (1 / 10 ^ 8)
      let a := a.setR .dual_gap_max .dual_gap_max (10 ^ 15)
      let a := a.setI .iter_max .iter_max p.iter_max
      let a := a.topI .stat_max p.iter_max
      let a := a.setI .pred_corr .pred_corr 1
      let a := a.setI .cond_pred_corr .cond_pred_corr 1
      let a := a.topI .itref_pred_max 0
      let a := a.topI .itref_corr_max p.itref_corr_max
      let a := a.setR .reg_prim .reg_prim (1 / 10 ^ 15)
      let a := a.topI .lq_fact p.lq_fact
      let a := a.setR .lam_min .lam_min (1 / 10 ^ 16)
      let a := a.setR .t_min .t_min (1 / 10 ^ 16)
      let a := a.setR .tau_min .tau_min (1 / 10 ^ 16)
      let a := a.topR .t0_min (1 / 10 ^ 9)
      let a := a.topR .lam0_min (1 / 10 ^ 9)
      let a := a.setI .warm_start .warm_start 0
      let a := a.topI .abs_form p.abs_form
      let a := qargSetCompResExit junk a
      let a := a.setI .split_step .split_step p.split_step
      let a := a.setR .m_safe .m_safe p.m_safe
      let a := a.setI .t_lam_min .t_lam_min 2
      let a := a.topI .t0_init 2
      let a := a.topI .mode mode
      .ok a

end

/-! ### specification -/

/-- the option names of the dense QCQP solver and the setting each one stands for: those of the dense QP solver without the ones its
structure does not have, and without lam0_min and t0_min, which it has but which cannot be set by name -/
def dqargTable : List (String × (DRArg ⊕ DIArg)) :=
  dargTable.filter fun p =>
    p.1 ≠ "kkt_fact_alg" ∧ p.1 ≠ "remove_lin_dep_eq" ∧ p.1 ≠ "compute_obj" ∧ p.1 ≠ "update_fact_exit" ∧
      p.1 ≠ "lam0_min" ∧ p.1 ≠ "t0_min"

/-- a history of option calls of the dense QCQP solver; it ends at the first call that does not succeed -/
def dqargRun {K : Type*} : List (String × CVal K) → DQArg K → Out (DQArg K)
  | [], a => .ok a
  | (n, v) :: l, a =>
    match dqargSet n v a with
    | .ok a' => dqargRun l a'
    | .exit => .exit
    | .ub => .ub

/-! ### dense QCQP: theorems -/

section
variable {K : Type*}

theorem dqargTable_eq : dqargTable =
  [("iter_max", .inr .iter_max), ("alpha_min", .inl .alpha_min), ("mu0", .inl .mu0),
   ("tol_stat", .inl .res_g_max), ("tol_eq", .inl .res_b_max), ("tol_ineq", .inl .res_d_max),
   ("tol_comp", .inl .res_m_max), ("tol_dual_gap", .inl .dual_gap_max), ("reg_prim", .inl .reg_prim), ("reg_dual", .inl .reg_dual),
   ("warm_start", .inr .warm_start), ("pred_corr", .inr .pred_corr),
   ("cond_pred_corr", .inr .cond_pred_corr), ("comp_res_exit", .inr .comp_res_exit),
   ("comp_res_pred", .inr .comp_res_pred), ("lam_min", .inl .lam_min), ("t_min", .inl .t_min),
   ("tau_min", .inl .tau_min),
   ("split_step", .inr .split_step), ("m_safe", .inl .m_safe), ("t_lam_min", .inr .t_lam_min),
   ("t0_init", .inr .t0_init)] := by decide

/-- **C98** every option of the dense QCQP solver does to its own arguments and to the arguments of the inner QP solver what the
option of the same name of the dense QP solver does (`dargSet`, whose effect is stated in C92): the two never diverge. -/
theorem dqargSet_both (n : String) (f : DRArg ⊕ DIArg) (h : (n, f) ∈ dqargTable) (v : CVal K) (a : DQArg K) :
    dqargSet n v a = match dargSet n v a.top, dargSet n v a.qp with
      | .ok t, .ok q => .ok ⟨t, q⟩
      | _, _ => .ub := by
  rw [dqargTable_eq] at h
  simp only [List.mem_cons, Prod.mk.injEq, List.not_mem_nil, or_false] at h
  rcases h with ⟨rfl, -⟩ | ⟨rfl, -⟩ | ⟨rfl, -⟩ | ⟨rfl, -⟩ | ⟨rfl, -⟩ | ⟨rfl, -⟩ | ⟨rfl, -⟩ | ⟨rfl, -⟩ | ⟨rfl, -⟩ | ⟨rfl, -⟩ |
    ⟨rfl, -⟩ | ⟨rfl, -⟩ | ⟨rfl, -⟩ | ⟨rfl, -⟩ | ⟨rfl, -⟩ | ⟨rfl, -⟩ | ⟨rfl, -⟩ | ⟨rfl, -⟩ | ⟨rfl, -⟩ | ⟨rfl, -⟩ | ⟨rfl, -⟩ | ⟨rfl, -⟩
  all_goals cases v <;> rfl

/-- **C98** a real option of the dense QCQP solver: the call succeeds, the setting has the new value in both structures and nothing
else changed in either. -/
theorem dqargSet_real (n : String) (f : DRArg) (h : (n, Sum.inl f) ∈ dqargTable) (x : K) (a : DQArg K) :
    ∃ a', dqargSet n (.real x) a = .ok a' ∧ a'.top.r f = x ∧ a'.qp.r f = x ∧
      (∀ g, g ≠ f → a'.top.r g = a.top.r g ∧ a'.qp.r g = a.qp.r g) ∧ a'.top.i = a.top.i ∧ a'.qp.i = a.qp.i := by
  have hd : (n, Sum.inl f) ∈ dargTable := List.mem_of_mem_filter h
  refine ⟨⟨a.top.setR f x, a.qp.setR f x⟩, ?_, if_pos rfl, if_pos rfl, fun g hg => ⟨if_neg hg, if_neg hg⟩, rfl, rfl⟩
  rw [dqargSet_both n _ h, dargSet_table n _ hd, dargSet_table n _ hd]
  rfl

example : ("tol_eq", Sum.inl DRArg.res_b_max) ∈ dqargTable := by simp [dqargTable_eq]

/-- **C98** an integer option of the dense QCQP solver. -/
theorem dqargSet_int (n : String) (f : DIArg) (h : (n, Sum.inr f) ∈ dqargTable) (z : ℤ) (a : DQArg K) :
    ∃ a', dqargSet n (.int z) a = .ok a' ∧ a'.top.i f = z ∧ a'.qp.i f = z ∧
      (∀ g, g ≠ f → a'.top.i g = a.top.i g ∧ a'.qp.i g = a.qp.i g) ∧ a'.top.r = a.top.r ∧ a'.qp.r = a.qp.r := by
  have hd : (n, Sum.inr f) ∈ dargTable := List.mem_of_mem_filter h
  refine ⟨⟨a.top.setI f z, a.qp.setI f z⟩, ?_, if_pos rfl, if_pos rfl, fun g hg => ⟨if_neg hg, if_neg hg⟩, rfl, rfl⟩
  rw [dqargSet_both n _ h, dargSet_table n _ hd, dargSet_table n _ hd]
  rfl

example : ("t0_init", Sum.inr DIArg.t0_init) ∈ dqargTable := by simp [dqargTable_eq]

/-- **C98** every other name is rejected. -/
theorem dqargSet_unknown (n : String) (h : ∀ f, (n, f) ∉ dqargTable) (v : CVal K) (a : DQArg K) : dqargSet n v a = .exit := by
  have hh : ∀ m ∈ dqargTable.map Prod.fst, n ≠ m := by
    intro m hm e
    obtain ⟨⟨m', f⟩, hmf, rfl⟩ := List.mem_map.1 hm
    exact h f (e ▸ hmf)
  simp only [dqargTable_eq, List.map_cons, List.map_nil, List.mem_cons, List.not_mem_nil, or_false,
    forall_eq_or_imp, forall_eq] at hh
  simp only [dqargSet, hh, if_false]

/-- the name `lam0_min` is an option of the dense QP solver, not of the dense QCQP solver -/
example : (∀ f, ("lam0_min", f) ∉ dqargTable) ∧ ("lam0_min", Sum.inl DRArg.lam0_min) ∈ dargTable :=
  ⟨fun f => by simp [dqargTable_eq], by simp [dargTable]⟩

theorem dqargSet_split (n : String) (v : CVal K) (a a' : DQArg K) (h : dqargSet n v a = .ok a') :
    dargSet n v a.top = .ok a'.top ∧ dargSet n v a.qp = .ok a'.qp := by
  by_cases hn : ∃ f, (n, f) ∈ dqargTable
  · obtain ⟨f, hf⟩ := hn
    rw [dqargSet_both n f hf] at h
    cases ht : dargSet n v a.top <;> cases hq : dargSet n v a.qp <;> rw [ht, hq] at h <;> cases h
    exact ⟨rfl, rfl⟩
  · rw [dqargSet_unknown n (fun f hf => hn ⟨f, hf⟩)] at h
    cases h

/-- **C98** history form: a successful history of option calls on the dense QCQP arguments is at the same time that history on its own
structure and on the inner one; in particular every option holds the value of the last call naming it, in both (C92). -/
theorem dqarg_history (l : List (String × CVal K)) (a a' : DQArg K) (h : dqargRun l a = .ok a') :
    dargRun l a.top = .ok a'.top ∧ dargRun l a.qp = .ok a'.qp := by
  induction l generalizing a with
  | nil => cases h; exact ⟨rfl, rfl⟩
  | cons p l ih =>
    obtain ⟨n, v⟩ := p
    simp only [dqargRun] at h
    cases hs : dqargSet n v a with
    | exit => rw [hs] at h; cases h
    | ub => rw [hs] at h; cases h
    | ok b =>
      rw [hs] at h
      obtain ⟨h1, h2⟩ := dqargSet_split n v a b hs
      obtain ⟨i1, i2⟩ := ih b h
      simp only [dargRun, h1, h2]
      exact ⟨i1, i2⟩

example (a : DQArg ℚ) : ∃ a', dqargRun [("tol_ineq", .real 5), ("iter_max", .int 7), ("tol_ineq", .real 2)] a = .ok a' ∧
    a'.qp.r .res_d_max = 2 ∧ a'.top.r .res_d_max = 2 ∧ a'.qp.i .iter_max = 7 :=
  ⟨_, rfl, rfl, rfl, rfl⟩

/-- the settings the dense QCQP structure has -/
def DQHas (g : DIArg) : Prop := g ≠ .kkt_fact_alg ∧ g ≠ .remove_lin_dep_eq ∧ g ≠ .compute_obj ∧ g ≠ .update_fact_exit

variable [Field K]

/-- **C98** the defaults of the dense QCQP solver.  Exactly the four modes are accepted.  Then, whatever the structures held before,
all real settings of both have the documented values; the integer ones too, with four refinement steps in mode ROBUST in the outer
structure and with one exception: `comp_res_exit` is 0 in all modes and in both structures, although the code selects 1 for the modes
other than SPEED_ABS. -/
theorem dqargSetDefault_values (mode : ℤ) (a : DQArg K) :
    (¬ (0 ≤ mode ∧ mode ≤ 3) → dqargSetDefault mode a = .exit) ∧
    (0 ≤ mode ∧ mode ≤ 3 → ∃ d, dqargSetDefault mode a = .ok d ∧ d.top.r = ddefReal mode ∧ d.qp.r = ddefReal mode ∧
      (∀ g, DQHas g → g ≠ .comp_res_exit → g ≠ .itref_corr_max → d.top.i g = ddefInt mode g) ∧
      d.top.i .itref_corr_max = (if mode = 3 then 4 else ddefInt mode .itref_corr_max) ∧
      (∀ g, ¬ DQHas g → d.top.i g = a.top.i g) ∧
      (∀ g, g ≠ .comp_res_exit → d.qp.i g = ddefInt mode g) ∧
      d.top.i .comp_res_exit = 0 ∧ d.qp.i .comp_res_exit = 0) := by
  constructor
  · intro hm
    unfold dqargSetDefault
    rw [(dargSetDefault_values mode a.qp).2 hm]
  · intro hm
    have : mode = 0 ∨ mode = 1 ∨ mode = 2 ∨ mode = 3 := by omega
    rcases this with rfl | rfl | rfl | rfl
    all_goals
      refine ⟨_, rfl, ?_, ?_, ?_, rfl, ?_, ?_, rfl, rfl⟩
      · funext f; cases f <;> rfl
      · funext f; cases f <;> rfl
      · rintro g ⟨h1, h2, h3, h4⟩ h5 h6
        cases g <;> first | rfl | contradiction
      · intro g hg
        cases g <;> first | rfl | exact False.elim (hg ⟨nofun, nofun, nofun, nofun⟩)
      · intro g hg
        cases g <;> first | rfl | contradiction

example (a : DQArg ℚ) : ∃ d, dqargSetDefault 3 a = .ok d ∧ d.top.i .iter_max = 100 ∧ d.top.i .itref_corr_max = 4 ∧
    d.qp.i .itref_corr_max = 8 ∧ d.qp.r .res_b_max = 1 / 10 ^ 8 :=
  ⟨_, rfl, rfl, rfl, rfl, rfl⟩

/-- **C98, finding**: calling the default routine of the dense QCQP solver in the modes SPEED, BALANCE, ROBUST leaves the inner QP
arguments with another `comp_res_exit` than the default routine of the dense QP solver gives them. -/
theorem dqargSetDefault_comp_res_exit (mode : ℤ) (hm : 1 ≤ mode ∧ mode ≤ 3) (a : DQArg K) :
    ∃ d q, dqargSetDefault mode a = .ok d ∧ dargSetDefault mode a.qp = .ok q ∧ q.i .comp_res_exit = 1 ∧
      d.qp.i .comp_res_exit = 0 := by
  have : mode = 1 ∨ mode = 2 ∨ mode = 3 := by omega
  rcases this with rfl | rfl | rfl <;> exact ⟨_, _, rfl, rfl, rfl, rfl⟩

example : (1 : ℤ) ≤ 2 ∧ (2 : ℤ) ≤ 3 := by decide

/-! ### tree QCQP: theorems -/

omit [Field K] in
/-- **C98** on its option names the setter of the tree QCQP solver is that of the OCP QCQP solver (`qargSet`, C85), so that `tol_eq`
and `tol_ineq` overwrite the stationarity tolerance of the inner solver; every other name, `t0_init` and `comp_res_pred` included, is
rejected. -/
theorem tqargSet_eq (n : String) (v : CVal K) (a : QArg K) :
    ((∃ f, (n, f) ∈ targTable) → tqargSet n v a = qargSet n v a) ∧ ((∀ f, (n, f) ∉ targTable) → tqargSet n v a = .exit) := by
  constructor
  · rintro ⟨f, h⟩
    simp only [targTable_eq, List.mem_cons, Prod.mk.injEq, List.not_mem_nil, or_false] at h
    rcases h with ⟨rfl, -⟩ | ⟨rfl, -⟩ | ⟨rfl, -⟩ | ⟨rfl, -⟩ | ⟨rfl, -⟩ | ⟨rfl, -⟩ | ⟨rfl, -⟩ |
      ⟨rfl, -⟩ | ⟨rfl, -⟩ | ⟨rfl, -⟩ | ⟨rfl, -⟩ | ⟨rfl, -⟩ | ⟨rfl, -⟩ | ⟨rfl, -⟩ | ⟨rfl, -⟩ | ⟨rfl, -⟩ |
      ⟨rfl, -⟩ | ⟨rfl, -⟩ | ⟨rfl, -⟩
    all_goals rfl
  · intro h
    have hh : ∀ m ∈ targTable.map Prod.fst, n ≠ m := by
      intro m hm e
      obtain ⟨⟨m', f⟩, hmf, rfl⟩ := List.mem_map.1 hm
      exact h f (e ▸ hmf)
    simp only [targTable_eq, List.map_cons, List.map_nil, List.mem_cons, List.not_mem_nil, or_false,
      forall_eq_or_imp, forall_eq] at hh
    simp only [tqargSet, hh, if_false]

omit [Field K] in
/-- **C98** an option of the tree QCQP solver other than `tol_eq`, `tol_ineq` does to both structures what the option of the tree QP
solver does (`targSet`, C92). -/
theorem tqargSet_both (n : String) (f : RArg ⊕ IArg) (h : (n, f) ∈ targTable) (h1 : n ≠ "tol_eq") (h2 : n ≠ "tol_ineq") (v : CVal K)
    (a : QArg K) :
    tqargSet n v a = match targSet n v a.top, targSet n v a.qp with
      | .ok t, .ok q => .ok ⟨t, q⟩
      | _, _ => .ub := by
  rw [targTable_eq] at h
  simp only [List.mem_cons, Prod.mk.injEq, List.not_mem_nil, or_false] at h
  rcases h with ⟨rfl, -⟩ | ⟨rfl, -⟩ | ⟨rfl, -⟩ | ⟨rfl, -⟩ | ⟨rfl, -⟩ | ⟨rfl, -⟩ | ⟨rfl, -⟩ | ⟨rfl, -⟩ | ⟨rfl, -⟩ | ⟨rfl, -⟩ |
    ⟨rfl, -⟩ | ⟨rfl, -⟩ | ⟨rfl, -⟩ | ⟨rfl, -⟩ | ⟨rfl, -⟩ | ⟨rfl, -⟩ | ⟨rfl, -⟩ | ⟨rfl, -⟩ | ⟨rfl, -⟩
  all_goals first | (cases v <;> rfl) | exact absurd rfl h1 | exact absurd rfl h2

example : ("mu0", Sum.inl RArg.mu0) ∈ targTable ∧ "mu0" ≠ "tol_eq" ∧ "mu0" ≠ "tol_ineq" := by
  rw [targTable_eq]; exact ⟨by simp, by decide, by decide⟩

omit [Field K] in
/-- **C98, finding** for every value, `tol_eq` and `tol_ineq` of the tree QCQP solver overwrite the stationarity tolerance of the
inner solver and leave the tolerance that was meant as it was. -/
theorem tqargSet_tol_wrong (x : K) (a : QArg K) :
    (∃ a', tqargSet "tol_eq" (.real x) a = .ok a' ∧ a'.top = a.top.setR .res_b_max x ∧
      a'.qp.r .res_g_max = x ∧ a'.qp.r .res_b_max = a.qp.r .res_b_max) ∧
    (∃ a', tqargSet "tol_ineq" (.real x) a = .ok a' ∧ a'.top = a.top.setR .res_d_max x ∧
      a'.qp.r .res_g_max = x ∧ a'.qp.r .res_d_max = a.qp.r .res_d_max) :=
  ⟨⟨_, rfl, rfl, rfl, rfl⟩, ⟨_, rfl, rfl, rfl, rfl⟩⟩

/-- **C98** the defaults of the tree QCQP solver, in every mode: the real settings have the documented values, except that the
stationarity tolerance of the inner solver is the one meant for the inequalities; the integer settings have the documented values
except `comp_res_exit`, which is what an unassigned local variable held (`junk`), and `comp_dual_sol_eq`, which the outer structure
gets only if that value is nonzero. -/
theorem tqargSetDefault_values (junkIn junk mode : ℤ) (a d : QArg K) (h : tqargSetDefault junkIn junk mode a = .ok d) :
    d.top.r = defReal mode ∧ (∀ f, f ≠ .res_g_max → d.qp.r f = defReal mode f) ∧ d.qp.r .res_g_max = defReal mode .res_d_max ∧
    (∀ g, TFixed g → g ≠ .itref_corr_max → d.top.i g = defInt mode g) ∧
    d.top.i .itref_corr_max = (if mode = 3 then 4 else defInt mode .itref_corr_max) ∧
    (∀ g, TFixed g → d.qp.i g = defInt mode g) ∧
    d.top.i .comp_res_exit = junk ∧ d.qp.i .comp_res_exit = junk ∧
    d.top.i .comp_dual_sol_eq = (if junk ≠ 0 then 1 else a.top.i .comp_dual_sol_eq) ∧
    d.qp.i .comp_dual_sol_eq = (if junk ≠ 0 ∨ junkIn ≠ 0 then 1 else defInt mode .comp_dual_sol_eq) := by
  unfold tqargSetDefault at h
  cases hq : targSetDefault junkIn mode a.qp with
  | exit => rw [hq] at h; cases h
  | ub => rw [hq] at h; cases h
  | ok q =>
    rw [hq] at h
    obtain ⟨q1, q2, q3, q4⟩ := targSetDefault_values junkIn mode a.qp q hq
    have hm : mode = 0 ∨ mode = 1 ∨ mode = 2 ∨ mode = 3 := by
      by_contra hm
      have : (argDef mode : Option (ArgDef K)) = none := by
        unfold argDef
        rw [if_neg (by omega), if_neg (by omega), if_neg (by omega), if_neg (by omega)]
      rw [show (qargDef mode : Option (ArgDef K)) = none by unfold qargDef; rw [this]; rfl] at h
      cases h
    have hj : ∀ (z : ℤ) (b : IpmArg K) (g : IArg), (argSetCompResExit z b).i g =
        if g = .comp_res_exit then z else if g = .comp_dual_sol_eq then (if z ≠ 0 then 1 else b.i .comp_dual_sol_eq) else b.i g := by
      intro z b g
      unfold argSetCompResExit
      by_cases hz : z ≠ 0
      · simp only [if_pos hz]; cases g <;> rfl
      · simp only [if_neg hz]; cases g <;> rfl
    have hjr : ∀ (z : ℤ) (b : IpmArg K), (argSetCompResExit z b).r = b.r := by
      intro z b
      unfold argSetCompResExit
      by_cases hz : z ≠ 0
      · simp only [if_pos hz]; rfl
      · simp only [if_neg hz]; rfl
    have hq5 : q.i .comp_dual_sol_eq = if junkIn ≠ 0 then 1 else defInt mode .comp_dual_sol_eq := q4
    rcases hm with rfl | rfl | rfl | rfl
    all_goals
      have hd := Out.ok.inj h
      rw [← hd]
      dsimp only [qargSetCompResExit, QArg.setR, QArg.setI, QArg.topR, QArg.topI, IpmArg.setR, IpmArg.setI]
      simp only [hj, hjr]
      refine ⟨?_, ?_, ?_, ?_, ?_, ?_, ?_, ?_, ?_, ?_⟩
      · funext f; cases f <;> rfl
      · intro f hf
        cases f <;> first | rfl | contradiction | exact congrFun q1 _
      · rfl
      · rintro g ⟨h1, h2, h3, h4, h5, h6⟩ h7
        cases g <;> first | rfl | contradiction
      · rfl
      · rintro g ⟨h1, h2, h3, h4, h5, h6⟩
        cases g <;> first | rfl | contradiction | exact q2 _ ⟨h1, h2, h3, h4, h5, h6⟩
      · rfl
      · rfl
      · rfl
      · show (if junk ≠ 0 then (1 : ℤ) else q.i .comp_dual_sol_eq) = _
        rw [hq5]
        by_cases hz : junk ≠ 0
        · rw [if_pos hz, if_pos (Or.inl hz)]
        · rw [if_neg hz]
          by_cases hy : junkIn ≠ 0
          · rw [if_pos hy, if_pos (Or.inr hy)]
          · rw [if_neg hy, if_neg (by tauto)]

example (a : QArg ℚ) : ∃ d, tqargSetDefault 0 9 1 a = .ok d ∧ d.qp.i .comp_res_exit = 9 ∧ d.qp.r .res_g_max = 1 / 10 ^ 8 :=
  ⟨_, rfl, rfl, rfl⟩

end
end Hpipm
