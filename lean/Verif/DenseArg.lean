/-
C92: the arguments of the dense QP solver, `struct DENSE_QP_IPM_ARG` (include/hpipm_d_dense_qp_ipm.h:61-99), and of the tree OCP QP
solver, `struct TREE_OCP_QP_IPM_ARG` (include/hpipm_d_tree_ocp_qp_ipm.h:60-92): setters, getters, defaults.

Simplification: values behind `void *` are typed (`CVal`); passing the wrong type is the outcome `ub`, `exit(1)` the outcome `exit`.
-/
import Verif.ArgProps

namespace Hpipm

/-! ### model: dense -/

/-- the `REAL` fields of `struct DENSE_QP_IPM_ARG` -/
inductive DRArg
  | mu0 | alpha_min | res_g_max | res_b_max | res_d_max | res_m_max | dual_gap_max | reg_prim | reg_dual
  | lam_min | t_min | tau_min | lam0_min | t0_min | m_safe
deriving DecidableEq

/-- the `int` fields of `struct DENSE_QP_IPM_ARG` -/
inductive DIArg
  | iter_max | stat_max | pred_corr | cond_pred_corr | scale | itref_pred_max | itref_corr_max | warm_start
  | lq_fact | abs_form | comp_res_exit | comp_res_pred | kkt_fact_alg | remove_lin_dep_eq | compute_obj
  | split_step | t_lam_min | t0_init | update_fact_exit | mode
deriving DecidableEq

/-- `struct DENSE_QP_IPM_ARG` -/
structure DSolArg (K : Type*) where
  r : DRArg → K
  i : DIArg → ℤ

section
variable {K : Type*}

/-- assignment to a `REAL` field -/
def DSolArg.setR (a : DSolArg K) (f : DRArg) (x : K) : DSolArg K := { a with r := fun g => if g = f then x else a.r g }

/-- assignment to an `int` field -/
def DSolArg.setI (a : DSolArg K) (f : DIArg) (z : ℤ) : DSolArg K := { a with i := fun g => if g = f then z else a.i g }

/-- the `REAL *` setters, dense_qp/x_dense_qp_ipm.c:405-616 -/
def dargReal (f : DRArg) (v : CVal K) (a : DSolArg K) : Out (DSolArg K) :=
  match v with
  | .real x => .ok (a.setR f x)
  | .int _ => .ub

/-- the `int *` setters, dense_qp/x_dense_qp_ipm.c:398-616 -/
def dargInt (f : DIArg) (v : CVal K) (a : DSolArg K) : Out (DSolArg K) :=
  match v with
  | .int z => .ok (a.setI f z)
  | .real _ => .ub

/-- DENSE_QP_IPM_ARG_SET, dense_qp/x_dense_qp_ipm.c:272-396, with the setters 398-616 -/
def dargSet (field : String) (v : CVal K) (a : DSolArg K) : Out (DSolArg K) :=
  if field = "iter_max" then dargInt .iter_max v a
  else if field = "alpha_min" then dargReal .alpha_min v a
  else if field = "mu0" then dargReal .mu0 v a
  else if field = "tol_stat" then dargReal .res_g_max v a
  else if field = "tol_eq" then dargReal .res_b_max v a
  else if field = "tol_ineq" then dargReal .res_d_max v a
  else if field = "tol_comp" then dargReal .res_m_max v a
  else if field = "tol_dual_gap" then dargReal .dual_gap_max v a
  else if field = "reg_prim" then dargReal .reg_prim v a
  else if field = "reg_dual" then dargReal .reg_dual v a
  else if field = "warm_start" then dargInt .warm_start v a
  else if field = "pred_corr" then dargInt .pred_corr v a
  else if field = "cond_pred_corr" then dargInt .cond_pred_corr v a
  else if field = "comp_res_exit" then dargInt .comp_res_exit v a
  else if field = "comp_res_pred" then dargInt .comp_res_pred v a
  else if field = "lam_min" then dargReal .lam_min v a
  else if field = "t_min" then dargReal .t_min v a
  else if field = "tau_min" then dargReal .tau_min v a
  else if field = "lam0_min" then dargReal .lam0_min v a
  else if field = "t0_min" then dargReal .t0_min v a
  else if field = "kkt_fact_alg" then dargInt .kkt_fact_alg v a
  else if field = "remove_lin_dep_eq" then dargInt .remove_lin_dep_eq v a
  else if field = "compute_obj" then dargInt .compute_obj v a
  else if field = "split_step" then dargInt .split_step v a
  else if field = "m_safe" then dargReal .m_safe v a
  else if field = "t_lam_min" then dargInt .t_lam_min v a
  else if field = "t0_init" then dargInt .t0_init v a
  else if field = "update_fact_exit" then dargInt .update_fact_exit v a
  else .exit

/-- DENSE_QP_IPM_ARG_GET, dense_qp/x_dense_qp_ipm.c:620-658 -/
def dargGet (field : String) (a : DSolArg K) : Out K :=
  if field = "lam0_min" then .ok (a.r .lam0_min)
  else if field = "t0_min" then .ok (a.r .t0_min)
  else .exit

variable [Field K]

/-- DENSE_QP_IPM_ARG_SET_DEFAULT, dense_qp/x_dense_qp_ipm.c:67-268: the locals that differ between modes are those of the OCP solver
(`argDef`; `comp` is comp_res_exit), the others are the same in all four branches -/
def dargSetDefault (mode : ℤ) (a : DSolArg K) : Out (DSolArg K) :=
  match (argDef mode : Option (ArgDef K)) with
  | none => .exit
  | some p =>
    let a := a.setR .mu0 p.mu0
    let a := a.setR .alpha_min (1 / 10 ^ 12)
    let a := a.setR .res_g_max p.res_g_max
    let a := a.setR .res_b_max p.res_b_max
    let a := a.setR .res_d_max p.res_d_max
    let a := a.setR .res_m_max (1 / 10 ^ 8)
    let a := a.setR .dual_gap_max (10 ^ 15)
    let a := a.setI .iter_max p.iter_max
    let a := a.setI .stat_max p.iter_max
    let a := a.setI .pred_corr 1
    let a := a.setI .cond_pred_corr 1
    let a := a.setI .itref_pred_max 0
    let a := a.setI .itref_corr_max p.itref_corr_max
    let a := a.setR .reg_prim (1 / 10 ^ 15)
    let a := a.setR .reg_dual (1 / 10 ^ 15)
    let a := a.setI .lq_fact p.lq_fact
    let a := a.setI .scale 0
    let a := a.setR .lam_min (1 / 10 ^ 16)
    let a := a.setR .t_min (1 / 10 ^ 16)
    let a := a.setR .tau_min (1 / 10 ^ 16)
    let a := a.setR .lam0_min (1 / 10 ^ 9)
    let a := a.setR .t0_min (1 / 10 ^ 9)
    let a := a.setI .warm_start 0
    let a := a.setI .abs_form p.abs_form
    let a := a.setI .comp_res_exit p.comp
    let a := a.setI .comp_res_pred 0
    let a := a.setI .kkt_fact_alg 1
    let a := a.setI .mode mode
    let a := a.setI .remove_lin_dep_eq 0
    let a := a.setI .compute_obj 0
    let a := a.setI .split_step p.split_step
    let a := a.setR .m_safe p.m_safe
    let a := a.setI .t_lam_min 2
    let a := a.setI .t0_init 2
    let a := a.setI .update_fact_exit 1
    .ok a

end

/-! ### model: tree

`struct TREE_OCP_QP_IPM_ARG` has the fields of `IpmArg` except square_root_alg, comp_res_pred, var_init_scheme and
update_fact_exit; the model keeps these four slots and never writes them. -/

section
variable {K : Type*}

/-- TREE_OCP_QP_IPM_ARG_SET, tree_ocp_qp/x_tree_ocp_qp_ipm.c:250-344, with the setters 348-522; SET_COMP_RES_EXIT is that of the OCP
solver -/
def targSet (field : String) (v : CVal K) (a : IpmArg K) : Out (IpmArg K) :=
  if field = "iter_max" then argInt .iter_max v a
  else if field = "alpha_min" then argReal .alpha_min v a
  else if field = "mu0" then argReal .mu0 v a
  else if field = "tol_stat" then argReal .res_g_max v a
  else if field = "tol_eq" then argReal .res_b_max v a
  else if field = "tol_ineq" then argReal .res_d_max v a
  else if field = "tol_comp" then argReal .res_m_max v a
  else if field = "tol_dual_gap" then argReal .dual_gap_max v a
  else if field = "reg_prim" then argReal .reg_prim v a
  else if field = "warm_start" then argInt .warm_start v a
  else if field = "pred_corr" then argInt .pred_corr v a
  else if field = "cond_pred_corr" then argInt .cond_pred_corr v a
  else if field = "comp_res_exit" then
    match v with
    | .int z => .ok (argSetCompResExit z a)
    | .real _ => .ub
  else if field = "lam_min" then argReal .lam_min v a
  else if field = "t_min" then argReal .t_min v a
  else if field = "tau_min" then argReal .tau_min v a
  else if field = "split_step" then argInt .split_step v a
  else if field = "m_safe" then argReal .m_safe v a
  else if field = "t_lam_min" then argInt .t_lam_min v a
  else .exit

variable [Field K]

/-- TREE_OCP_QP_IPM_ARG_SET_DEFAULT, tree_ocp_qp/x_tree_ocp_qp_ipm.c:60-246.  `junk` is the value of the local variable
`comp_res_pred`, which is declared (line 64), never assigned (its assignments 93, 127, 161, 195 are commented out) and passed to
SET_COMP_RES_EXIT (line 236). -/
def targSetDefault (junk : ℤ) (mode : ℤ) (a : IpmArg K) : Out (IpmArg K) :=
  match (argDef mode : Option (ArgDef K)) with
  | none => .exit
  | some p =>
    let a := a.setR .mu0 p.mu0
    let a := a.setR .alpha_min (1 / 10 ^ 12)
    let a := a.setR .res_g_max p.res_g_max
    let a := a.setR .res_b_max p.res_b_max
    let a := a.setR .res_d_max p.res_d_max
    let a := a.setR .res_m_max (1 / 10 ^ 8)
    let a := a.setR .dual_gap_max (10 ^ 15)
    let a := a.setI .iter_max p.iter_max
    let a := a.setI .stat_max p.iter_max
    let a := a.setI .pred_corr 1
    let a := a.setI .cond_pred_corr 1
    let a := a.setI .itref_pred_max 0
    let a := a.setI .itref_corr_max p.itref_corr_max
    let a := a.setR .reg_prim (1 / 10 ^ 15)
    let a := a.setI .lq_fact p.lq_fact
    let a := a.setR .lam_min (1 / 10 ^ 16)
    let a := a.setR .t_min (1 / 10 ^ 16)
    let a := a.setR .tau_min (1 / 10 ^ 16)
    let a := a.setR .lam0_min (1 / 10 ^ 9)
    let a := a.setR .t0_min (1 / 10 ^ 9)
    let a := a.setI .warm_start 0
    let a := a.setI .abs_form p.abs_form
    let a := a.setI .comp_dual_sol_eq p.comp
    let a := argSetCompResExit junk a
    let a := a.setI .split_step p.split_step
    let a := a.setR .m_safe p.m_safe
    let a := a.setI .t_lam_min 2
    let a := a.setI .t0_init 2
    let a := a.setI .mode mode
    .ok a

end

/-! ### specification -/

/-- the documented option names of the dense solver and the setting each one stands for -/
def dargTable : List (String × (DRArg ⊕ DIArg)) :=
  [("iter_max", .inr .iter_max), ("alpha_min", .inl .alpha_min), ("mu0", .inl .mu0),
   ("tol_stat", .inl .res_g_max), ("tol_eq", .inl .res_b_max), ("tol_ineq", .inl .res_d_max),
   ("tol_comp", .inl .res_m_max), ("tol_dual_gap", .inl .dual_gap_max), ("reg_prim", .inl .reg_prim), ("reg_dual", .inl .reg_dual),
   ("warm_start", .inr .warm_start), ("pred_corr", .inr .pred_corr),
   ("cond_pred_corr", .inr .cond_pred_corr), ("comp_res_exit", .inr .comp_res_exit),
   ("comp_res_pred", .inr .comp_res_pred), ("lam_min", .inl .lam_min), ("t_min", .inl .t_min),
   ("tau_min", .inl .tau_min), ("lam0_min", .inl .lam0_min), ("t0_min", .inl .t0_min),
   ("kkt_fact_alg", .inr .kkt_fact_alg), ("remove_lin_dep_eq", .inr .remove_lin_dep_eq), ("compute_obj", .inr .compute_obj),
   ("split_step", .inr .split_step), ("m_safe", .inl .m_safe), ("t_lam_min", .inr .t_lam_min),
   ("t0_init", .inr .t0_init), ("update_fact_exit", .inr .update_fact_exit)]

/-- the option names of the tree solver: those of the OCP solver without the ones its structure does not have, and without
comp_dual_sol_eq, lam0_min, t0_min, t0_init, which it has but which cannot be set by name -/
def targTable : List (String × (RArg ⊕ IArg)) :=
  argTable.filter fun p =>
    p.1 ≠ "ric_alg" ∧ p.1 ≠ "comp_dual_sol_eq" ∧ p.1 ≠ "comp_res_pred" ∧ p.1 ≠ "lam0_min" ∧ p.1 ≠ "t0_min" ∧
      p.1 ≠ "var_init_scheme" ∧ p.1 ≠ "t0_init" ∧ p.1 ≠ "update_fact_exit"

/-- a history of option calls of the dense solver; it ends at the first call that does not succeed -/
def dargRun {K : Type*} : List (String × CVal K) → DSolArg K → Out (DSolArg K)
  | [], a => .ok a
  | (n, v) :: l, a =>
    match dargSet n v a with
    | .ok a' => dargRun l a'
    | .exit => .exit
    | .ub => .ub

/-! ### dense: theorems -/

section
variable {K : Type*}

/-- a call with a name and value of the table -/
theorem dargSet_table (n : String) (f : DRArg ⊕ DIArg) (h : (n, f) ∈ dargTable) (v : CVal K) (a : DSolArg K) :
    dargSet n v a = match f with
      | .inl f => dargReal f v a
      | .inr f => dargInt f v a := by
  simp only [dargTable, List.mem_cons, Prod.mk.injEq, List.not_mem_nil, or_false] at h
  rcases h with ⟨rfl, rfl⟩ | ⟨rfl, rfl⟩ | ⟨rfl, rfl⟩ | ⟨rfl, rfl⟩ | ⟨rfl, rfl⟩ | ⟨rfl, rfl⟩ | ⟨rfl, rfl⟩ |
    ⟨rfl, rfl⟩ | ⟨rfl, rfl⟩ | ⟨rfl, rfl⟩ | ⟨rfl, rfl⟩ | ⟨rfl, rfl⟩ | ⟨rfl, rfl⟩ | ⟨rfl, rfl⟩ | ⟨rfl, rfl⟩ | ⟨rfl, rfl⟩ |
    ⟨rfl, rfl⟩ | ⟨rfl, rfl⟩ | ⟨rfl, rfl⟩ | ⟨rfl, rfl⟩ | ⟨rfl, rfl⟩ | ⟨rfl, rfl⟩ | ⟨rfl, rfl⟩ | ⟨rfl, rfl⟩ | ⟨rfl, rfl⟩ |
    ⟨rfl, rfl⟩ | ⟨rfl, rfl⟩ | ⟨rfl, rfl⟩
  all_goals rfl

/-- **C92** a real option of the dense solver: the call succeeds, the setting has the new value, nothing else changed. -/
theorem dargSet_real (n : String) (f : DRArg) (h : (n, Sum.inl f) ∈ dargTable) (x : K) (a : DSolArg K) :
    ∃ a', dargSet n (.real x) a = .ok a' ∧ a'.r f = x ∧ (∀ g, g ≠ f → a'.r g = a.r g) ∧ ∀ g, a'.i g = a.i g := by
  rw [dargSet_table n _ h]
  exact ⟨a.setR f x, rfl, if_pos rfl, fun g hg => if_neg hg, fun g => rfl⟩

example : ("reg_dual", Sum.inl DRArg.reg_dual) ∈ dargTable := by simp [dargTable]

/-- **C92** an integer option of the dense solver. -/
theorem dargSet_int (n : String) (f : DIArg) (h : (n, Sum.inr f) ∈ dargTable) (z : ℤ) (a : DSolArg K) :
    ∃ a', dargSet n (.int z) a = .ok a' ∧ a'.i f = z ∧ (∀ g, g ≠ f → a'.i g = a.i g) ∧ ∀ g, a'.r g = a.r g := by
  rw [dargSet_table n _ h]
  exact ⟨a.setI f z, rfl, if_pos rfl, fun g hg => if_neg hg, fun g => rfl⟩

example : ("remove_lin_dep_eq", Sum.inr DIArg.remove_lin_dep_eq) ∈ dargTable := by simp [dargTable]

/-- **C92** A value read through a pointer of the other type is undefined behaviour, not an error the caller is told about. -/
theorem dargSet_confused (n : String) (a : DSolArg K) :
    (∀ f (z : ℤ), (n, Sum.inl f) ∈ dargTable → dargSet n (.int z) a = .ub) ∧
    (∀ f (x : K), (n, Sum.inr f) ∈ dargTable → dargSet n (.real x) a = .ub) :=
  ⟨fun f z h => by rw [dargSet_table n _ h]; rfl, fun f x h => by rw [dargSet_table n _ h]; rfl⟩

example (a : DSolArg ℚ) : dargSet "iter_max" (.real 3) a = .ub := (dargSet_confused "iter_max" a).2 .iter_max 3 (by simp [dargTable])

/-- **C92** every other name is rejected. -/
theorem dargSet_unknown (n : String) (h : ∀ f, (n, f) ∉ dargTable) (v : CVal K) (a : DSolArg K) : dargSet n v a = .exit := by
  have hh : ∀ m ∈ dargTable.map Prod.fst, n ≠ m := by
    intro m hm e
    obtain ⟨⟨m', f⟩, hmf, rfl⟩ := List.mem_map.1 hm
    exact h f (e ▸ hmf)
  simp only [dargTable, List.map_cons, List.map_nil, List.mem_cons, List.not_mem_nil, or_false,
    forall_eq_or_imp, forall_eq] at hh
  simp only [dargSet, hh, if_false]

example : ∀ f, ("lq_fact", f) ∉ dargTable := by
  intro f; simp [dargTable]

/-- a successful call names an option and passes a value of its type -/
theorem dargSet_type (n : String) (v : CVal K) (a a' : DSolArg K) (h : dargSet n v a = .ok a') :
    (∃ f x, (n, Sum.inl f) ∈ dargTable ∧ v = .real x) ∨ ∃ f z, (n, Sum.inr f) ∈ dargTable ∧ v = .int z := by
  by_cases hn : ∃ f, (n, f) ∈ dargTable
  · obtain ⟨f | f, hf⟩ := hn
    · cases v with
      | real x => exact Or.inl ⟨f, x, hf, rfl⟩
      | int z => rw [dargSet_table n _ hf] at h; cases h
    · cases v with
      | int z => exact Or.inr ⟨f, z, hf, rfl⟩
      | real z => rw [dargSet_table n _ hf] at h; cases h
  · rw [dargSet_unknown n (fun f hf => hn ⟨f, hf⟩)] at h
    cases h

example (a : DSolArg ℚ) : ∃ a', dargSet "kkt_fact_alg" (.int 0) a = .ok a' := ⟨_, rfl⟩

theorem dargTable_inj : ∀ p ∈ dargTable, ∀ q ∈ dargTable, p.2 = q.2 → p.1 = q.1 := by decide

theorem dargRun_append (l₁ l₂ : List (String × CVal K)) (a : DSolArg K) :
    dargRun (l₁ ++ l₂) a = match dargRun l₁ a with
      | .ok a' => dargRun l₂ a'
      | .exit => .exit
      | .ub => .ub := by
  induction l₁ generalizing a with
  | nil => rfl
  | cons p l ih =>
    obtain ⟨n, v⟩ := p
    simp only [List.cons_append, dargRun]
    cases dargSet n v a <;> simp [ih]

/-- calls that do not name an option leave its setting alone -/
theorem dargRun_frame (l : List (String × CVal K)) (n : String) (hl : ∀ p ∈ l, p.1 ≠ n) (a a' : DSolArg K) (h : dargRun l a = .ok a') :
    (∀ f, (n, Sum.inl f) ∈ dargTable → a'.r f = a.r f) ∧ ∀ f, (n, Sum.inr f) ∈ dargTable → a'.i f = a.i f := by
  induction l generalizing a with
  | nil => cases h; exact ⟨fun _ _ => rfl, fun _ _ => rfl⟩
  | cons p l ih =>
    obtain ⟨m, v⟩ := p
    simp only [dargRun] at h
    cases hs : dargSet m v a with
    | exit => rw [hs] at h; cases h
    | ub => rw [hs] at h; cases h
    | ok b =>
      rw [hs] at h
      have hm : m ≠ n := hl (m, v) (by simp)
      obtain ⟨i1, i2⟩ := ih (fun q hq => hl q (by simp [hq])) b h
      rcases dargSet_type m v a b hs with ⟨g, x, hg, rfl⟩ | ⟨g, z, hg, rfl⟩
      · obtain ⟨b', hb', _, hfr, hi⟩ := dargSet_real m g hg x a
        rw [hs] at hb'; cases hb'
        exact ⟨fun f hf => by rw [i1 f hf, hfr f (fun e => hm (by subst e; exact dargTable_inj _ hg _ hf rfl))],
          fun f hf => by rw [i2 f hf, hi f]⟩
      · obtain ⟨b', hb', _, hfr, hr⟩ := dargSet_int m g hg z a
        rw [hs] at hb'; cases hb'
        exact ⟨fun f hf => by rw [i1 f hf, hr f],
          fun f hf => by rw [i2 f hf, hfr f (fun e => hm (by subst e; exact dargTable_inj _ hg _ hf rfl))]⟩

/-- **C92** history form: after any successful history of calls an option of the dense solver holds the value of the last call
naming it. -/
theorem darg_last (pre post : List (String × CVal K)) (n : String) (v : CVal K) (hl : ∀ p ∈ post, p.1 ≠ n) (a a' : DSolArg K)
    (h : dargRun (pre ++ (n, v) :: post) a = .ok a') :
    (∃ f x, (n, Sum.inl f) ∈ dargTable ∧ v = .real x ∧ a'.r f = x) ∨
    ∃ f z, (n, Sum.inr f) ∈ dargTable ∧ v = .int z ∧ a'.i f = z := by
  rw [dargRun_append] at h
  cases hp : dargRun pre a with
  | exit => rw [hp] at h; cases h
  | ub => rw [hp] at h; cases h
  | ok b =>
    rw [hp] at h
    simp only [dargRun] at h
    cases hs : dargSet n v b with
    | exit => rw [hs] at h; cases h
    | ub => rw [hs] at h; cases h
    | ok c =>
      rw [hs] at h
      obtain ⟨f1, f2⟩ := dargRun_frame post n hl c a' h
      rcases dargSet_type n v b c hs with ⟨g, x, hg, rfl⟩ | ⟨g, z, hg, rfl⟩
      · obtain ⟨b', hb', hv, _⟩ := dargSet_real n g hg x b
        rw [hs] at hb'; cases hb'
        exact Or.inl ⟨g, x, hg, rfl, by rw [f1 g hg, hv]⟩
      · obtain ⟨b', hb', hv, _⟩ := dargSet_int n g hg z b
        rw [hs] at hb'; cases hb'
        exact Or.inr ⟨g, z, hg, rfl, by rw [f2 g hg, hv]⟩

example (a : DSolArg ℚ) : ∃ a', dargRun ([("reg_dual", .real 5), ("iter_max", .int 7)] ++
    ("reg_dual", .real (1 : ℚ)) :: [("remove_lin_dep_eq", .int 1)]) a = .ok a' ∧ a'.r .reg_dual = 1 ∧ a'.i .iter_max = 7 :=
  ⟨_, rfl, rfl, rfl⟩

/-- **C92** get after set for the two options of the dense solver that can be read back. -/
theorem darg_get_set (n : String) (hn : n = "lam0_min" ∨ n = "t0_min") (x : K) (a a' : DSolArg K)
    (h : dargSet n (.real x) a = .ok a') : dargGet n a' = .ok x := by
  rcases hn with rfl | rfl <;> (cases h; rfl)

example (a : DSolArg ℚ) : ∃ a', dargSet "lam0_min" (.real 3) a = .ok a' := ⟨_, rfl⟩

end

/-- the documented defaults of the real settings of the dense solver -/
def ddefReal {K : Type*} [Field K] (mode : ℤ) : DRArg → K
  | .mu0 => if mode = 3 then 100 else 10
  | .alpha_min => 1 / 10 ^ 12
  | .res_g_max => if mode = 0 then 1 else 1 / 10 ^ 6
  | .res_b_max => if mode = 0 then 1 else 1 / 10 ^ 8
  | .res_d_max => if mode = 0 then 1 else 1 / 10 ^ 8
  | .res_m_max => 1 / 10 ^ 8
  | .dual_gap_max => 10 ^ 15
  | .reg_prim => 1 / 10 ^ 15
  | .reg_dual => 1 / 10 ^ 15
  | .lam_min => 1 / 10 ^ 16
  | .t_min => 1 / 10 ^ 16
  | .tau_min => 1 / 10 ^ 16
  | .lam0_min => 1 / 10 ^ 9
  | .t0_min => 1 / 10 ^ 9
  | .m_safe => if mode = 0 ∨ mode = 1 then 3 / 10 else 1 / 2

/-- the documented defaults of the integer settings of the dense solver -/
def ddefInt (mode : ℤ) : DIArg → ℤ
  | .iter_max => if mode = 3 then 100 else if mode = 2 then 30 else 15
  | .stat_max => if mode = 3 then 100 else if mode = 2 then 30 else 15
  | .pred_corr => 1
  | .cond_pred_corr => 1
  | .scale => 0
  | .itref_pred_max => 0
  | .itref_corr_max => if mode = 3 then 8 else if mode = 2 then 2 else 0
  | .warm_start => 0
  | .lq_fact => if mode = 3 then 2 else if mode = 2 then 1 else 0
  | .abs_form => if mode = 0 then 1 else 0
  | .comp_res_exit => if mode = 0 then 0 else 1
  | .comp_res_pred => 0
  | .kkt_fact_alg => 1
  | .remove_lin_dep_eq => 0
  | .compute_obj => 0
  | .split_step => if mode = 0 ∨ mode = 1 then 1 else 0
  | .t_lam_min => 2
  | .t0_init => 2
  | .update_fact_exit => 1
  | .mode => mode

section
variable {K : Type*} [Field K]

/-- **C92** the defaults of the dense solver: exactly the four modes are accepted, and then every setting has its documented value,
whatever the object held before. -/
theorem dargSetDefault_values (mode : ℤ) (a : DSolArg K) :
    (0 ≤ mode ∧ mode ≤ 3 → dargSetDefault mode a = .ok ⟨ddefReal mode, ddefInt mode⟩) ∧
    (¬ (0 ≤ mode ∧ mode ≤ 3) → dargSetDefault mode a = .exit) := by
  constructor
  · intro hm
    have hr : ∀ (x y : DSolArg K), (∀ f, x.r f = y.r f) → (∀ f, x.i f = y.i f) → x = y := by
      rintro ⟨r, i⟩ ⟨r', i'⟩ h1 h2
      rw [show r = r' from funext h1, show i = i' from funext h2]
    have : mode = 0 ∨ mode = 1 ∨ mode = 2 ∨ mode = 3 := by omega
    rcases this with rfl | rfl | rfl | rfl
    all_goals
      refine congrArg Out.ok (hr _ _ ?_ ?_)
      · intro f; cases f <;> rfl
      · intro f; cases f <;> rfl
  · intro hm
    have : (argDef mode : Option (ArgDef K)) = none := by
      unfold argDef
      rw [if_neg (by omega), if_neg (by omega), if_neg (by omega), if_neg (by omega)]
    unfold dargSetDefault
    rw [this]

example (a : DSolArg ℚ) : dargSetDefault 2 a = .ok ⟨ddefReal 2, ddefInt 2⟩ := (dargSetDefault_values 2 a).1 (by decide)

end

/-! ### tree: theorems -/

section
variable {K : Type*}

theorem targTable_eq : targTable =
  [("iter_max", .inr .iter_max), ("alpha_min", .inl .alpha_min), ("mu0", .inl .mu0),
   ("tol_stat", .inl .res_g_max), ("tol_eq", .inl .res_b_max), ("tol_ineq", .inl .res_d_max),
   ("tol_comp", .inl .res_m_max), ("tol_dual_gap", .inl .dual_gap_max), ("reg_prim", .inl .reg_prim),
   ("warm_start", .inr .warm_start), ("pred_corr", .inr .pred_corr),
   ("cond_pred_corr", .inr .cond_pred_corr), ("comp_res_exit", .inr .comp_res_exit),
   ("lam_min", .inl .lam_min), ("t_min", .inl .t_min), ("tau_min", .inl .tau_min),
   ("split_step", .inr .split_step), ("m_safe", .inl .m_safe), ("t_lam_min", .inr .t_lam_min)] := by decide

/-- **C92** on its option names the tree solver's setter does exactly what the OCP solver's does (hence C34 holds for it); every
other name is rejected. -/
theorem targSet_eq (n : String) (v : CVal K) (a : IpmArg K) :
    ((∃ f, (n, f) ∈ targTable) → targSet n v a = argSet n v a) ∧ ((∀ f, (n, f) ∉ targTable) → targSet n v a = .exit) := by
  constructor
  · rintro ⟨f, h⟩
    simp only [targTable_eq, List.mem_cons, Prod.mk.injEq, List.not_mem_nil, or_false] at h
    rcases h with ⟨rfl, -⟩ | ⟨rfl, -⟩ | ⟨rfl, -⟩ | ⟨rfl, -⟩ | ⟨rfl, -⟩ | ⟨rfl, -⟩ | ⟨rfl, -⟩ |
      ⟨rfl, -⟩ | ⟨rfl, -⟩ | ⟨rfl, -⟩ | ⟨rfl, -⟩ | ⟨rfl, -⟩ | ⟨rfl, -⟩ | ⟨rfl, -⟩ | ⟨rfl, -⟩ | ⟨rfl, -⟩ |
      ⟨rfl, -⟩ | ⟨rfl, -⟩ | ⟨rfl, -⟩
    all_goals rfl
  · intro h
    have hh : ∀ m ∈ targTable.map Prod.fst, n ≠ m := by
      intro m hm e
      obtain ⟨⟨m', f⟩, hmf, rfl⟩ := List.mem_map.1 hm
      exact h f (e ▸ hmf)
    simp only [targTable_eq, List.map_cons, List.map_nil, List.mem_cons, List.not_mem_nil, or_false,
      forall_eq_or_imp, forall_eq] at hh
    simp only [targSet, hh, if_false]

/-- **C92** a real option of the tree solver. -/
theorem targSet_real (n : String) (f : RArg) (h : (n, Sum.inl f) ∈ targTable) (x : K) (a : IpmArg K) :
    ∃ a', targSet n (.real x) a = .ok a' ∧ a'.r f = x ∧ (∀ g, g ≠ f → a'.r g = a.r g) ∧ ∀ g, a'.i g = a.i g := by
  rw [(targSet_eq n _ a).1 ⟨_, h⟩]
  exact argSet_real n f (List.mem_of_mem_filter h) x a

/-- **C92** an integer option of the tree solver. -/
theorem targSet_int (n : String) (f : IArg) (h : (n, Sum.inr f) ∈ targTable) (z : ℤ) (a : IpmArg K) :
    ∃ a', targSet n (.int z) a = .ok a' ∧ a'.i f = z ∧
      (∀ g, g ≠ f → ¬ (f = .comp_res_exit ∧ z ≠ 0 ∧ g = .comp_dual_sol_eq) → a'.i g = a.i g) ∧
      (f = .comp_res_exit → z ≠ 0 → a'.i .comp_dual_sol_eq = 1) ∧ ∀ g, a'.r g = a.r g := by
  rw [(targSet_eq n _ a).1 ⟨_, h⟩]
  exact argSet_int n f (List.mem_of_mem_filter h) z a

example : ("tol_eq", Sum.inl RArg.res_b_max) ∈ targTable ∧ ("t_lam_min", Sum.inr IArg.t_lam_min) ∈ targTable ∧
    ∀ f, ("t0_init", f) ∉ targTable := by
  rw [targTable_eq]
  exact ⟨by simp, by simp, fun f => by simp⟩

variable [Field K]

/-- the settings of the tree solver that its structure has and that its default routine determines -/
def TFixed (g : IArg) : Prop :=
  g ≠ .comp_res_exit ∧ g ≠ .comp_dual_sol_eq ∧ g ≠ .square_root_alg ∧ g ≠ .comp_res_pred ∧ g ≠ .var_init_scheme ∧
    g ≠ .update_fact_exit

/-- **C92** the defaults of the tree solver: every setting but two has the documented value of the OCP solver; `comp_res_exit` is an
unassigned local variable (`junk`), and if that happens to be nonzero `comp_dual_sol_eq` is switched on as well. -/
theorem targSetDefault_values (junk : ℤ) (mode : ℤ) (a d : IpmArg K) (h : targSetDefault junk mode a = .ok d) :
    d.r = defReal mode ∧ (∀ g, TFixed g → d.i g = defInt mode g) ∧ d.i .comp_res_exit = junk ∧
    d.i .comp_dual_sol_eq = (if junk ≠ 0 then 1 else defInt mode .comp_dual_sol_eq) := by
  have hm : mode = 0 ∨ mode = 1 ∨ mode = 2 ∨ mode = 3 := by
    by_contra hm
    have : (argDef mode : Option (ArgDef K)) = none := by
      unfold argDef
      rw [if_neg (by omega), if_neg (by omega), if_neg (by omega), if_neg (by omega)]
    unfold targSetDefault at h
    rw [this] at h
    cases h
  by_cases hj : junk ≠ 0
  · rcases hm with rfl | rfl | rfl | rfl
    all_goals
      have hd := Out.ok.inj h
      unfold argSetCompResExit at hd
      simp only [if_pos hj] at hd
      rw [← hd]
      refine ⟨?_, ?_, rfl, (if_pos hj).symm⟩
      · funext f; cases f <;> rfl
      · rintro g ⟨h1, h2, h3, h4, h5, h6⟩
        cases g <;> first | rfl | contradiction
  · rcases hm with rfl | rfl | rfl | rfl
    all_goals
      have hd := Out.ok.inj h
      unfold argSetCompResExit at hd
      simp only [if_neg hj] at hd
      rw [← hd]
      refine ⟨?_, ?_, rfl, (if_neg hj).symm⟩
      · funext f; cases f <;> rfl
      · rintro g ⟨h1, h2, h3, h4, h5, h6⟩
        cases g <;> first | rfl | contradiction

example (a : IpmArg ℚ) : ∃ d, targSetDefault 5 1 a = .ok d := ⟨_, rfl⟩

/-- **finding** The defaults of the tree solver are not determined by the mode: they depend on what the stack held. -/
theorem targSetDefault_junk : ∃ j j' : ℤ, ∀ a : IpmArg ℚ, targSetDefault j 0 a ≠ targSetDefault j' 0 a := by
  refine ⟨0, 7, fun a h => ?_⟩
  have := congrArg (fun d : IpmArg ℚ => d.i .comp_dual_sol_eq) (Out.ok.inj h)
  exact absurd (show (0 : ℤ) = 1 from this) (by decide)

end
end Hpipm
