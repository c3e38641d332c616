/-
Properties of the solver arguments (C34).
-/
import Verif.Arg
import Mathlib.Data.Rat.Defs
import Mathlib.Tactic.NormNum
import Mathlib.Tactic.Positivity
import Mathlib.Algebra.Order.Field.Basic

namespace Hpipm

set_option linter.unusedSectionVars false

/-- specification: the documented option names (ocp_qp/x_ocp_qp_ipm.c:264-382, interfaces) and the
setting each one stands for, `inl` for reals and `inr` for integers -/
def argTable : List (String × (RArg ⊕ IArg)) :=
  [("iter_max", .inr .iter_max), ("alpha_min", .inl .alpha_min), ("mu0", .inl .mu0),
   ("tol_stat", .inl .res_g_max), ("tol_eq", .inl .res_b_max), ("tol_ineq", .inl .res_d_max),
   ("tol_comp", .inl .res_m_max), ("tol_dual_gap", .inl .dual_gap_max), ("reg_prim", .inl .reg_prim),
   ("warm_start", .inr .warm_start), ("pred_corr", .inr .pred_corr),
   ("cond_pred_corr", .inr .cond_pred_corr), ("ric_alg", .inr .square_root_alg),
   ("comp_dual_sol_eq", .inr .comp_dual_sol_eq), ("comp_res_exit", .inr .comp_res_exit),
   ("comp_res_pred", .inr .comp_res_pred), ("lam_min", .inl .lam_min), ("t_min", .inl .t_min),
   ("tau_min", .inl .tau_min), ("lam0_min", .inl .lam0_min), ("t0_min", .inl .t0_min),
   ("split_step", .inr .split_step), ("m_safe", .inl .m_safe),
   ("var_init_scheme", .inr .var_init_scheme), ("t_lam_min", .inr .t_lam_min),
   ("t0_init", .inr .t0_init), ("update_fact_exit", .inr .update_fact_exit)]

variable {K : Type*}

/-- **C34** a real option: the call succeeds, the setting has the new value, nothing else changed. -/
theorem argSet_real (n : String) (f : RArg) (h : (n, Sum.inl f) ∈ argTable) (x : K) (a : IpmArg K) :
    ∃ a', argSet n (.real x) a = .ok a' ∧ a'.r f = x ∧ (∀ g, g ≠ f → a'.r g = a.r g) ∧
      ∀ g, a'.i g = a.i g := by
  simp only [argTable, List.mem_cons, Prod.mk.injEq, List.not_mem_nil, or_false, reduceCtorEq,
    and_false, false_or, Sum.inl.injEq] at h
  rcases h with ⟨rfl, rfl⟩ | ⟨rfl, rfl⟩ | ⟨rfl, rfl⟩ | ⟨rfl, rfl⟩ | ⟨rfl, rfl⟩ | ⟨rfl, rfl⟩ | ⟨rfl, rfl⟩ |
    ⟨rfl, rfl⟩ | ⟨rfl, rfl⟩ | ⟨rfl, rfl⟩ | ⟨rfl, rfl⟩ | ⟨rfl, rfl⟩ | ⟨rfl, rfl⟩ | ⟨rfl, rfl⟩
  all_goals
    refine ⟨a.setR _ x, rfl, ?_, ?_, ?_⟩
    · simp [IpmArg.setR]
    · intro g hg; simp [IpmArg.setR, hg]
    · intro g; rfl

example : ("tol_eq", Sum.inl RArg.res_b_max) ∈ argTable := by simp [argTable]

/-- **C34** an integer option: the call succeeds, the setting has the new value, nothing else changed,
except that asking for residuals on exit also switches on the computation of the equality
multipliers. -/
theorem argSet_int (n : String) (f : IArg) (h : (n, Sum.inr f) ∈ argTable) (z : ℤ) (a : IpmArg K) :
    ∃ a', argSet n (.int z) a = .ok a' ∧ a'.i f = z ∧
      (∀ g, g ≠ f → ¬ (f = .comp_res_exit ∧ z ≠ 0 ∧ g = .comp_dual_sol_eq) → a'.i g = a.i g) ∧
      (f = .comp_res_exit → z ≠ 0 → a'.i .comp_dual_sol_eq = 1) ∧
      ∀ g, a'.r g = a.r g := by
  by_cases hf : f = .comp_res_exit
  · subst hf
    have hn : n = "comp_res_exit" := by
      simp only [argTable, List.mem_cons, Prod.mk.injEq, List.not_mem_nil, or_false, reduceCtorEq,
        and_false, false_or, Sum.inr.injEq, and_true] at h
      exact h
    subst hn
    refine ⟨argSetCompResExit z a, rfl, ?_, ?_, ?_, ?_⟩
    · unfold argSetCompResExit; by_cases hz : z = 0 <;> simp [IpmArg.setI, hz]
    · intro g hg hc
      unfold argSetCompResExit
      by_cases hz : z = 0
      · simp [IpmArg.setI, hz, hg]
      · have : g ≠ .comp_dual_sol_eq := fun e => hc ⟨rfl, hz, e⟩
        simp [IpmArg.setI, hz, hg, this]
    · intro _ hz; simp [argSetCompResExit, IpmArg.setI, hz]
    · intro g; unfold argSetCompResExit; by_cases hz : z = 0 <;> simp [IpmArg.setI, hz]
  · simp only [argTable, List.mem_cons, Prod.mk.injEq, List.not_mem_nil, or_false, reduceCtorEq,
      and_false, false_or, Sum.inr.injEq] at h
    rcases h with ⟨rfl, rfl⟩ | ⟨rfl, rfl⟩ | ⟨rfl, rfl⟩ | ⟨rfl, rfl⟩ | ⟨rfl, rfl⟩ | ⟨rfl, rfl⟩ | ⟨rfl, rfl⟩ |
      ⟨rfl, rfl⟩ | ⟨rfl, rfl⟩ | ⟨rfl, rfl⟩ | ⟨rfl, rfl⟩ | ⟨rfl, rfl⟩ | ⟨rfl, rfl⟩
    all_goals first
      | exact absurd rfl hf
      | (refine ⟨a.setI _ z, rfl, ?_, ?_, ?_, ?_⟩
         · simp [IpmArg.setI]
         · intro g hg _; simp [IpmArg.setI, hg]
         · intro e; exact absurd e (by decide)
         · intro g; rfl)

example : ("ric_alg", Sum.inr IArg.square_root_alg) ∈ argTable := by simp [argTable]

/-- a wrong option name is rejected -/
theorem argSet_unknown (n : String) (h : ∀ f, (n, f) ∉ argTable) (v : CVal K) (a : IpmArg K) :
    argSet n v a = .exit := by
  have hn : ∀ m : String, (∃ f, (m, f) ∈ argTable) → n ≠ m := by
    rintro m ⟨f, hm⟩ rfl; exact h f hm
  have hh : ∀ m ∈ argTable.map Prod.fst, n ≠ m := by
    intro m hm
    obtain ⟨⟨m', f⟩, hmf, rfl⟩ := List.mem_map.1 hm
    exact hn _ ⟨f, hmf⟩
  simp only [argTable, List.map_cons, List.map_nil, List.mem_cons, List.not_mem_nil, or_false,
    forall_eq_or_imp, forall_eq] at hh
  simp only [argSet, hh, if_false]

example : ∀ f, ("mode", f) ∉ argTable := by
  intro f; simp [argTable]

/-- an `int` passed for a real option is undefined behaviour -/
theorem argSet_real_ub (n : String) (f : RArg) (h : (n, Sum.inl f) ∈ argTable) (z : ℤ) (a : IpmArg K) :
    argSet n (.int z) a = .ub := by
  simp only [argTable, List.mem_cons, Prod.mk.injEq, List.not_mem_nil, or_false, reduceCtorEq,
    and_false, false_or, Sum.inl.injEq] at h
  rcases h with ⟨rfl, rfl⟩ | ⟨rfl, rfl⟩ | ⟨rfl, rfl⟩ | ⟨rfl, rfl⟩ | ⟨rfl, rfl⟩ | ⟨rfl, rfl⟩ | ⟨rfl, rfl⟩ |
    ⟨rfl, rfl⟩ | ⟨rfl, rfl⟩ | ⟨rfl, rfl⟩ | ⟨rfl, rfl⟩ | ⟨rfl, rfl⟩ | ⟨rfl, rfl⟩ | ⟨rfl, rfl⟩
  all_goals rfl

/-- a `REAL` passed for an integer option is undefined behaviour -/
theorem argSet_int_ub (n : String) (f : IArg) (h : (n, Sum.inr f) ∈ argTable) (x : K) (a : IpmArg K) :
    argSet n (.real x) a = .ub := by
  simp only [argTable, List.mem_cons, Prod.mk.injEq, List.not_mem_nil, or_false, reduceCtorEq,
    and_false, false_or, Sum.inr.injEq] at h
  rcases h with ⟨rfl, rfl⟩ | ⟨rfl, rfl⟩ | ⟨rfl, rfl⟩ | ⟨rfl, rfl⟩ | ⟨rfl, rfl⟩ | ⟨rfl, rfl⟩ | ⟨rfl, rfl⟩ |
    ⟨rfl, rfl⟩ | ⟨rfl, rfl⟩ | ⟨rfl, rfl⟩ | ⟨rfl, rfl⟩ | ⟨rfl, rfl⟩ | ⟨rfl, rfl⟩
  all_goals rfl

/-- passing a value of the wrong type is undefined behaviour, never a silent success -/
theorem argSet_type (n : String) (v : CVal K) (a a' : IpmArg K) (h : argSet n v a = .ok a') :
    (∃ f x, (n, Sum.inl f) ∈ argTable ∧ v = .real x) ∨
      ∃ f z, (n, Sum.inr f) ∈ argTable ∧ v = .int z := by
  by_cases hn : ∃ f, (n, f) ∈ argTable
  · obtain ⟨f | f, hf⟩ := hn
    · cases v with
      | real x => exact Or.inl ⟨f, x, hf, rfl⟩
      | int z => rw [argSet_real_ub n f hf] at h; cases h
    · cases v with
      | int z => exact Or.inr ⟨f, z, hf, rfl⟩
      | real z => rw [argSet_int_ub n f hf] at h; cases h
  · rw [argSet_unknown n (fun f hf => hn ⟨f, hf⟩)] at h
    cases h

example (a : IpmArg ℚ) : ∃ a', argSet "t_lam_min" (.int 2) a = .ok a' := ⟨_, rfl⟩

/-- a history of option calls; it ends at the first call that does not succeed -/
def argRun : List (String × CVal K) → IpmArg K → Out (IpmArg K)
  | [], a => .ok a
  | (n, v) :: l, a =>
    match argSet n v a with
    | .ok a' => argRun l a'
    | .exit => .exit
    | .ub => .ub

/-- table entries determine each other -/
theorem argTable_inj : ∀ p ∈ argTable, ∀ q ∈ argTable, p.2 = q.2 → p.1 = q.1 := by decide

theorem argRun_append (l₁ l₂ : List (String × CVal K)) (a : IpmArg K) :
    argRun (l₁ ++ l₂) a = match argRun l₁ a with
      | .ok a' => argRun l₂ a'
      | .exit => .exit
      | .ub => .ub := by
  induction l₁ generalizing a with
  | nil => rfl
  | cons p l ih =>
    obtain ⟨n, v⟩ := p
    simp only [List.cons_append, argRun]
    cases argSet n v a <;> simp [ih]

/-- calls that do not name a real option leave it alone -/
theorem argRun_frame_real (l : List (String × CVal K)) (n : String) (f : RArg)
    (hf : (n, Sum.inl f) ∈ argTable) (hl : ∀ p ∈ l, p.1 ≠ n) (a a' : IpmArg K)
    (h : argRun l a = .ok a') : a'.r f = a.r f := by
  induction l generalizing a with
  | nil => cases h; rfl
  | cons p l ih =>
    obtain ⟨m, v⟩ := p
    simp only [argRun] at h
    cases hs : argSet m v a with
    | exit => rw [hs] at h; cases h
    | ub => rw [hs] at h; cases h
    | ok b =>
      rw [hs] at h
      have hm : m ≠ n := hl (m, v) (by simp)
      have hb : b.r f = a.r f := by
        rcases argSet_type m v a b hs with ⟨g, x, hg, rfl⟩ | ⟨g, z, hg, rfl⟩
        · obtain ⟨b', hb', _, hfr, _⟩ := argSet_real m g hg x a
          rw [hs] at hb'; cases hb'
          exact hfr f (fun e => hm (by subst e; exact argTable_inj _ hg _ hf rfl))
        · obtain ⟨b', hb', _, _, _, hr⟩ := argSet_int m g hg z a
          rw [hs] at hb'; cases hb'
          exact hr f
      rw [ih (fun q hq => hl q (by simp [hq])) b h, hb]

/-- calls that do not name an integer option leave it alone (for comp_dual_sol_eq also no call may
name comp_res_exit) -/
theorem argRun_frame_int (l : List (String × CVal K)) (n : String) (f : IArg)
    (hf : (n, Sum.inr f) ∈ argTable) (hl : ∀ p ∈ l, p.1 ≠ n)
    (hc : f = .comp_dual_sol_eq → ∀ p ∈ l, p.1 ≠ "comp_res_exit") (a a' : IpmArg K)
    (h : argRun l a = .ok a') : a'.i f = a.i f := by
  induction l generalizing a with
  | nil => cases h; rfl
  | cons p l ih =>
    obtain ⟨m, v⟩ := p
    simp only [argRun] at h
    cases hs : argSet m v a with
    | exit => rw [hs] at h; cases h
    | ub => rw [hs] at h; cases h
    | ok b =>
      rw [hs] at h
      have hm : m ≠ n := hl (m, v) (by simp)
      have hb : b.i f = a.i f := by
        rcases argSet_type m v a b hs with ⟨g, x, hg, rfl⟩ | ⟨g, z, hg, rfl⟩
        · obtain ⟨b', hb', _, _, hi⟩ := argSet_real m g hg x a
          rw [hs] at hb'; cases hb'
          exact hi f
        · obtain ⟨b', hb', _, hfr, _, _⟩ := argSet_int m g hg z a
          rw [hs] at hb'; cases hb'
          refine hfr f (fun e => hm (by subst e; exact argTable_inj _ hg _ hf rfl)) ?_
          rintro ⟨rfl, _, rfl⟩
          exact hc rfl (m, .int z) (by simp)
            (argTable_inj _ hg ("comp_res_exit", .inr .comp_res_exit) (by simp [argTable]) rfl)
      rw [ih (fun q hq => hl q (by simp [hq])) (fun e q hq => hc e q (by simp [hq])) b h, hb]

/-- **C34** history form for real options: after any successful history of calls an option holds the
value of the last call naming it. -/
theorem arg_last_real (pre post : List (String × CVal K)) (n : String) (f : RArg) (x : K)
    (hf : (n, Sum.inl f) ∈ argTable) (hl : ∀ p ∈ post, p.1 ≠ n) (a a' : IpmArg K)
    (h : argRun (pre ++ (n, .real x) :: post) a = .ok a') : a'.r f = x := by
  rw [argRun_append] at h
  cases hp : argRun pre a with
  | exit => rw [hp] at h; cases h
  | ub => rw [hp] at h; cases h
  | ok b =>
    rw [hp] at h
    simp only [argRun] at h
    obtain ⟨b', hb', hv, _⟩ := argSet_real n f hf x b
    rw [hb'] at h
    rw [argRun_frame_real post n f hf hl b' a' h, hv]

/-- **C34** history form for integer options. -/
theorem arg_last_int (pre post : List (String × CVal K)) (n : String) (f : IArg) (z : ℤ)
    (hf : (n, Sum.inr f) ∈ argTable) (hl : ∀ p ∈ post, p.1 ≠ n)
    (hc : f = .comp_dual_sol_eq → ∀ p ∈ post, p.1 ≠ "comp_res_exit") (a a' : IpmArg K)
    (h : argRun (pre ++ (n, .int z) :: post) a = .ok a') : a'.i f = z := by
  rw [argRun_append] at h
  cases hp : argRun pre a with
  | exit => rw [hp] at h; cases h
  | ub => rw [hp] at h; cases h
  | ok b =>
    rw [hp] at h
    simp only [argRun] at h
    obtain ⟨b', hb', hv, _⟩ := argSet_int n f hf z b
    rw [hb'] at h
    rw [argRun_frame_int post n f hf hl hc b' a' h, hv]

/-- the history hypotheses are met by a non-trivial history -/
example (a : IpmArg ℚ) : ∃ a', argRun ([("mu0", .real 5), ("iter_max", .int 7)] ++
    ("mu0", .real (1 : ℚ)) :: [("comp_res_exit", .int 1)]) a = .ok a' ∧ a'.r .mu0 = 1 ∧
    a'.i .comp_dual_sol_eq = 1 :=
  ⟨_, rfl, rfl, rfl⟩

/-- **C34** get after set, for the two options that can be read back -/
theorem arg_get_set (n : String) (hn : n = "lam0_min" ∨ n = "t0_min") (x : K) (a a' : IpmArg K)
    (h : argSet n (.real x) a = .ok a') : argGet n a' = .ok x := by
  rcases hn with rfl | rfl <;> (cases h; rfl)

example (a : IpmArg ℚ) : ∃ a', argSet "t0_min" (.real 3) a = .ok a' := ⟨_, rfl⟩

/-- **C34** the copy agrees with the source in every setting except `t0_init`, whatever the
destination held. -/
theorem argDeepcopy_spec (s d : IpmArg K) :
    (argDeepcopy s d).r = s.r ∧ ∀ g, g ≠ .t0_init → (argDeepcopy s d).i g = s.i g := by
  constructor
  · funext f; cases f <;> rfl
  · intro g hg; cases g <;> first | rfl | exact absurd rfl hg

/-- the copy keeps the destination's `t0_init` -/
theorem argDeepcopy_t0_init (s d : IpmArg K) :
    (argDeepcopy s d).i .t0_init = d.i .t0_init := rfl

/-- **C34, negative**: a deep copy does not reproduce all settings. -/
theorem argDeepcopy_incomplete : ∃ s d : IpmArg ℚ, argDeepcopy s d ≠ s := by
  refine ⟨⟨fun _ => 1, fun _ => 1⟩, ⟨fun _ => 1, fun _ => 0⟩, fun h => ?_⟩
  have := argDeepcopy_t0_init (⟨fun _ => 1, fun _ => 1⟩ : IpmArg ℚ) ⟨fun _ => 1, fun _ => 0⟩
  rw [h] at this
  exact absurd this (by decide)

section
variable [Field K]

/-- **C34** the defaults do not depend on what the structure held before. -/
theorem argSetDefault_indep (mode : ℤ) (a b : IpmArg K) : argSetDefault mode a = argSetDefault mode b := by
  have key : ∀ (p : ArgDef K), (argDef mode : Option (ArgDef K)) = some p →
      argSetDefault mode a = argSetDefault mode b := by
    intro p hp
    have hr : ∀ (x y : IpmArg K), (∀ f, x.r f = y.r f) → (∀ f, x.i f = y.i f) → x = y := by
      rintro ⟨r, i⟩ ⟨r', i'⟩ h1 h2
      have e1 : r = r' := funext h1
      have e2 : i = i' := funext h2
      rw [e1, e2]
    unfold argSetDefault
    rw [hp]
    refine congrArg Out.ok (hr _ _ ?_ ?_)
    · unfold argSetCompResExit
      by_cases hc : p.comp ≠ 0
      · simp only [if_pos hc]; intro f; cases f <;> rfl
      · simp only [if_neg hc]; intro f; cases f <;> rfl
    · unfold argSetCompResExit
      by_cases hc : p.comp ≠ 0
      · simp only [if_pos hc]; intro f; cases f <;> rfl
      · simp only [if_neg hc]; intro f; cases f <;> rfl
  cases hp : (argDef mode : Option (ArgDef K)) with
  | none => unfold argSetDefault; rw [hp]
  | some p => exact key p hp

/-- exactly the four modes are accepted -/
theorem argSetDefault_modes (mode : ℤ) (a : IpmArg K) :
    (∃ d, argSetDefault mode a = .ok d) ↔ (0 ≤ mode ∧ mode ≤ 3) := by
  unfold argSetDefault
  constructor
  · rintro ⟨d, h⟩
    by_contra hm
    have : (argDef mode : Option (ArgDef K)) = none := by
      unfold argDef
      rw [if_neg (by omega), if_neg (by omega), if_neg (by omega), if_neg (by omega)]
    rw [this] at h
    cases h
  · intro hm
    have : mode = 0 ∨ mode = 1 ∨ mode = 2 ∨ mode = 3 := by omega
    rcases this with rfl | rfl | rfl | rfl <;> exact ⟨_, rfl⟩

end

/-- what the solver needs of its arguments (hypotheses of the solver theorems) -/
structure IpmArg.Sane [Zero K] [LT K] (a : IpmArg K) : Prop where
  real_pos : ∀ f, 0 < a.r f
  clip : a.i .t_lam_min = 2
  iter : 0 < a.i .iter_max
  stat : a.i .iter_max ≤ a.i .stat_max
  exit_dual : a.i .comp_res_exit ≠ 0 → a.i .comp_dual_sol_eq ≠ 0

/-- **C34** every default setting satisfies the prerequisites of the solver: all real parameters
positive, clipping on, at least one iteration, statistics as long as the iterations, residuals on
exit only together with the equality multipliers. -/
theorem argSetDefault_sane [Field K] [LinearOrder K] [IsStrictOrderedRing K] (mode : ℤ)
    (a d : IpmArg K) (h : argSetDefault mode a = .ok d) : d.Sane := by
  have hm := (argSetDefault_modes mode a).1 ⟨d, h⟩
  have : mode = 0 ∨ mode = 1 ∨ mode = 2 ∨ mode = 3 := by omega
  have e1 : (0 : K) < 1 / 10 ^ 6 := by positivity
  have e2 : (0 : K) < 1 / 10 ^ 8 := by positivity
  have e3 : (0 : K) < 1 / 10 ^ 9 := by positivity
  have e4 : (0 : K) < 1 / 10 ^ 12 := by positivity
  have e5 : (0 : K) < 1 / 10 ^ 15 := by positivity
  have e6 : (0 : K) < 1 / 10 ^ 16 := by positivity
  have e7 : (0 : K) < 10 ^ 15 := by positivity
  have e8 : (0 : K) < 3 / 10 := by positivity
  have e9 : (0 : K) < 1 / 2 := by positivity
  have e10 : (0 : K) < 10 := by positivity
  have e11 : (0 : K) < 100 := by positivity
  have e12 : (0 : K) < 1 := by positivity
  rcases this with rfl | rfl | rfl | rfl
  all_goals
    have hd := Out.ok.inj h
    refine ⟨?_, ?_, ?_, ?_, ?_⟩
    · rw [← hd]; intro f; cases f <;> assumption
    all_goals rw [← hd]
    · rfl
    · first
        | exact (by decide : (0 : ℤ) < 15)
        | exact (by decide : (0 : ℤ) < 30)
        | exact (by decide : (0 : ℤ) < 100)
    · exact le_refl _
    · first
        | exact fun _ => (by decide : (1 : ℤ) ≠ 0)
        | exact fun h0 => absurd rfl h0

example (a : IpmArg ℚ) : ∃ d, argSetDefault 2 a = .ok d ∧ d.i .iter_max = 30 ∧ d.r .mu0 = 10 ∧
    d.r .res_b_max = 1 / 10 ^ 8 ∧ d.i .t0_init = 2 :=
  ⟨_, rfl, rfl, rfl, rfl, rfl⟩

/-- the documented defaults of the real settings, modes `0` SPEED_ABS, `1` SPEED, `2` BALANCE, `3` ROBUST (written down separately
from the model) -/
def defReal {K : Type*} [Field K] (mode : ℤ) : RArg → K
  | .mu0 => if mode = 3 then 100 else 10
  | .alpha_min => 1 / 10 ^ 12
  | .res_g_max => if mode = 0 then 1 else 1 / 10 ^ 6
  | .res_b_max => if mode = 0 then 1 else 1 / 10 ^ 8
  | .res_d_max => if mode = 0 then 1 else 1 / 10 ^ 8
  | .res_m_max => 1 / 10 ^ 8
  | .dual_gap_max => 10 ^ 15
  | .reg_prim => 1 / 10 ^ 15
  | .lam_min => 1 / 10 ^ 16
  | .t_min => 1 / 10 ^ 16
  | .tau_min => 1 / 10 ^ 16
  | .lam0_min => 1 / 10 ^ 9
  | .t0_min => 1 / 10 ^ 9
  | .m_safe => if mode = 0 ∨ mode = 1 then 3 / 10 else 1 / 2

/-- the documented defaults of the integer settings -/
def defInt (mode : ℤ) : IArg → ℤ
  | .iter_max => if mode = 3 then 100 else if mode = 2 then 30 else 15
  | .stat_max => if mode = 3 then 100 else if mode = 2 then 30 else 15
  | .pred_corr => 1
  | .cond_pred_corr => 1
  | .itref_pred_max => 0
  | .itref_corr_max => if mode = 3 then 8 else if mode = 2 then 2 else 0
  | .warm_start => 0
  | .square_root_alg => 1
  | .lq_fact => if mode = 3 then 2 else if mode = 2 then 1 else 0
  | .abs_form => if mode = 0 then 1 else 0
  | .comp_dual_sol_eq => if mode = 0 then 0 else 1
  | .comp_res_exit => if mode = 0 then 0 else 1
  | .comp_res_pred => if mode = 0 then 0 else 1
  | .split_step => if mode = 0 ∨ mode = 1 then 1 else 0
  | .var_init_scheme => 0
  | .t_lam_min => 2
  | .t0_init => 2
  | .update_fact_exit => 1
  | .mode => mode

/-- **C34** the default of every setting in every mode, whatever the argument object held before. -/
theorem argSetDefault_values [Field K] (mode : ℤ) (a d : IpmArg K) (h : argSetDefault mode a = .ok d) :
    d.r = defReal mode ∧ d.i = defInt mode := by
  have hm := (argSetDefault_modes mode a).1 ⟨d, h⟩
  have : mode = 0 ∨ mode = 1 ∨ mode = 2 ∨ mode = 3 := by omega
  rcases this with rfl | rfl | rfl | rfl
  all_goals
    have hd := Out.ok.inj h
    rw [← hd]
    refine ⟨?_, ?_⟩
    · funext f; cases f <;> rfl
    · funext f; cases f <;> rfl

example (a : IpmArg ℚ) : ∃ d, argSetDefault 3 a = .ok d ∧ d.i .iter_max = 100 ∧ d.i .lq_fact = 2 := ⟨_, rfl, rfl, rfl⟩

end Hpipm
