/-
Examples for the tree KKT solver (C80), and the case the factorisation cannot handle.
-/
import Verif.TreeKktUnc

namespace Hpipm
open Finset

section Concrete

/-- a root with one bounded input, and two kids with one state each; the first kid has a soft constraint -/
noncomputable def exKTQp : OcpQp ℝ :=
  { exKQp with dim := { exRDim with
      N := 2
      nx := fun k => if k = 0 then 0 else 1 } }

noncomputable def exKTree : TreeQp ℝ where
  qp := exKTQp
  dad := fun _ => 0
  nkids := fun k => if k = 0 then 2 else 0
  kids := fun _ j => j + 1

theorem exKTree_ok : exKTree.TreeOk := ⟨fun k j hk hj => exTree_ok.kid k j hk hj, fun k j j' hk => exTree_ok.inj k j j' hk,
  fun c hc hcN => exTree_ok.all c hc hcN⟩

theorem exKT_cases {k : ℕ} (hk : k ≤ exKTQp.dim.N) : k = 0 ∨ k = 1 ∨ k = 2 := by
  have : exKTQp.dim.N = 2 := rfl
  omega

theorem exKTQp_wf : exKTQp.WF := by
  constructor
  · intro k j hk hj
    rcases exKT_cases hk with rfl | rfl | rfl
    · exact (by decide : 0 < 1 + 0)
    · exact absurd hj (by show ¬ j < 0; omega)
    · exact absurd hj (by show ¬ j < 0; omega)
  · intro k j hk hj
    rcases exKT_cases hk with rfl | rfl | rfl
    · left; rfl
    · right; exact ⟨le_refl _, (by decide : 0 < 1)⟩
    · left; rfl

theorem exKTQp_unshared : Unshared exKTQp := by
  intro k j j' hk hj hj' _ _
  rcases exKT_cases hk with rfl | rfl | rfl
  · have : exKTQp.dim.nb 0 + exKTQp.dim.ng 0 = 1 := rfl
    omega
  · have : exKTQp.dim.nb 1 + exKTQp.dim.ng 1 = 1 := rfl
    omega
  · have : exKTQp.dim.nb 2 + exKTQp.dim.ng 2 = 0 := rfl
    omega

theorem exKTQp_convex : (view exKTQp).Convex := by
  intro p
  rw [UserQp.quad]
  apply sum_nonneg
  intro k hk
  have hk' : k ≤ exKTQp.dim.N := by have := mem_range.mp hk; have : (view exKTQp).N = exKTQp.dim.N := rfl; omega
  have R0 : (view exKTQp).R 0 0 0 = 1 := by
    rw [view_R _ _ 0 0 (by decide) (by decide)]; simp [exKTQp, exKQp]
  rcases exKT_cases hk' with rfl | rfl | rfl
  · have h1 : (view exKTQp).nu 0 = 1 := rfl
    have h2 : (view exKTQp).nx 0 = 0 := rfl
    have h3 : (view exKTQp).ns 0 = 0 := rfl
    simp only [UserQp.stageQuad, h1, h2, h3, sum_range_one, range_zero, sum_empty, UserQp.sym, R0, le_refl, if_true]
    nlinarith [mul_self_nonneg (p.u 0 0)]
  · have h1 : (view exKTQp).nu 1 = 0 := rfl
    have h2 : (view exKTQp).nx 1 = 1 := rfl
    have h3 : (view exKTQp).ns 1 = 1 := rfl
    have h4 : (view exKTQp).Q 1 0 0 = 1 := by
      rw [view_Q _ _ 0 0 (by decide) (by decide)]; simp [exKTQp, exKQp, exRDim]
    have h5 : (view exKTQp).Zl 1 0 = 1 := by rw [view_Zl _ _ 0 (by decide)]; simp [exKTQp, exKQp]
    have h6 : (view exKTQp).Zu 1 0 = 1 := by rw [view_Zu _ _ 0 (by decide)]; simp [exKTQp, exKQp]
    simp only [UserQp.stageQuad, h1, h2, h3, sum_range_one, range_zero, sum_empty, UserQp.sym, h4, h5, h6, le_refl, if_true]
    nlinarith [mul_self_nonneg (p.x 1 0), mul_self_nonneg (p.sl 1 0), mul_self_nonneg (p.su 1 0)]
  · have h1 : (view exKTQp).nu 2 = 0 := rfl
    have h2 : (view exKTQp).nx 2 = 1 := rfl
    have h3 : (view exKTQp).ns 2 = 0 := rfl
    have h4 : (view exKTQp).Q 2 0 0 = 1 := by
      rw [view_Q _ _ 0 0 (by decide) (by decide)]; simp [exKTQp, exKQp, exRDim]
    simp only [UserQp.stageQuad, h1, h2, h3, sum_range_one, range_zero, sum_empty, UserQp.sym, h4, le_refl, if_true]
    nlinarith [mul_self_nonneg (p.x 2 0)]

theorem exKT_int : Interior exKTree.qp exKSol := fun _ _ _ _ => ⟨zero_le_one, zero_lt_one⟩

theorem exKT_strict : StrictlyConvex exKTree.qp (fun _ _ => 1) 1 :=
  strictlyConvex_of_convex exKTQp exKTQp_convex _ 1 one_pos (fun _ _ _ _ => one_pos)

noncomputable def exKTCore : Core ℝ :=
  coreMk (stOff (nct exKTQp.dim) 3) (fun _ => 1) (fun _ => 1) (fun _ => 0) (fun _ => 0) 1 2

theorem exKT_core : CoreOf exKTree.qp exKSol exKTCore := ⟨rfl, fun _ _ _ _ => rfl, fun _ _ _ _ => rfl, fun _ _ _ _ => one_ne_zero⟩

theorem exKT_min : exKTCore.t_lam_min ≠ 1 := by show (2 : ℕ) ≠ 1 ; omega

/-- C80: the hypotheses of `tree_full_step` hold for the example, whose Newton system has a nonzero right-hand side: the
dynamics residual of the second edge is 1 at the iterate and 0 after the step -/
example : let r := tresCompute exKTree exKSol exKRes exKWs
    let step := stepOf (tkktStep Real.sqrt (tstepQp exKTree r) true 1 exKTCore exKSt).2
    r.res_b 1 0 = 1 ∧ (tresCompute exKTree (exKSol.add step) exKRes exKWs).res_b 1 0 = 0 := by
  have hml : LamMasked exKTree.qp exKSol.lam := fun k j _ _ => by simp [exKTree, exKTQp, exKQp, exKSol]
  have hws : exKWs.Ok exKTree.qp := fun h => by simp [exKWs] at h
  refine ⟨?_, ?_⟩
  · rw [(tresCompute_val exKTree exKTree_ok exKTQp_wf exKSol hml exKRes exKWs hws).b 1 (by decide : 1 < 2) 0 (by decide : 0 < 1)]
    simp [tB, exKSol, exKTree, exKTQp, exKQp]
  · exact (tree_full_step Real.sqrt exK_sqrt exKTree exKTree_ok exKTQp_wf exKTQp_unshared (fun _ _ _ _ => Or.inr rfl) exKSol exKT_int
      hml 1 exKT_strict exKTCore exKT_core exKT_min exKSt exKRes exKRes exKWs exKWs hws hws).2.1 1 0 (by decide : 1 < 2) (by decide : 0 < 1)

/-- C80: re-solve of the example for another gradient -/
example (useP : Bool) : let f := tkktStep Real.sqrt exKTree true 1 exKTCore exKSt
    TNewton (twithRhs exKTree (fun _ _ => 7) exKTQp.b exKTQp.d exKTQp.m) exKSol 1
      (stepOf (tsolveStep (twithRhs exKTree (fun _ _ => 7) exKTQp.b exKTQp.d exKTQp.m) true useP f.1 f.2).2) :=
  tree_resolve_newton Real.sqrt exK_sqrt exKTree exKTree_ok exKTQp_wf exKTQp_unshared true exKSol exKT_int 1 exKT_strict exKTCore exKT_core
    exKT_min exKSt _ _ _ _ useP (fun _ _ _ _ _ => rfl)

/-- the unconstrained example -/
noncomputable def exUTree : TreeQp ℝ where
  qp := exUQp
  dad := fun _ => 0
  nkids := fun k => if k = 0 then 1 else 0
  kids := fun _ j => j + 1

theorem exUTree_ok : exUTree.TreeOk := by
  refine ⟨fun k j hk hj => ?_, fun k j j' _ _ _ h => ?_, fun c hc hcN => ?_⟩
  · have h0 : k = 0 := by
      by_contra h
      simp [exUTree, h] at hj
    subst h0
    have hj' : j < 1 := hj
    refine ⟨?_, ?_, rfl⟩
    · show 0 < j + 1; omega
    · show j + 1 ≤ 1; omega
  · have h' : j + 1 = j' + 1 := h
    omega
  · have hc2 : c ≤ 1 := hcN
    refine ⟨hc, c - 1, ?_, ?_⟩
    · show c - 1 < 1; omega
    · show c - 1 + 1 = c; omega

/-- C80: the unconstrained solver on the example -/
example : (tview exUTree).IsOpt (ptOf exUQp.dim (tunconstr Real.sqrt exUTree { exKSt with BAbt := exUQp.BAbt }).ux) :=
  (tree_unconstr_optimal Real.sqrt exK_sqrt exUTree exUTree_ok (fun _ _ => ⟨rfl, rfl, rfl⟩) exUQp_strict _ (fun _ _ _ _ _ _ => rfl)).1

/-! ### indefinite node Hessians -/

/-- minimise `2 u² + u - ½ x²` subject to `x = u`: the problem is strictly convex on the dynamics, its minimiser is `u = -1/3`,
but the Hessian of the second node is negative -/
def exIQp : OcpQp ℚ where
  dim := { exTDim with N := 1, nb := fun _ => 0, nbu := fun _ => 0 }
  BAbt := fun _ i _ => if i = 0 then 1 else 0
  RSQrq := fun k i j => if i = 0 ∧ j = 0 then (if k = 0 then 4 else -1) else 0
  DCt := fun _ _ _ => 0
  b := fun _ _ => 0
  rqz := fun k i => if k = 0 ∧ i = 0 then 1 else 0
  d := fun _ _ => 0
  d_mask := fun _ _ => 1
  m := fun _ _ => 0
  Z := fun _ _ => 0
  idxb := fun _ _ => 0
  idxs_rev := fun _ _ => -1
  idxe := fun _ _ => 0
  diag_H_flag := fun _ => 0

def exITree : TreeQp ℚ where
  qp := exIQp
  dad := fun _ => 0
  nkids := fun k => if k = 0 then 1 else 0
  kids := fun _ j => j + 1

def exISt : KktSt ℚ where
  BAbt := exIQp.BAbt
  RSQrq := exIQp.RSQrq
  L := fun _ _ _ => 0
  P := fun _ _ _ => 0
  Ls := fun _ _ => 0
  AL0 := fun _ _ => 0
  AL1 := fun _ _ => 0
  l := fun _ _ => 0
  Pb := fun _ _ => 0
  Zs := fun _ _ => 0
  tmpN := fun _ => 0
  t0 := fun _ => 0
  t1 := fun _ => 0
  t2 := fun _ => 0
  t3 := fun _ => 0
  ux := fun _ _ => 0
  pi := fun _ _ => 0
  lam := fun _ _ => 0
  t := fun _ _ => 0

/-- an exact square root on the only positive number it is applied to in the example -/
def exISq (x : ℚ) : ℚ := if x = 4 then 2 else 0

theorem exI_cost (p : Pt ℚ) : (tview exITree).cost p = 2 * p.u 0 0 ^ 2 + p.u 0 0 - 1 / 2 * p.x 1 0 ^ 2 := by
  have hN : (tview exITree).N = 1 := rfl
  have hv : (tview exITree).cost p = (view exIQp).objective p := rfl
  have r0 : (view exIQp).R 0 0 0 = 4 := by decide +kernel
  have q1 : (view exIQp).Q 1 0 0 = -1 := by decide +kernel
  have g0 : (view exIQp).r 0 0 = 1 := by decide +kernel
  have g1 : (view exIQp).q 1 0 = 0 := by decide +kernel
  have n0 : (view exIQp).nu 0 = 1 ∧ (view exIQp).nx 0 = 0 ∧ (view exIQp).ns 0 = 0 := by decide
  have n1 : (view exIQp).nu 1 = 0 ∧ (view exIQp).nx 1 = 1 ∧ (view exIQp).ns 1 = 0 := by decide
  have nn : (view exIQp).N = 1 := rfl
  rw [hv]
  simp only [UserQp.objective, nn, sum_range_succ, sum_range_zero, UserQp.stageQuad, UserQp.stageLin,
    n0, n1, UserQp.sym, r0, q1, g0, g1, le_refl, if_true]
  ring

theorem exI_feas (p : Pt ℚ) : (tview exITree).Feas p ↔ p.x 1 0 = p.u 0 0 := by
  have hb : (view exIQp).B 0 0 0 = 1 := by decide +kernel
  have hbb : (view exIQp).b 0 0 = 0 := by decide +kernel
  have n0 : (view exIQp).nu 0 = 1 ∧ (view exIQp).nx 0 = 0 := by decide
  have he : (tview exITree).edgeDefect p 0 0 = p.u 0 0 - p.x 1 0 := by
    have : (tview exITree).edgeDefect p 0 0 = (∑ j ∈ range ((view exIQp).nx 0), (view exIQp).A 0 0 j * p.x 0 j)
      + (∑ j ∈ range ((view exIQp).nu 0), (view exIQp).B 0 0 j * p.u 0 j) + (view exIQp).b 0 0 - p.x 1 0 := rfl
    rw [this, n0.1, n0.2, hbb]
    simp only [sum_range_one, range_zero, sum_empty, hb]
    ring
  constructor
  · intro h
    have := h.dyn 0 0 (by decide : 0 < 1) (by decide : 0 < 1)
    rw [he] at this
    linarith
  · intro h
    refine ⟨fun e i he' hi => ?_, fun k j hk hj => ?_, fun k j hk hj => ?_, fun k j hk hj => ?_, fun k j hk hj => ?_⟩
    · have h1 : e < 1 := he'
      have h2 : e = 0 := by omega
      subst h2
      have h3 : i < 1 := hi
      have h4 : i = 0 := by omega
      subst h4
      rw [he, h]; ring
    · exact absurd hj (by show ¬ j < 0; omega)
    · exact absurd hj (by show ¬ j < 0; omega)
    · exact absurd hj (by show ¬ j < 0; omega)
    · exact absurd hj (by show ¬ j < 0; omega)

/-- **C80, the limit.**  The tree solver has only the factorisation of node Hessians, and no way to report that it broke down: for
a tree QP whose minimiser `u = x = -1/3` exists and is unique, but one of whose node Hessians is indefinite, it returns `u = -1/4`,
which is not optimal.  (The OCP solver has the classical recursion, which does not factorise the Hessian of a node without inputs.) -/
theorem tree_unconstr_indefinite_wrong :
    (∀ p : Pt ℚ, (tview exITree).IsOpt p ↔ p.u 0 0 = -1 / 3 ∧ p.x 1 0 = -1 / 3) ∧
    (tunconstr exISq exITree exISt).ux 0 0 = -1 / 4 ∧
    ¬ (tview exITree).IsOpt (ptOf exIQp.dim (tunconstr exISq exITree exISt).ux) := by
  have h1 : ∀ p : Pt ℚ, (tview exITree).IsOpt p ↔ p.u 0 0 = -1 / 3 ∧ p.x 1 0 = -1 / 3 := by
    intro p
    constructor
    · rintro ⟨hf, ho⟩
      rw [exI_feas] at hf
      have := ho ⟨fun _ _ => -1 / 3, fun _ _ => -1 / 3, fun _ _ => 0, fun _ _ => 0⟩ ((exI_feas _).mpr rfl)
      rw [exI_cost, exI_cost, hf] at this
      simp only [] at this
      have h2 : (p.u 0 0 + 1 / 3) ^ 2 ≤ 0 := by nlinarith
      have h3 : p.u 0 0 + 1 / 3 = 0 := by
        have := sq_nonneg (p.u 0 0 + 1 / 3)
        exact pow_eq_zero_iff (two_ne_zero) |>.mp (le_antisymm h2 this)
      have h4 : p.u 0 0 = -1 / 3 := by linarith
      exact ⟨h4, by rw [hf, h4]⟩
    · rintro ⟨hu, hx⟩
      refine ⟨(exI_feas p).mpr (by rw [hu, hx]), fun p' hf => ?_⟩
      rw [exI_feas] at hf
      rw [exI_cost, exI_cost, hf, hu, hx]
      nlinarith [sq_nonneg (p'.u 0 0 + 1 / 3)]
  have h2 : (tunconstr exISq exITree exISt).ux 0 0 = -1 / 4 := by decide +kernel
  refine ⟨h1, h2, fun h => ?_⟩
  have := ((h1 _).mp h).1
  have e : (ptOf exIQp.dim (tunconstr exISq exITree exISt).ux).u 0 0 = -1 / 4 := h2
  rw [e] at this
  norm_num at this

end Concrete
end Hpipm
