/-
C61: the forward sensitivities are the derivative of the solution of the perturbed problem.
-/
import Verif.SensProps
import Mathlib.Analysis.Calculus.Deriv.Add
import Mathlib.Analysis.Calculus.Deriv.Mul

namespace Hpipm
open Finset
set_option linter.unusedSectionVars false

/-- every entry of the stage vectors `x` is differentiable at zero, with derivative `x'` -/
def DerivV (x : ℝ → ℕ → Vec ℝ) (x' : ℕ → Vec ℝ) : Prop := ∀ k i, HasDerivAt (fun s => x s k i) (x' k i) 0

/-- the point `z` has zero residuals for `qp`, in the sense of OCP_QP_RES_COMPUTE, and no multipliers on masked-out constraints -/
def ZeroRes (qp : OcpQp ℝ) (z : Sol ℝ) : Prop :=
  (∀ res ws, ResWs.Ok ws qp →
    let r := resCompute qp z res ws
    (∀ k i, k ≤ qp.dim.N → i < qp.dim.nu k + qp.dim.nx k + 2 * qp.dim.ns k → r.res_g k i = 0) ∧
    (∀ k i, k < qp.dim.N → i < qp.dim.nx (k + 1) → r.res_b k i = 0) ∧
    (∀ k j, k ≤ qp.dim.N → j < 2 * qp.dim.nb k + 2 * qp.dim.ng k + 2 * qp.dim.ns k → r.res_d k j = 0 ∧ r.res_m k j = 0)) ∧
  ∀ k j, k ≤ qp.dim.N → j < 2 * qp.dim.nb k + 2 * qp.dim.ng k + 2 * qp.dim.ns k → qp.d_mask k j = 0 → z.lam k j = 0

section
variable {x : ℝ → Vec ℝ} {x' : Vec ℝ} (qp : OcpQp ℝ) (k : ℕ)

theorem cval_deriv (h : ∀ i, HasDerivAt (fun s => x s i) (x' i) 0) (j : ℕ) : HasDerivAt (fun s => cval qp k (x s) j) (cval qp k x' j) 0 := by
  unfold cval
  by_cases hj : j < qp.dim.nb k
  · simp only [if_pos hj]; exact h _
  · simp only [if_neg hj]
    exact HasDerivAt.fun_sum (fun i _ => (h i).const_mul _)

theorem slk_deriv (h : ∀ i, HasDerivAt (fun s => x s i) (x' i) 0) (o j : ℕ) : HasDerivAt (fun s => slk qp k (x s) o j) (slk qp k x' o j) 0 := by
  unfold slk
  split_ifs
  · exact hasDerivAt_const _ _
  · exact h _

theorem hmul_deriv (h : ∀ i, HasDerivAt (fun s => x s i) (x' i) 0) (i : ℕ) : HasDerivAt (fun s => hmul qp k (x s) i) (hmul qp k x' i) 0 := by
  unfold hmul
  exact HasDerivAt.fun_sum (fun i _ => (h i).const_mul _)

theorem cvalT_deriv (h : ∀ i, HasDerivAt (fun s => x s i) (x' i) 0) (i : ℕ) : HasDerivAt (fun s => cvalT qp k (x s) i) (cvalT qp k x' i) 0 := by
  unfold cvalT
  refine HasDerivAt.add (HasDerivAt.fun_sum (fun j _ => ?_)) (HasDerivAt.fun_sum (fun j _ => (h _).const_mul _))
  split_ifs
  · exact h _
  · exact hasDerivAt_const _ _

theorem slkT_deriv (h : ∀ i, HasDerivAt (fun s => x s i) (x' i) 0) (i : ℕ) : HasDerivAt (fun s => slkT qp k (x s) i) (slkT qp k x' i) 0 := by
  unfold slkT
  refine HasDerivAt.fun_sum (fun j _ => ?_)
  split_ifs
  · exact h _
  · exact hasDerivAt_const _ _

end

section
variable (qp : OcpQp ℝ) {g b d m : ℝ → ℕ → Vec ℝ} {g' b' d' m' : ℕ → Vec ℝ} {z : ℝ → Sol ℝ} {z' : Sol ℝ}

theorem vG_deriv (hg : DerivV g g') (hu : DerivV (fun s => (z s).ux) z'.ux) (hp : DerivV (fun s => (z s).pi) z'.pi)
    (hl : DerivV (fun s => (z s).lam) z'.lam) (k i : ℕ) :
    HasDerivAt (fun s => vG (withRhs qp (g s) (b s) (d s) (m s)) (z s) ((z s).lam k) k i)
      (vG (withRhs qp g' b' d' m') z' (z'.lam k) k i) 0 := by
  unfold vG
  dsimp only [withRhs]
  by_cases hi : i < qp.dim.nu k + qp.dim.nx k
  · simp only [if_pos hi]
    have k1 : HasDerivAt (fun s => if 0 < k ∧ qp.dim.nu k ≤ i then (z s).pi (k - 1) (i - qp.dim.nu k) else 0)
        (if 0 < k ∧ qp.dim.nu k ≤ i then z'.pi (k - 1) (i - qp.dim.nu k) else 0) 0 := by
      split_ifs
      · exact hp _ _
      · exact hasDerivAt_const _ _
    have k2 : HasDerivAt (fun s => if k < qp.dim.N then ∑ j ∈ range (qp.dim.nx (k + 1)), qp.BAbt k i j * (z s).pi k j else 0)
        (if k < qp.dim.N then ∑ j ∈ range (qp.dim.nx (k + 1)), qp.BAbt k i j * z'.pi k j else 0) 0 := by
      split_ifs
      · exact HasDerivAt.fun_sum (fun j _ => (hp k j).const_mul _)
      · exact hasDerivAt_const _ _
    exact ((((hmul_deriv _ k (fun i => hu k i) i).fun_add (hg k i)).fun_sub k1).fun_add
      (cvalT_deriv _ k (fun j => (hl k _).fun_sub (hl k j)) i)).fun_add k2
  · simp only [if_neg hi]
    refine HasDerivAt.fun_sub (HasDerivAt.fun_sub (HasDerivAt.fun_add ((hu k i).const_mul _) (hg k i)) (hl k _)) ?_
    by_cases h : i - (qp.dim.nu k + qp.dim.nx k) < qp.dim.ns k
    · simp only [if_pos h]; exact slkT_deriv _ k (fun j => hl k j) _
    · simp only [if_neg h]; exact slkT_deriv _ k (fun j => hl k _) _

theorem vB_deriv (hb : DerivV b b') (hu : DerivV (fun s => (z s).ux) z'.ux) (k i : ℕ) :
    HasDerivAt (fun s => vB (withRhs qp (g s) (b s) (d s) (m s)) (z s) k i) (vB (withRhs qp g' b' d' m') z' k i) 0 := by
  unfold vB
  dsimp only [withRhs]
  exact HasDerivAt.add ((hb k i).sub (hu _ _)) (HasDerivAt.fun_sum (fun j _ => (hu k j).const_mul _))

theorem vD_deriv (hd : DerivV d d') (hu : DerivV (fun s => (z s).ux) z'.ux) (ht : DerivV (fun s => (z s).t) z'.t) (k j : ℕ) :
    HasDerivAt (fun s => vD (withRhs qp (g s) (b s) (d s) (m s)) (z s) k j) (vD (withRhs qp g' b' d' m') z' k j) 0 := by
  unfold vD
  dsimp only [withRhs]
  by_cases h : j < qp.dim.nb k + qp.dim.ng k
  · simp only [if_pos h]
    exact (((hd k j).add (ht k j)).sub (cval_deriv _ k (fun i => hu k i) j)).sub (slk_deriv _ k (fun i => hu k i) _ j)
  · simp only [if_neg h]
    by_cases h2 : j < 2 * (qp.dim.nb k + qp.dim.ng k)
    · simp only [if_pos h2]
      exact (((hd k j).add (ht k j)).add (cval_deriv _ k (fun i => hu k i) _)).sub (slk_deriv _ k (fun i => hu k i) _ _)
    · simp only [if_neg h2]
      exact ((hd k j).add (ht k j)).sub (hu k _)

open Filter Topology in
theorem deriv_zero {f : ℝ → ℝ} {f' : ℝ} (h : HasDerivAt f f' 0) (h0 : ∀ᶠ s in 𝓝 (0 : ℝ), f s = 0) : f' = 0 := by
  have h2 : HasDerivAt f 0 0 := (hasDerivAt_const (0 : ℝ) (0 : ℝ)).congr_of_eventuallyEq (h0.mono (fun s hs => hs))
  exact h.unique h2

open Filter Topology in
/-- the derivative of a path of solutions solves the Newton system of the derivative of the data -/
theorem path_newton (hwf : qp.WF) (hm01 : Mask01 qp) (hg : DerivV g g') (hb : DerivV b b') (hd : DerivV d d')
    (hm : DerivV m (fun k j => - m' k j)) (hmm : ∀ k j, k ≤ qp.dim.N → j < nct qp.dim k → qp.d_mask k j = 0 → m' k j = 0)
    (hu : DerivV (fun s => (z s).ux) z'.ux) (hp : DerivV (fun s => (z s).pi) z'.pi)
    (hl : DerivV (fun s => (z s).lam) z'.lam) (ht : DerivV (fun s => (z s).t) z'.t)
    (h : ∀ᶠ s in 𝓝 (0 : ℝ), ZeroRes (withRhs qp (g s) (b s) (d s) (m s)) (z s)) :
    NewtonStep (withRhs qp g' b' d' m') (z 0) (fun _ _ => 0) 0 { z' with
      t := fun k j => if qp.d_mask k j = 0 then - d' k j - linD qp z'.ux k j else z'.t k j } := by
  let ws0 : ResWs ℝ := ⟨fun _ => 0, fun _ => 0, fun _ => 0, false, false, 0⟩
  let res0 : Res ℝ := ⟨fun _ _ => 0, fun _ _ => 0, fun _ _ => 0, fun _ _ => 0, 0, 0, 0, 0⟩
  have hws : ∀ s, ResWs.Ok ws0 (withRhs qp (g s) (b s) (d s) (m s)) := fun s h => nomatch h
  have hv : ∀ s, ZeroRes (withRhs qp (g s) (b s) (d s) (m s)) (z s) →
      (∀ k i, k ≤ qp.dim.N → i < nvt qp.dim k → vG (withRhs qp (g s) (b s) (d s) (m s)) (z s) ((z s).lam k) k i = 0) ∧
      (∀ k i, k < qp.dim.N → i < qp.dim.nx (k + 1) → vB (withRhs qp (g s) (b s) (d s) (m s)) (z s) k i = 0) ∧
      (∀ k j, k ≤ qp.dim.N → j < nct qp.dim k → qp.d_mask k j ≠ 0 → vD (withRhs qp (g s) (b s) (d s) (m s)) (z s) k j = 0 ∧
        (z s).lam k j * (z s).t k j - m s k j = 0) ∧ (∀ k j, k ≤ qp.dim.N → j < nct qp.dim k → qp.d_mask k j = 0 → (z s).lam k j = 0) := by
    intro s hs
    obtain ⟨hr, hlm⟩ := hs
    obtain ⟨r1, r2, r3⟩ := hr res0 ws0 (hws s)
    obtain ⟨hval, -⟩ := resCompute_val (withRhs qp (g s) (b s) (d s) (m s)) hwf (z s) res0 ws0 (hws s)
    refine ⟨fun k i hk hi => ?_, fun k i hk hi => ?_, fun k j hk hj hne => ?_, hlm⟩
    · have h1 := (hval k hk).1.g i hi
      rw [r1 k i hk hi] at h1
      rw [h1]
      refine vG_congr _ _ _ _ _ _ (fun j hj => ?_) hi
      show (z s).lam k j = qp.d_mask k j * (z s).lam k j
      rcases hm01 k j hk hj with h0 | h0
      · rw [h0, zero_mul]; exact hlm k j hk hj h0
      · rw [h0, one_mul]
    · have h1 := (hval k (by show k ≤ qp.dim.N; omega)).1.b hk i hi
      rw [← h1]; exact r2 k i hk hi
    · have h1 := (hval k hk).1.d j hj
      have h2 := (hval k hk).2 j hj
      rw [(r3 k j hk hj).1] at h1
      rw [(r3 k j hk hj).2] at h2
      have h01 : qp.d_mask k j = 1 := (hm01 k j hk hj).resolve_left hne
      have h1' : 0 = qp.d_mask k j * vD (withRhs qp (g s) (b s) (d s) (m s)) (z s) k j := h1
      have h2' : 0 = qp.d_mask k j * (qp.d_mask k j * (z s).lam k j * (z s).t k j - m s k j) := h2
      rw [h01] at h1' h2'
      exact ⟨by linarith, by linarith⟩
  have hl0 : ∀ k j, k ≤ qp.dim.N → j < nct qp.dim k → qp.d_mask k j = 0 → z'.lam k j = 0 ∧ (z 0).lam k j = 0 := by
    intro k j hk hj h0
    exact ⟨deriv_zero (hl k j) (h.mono (fun s hs => (hv s hs).2.2.2 k j hk hj h0)), (hv 0 h.self_of_nhds).2.2.2 k j hk hj h0⟩
  have hG : ∀ k i, k ≤ qp.dim.N → i < nvt qp.dim k → vG (withRhs qp g' b' d' m') z' (z'.lam k) k i = 0 := fun k i hk hi =>
    deriv_zero (vG_deriv qp hg hu hp hl k i) (h.mono (fun s hs => (hv s hs).1 k i hk hi))
  refine ⟨fun k i hk hi => ?_, fun k i hk hi => ?_, fun k i hk hi => ?_, fun k j hk hj => ?_, fun k j hk hj => ?_⟩
  · have : vG (withRhs qp g' b' d' m') z' (z'.lam k) k i = 0 := hG k i hk (by show i < qp.dim.nu k + qp.dim.nx k + 2 * qp.dim.ns k; have : i < qp.dim.nu k + qp.dim.nx k := hi; omega)
    refine Eq.trans this ?_
    ring
  · have : vG (withRhs qp g' b' d' m') z' (z'.lam k) k (qp.dim.nu k + qp.dim.nx k + i) = 0 := hG k _ hk (by show qp.dim.nu k + qp.dim.nx k + i < qp.dim.nu k + qp.dim.nx k + 2 * qp.dim.ns k; have : i < 2 * qp.dim.ns k := hi; omega)
    refine Eq.trans this ?_
    ring
  · exact deriv_zero (vB_deriv (g := g) (d := d) (m := m) (g' := g') (d' := d') (m' := m') qp hb hu k i) (h.mono (fun s hs => (hv s hs).2.1 k i hk hi))
  · rw [vD_lin]
    show d' k j + (if qp.d_mask k j = 0 then - d' k j - linD qp z'.ux k j else z'.t k j) + linD qp z'.ux k j = 0
    by_cases h0 : qp.d_mask k j = 0
    · rw [if_pos h0]; ring
    · rw [if_neg h0]
      have := deriv_zero (vD_deriv (g := g) (b := b) (m := m) (g' := g') (b' := b') (m' := m') qp hd hu ht k j)
        (h.mono (fun s hs => ((hv s hs).2.2.1 k j hk hj h0).1))
      rw [vD_lin] at this
      exact this
  · show m' k j + (z 0).lam k j * (if qp.d_mask k j = 0 then - d' k j - linD qp z'.ux k j else z'.t k j) + z'.lam k j * (z 0).t k j = 0
    by_cases h0 : qp.d_mask k j = 0
    · rw [(hl0 k j hk hj h0).1, (hl0 k j hk hj h0).2, hmm k j hk hj h0]; ring
    · rw [if_neg h0]
      have := deriv_zero (((hl k j).fun_mul (ht k j)).fun_sub (hm k j)) (h.mono (fun s hs => ((hv s hs).2.2.1 k j hk hj h0).2))
      linarith

open Filter Topology in
/-- **C61.**  Let the gradient, offset, bounds and complementarity targets of a strictly convex problem depend differentiably on a
parameter and let `z` be a differentiable path of points with zero residuals (strictly inside at zero).  If the workspace holds the
unregularised factorisation at `z 0`, the forward sensitivities of the derivative of the data are the derivative of `z` (for masked-out
constraints the slack is not determined by the residuals and not claimed) -/
theorem sensFrw_derivative (hwf : qp.WF) (hN : 1 ≤ qp.dim.N) (hun : Unshared qp) (hm01 : Mask01 qp)
    (hsc : StrictlyConvex qp (fun _ _ => 0) 0) (hint : Interior qp (z 0)) (w : RicWs ℝ) (hw : FactAt qp (z 0) (fun _ _ => 0) 0 w)
    (a : SensArg ℝ) (ha : a.comp_dual_sol_eq = true) (s : Seed ℝ)
    (hg : DerivV g s.g) (hb : DerivV b s.b) (hd : DerivV d s.d) (hm : DerivV m (fun k j => - s.m k j))
    (hmm : ∀ k j, k ≤ qp.dim.N → j < nct qp.dim k → qp.d_mask k j = 0 → s.m k j = 0)
    (hu : DerivV (fun s => (z s).ux) z'.ux) (hp : DerivV (fun s => (z s).pi) z'.pi)
    (hl : DerivV (fun s => (z s).lam) z'.lam) (ht : DerivV (fun s => (z s).t) z'.t)
    (h : ∀ᶠ s in 𝓝 (0 : ℝ), ZeroRes (withRhs qp (g s) (b s) (d s) (m s)) (z s)) :
    let r := (sensFrw qp s a w).1
    (∀ k i, k ≤ qp.dim.N → i < qp.dim.nu k + qp.dim.nx k + 2 * qp.dim.ns k → r.ux k i = z'.ux k i) ∧
    (∀ k i, k < qp.dim.N → i < qp.dim.nx (k + 1) → r.pi k i = z'.pi k i) ∧
    (∀ k j, k ≤ qp.dim.N → j < 2 * qp.dim.nb k + 2 * qp.dim.ng k + 2 * qp.dim.ns k → r.lam k j = z'.lam k j ∧
      (qp.d_mask k j ≠ 0 → r.t k j = z'.t k j)) := by
  intro r
  have h1 := (sensFrw_newton qp hwf hN hun (z 0) (fun _ _ => 0) 0 w hw a ha
    (fun k i hk hi => (slackCurv_pos hsc (z 0) hint k i hk hi).ne') s).1
  have h2 := path_newton (m' := s.m) qp hwf hm01 hg hb hd hm hmm hu hp hl ht h
  obtain ⟨e1, e2, e3⟩ := newton_unique (sensQp qp s) hwf (z 0) hint (fun _ _ => 0) 0 hsc _ _ h1 h2
  refine ⟨e1, e2, fun k j hk hj => ⟨(e3 k j hk hj).1, fun h0 => ?_⟩⟩
  refine (e3 k j hk hj).2.trans ?_
  exact if_neg h0

end
end Hpipm
