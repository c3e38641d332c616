/-
The step computed by the KKT routines is the search direction of the specification (C89, first part).
-/
import Verif.MehSpec
import Verif.MehMats
import Verif.KktSolve

namespace Hpipm
open Finset
set_option linter.unusedSectionVars false

section
variable {K : Type*} [Field K] [LinearOrder K] [IsStrictOrderedRing K]

/-- the step after masking: `σ = 0` for a step, `σ = 1` for the difference to the iterate -/
structure MaskedStep (qp : OcpQp K) (σ : K) (z n d : Sol K) : Prop where
  ux : ∀ k i, k ≤ qp.dim.N → i < nvt qp.dim k → d.ux k i = n.ux k i - σ * z.ux k i
  pi : ∀ k i, k < qp.dim.N → i < qp.dim.nx (k + 1) → d.pi k i = n.pi k i - σ * z.pi k i
  lam : ∀ k j, k ≤ qp.dim.N → j < nct qp.dim k → d.lam k j = qp.d_mask k j * (n.lam k j - σ * z.lam k j)
  t : ∀ k j, k ≤ qp.dim.N → j < nct qp.dim k → d.t k j = qp.d_mask k j * (n.t k j - σ * z.t k j)

theorem newton_off {qp q : OcpQp K} (hd : q.dim = qp.dim) {reg : K} {z n : Sol K} (hi : InsideZ qp z) (h : NewtonStep q z (fun _ _ => reg) reg n) {k j : ℕ}
    (hk : k ≤ qp.dim.N) (hj : j < nct qp.dim k) (h0 : qp.d_mask k j = 0) (hm : q.m k j = 0) : n.lam k j = 0 := by
  obtain ⟨t1, -, t3⟩ := hi k j hk hj
  have := h.m k j (by rw [hd]; exact hk) (by rw [hd]; exact hj)
  rw [hm, t3 h0, zero_mul, zero_add, zero_add] at this
  exact (mul_eq_zero.mp this).resolve_right t1.ne'

theorem NewtonStep.gall {qp : OcpQp K} {z n : Sol K} {reg : K} (h : NewtonStep qp z (fun _ _ => reg) reg n) {k i : ℕ} (hk : k ≤ qp.dim.N)
    (hi : i < nvt qp.dim k) : vG qp n (n.lam k) k i = - reg * n.ux k i := by
  unfold nvt at hi
  by_cases h1 : i < qp.dim.nu k + qp.dim.nx k
  · exact h.g k i hk h1
  · have := h.gs k (i - (qp.dim.nu k + qp.dim.nx k)) hk (by omega)
    rw [show qp.dim.nu k + qp.dim.nx k + (i - (qp.dim.nu k + qp.dim.nx k)) = i by omega] at this
    exact this

/-- relative formulation -/
theorem dir_of_newton_rel {qp : OcpQp K} (hwf : qp.WF) (hm : Mask01 qp) {reg : K} {z n d : Sol K} (r : Res K) (rm : ℕ → Vec K) (hi : InsideZ qp z)
    (hg : ∀ k i, k ≤ qp.dim.N → i < nvt qp.dim k → r.res_g k i = vG qp z (z.lam k) k i)
    (hb : ∀ k i, k < qp.dim.N → i < qp.dim.nx (k + 1) → r.res_b k i = vB qp z k i)
    (hdd : ∀ k j, k ≤ qp.dim.N → j < nct qp.dim k → r.res_d k j = qp.d_mask k j * vD qp z k j)
    (h0 : ∀ k j, k ≤ qp.dim.N → j < nct qp.dim k → qp.d_mask k j = 0 → rm k j = 0)
    (h : NewtonStep (withRhs qp r.res_g r.res_b r.res_d rm) z (fun _ _ => reg) reg n) (hs : MaskedStep qp 0 z n d) :
    Dir qp reg z z rm d := by
  have el : ∀ k j, k ≤ qp.dim.N → j < nct qp.dim k → d.lam k j = n.lam k j := by
    intro k j hk hj
    rw [hs.lam k j hk hj]
    rcases hm k j hk hj with e | e
    · rw [newton_off (q := withRhs qp r.res_g r.res_b r.res_d rm) rfl hi h hk hj e (h0 k j hk hj e), e]; ring
    · rw [e]; ring
  have eu : ∀ k i, k ≤ qp.dim.N → i < nvt qp.dim k → d.ux k i = n.ux k i := fun k i hk hi => by rw [hs.ux k i hk hi]; ring
  have ep : ∀ k i, k < qp.dim.N → i < qp.dim.nx (k + 1) → d.pi k i = n.pi k i := fun k i hk hi => by rw [hs.pi k i hk hi]; ring
  have et : ∀ k j, k ≤ qp.dim.N → j < nct qp.dim k → qp.d_mask k j = 1 → d.t k j = n.t k j := fun k j hk hj e => by
    rw [hs.t k j hk hj, e]; ring
  refine ⟨fun k i hk hi' => ?_, fun k i hk hi' => ?_, fun k j hk hj h1 => ?_, fun k j hk hj h1 => ?_, fun k j hk hj h1 => ?_⟩
  · have a := vG_step qp z d (z.lam k) (d.lam k) { r with res_m := rm } k i hi' (hg k i hk hi')
    have b := vG_in (qp := withRhs qp r.res_g r.res_b r.res_d rm) (s := { n with t := d.t }) (s' := d)
      ⟨fun k i hk hi => (eu k i hk hi).symm, fun k i hk hi => (ep k i hk hi).symm, fun k j hk hj => (el k j hk hj).symm, fun _ _ _ _ => rfl⟩
      hk hi' (lm := n.lam k) (lm' := d.lam k) (fun j hj => (el k j hk hj).symm)
    have c := h.gall (qp := withRhs qp r.res_g r.res_b r.res_d rm) hk hi'
    have e : (z.add d).ux k i - z.ux k i = n.ux k i := by rw [← eu k i hk hi']; simp only [Sol.add]; ring
    rw [e]
    exact a.trans (b.symm.trans c)
  · have a := h.b k i hk hi'
    rw [vB_lin] at a
    rw [vB_lin]
    have e1 : linB qp (z.add d).ux k i = linB qp z.ux k i + linB qp d.ux k i := linB_add qp z.ux d.ux k i
    have e2 : linB qp d.ux k i = linB qp n.ux k i := linB_congr qp d.ux n.ux k i hk hi' eu
    have e3 := hb k i hk hi'
    rw [vB_lin] at e3
    have a : r.res_b k i + linB qp n.ux k i = 0 := a
    rw [e1, e2]
    linear_combination a - e3
  · have a := h.d k j hk hj
    rw [vD_lin] at a
    rw [vD_lin]
    have e1 : linD qp (z.add d).ux k j = linD qp z.ux k j + linD qp d.ux k j := linD_add qp z.ux d.ux k j
    have e2 : linD qp d.ux k j = linD qp n.ux k j := linD_in hwf hk (fun i hi => eu k i hk hi) hj
    have e3 := hdd k j hk hj
    rw [vD_lin, h1, one_mul] at e3
    have a : r.res_d k j + n.t k j + linD qp n.ux k j = 0 := a
    have e4 : (z.add d).t k j = z.t k j + n.t k j := by rw [← et k j hk hj h1]; rfl
    rw [e1, e2, e4]
    linear_combination a - e3
  · rw [el k j hk hj, et k j hk hj h1]
    exact h.m k j hk hj
  · rw [hs.lam k j hk hj, hs.t k j hk hj, h1]
    exact ⟨by ring, by ring⟩

/-- absolute formulation -/
theorem dir_of_newton_abs {qp : OcpQp K} (hwf : qp.WF) (hm : Mask01 qp) {reg : K} {z n d : Sol K} (rm' rm : ℕ → Vec K) (hi : InsideZ qp z)
    (h0 : ∀ k j, k ≤ qp.dim.N → j < nct qp.dim k → qp.d_mask k j = 0 → rm' k j = 0)
    (h1 : ∀ k j, k ≤ qp.dim.N → j < nct qp.dim k → qp.d_mask k j = 1 → rm' k j + 2 * (z.lam k j * z.t k j) = rm k j)
    (h : NewtonStep (withRhs qp qp.rqz qp.b qp.d rm') z (fun _ _ => reg) reg n) (hs : MaskedStep qp 1 z n d) :
    Dir qp reg Sol.zero z rm d := by
  have el : ∀ k j, k ≤ qp.dim.N → j < nct qp.dim k → (z.add d).lam k j = n.lam k j := by
    intro k j hk hj
    show z.lam k j + d.lam k j = _
    rw [hs.lam k j hk hj]
    rcases hm k j hk hj with e | e
    · rw [newton_off (q := withRhs qp qp.rqz qp.b qp.d rm') rfl hi h hk hj e (h0 k j hk hj e), e, (hi k j hk hj).2.2 e]; ring
    · rw [e]; ring
  have eu : ∀ k i, k ≤ qp.dim.N → i < nvt qp.dim k → (z.add d).ux k i = n.ux k i := fun k i hk hi => by
    show z.ux k i + d.ux k i = _
    rw [hs.ux k i hk hi]; ring
  have ep : ∀ k i, k < qp.dim.N → i < qp.dim.nx (k + 1) → (z.add d).pi k i = n.pi k i := fun k i hk hi => by
    show z.pi k i + d.pi k i = _
    rw [hs.pi k i hk hi]; ring
  have et : ∀ k j, k ≤ qp.dim.N → j < nct qp.dim k → qp.d_mask k j = 1 → (z.add d).t k j = n.t k j := fun k j hk hj e => by
    show z.t k j + d.t k j = _
    rw [hs.t k j hk hj, e]; ring
  refine ⟨fun k i hk hi' => ?_, fun k i hk hi' => ?_, fun k j hk hj e => ?_, fun k j hk hj e => ?_, fun k j hk hj e => ?_⟩
  · have b := vG_in (qp := qp) (s := { n with t := (z.add d).t }) (s' := z.add d)
      ⟨fun k i hk hi => (eu k i hk hi).symm, fun k i hk hi => (ep k i hk hi).symm, fun k j hk hj => (el k j hk hj).symm, fun _ _ _ _ => rfl⟩
      hk hi' (lm := n.lam k) (lm' := (z.add d).lam k) (fun j hj => (el k j hk hj).symm)
    have c := h.gall (qp := withRhs qp qp.rqz qp.b qp.d rm') hk hi'
    have e : (z.add d).ux k i - (Sol.zero : Sol K).ux k i = n.ux k i := by rw [eu k i hk hi']; simp only [Sol.zero, sub_zero]
    rw [e]
    exact b.symm.trans c
  · have a := h.b k i hk hi'
    rw [vB_lin] at a
    rw [vB_lin, linB_congr qp _ n.ux k i hk hi' eu]
    exact a
  · have a := h.d k j hk hj
    rw [vD_lin] at a
    rw [vD_lin, linD_in hwf hk (fun i hi => eu k i hk hi) hj, et k j hk hj e]
    exact a
  · have a := h.m k j hk hj
    have a : rm' k j + z.lam k j * n.t k j + n.lam k j * z.t k j = 0 := a
    have b1 := el k j hk hj
    have b2 := et k j hk hj e
    have b1 : z.lam k j + d.lam k j = n.lam k j := b1
    have b2 : z.t k j + d.t k j = n.t k j := b2
    rw [← h1 k j hk hj e]
    rw [← b1, ← b2] at a
    linear_combination a
  · rw [hs.lam k j hk hj, hs.t k j hk hj, e]
    exact ⟨by ring, by ring⟩

end
end Hpipm
