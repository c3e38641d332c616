/-
The dense KKT solver on convex and nonconvex problems (C71): when the factorisations succeed, when the
regularisation loop ends and when it does not; uniqueness of the step.
-/
import Verif.DenseKktProps
import Verif.KktReg

namespace Hpipm
open Finset
set_option linter.unusedSectionVars false

section
variable {K : Type*} [Field K] [LinearOrder K] [IsStrictOrderedRing K]
variable (qp : DenseQp K)

/-- the quadratic part of the objective on points without slacks -/
theorem dquad_hmul (v : Vec K) :
    2 * (dview qp).quad ⟨v, fun _ => 0, fun _ => 0⟩ = ∑ i ∈ range qp.dim.nv, hmul (ov qp) 0 v i * v i := by
  set v' : Vec K := fun i => if i < qp.dim.nv then v i else 0 with hv'
  have e1 : (dview qp).quad ⟨v, fun _ => 0, fun _ => 0⟩ = (dview qp).quad (dptOf qp.dim v') := by
    unfold DUser.quad dptOf
    dsimp only
    have a1 : ∀ i, v' (qp.dim.nv + i) = 0 := fun i => by rw [hv']; dsimp only; rw [if_neg (by omega)]
    have a2 : ∀ i, v' (qp.dim.nv + qp.dim.ns + i) = 0 := fun i => by rw [hv']; dsimp only; rw [if_neg (by omega)]
    simp only [a1, a2]
    congr 3
    refine sum_congr rfl (fun i hi => sum_congr rfl (fun j hj => ?_))
    rw [hv']; dsimp only
    rw [if_pos (show i < qp.dim.nv from mem_range.mp hi), if_pos (show j < qp.dim.nv from mem_range.mp hj)]
  rw [e1, oquad]
  have e2 : (view (ov qp)).quad (ptOf (ov qp).dim (fun _ => v')) = (view (ov qp)).stageQuad (ptOf (ov qp).dim (fun _ => v')) 0 := by
    show ∑ k ∈ range (0 + 1), (view (ov qp)).stageQuad (ptOf (ov qp).dim (fun _ => v')) k = _
    simp
  rw [e2, stageQuad_packed]
  have e3 : ∑ s ∈ range (2 * (ov qp).dim.ns 0), (ov qp).Z 0 s * v' ((ov qp).dim.nu 0 + (ov qp).dim.nx 0 + s)
      * v' ((ov qp).dim.nu 0 + (ov qp).dim.nx 0 + s) = 0 := by
    refine sum_eq_zero (fun s _ => ?_)
    have : v' ((ov qp).dim.nu 0 + (ov qp).dim.nx 0 + s) = 0 := by
      show v' (qp.dim.nv + 0 + s) = 0
      rw [hv']; dsimp only; rw [if_neg (by omega)]
    rw [this, mul_zero]
  have e4 : ∑ i ∈ range ((ov qp).dim.nu 0 + (ov qp).dim.nx 0), hmul (ov qp) 0 v' i * v' i =
      ∑ i ∈ range qp.dim.nv, hmul (ov qp) 0 v i * v i := by
    refine sum_congr rfl (fun i hi => ?_)
    have a : ∀ j, j < qp.dim.nv → v' j = v j := fun j hj => by rw [hv']; dsimp only; rw [if_pos hj]
    rw [a i (mem_range.mp hi)]
    congr 1
    unfold hmul
    exact sum_congr rfl (fun j hj => by rw [a j (mem_range.mp hj)])
  rw [e4]
  have e3' := e3
  linear_combination e3'

/-- the condensed Hessian as a quadratic form -/
theorem dM_qform (hwf : qp.WF) (reg : K) (G : Vec K) (e : K) (x : Vec K) :
    qform qp.dim.nv (dM qp reg G e) x = 2 * (dview qp).quad ⟨x, fun _ => 0, fun _ => 0⟩ + e * ∑ i ∈ range qp.dim.nv, x i * x i
      + ∑ j ∈ range (qp.dim.nb + qp.dim.ng), kTh (ov qp) reg (fun _ => G) 0 j * (cval (ov qp) 0 x j * cval (ov qp) 0 x j) := by
  have e1 : qform qp.dim.nv (dM qp reg G e) x =
      ∑ i ∈ range qp.dim.nv, (hmul (ov qp) 0 x i * x i + e * (x i * x i)
        + cvalT (ov qp) 0 (fun l => kTh (ov qp) reg (fun _ => G) 0 l * cval (ov qp) 0 x l) i * x i) := by
    unfold qform
    refine sum_congr rfl (fun i hi => ?_)
    have h : ∑ j ∈ range qp.dim.nv, dM qp reg G e i j * x j = _ :=
      kH_apply (ov qp) (ov_wf qp hwf) (fun _ _ => e) reg (fun _ => G) 0 i (Nat.zero_le _) (mem_range.mp hi) x
    calc ∑ j ∈ range qp.dim.nv, x i * dM qp reg G e i j * x j
        = x i * ∑ j ∈ range qp.dim.nv, dM qp reg G e i j * x j := by
          rw [mul_sum]; exact sum_congr rfl (fun j _ => by ring)
      _ = _ := by rw [h]; ring
  have e2 : ∑ i ∈ range qp.dim.nv, cvalT (ov qp) 0 (fun l => kTh (ov qp) reg (fun _ => G) 0 l * cval (ov qp) 0 x l) i * x i =
      _ := cvalT_adj (ov qp) (ov_wf qp hwf) 0 (Nat.zero_le _) _ x
  rw [e1, sum_add_distrib, sum_add_distrib, e2, dquad_hmul, mul_sum]
  congr 1
  exact sum_congr rfl (fun j _ => by ring)

/-- multipliers nonnegative, slacks positive -/
def DInterior (sol : DqSol K) : Prop := ∀ j, j < qp.dim.nct → 0 ≤ sol.lam j ∧ 0 < sol.t j

/-- the penalties of the soft constraints are convex, and the Hessian of each slack is positive at the iterate -/
def DSlackOk (reg : K) (sol : DqSol K) : Prop :=
  ∀ i, i < 2 * qp.dim.ns → 0 ≤ qp.Z i + reg ∧ 0 < dslackCurv qp reg sol i

theorem dTh_nonneg (hwf : qp.WF) (reg : K) (sol : DqSol K) (hi : DInterior qp sol) (hs : DSlackOk qp reg sol) (G : Vec K)
    (hG : ∀ j, j < qp.dim.nct → G j = 1 / sol.t j * sol.lam j) (j : ℕ) (hj : j < qp.dim.nb + qp.dim.ng) :
    0 ≤ kTh (ov qp) reg (fun _ => G) 0 j := by
  have hGn : ∀ j, j < qp.dim.nct → 0 ≤ G j := by
    intro j hj
    rw [hG j hj]
    exact mul_nonneg (le_of_lt (one_div_pos.mpr (hi j hj).2)) (hi j hj).1
  have gen : ∀ a d : K, 0 ≤ a → 0 < d → a ≤ d → 0 ≤ a - a * (1 / d) * a := by
    intro a d ha hd had
    have : a - a * (1 / d) * a = a * ((d - a) / d) := by field_simp
    rw [this]
    exact mul_nonneg ha (div_nonneg (by linarith) (le_of_lt hd))
  have sum_ge : ∀ (w : Vec K), (∀ j, j < qp.dim.nb + qp.dim.ng → 0 ≤ w j) → qp.idxs_rev j ≠ -1 →
      w j ≤ slkSum (qp.dim.nb + qp.dim.ng) qp.idxs_rev w (qp.idxs_rev j).toNat := by
    intro w hw hs
    unfold slkSum
    refine le_trans (le_of_eq ?_) (single_le_sum (fun l hl => ?_) (mem_range.mpr hj))
    · rw [if_pos ⟨hs, rfl⟩]
    · split_ifs
      · exact hw l (mem_range.mp hl)
      · exact le_refl _
  have hden : ∀ i, i < 2 * qp.dim.ns → 0 < slkDen (qp.dim.nb + qp.dim.ng) qp.dim.ns qp.idxs_rev reg qp.Z G i := by
    intro i hi
    have := slkDen_curv (ov qp) (ov_wf qp hwf) reg (osol sol) (fun _ => G) 0 i (Nat.zero_le _) hi (fun j hj => hG j hj)
    rw [show slkDen (qp.dim.nb + qp.dim.ng) qp.dim.ns qp.idxs_rev reg qp.Z G i = _ from this]
    exact (hs i hi).2
  unfold DDim.nct at hGn
  unfold kTh
  rcases hir_of_wf (ov_wf qp hwf) (Nat.zero_le _) j hj with h | h
  · have h : qp.idxs_rev j = -1 := h
    unfold slkTh
    rw [if_neg (by show ¬ qp.idxs_rev j ≠ -1; simp [h]), if_neg (by show ¬ qp.idxs_rev j ≠ -1; simp [h])]
    exact add_nonneg (hGn j (by omega)) (hGn (qp.dim.nb + qp.dim.ng + j) (by omega))
  · have h : 0 ≤ qp.idxs_rev j ∧ (qp.idxs_rev j).toNat < qp.dim.ns := h
    have hs' : qp.idxs_rev j ≠ -1 := by omega
    unfold slkTh
    rw [if_pos (show (ov qp).idxs_rev 0 j ≠ -1 from hs'), if_pos (show (ov qp).idxs_rev 0 j ≠ -1 from hs')]
    refine add_nonneg (gen _ _ (hGn j (by omega)) (hden (0 + (qp.idxs_rev j).toNat) (by omega)) ?_)
      (gen _ _ (hGn (qp.dim.nb + qp.dim.ng + j) (by omega)) (hden (qp.dim.ns + (qp.idxs_rev j).toNat) (by omega)) ?_)
    · have h1 := sum_ge G (fun l hl => hGn l (by omega)) hs'
      have h2 := (hs (qp.idxs_rev j).toNat (by omega)).1
      have h3 := hGn (2 * (qp.dim.nb + qp.dim.ng) + (qp.idxs_rev j).toNat) (by omega)
      show G j ≤ slkDen (qp.dim.nb + qp.dim.ng) qp.dim.ns qp.idxs_rev reg qp.Z G (0 + (qp.idxs_rev j).toNat)
      unfold slkDen
      rw [if_pos (by omega), zero_add]
      linarith
    · have h1 := sum_ge (fun l => G (qp.dim.nb + qp.dim.ng + l)) (fun l hl => hGn _ (by omega)) hs'
      have h2 := (hs (qp.dim.ns + (qp.idxs_rev j).toNat) (by omega)).1
      have h3 := hGn (2 * (qp.dim.nb + qp.dim.ng) + (qp.dim.ns + (qp.idxs_rev j).toNat)) (by omega)
      show G (qp.dim.nb + qp.dim.ng + j) ≤ slkDen (qp.dim.nb + qp.dim.ng) qp.dim.ns qp.idxs_rev reg qp.Z G (qp.dim.ns + (qp.idxs_rev j).toNat)
      unfold slkDen
      rw [if_neg (by omega), Nat.add_sub_cancel_left]
      linarith

/-! ### quadratic forms of the factorised matrices -/

/-- the matrix factorised by the null space method is the condensed Hessian on the null space -/
theorem null_qform {m n : ℕ} (hmn : m ≤ n) {A L Q : Mat K} (h : LqOk m n A L Q) (M : Mat K) (p : K) (x : Vec K) :
    let z : Vec K := fun j => ∑ a ∈ range (n - m), Q (m + a) j * x a
    qform (n - m) (fun a c => ∑ i ∈ range n, (∑ j ∈ range n, Q (m + a) j * M i j) * Q (m + c) i + if a = c then p else 0) x =
      qform n M z + p * ∑ i ∈ range n, z i * z i ∧
    ∑ i ∈ range n, z i * z i = ∑ a ∈ range (n - m), x a * x a ∧
    ∀ i, i < m → ∑ j ∈ range n, A i j * z j = 0 := by
  intro z
  have hz : ∑ i ∈ range n, z i * z i = ∑ a ∈ range (n - m), x a * x a := by
    have e1 : ∀ i ∈ range n, z i * z i = ∑ a ∈ range (n - m), ∑ c ∈ range (n - m), x a * x c * (Q (m + a) i * Q (m + c) i) := by
      intro i _
      simp only [z]
      rw [sum_mul]
      refine sum_congr rfl (fun a _ => ?_)
      rw [mul_sum]
      exact sum_congr rfl (fun c _ => by ring)
    rw [sum_congr rfl e1, sum_comm]
    refine sum_congr rfl (fun a ha => ?_)
    rw [sum_comm]
    have ha := mem_range.mp ha
    have e2 : ∀ c ∈ range (n - m), ∑ i ∈ range n, x a * x c * (Q (m + a) i * Q (m + c) i) = if a = c then x a * x a else 0 := by
      intro c hc
      have hc := mem_range.mp hc
      rw [← mul_sum, h.orth (m + a) (m + c) (by omega) (by omega)]
      by_cases hac : a = c
      · subst hac; simp
      · rw [if_neg (by omega), if_neg hac, mul_zero]
    rw [sum_congr rfl e2, sum_ite_eq, if_pos (mem_range.mpr ha)]
  refine ⟨?_, hz, fun i hi => ?_⟩
  · rw [hz]
    have e1 : qform (n - m) (fun a c => ∑ i ∈ range n, (∑ j ∈ range n, Q (m + a) j * M i j) * Q (m + c) i + if a = c then p else 0) x =
        ∑ a ∈ range (n - m), (∑ c ∈ range (n - m), ∑ i ∈ range n, ∑ j ∈ range n, (Q (m + c) i * x c) * M i j * (Q (m + a) j * x a)
          + p * (x a * x a)) := by
      unfold qform
      refine sum_congr rfl (fun a ha => ?_)
      have : ∀ c ∈ range (n - m), x a * (∑ i ∈ range n, (∑ j ∈ range n, Q (m + a) j * M i j) * Q (m + c) i + if a = c then p else 0) * x c =
          ∑ i ∈ range n, ∑ j ∈ range n, (Q (m + c) i * x c) * M i j * (Q (m + a) j * x a) + if a = c then p * (x a * x a) else 0 := by
        intro c _
        rw [mul_add, add_mul, mul_sum, sum_mul]
        congr 1
        · refine sum_congr rfl (fun i _ => ?_)
          rw [sum_mul, mul_sum, sum_mul]
          exact sum_congr rfl (fun j _ => by ring)
        · split_ifs with h
          · subst h; ring
          · ring
      rw [sum_congr rfl this, sum_add_distrib, sum_ite_eq, if_pos ha]
    rw [e1, sum_add_distrib, ← mul_sum]
    congr 1
    have e2 : ∀ i j, z i * M i j * z j = ∑ a ∈ range (n - m), ∑ c ∈ range (n - m), (Q (m + c) i * x c) * M i j * (Q (m + a) j * x a) := by
      intro i j
      simp only [z]
      rw [sum_mul, sum_mul_sum, sum_comm]
    unfold qform
    simp only [e2]
    rw [sum_congr rfl (fun i _ => sum_comm), sum_comm]
    refine sum_congr rfl (fun a _ => ?_)
    rw [sum_congr rfl (fun i _ => sum_comm), sum_comm]
  · simp only [z]
    have e1 : ∀ j ∈ range n, A i j * ∑ a ∈ range (n - m), Q (m + a) j * x a =
        ∑ a ∈ range (n - m), ∑ l ∈ range m, low L i l * x a * (Q l j * Q (m + a) j) := by
      intro j hj
      rw [← h.mul i j hi (mem_range.mp hj), mul_sum]
      refine sum_congr rfl (fun a _ => ?_)
      rw [sum_mul]
      exact sum_congr rfl (fun l _ => by ring)
    rw [sum_congr rfl e1, sum_comm]
    refine sum_eq_zero (fun a ha => ?_)
    rw [sum_comm]
    refine sum_eq_zero (fun l hl => ?_)
    have ha := mem_range.mp ha
    have hl := mem_range.mp hl
    rw [← mul_sum, h.orth l (m + a) (by omega) (by omega), if_neg (by omega), mul_zero]

/-- a scaled and shifted matrix -/
theorem scaled_qform (n : ℕ) (M : Mat K) (s : Vec K) (p : K) (x : Vec K) :
    qform n (fun i j => s i * M i j * s j + if i = j then p else 0) x =
      qform n M (fun i => s i * x i) + p * ∑ i ∈ range n, x i * x i := by
  unfold qform
  rw [mul_sum, ← sum_add_distrib]
  refine sum_congr rfl (fun i hi => ?_)
  have : ∀ j ∈ range n, x i * (s i * M i j * s j + if i = j then p else 0) * x j =
      s i * x i * M i j * (s j * x j) + if i = j then p * (x i * x i) else 0 := by
    intro j _
    split_ifs with h
    · subst h; ring
    · ring
  rw [sum_congr rfl this, sum_add_distrib, sum_ite_eq, if_pos hi]

theorem diag_qform (n : ℕ) (p : K) (x : Vec K) :
    qform n (fun i j => if i = j then p else 0) x = p * ∑ i ∈ range n, x i * x i := by
  have := scaled_qform n (fun _ _ => 0) (fun _ => 0) p x
  simp only [mul_zero, zero_mul, zero_add] at this
  rw [this]
  unfold qform
  simp

theorem sq_sum_pos {n : ℕ} {x : Vec K} (h : ∃ i, i < n ∧ x i ≠ 0) : 0 < ∑ i ∈ range n, x i * x i := by
  obtain ⟨i, hi, hx⟩ := h
  exact lt_of_lt_of_le (mul_self_pos.mpr hx) (single_le_sum (f := fun i => x i * x i) (fun i _ => mul_self_nonneg _) (mem_range.mpr hi))

theorem sq_sum_ne {n : ℕ} {x : Vec K} (h : 0 < ∑ i ∈ range n, x i * x i) : ∃ i, i < n ∧ x i ≠ 0 := by
  by_contra hc
  push Not at hc
  rw [sum_eq_zero (fun i hi => by rw [hc i (mem_range.mp hi), mul_zero])] at h
  exact lt_irrefl _ h

/-- the Schur complement of independent equality constraints is positive definite; with positive dual
regularisation that of any -/
theorem gram_pd {m n : ℕ} {A AL L : Mat K} {s : Vec K} (hs : ∀ j, j < n → s j ≠ 0)
    (hAL : ∀ i j, i < m → j < n → ∑ l ∈ range n, low L j l * AL i l = A i j * s j) (se : Vec K) (hse : ∀ i, i < m → se i ≠ 0)
    (d : K) (hd : 0 ≤ d) (hr : 0 < d ∨ FullRank m n A) :
    Pd m (fun i j => se i * (∑ l ∈ range n, AL i l * AL j l) * se j + if i = j then d else 0) := by
  rintro x hx
  rw [scaled_qform]
  have e := qform_split m n (fun i j => ∑ l ∈ range n, AL i l * AL j l) AL (fun _ _ => 0) (fun i => se i * x i)
    (fun i j _ _ => by rw [add_zero])
  have e0 : qform m (fun _ _ => (0 : K)) (fun i => se i * x i) = 0 := by unfold qform; simp
  rw [e, e0, add_zero]
  have h1 : 0 ≤ ∑ l ∈ range n, (∑ i ∈ range m, AL i l * (se i * x i)) * (∑ i ∈ range m, AL i l * (se i * x i)) :=
    sum_nonneg (fun l _ => mul_self_nonneg _)
  have h2 := sq_sum_pos hx
  rcases hr with hd' | hr
  · exact add_pos_of_nonneg_of_pos h1 (mul_pos hd' h2)
  · refine add_pos_of_pos_of_nonneg (lt_of_le_of_ne h1 (fun h0 => ?_)) (mul_nonneg hd (le_of_lt h2))
    have hz := (sum_eq_zero_iff_of_nonneg (fun l _ => mul_self_nonneg _)).mp h0.symm
    obtain ⟨i, hi, hxi⟩ := hx
    have hy := hr (fun i => se i * x i) (fun j hj => ?_) i hi
    · exact (mul_ne_zero (hse i hi) hxi) hy
    · have e1 : (∑ i ∈ range m, A i j * (se i * x i)) * s j = 0 := by
        rw [sum_mul]
        have : ∀ i ∈ range m, A i j * (se i * x i) * s j = ∑ l ∈ range n, low L j l * (AL i l * (se i * x i)) := by
          intro i hi
          rw [show A i j * (se i * x i) * s j = (A i j * s j) * (se i * x i) by ring, ← hAL i j (mem_range.mp hi) hj, sum_mul]
          exact sum_congr rfl (fun l _ => by ring)
        rw [sum_congr rfl this, sum_comm]
        refine sum_eq_zero (fun l hl => ?_)
        rw [← mul_sum, mul_self_eq_zero.mp (hz l hl), mul_zero]
      exact (mul_eq_zero.mp e1).resolve_right (hs j hj)

/-- a factorised matrix is positive definite -/
theorem fac_pd {n : ℕ} {L M : Mat K} (h : Fac n L M) : Pd n M := by
  intro x hx
  rw [qform_split n n M (fun i l => low L i l) (fun _ _ => 0) x (fun i j hi hj => by rw [add_zero, h.fac i j hi hj])]
  have e0 : qform n (fun _ _ => (0 : K)) x = 0 := by unfold qform; simp
  rw [e0, add_zero]
  refine lt_of_le_of_ne (sum_nonneg (fun l _ => mul_self_nonneg _)) (fun h0 => ?_)
  have hz := (sum_eq_zero_iff_of_nonneg (fun l _ => mul_self_nonneg _)).mp h0.symm
  obtain ⟨i, hi, hx⟩ := hx
  exact hx (low_inj_tr h.piv (fun j hj => mul_self_eq_zero.mp (hz j (mem_range.mpr hj))) i hi)

/-! ### one pass -/

variable (sq : K → K) (lq : ℕ → ℕ → Mat K → Mat K × Mat K) (arg : DArg K)

/-- the matrix that the selected method factorises for the primal variables is positive definite -/
def DPosH (preg : K) (G : Vec K) : Prop :=
  if qp.dim.ne > 0 then
    if arg.alg = 0 then ∀ L Q, LqOk qp.dim.ne qp.dim.nv qp.A L Q →
      Pd (qp.dim.nv - qp.dim.ne) (fun a c => ∑ i ∈ range qp.dim.nv, (∑ j ∈ range qp.dim.nv,
        Q (qp.dim.ne + a) j * dM qp arg.reg_prim G 0 i j) * Q (qp.dim.ne + c) i + if a = c then preg else 0)
    else if arg.scale then (∀ i, i < qp.dim.nv → 0 ≤ dM qp arg.reg_prim G 0 i i) ∧
      Pd qp.dim.nv (fun i j => scl sq (dM qp arg.reg_prim G 0 i i) * dM qp arg.reg_prim G 0 i j * scl sq (dM qp arg.reg_prim G 0 j j)
        + if i = j then preg else 0)
    else Pd qp.dim.nv (dM qp arg.reg_prim G arg.reg_prim)
  else if arg.scale then (∀ i, i < qp.dim.nv → 0 ≤ dM qp arg.reg_prim G 0 i i) ∧
      Pd qp.dim.nv (fun i j => scl sq (dM qp arg.reg_prim G 0 i i) * dM qp arg.reg_prim G 0 i j * scl sq (dM qp arg.reg_prim G 0 j j)
        + if i = j then preg else 0)
  else Pd qp.dim.nv (dM qp arg.reg_prim G preg)

/-- the equality constraints can be handled: independent, or regularised -/
def DEqOk (dreg : K) : Prop := 0 < qp.dim.ne → arg.alg ≠ 0 → 0 ≤ dreg ∧ (0 < dreg ∨ FullRank qp.dim.ne qp.dim.nv qp.A)

theorem dPass_jump (hsq : ∀ x, 0 < x → sq x * sq x = x) (hwf : qp.WF) (hlq : DLqHyp lq qp arg.alg) (preg dreg : K)
    (G g : Vec K) (st : DKkt K) (hc : DCache qp arg.alg st) :
    let s := dPass sq lq qp arg preg dreg G g st
    (DPosH qp sq arg preg G → s.1 ≠ .preg) ∧ (DEqOk qp arg dreg → s.1 ≠ .dreg) ∧
    (0 < qp.dim.ne → arg.alg ≠ 0 → arg.scale = false → ¬ Pd qp.dim.nv (dM qp arg.reg_prim G arg.reg_prim) → s.1 = .preg) ∧
    ((qp.dim.ne = 0 ∨ arg.alg ≠ 0) → arg.scale = true → (∃ i, i < qp.dim.nv ∧ dM qp arg.reg_prim G 0 i i < 0) → s.1 = .preg) ∧
    (0 < qp.dim.ne → arg.alg ≠ 0 → arg.scale = false → dreg = 0 → ¬ FullRank qp.dim.ne qp.dim.nv qp.A → s.1 ≠ .done) ∧
    ((qp.dim.ne = 0 ∨ arg.alg = 0) → s.1 ≠ .dreg) := by
  intro s
  have es : s = dPass sq lq qp arg preg dreg G g st := rfl
  unfold dPass at es
  unfold DPosH
  by_cases hne : qp.dim.ne > 0
  · rw [if_pos hne] at es ⊢
    by_cases ha : arg.alg = 0
    · rw [if_pos ha] at es ⊢
      obtain ⟨hmn, hr, hl⟩ := hlq hne ha
      obtain ⟨h1, h2⟩ := dLq_ok lq qp hl st (hc hne ha)
      obtain ⟨_, _, k3, k4, _, k6⟩ := dNullFact_ok sq hsq qp hwf arg.reg_prim preg G g (dLq lq qp st) h1 h2
      set w := dNullFact sq qp arg.reg_prim preg G g (dLq lq qp st) with hw
      have ew : s = if singular (qp.dim.nv - qp.dim.ne) w.ZtHZ then (.preg, w) else (.done, dNullSolve qp w) := es
      refine ⟨fun hp => ?_, fun _ => ?_, fun _ h => absurd ha h, ?_, fun _ h => absurd ha h, fun _ => ?_⟩
      · have := k6 (hp _ _ (k4 k3).1)
        rw [ew, if_neg (by rw [this]; simp)]
        simp
      · rw [ew]; split_ifs <;> simp
      · rintro (h | h)
        · omega
        · exact absurd ha h
      · rw [ew]; split_ifs <;> simp
    · rw [if_neg ha] at es ⊢
      by_cases hsc : arg.scale = true
      · rw [if_pos hsc] at es ⊢
        obtain ⟨L, lv, C, z, u, t0, t1, t2, t3, he, h1, h2, h3⟩ := dBarH_val qp hwf arg.reg_prim G g 0
          { st with Lv := gecp qp.dim.nv qp.dim.nv qp.Hv 0 0 st.Lv 0 0 } (fun i j hi hj => by
            simp only [gecp]
            rw [if_pos (by omega)]; simp)
        unfold dSchurS at es
        simp only [he] at es
        set w0 : DKkt K := { st with
          Lv := L
          lv := lv
          Ctx := C
          Zs := z
          v := u
          t0 := t0
          t1 := t1
          t2 := t2
          t3 := t3 } with hw0
        obtain ⟨hsf, hsg⟩ := dScaleFact_ok sq hsq qp arg.reg_prim preg G w0 h3
        refine ⟨fun hp => ?_, fun hE => ?_, fun _ _ h => absurd hsc (by simp [h]), fun _ _ hneg => ?_,
          fun _ _ h => absurd hsc (by simp [h]), ?_⟩
        · have := hsg hp.1 hp.2
          rw [es, if_neg (by rw [this]; simp)]
          split_ifs <;> simp
        · rw [es]
          by_cases hr : (dScaleFact sq qp.dim.nv preg w0).1 = true
          · rw [if_pos hr]; simp
          · rw [if_neg hr]
            have hH := hsf (by simpa using hr)
            obtain ⟨k1, k2, k3, k4, _, k6⟩ := dSchurSFact_ok sq hsq qp arg.reg_prim preg dreg G g _ hH h2 h1
            obtain ⟨hd, hr2⟩ := hE hne ha
            have hsv : ∀ j, j < qp.dim.nv → (dScaleFact sq qp.dim.nv preg w0).2.sv j ≠ 0 := fun j hj => by
              rw [hH.sv j hj]; exact scl_ne _ _
            have := k6 (gram_pd (A := qp.A) (L := (dSchurSFact sq qp dreg (dScaleFact sq qp.dim.nv preg w0).2).Lv) hsv
              k4 (fun i => scl sq (∑ l ∈ range qp.dim.nv, (dSchurSFact sq qp dreg (dScaleFact sq qp.dim.nv preg w0).2).AL i l
                * (dSchurSFact sq qp dreg (dScaleFact sq qp.dim.nv preg w0).2).AL i l)) (fun i _ => scl_ne _ _) dreg hd hr2)
            rw [if_neg (by rw [this]; simp)]
            simp
        · have hr : (dScaleFact sq qp.dim.nv preg w0).1 = true := by
            by_contra h
            obtain ⟨i, hi, hn⟩ := hneg
            exact absurd ((hsf (by simpa using h)).nonneg i hi) (not_le.mpr hn)
          rw [es, if_pos hr]
        · rintro (h | h)
          · omega
          · exact absurd h ha
      · rw [if_neg hsc] at es ⊢
        obtain ⟨h1, h2, h3, h4⟩ := dSchurFactH_ok sq hsq qp hwf arg.reg_prim G g st
        unfold dSchur at es
        set w0 := dSchurFactH sq qp arg.reg_prim G g st with hw0
        refine ⟨fun hp => ?_, fun hE => ?_, fun _ _ _ hnp => ?_, fun _ h => absurd h hsc, fun _ _ _ hd hr => ?_, ?_⟩
        · rw [es]
          dsimp only
          rw [if_neg (by rw [h4 hp]; simp)]
          split_ifs <;> simp
        · rw [es]
          by_cases hr : singular qp.dim.nv w0.Lv = true
          · simp [hr]
          · simp only [if_neg hr]
            obtain ⟨_, _, _, _, k4, _, k6⟩ := dSchurFactE_ok sq hsq qp arg.reg_prim dreg G g w0 (h3 (by simpa using hr)) h1 h2
            obtain ⟨hd, hr2⟩ := hE hne ha
            have hg := gram_pd (A := qp.A) (L := (dSchurFactE sq qp dreg w0).Lv) (AL := (dSchurFactE sq qp dreg w0).AL) (s := fun _ => 1)
              (fun _ _ => one_ne_zero) (fun i j hi hj => by rw [mul_one]; exact k4 i j hi hj) (fun _ => 1)
              (fun _ _ => one_ne_zero) dreg hd hr2
            simp only [one_mul, mul_one] at hg
            rw [if_neg (by rw [k6 hg]; simp)]
            simp
        · have hr : singular qp.dim.nv w0.Lv = true := by
            by_contra h
            exact hnp (fac_pd (h3 (by simpa using h)))
          rw [es]; simp [hr]
        · rw [es]
          by_cases hrr : singular qp.dim.nv w0.Lv = true
          · simp [hrr]
          · simp only [if_neg hrr]
            obtain ⟨_, _, _, _, k4, k5, _⟩ := dSchurFactE_ok sq hsq qp arg.reg_prim dreg G g w0 (h3 (by simpa using hrr)) h1 h2
            have hsg : singular qp.dim.ne (dSchurFactE sq qp dreg w0).Le = true := by
              by_contra h
              have hF := (k5 (by simpa using h)).E
              refine hr (fun y hy i hi => ?_)
              by_contra hyi
              have hp := fac_pd hF y ⟨i, hi, hyi⟩
              rw [qform_split qp.dim.ne qp.dim.nv _ (dSchurFactE sq qp dreg w0).AL (fun i j => if i = j then dreg else 0) y
                (fun i j _ _ => rfl), diag_qform, show dreg * ∑ i ∈ range qp.dim.ne, y i * y i = 0 by rw [hd, zero_mul], add_zero] at hp
              refine lt_irrefl (0 : K) (lt_of_lt_of_eq hp (sum_eq_zero (fun l hl => ?_)))
              have hin := low_inj (A := (dSchurFactE sq qp dreg w0).Lv) (h3 (by simpa using hrr)).piv
                (y := fun l => ∑ i ∈ range qp.dim.ne, (dSchurFactE sq qp dreg w0).AL i l * y i) (fun j hj => by
                  have e : ∀ l ∈ range qp.dim.nv, low (dSchurFactE sq qp dreg w0).Lv j l
                      * ∑ i ∈ range qp.dim.ne, (dSchurFactE sq qp dreg w0).AL i l * y i =
                      ∑ i ∈ range qp.dim.ne, low (dSchurFactE sq qp dreg w0).Lv j l * (dSchurFactE sq qp dreg w0).AL i l * y i := by
                    intro l _
                    rw [mul_sum]; exact sum_congr rfl (fun i _ => by ring)
                  rw [sum_congr rfl e, sum_comm]
                  have e2 : ∀ i ∈ range qp.dim.ne, ∑ l ∈ range qp.dim.nv, low (dSchurFactE sq qp dreg w0).Lv j l * (dSchurFactE sq qp dreg w0).AL i l * y i
                      = qp.A i j * y i := by
                    intro i hi
                    rw [← sum_mul, k4 i j (mem_range.mp hi) hj]
                  rw [sum_congr rfl e2]
                  exact hy j hj) l (mem_range.mp hl)
              rw [hin, mul_zero]
            rw [if_pos hsg]; simp
        · rintro (h | h)
          · omega
          · exact absurd h ha
  · rw [if_neg hne] at es ⊢
    by_cases hsc : arg.scale = true
    · rw [if_pos hsc] at es ⊢
      obtain ⟨L, lv, C, z, u, t0, t1, t2, t3, he, h1, h2, h3⟩ := dBarH_val qp hwf arg.reg_prim G g 0
        { st with Lv := trcp_l qp.dim.nv qp.Hv 0 0 st.Lv 0 0 } (fun i j hi hj => by
          simp only [trcp_l]
          rw [if_pos (by omega)]; simp)
      unfold dFreeS at es
      simp only [he] at es
      set w0 : DKkt K := { st with
          Lv := L
          lv := lv
          Ctx := C
          Zs := z
          v := u
          t0 := t0
          t1 := t1
          t2 := t2
          t3 := t3 } with hw0
      obtain ⟨hsf, hsg⟩ := dScaleFact_ok sq hsq qp arg.reg_prim preg G w0 h3
      refine ⟨fun hp => ?_, fun hE => ?_, fun h => absurd h hne, fun _ _ hneg => ?_, fun h => absurd h hne, fun _ => ?_⟩
      · rw [es, if_neg (by rw [hsg hp.1 hp.2]; simp)]; simp
      · rw [es]; split_ifs <;> simp
      · have hr : (dScaleFact sq qp.dim.nv preg w0).1 = true := by
          by_contra h
          obtain ⟨i, hi, hn⟩ := hneg
          exact absurd ((hsf (by simpa using h)).nonneg i hi) (not_le.mpr hn)
        rw [es, if_pos hr]
      · rw [es]; split_ifs <;> simp
    · rw [if_neg hsc] at es ⊢
      obtain ⟨_, _, h3⟩ := dFreeFact_ok sq hsq qp hwf arg.reg_prim preg G g st
      unfold dFree at es
      dsimp only at es
      refine ⟨fun hp => ?_, fun hE => ?_, fun h => absurd h hne, fun _ h => absurd h hsc, fun h => absurd h hne, fun _ => ?_⟩
      · rw [es, if_neg (by rw [h3 hp]; simp)]; simp
      · rw [es]; split_ifs <;> simp
      · rw [es]; split_ifs <;> simp

/-! ### convex problems -/

/-- the directions on which the selected method needs curvature: the null space of the equality constraints for the
null space method, all directions otherwise -/
def DDir (alg : ℕ) (v : Vec K) : Prop := 0 < qp.dim.ne → alg = 0 → ∀ i, i < qp.dim.ne → (dview qp).Av v i = 0

/-- the objective is convex along these directions, strictly if there is no primal regularisation -/
structure DCurv (alg : ℕ) (reg : K) : Prop where
  nonneg : ∀ v, DDir qp alg v → 0 ≤ (dview qp).quad ⟨v, fun _ => 0, fun _ => 0⟩
  regn : 0 ≤ reg
  strict : 0 < reg ∨ ∀ v, DDir qp alg v → (∃ i, i < qp.dim.nv ∧ v i ≠ 0) → 0 < (dview qp).quad ⟨v, fun _ => 0, fun _ => 0⟩

/-- one pass does not break down on a convex problem -/
theorem dposH_of_convex (hwf : qp.WF) (sol : DqSol K) (hi : DInterior qp sol) (hs : DSlackOk qp arg.reg_prim sol) (G : Vec K)
    (hG : ∀ j, j < qp.dim.nct → G j = 1 / sol.t j * sol.lam j) (hc : DCurv qp arg.alg arg.reg_prim) :
    DPosH qp sq arg arg.reg_prim G := by
  have hth := dTh_nonneg qp hwf arg.reg_prim sol hi hs G hG
  have hsum : ∀ x, 0 ≤ ∑ j ∈ range (qp.dim.nb + qp.dim.ng), kTh (ov qp) arg.reg_prim (fun _ => G) 0 j * (cval (ov qp) 0 x j * cval (ov qp) 0 x j) :=
    fun x => sum_nonneg (fun j hj => mul_nonneg (hth j (mem_range.mp hj)) (mul_self_nonneg _))
  -- the form plus `reg` times a positive number
  have key : ∀ z : Vec K, DDir qp arg.alg z → ∀ y : K, 0 < y → (∃ i, i < qp.dim.nv ∧ z i ≠ 0) →
      0 < qform qp.dim.nv (dM qp arg.reg_prim G 0) z + arg.reg_prim * y := by
    intro z hz y hy hne
    rw [dM_qform qp hwf, zero_mul, add_zero]
    have h1 := hsum z
    have h2 := hc.nonneg z hz
    rcases hc.strict with h | h
    · have := mul_pos h hy
      linarith
    · have := h z hz hne
      have := mul_nonneg hc.regn (le_of_lt hy)
      linarith
  have hshift : ∀ x, qform qp.dim.nv (dM qp arg.reg_prim G arg.reg_prim) x = qform qp.dim.nv (dM qp arg.reg_prim G 0) x
      + arg.reg_prim * ∑ i ∈ range qp.dim.nv, x i * x i := by
    intro x
    rw [dM_qform qp hwf, dM_qform qp hwf]; ring
  have hscale : (∀ z, DDir qp arg.alg z) → (∀ i, i < qp.dim.nv → 0 ≤ dM qp arg.reg_prim G 0 i i) ∧
      Pd qp.dim.nv (fun i j => scl sq (dM qp arg.reg_prim G 0 i i) * dM qp arg.reg_prim G 0 i j * scl sq (dM qp arg.reg_prim G 0 j j)
        + if i = j then arg.reg_prim else 0) := by
    intro hz
    refine ⟨fun i hi => ?_, fun x hx => ?_⟩
    · have h1 : 0 ≤ qform qp.dim.nv (dM qp arg.reg_prim G 0) (fun j => if j = i then 1 else 0) := by
        rw [dM_qform qp hwf, zero_mul, add_zero]
        have h1 := hsum (fun j => if j = i then 1 else 0)
        have h2 := hc.nonneg (fun j => if j = i then 1 else 0) (hz _)
        linarith
      refine le_of_le_of_eq h1 ?_
      unfold qform
      rw [sum_eq_single_of_mem i (mem_range.mpr hi) (fun a _ hai => by simp [hai]),
        sum_eq_single_of_mem i (mem_range.mpr hi) (fun a _ hai => by simp [hai])]
      simp
    · rw [scaled_qform qp.dim.nv (dM qp arg.reg_prim G 0) (fun i => scl sq (dM qp arg.reg_prim G 0 i i))]
      refine key _ (hz _) _ (sq_sum_pos hx) ?_
      obtain ⟨i, hi, hxi⟩ := hx
      exact ⟨i, hi, mul_ne_zero (scl_ne _ _) hxi⟩
  unfold DPosH
  by_cases hne : qp.dim.ne > 0
  · rw [if_pos hne]
    by_cases ha : arg.alg = 0
    · rw [if_pos ha]
      intro L Q hq x hx
      by_cases hmn : qp.dim.ne ≤ qp.dim.nv
      · obtain ⟨e1, e2, e3⟩ := null_qform hmn hq (dM qp arg.reg_prim G 0) arg.reg_prim x
        rw [e1]
        have hp := sq_sum_pos hx
        rw [← e2] at hp
        refine key _ (fun _ _ i hi => ?_) _ hp (sq_sum_ne hp)
        rw [dview_Av qp _ i hi]
        exact e3 i hi
      · obtain ⟨i, hi, _⟩ := hx
        omega
    · rw [if_neg ha]
      have hz : ∀ z, DDir qp arg.alg z := fun z _ h => absurd h ha
      split_ifs
      · exact hscale hz
      · intro x hx
        rw [hshift]
        exact key x (hz x) _ (sq_sum_pos hx) hx
  · rw [if_neg hne]
    have hz : ∀ z, DDir qp arg.alg z := fun z h => absurd h hne
    split_ifs
    · exact hscale hz
    · intro x hx
      rw [hshift]
      exact key x (hz x) _ (sq_sum_pos hx) hx

/-- **C71.**  On a convex problem (strictly convex if `reg_prim = 0`; for the null space method only on the null space of
the equality constraints) with independent equality constraints (or `reg_dual > 0` for the Schur complement method), the
factorise-and-solve routine returns at every interior iterate after one pass, without raising the regularisation,
whichever method is selected. -/
theorem dfactSolve_total (hsq : ∀ x, 0 < x → sq x * sq x = x) (fuel : ℕ) (hwf : qp.WF) (hlq : DLqHyp lq qp arg.alg)
    (sol : DqSol K) (hint : DInterior qp sol) (hs : DSlackOk qp arg.reg_prim sol) (hcv : DCurv qp arg.alg arg.reg_prim)
    (heq : DEqOk qp arg arg.reg_dual) (pl dl : K) (c : Core K) (hc : DCoreOf qp sol c) (ht : c.t_lam_min ≠ 1)
    (st : DKkt K) (hca : DCache qp arg.alg st) :
    ∃ o, dfactSolve sq lq fuel qp arg pl dl c st = some o ∧ o.npd_reg_hess = false ∧ o.reg.preg = arg.reg_prim ∧
      o.reg.dreg = arg.reg_dual ∧ o.preg_last = pl ∧ o.dreg_last = dl := by
  have hcs := dcoreStep qp sol c hc ht
  unfold dfactSolve
  dsimp only
  set c' := (if qp.dim.nb + qp.dim.ng + qp.dim.ns > 0 then computeGammaGamma qp.d qp.m c else c) with hc'
  obtain ⟨h1, h2, _⟩ := dPass_jump qp sq lq arg hsq hwf hlq arg.reg_prim arg.reg_dual c'.Gamma c'.gamma st hca
  have h1 := h1 (dposH_of_convex qp sq arg hwf sol hint hs c'.Gamma hcs.G hcv)
  have h2 := h2 heq
  have hd : (dPass sq lq qp arg arg.reg_prim arg.reg_dual c'.Gamma c'.gamma st).1 = .done := by
    cases h : (dPass sq lq qp arg arg.reg_prim arg.reg_dual c'.Gamma c'.gamma st).1
    · rfl
    · exact absurd h h1
    · exact absurd h h2
  have hm : dkktMain sq lq qp arg pl dl c'.Gamma c'.gamma fuel ⟨arg.reg_prim, false, arg.reg_dual, false⟩ st =
      some (⟨arg.reg_prim, false, arg.reg_dual, false⟩, (dPass sq lq qp arg arg.reg_prim arg.reg_dual c'.Gamma c'.gamma st).2) := by
    unfold dkktMain
    dsimp only
    rw [hd]
  rw [hm]
  exact ⟨_, rfl, rfl, rfl, rfl, rfl, rfl⟩

/-! ### the regularisation loop -/

/-- for the methods whose matrix contains `preg` there is a threshold above which it is positive definite -/
theorem dposH_large (hwf : qp.WF) (G : Vec K) (hm : 0 < qp.dim.ne → arg.alg ≠ 0 → arg.scale = true)
    (hd : arg.scale = true → (qp.dim.ne = 0 ∨ arg.alg ≠ 0) → ∀ i, i < qp.dim.nv → 0 ≤ dM qp arg.reg_prim G 0 i i) :
    ∃ p0, ∀ preg, p0 ≤ preg → DPosH qp sq arg preg G := by
  obtain ⟨c1, hc1, hb1⟩ := Bd_exists qp.dim.nv qp.dim.nv (dM qp arg.reg_prim G 0)
  obtain ⟨c2, hc2, hb2⟩ := Bd_exists qp.dim.nv qp.dim.nv (fun i j => scl sq (dM qp arg.reg_prim G 0 i i) * dM qp arg.reg_prim G 0 i j
    * scl sq (dM qp arg.reg_prim G 0 j j))
  refine ⟨max (qp.dim.nv * c1 + 1) (qp.dim.nv * c2 + 1), fun preg hp => ?_⟩
  have hp1 := le_trans (le_max_left _ _) hp
  have hp2 := le_trans (le_max_right _ _) hp
  have d1 : ∀ x : Vec K, ∑ i ∈ range qp.dim.nv, x i * x i ≤ qform qp.dim.nv (dM qp arg.reg_prim G preg) x :=
    diag_dom qp.dim.nv _ _ c1 preg hb1 hc1 hp1 (fun i j _ _ => dM_add qp arg.reg_prim G preg i j)
  have d2 := diag_dom qp.dim.nv _ _ c2 preg hb2 hc2 hp2 (fun i j _ _ => rfl)
  have hshift : ∀ x, qform qp.dim.nv (dM qp arg.reg_prim G preg) x = qform qp.dim.nv (dM qp arg.reg_prim G 0) x
      + preg * ∑ i ∈ range qp.dim.nv, x i * x i := by
    intro x
    rw [dM_qform qp hwf, dM_qform qp hwf]; ring
  unfold DPosH
  by_cases hne : qp.dim.ne > 0
  · rw [if_pos hne]
    by_cases ha : arg.alg = 0
    · rw [if_pos ha]
      intro L Q hq x hx
      by_cases hmn : qp.dim.ne ≤ qp.dim.nv
      · obtain ⟨e1, e2, _⟩ := null_qform hmn hq (dM qp arg.reg_prim G 0) preg x
        rw [e1, ← hshift]
        refine lt_of_lt_of_le ?_ (d1 _)
        rw [e2]
        exact sq_sum_pos hx
      · obtain ⟨i, hi, _⟩ := hx
        omega
    · rw [if_neg ha, if_pos (hm hne ha)]
      exact ⟨hd (hm hne ha) (Or.inr ha), dom_pd _ _ d2⟩
  · rw [if_neg hne]
    split_ifs with hsc
    · exact ⟨hd hsc (Or.inl (by omega)), dom_pd _ _ d2⟩
    · exact dom_pd _ _ d1

theorem dkktMain_grow (hsq : ∀ x, 0 < x → sq x * sq x = x) (hwf : qp.WF) (hlq : DLqHyp lq qp arg.alg) (pl dl : K) (G g : Vec K) (p0 : K)
    (hp0 : ∀ preg, p0 ≤ preg → DPosH qp sq arg preg G) (n fuel : ℕ) (hf : n ≤ fuel) (r : DReg K) (hi : r.pinit = true)
    (heq : DEqOk qp arg r.dreg) (hpos : 0 < r.preg) (hn : p0 ≤ r.preg * 8 ^ n) (st : DKkt K) (hca : DCache qp arg.alg st) :
    ∃ o, dkktMain sq lq qp arg pl dl G g fuel r st = some o := by
  induction n generalizing fuel r st with
  | zero =>
    rw [pow_zero, mul_one] at hn
    obtain ⟨h1, h2, _⟩ := dPass_jump qp sq lq arg hsq hwf hlq r.preg r.dreg G g st hca
    have h1 := h1 (hp0 _ hn)
    have h2 := h2 heq
    unfold dkktMain
    dsimp only
    cases h : (dPass sq lq qp arg r.preg r.dreg G g st).1
    · exact ⟨_, rfl⟩
    · exact absurd h h1
    · exact absurd h h2
  | succ n ih =>
    obtain ⟨f, rfl⟩ := Nat.exists_eq_add_of_le hf
    rw [show n + 1 + f = (n + f) + 1 by omega]
    obtain ⟨_, h2, _⟩ := dPass_jump qp sq lq arg hsq hwf hlq r.preg r.dreg G g st hca
    have h2 := h2 heq
    have hca' := (dPass_ok sq lq qp arg hsq hwf hlq r.preg r.dreg G g st hca).1
    unfold dkktMain
    dsimp only
    cases h : (dPass sq lq qp arg r.preg r.dreg G g st).1
    · exact ⟨_, rfl⟩
    · have hge : r.preg * 8 ≤ nextPreg arg.reg_prim pl r.preg r.pinit := by
        rw [hi]
        unfold nextPreg
        simp only [Bool.true_eq_false, if_false, if_true]
        split_ifs
        · linarith
        · exact le_refl _
      refine ih (n + f) (by omega) { r with
        preg := nextPreg arg.reg_prim pl r.preg r.pinit
        pinit := true } rfl heq (by dsimp only; linarith) ?_ _ hca'
      refine le_trans hn ?_
      rw [pow_succ, mul_comm (8 ^ n) 8, ← mul_assoc]
      exact mul_le_mul_of_nonneg_right hge (by positivity)
    · exact absurd h h2

/-- **C71 (termination).**  For every dense QP, convex or not, whatever the iterate, the regularisation loop of the
factorise-and-solve routine ends, for the null space method, for the method without equality constraints, and for
the scaled methods if the condensed Hessian has a nonnegative diagonal; the equality constraints must be independent
or `reg_dual` positive, and the primal regularisation must be able to grow. -/
theorem dfactSolve_ends [Archimedean K] (hsq : ∀ x, 0 < x → sq x * sq x = x) (hwf : qp.WF) (hlq : DLqHyp lq qp arg.alg)
    (hm : 0 < qp.dim.ne → arg.alg ≠ 0 → arg.scale = true) (heq : DEqOk qp arg arg.reg_dual) (pl dl : K)
    (hgr : RegGrows arg.reg_prim pl) (c : Core K) (st : DKkt K) (hca : DCache qp arg.alg st)
    (hd : arg.scale = true → (qp.dim.ne = 0 ∨ arg.alg ≠ 0) → ∀ i, i < qp.dim.nv → 0 ≤ dM qp arg.reg_prim
      (if qp.dim.nb + qp.dim.ng + qp.dim.ns > 0 then computeGammaGamma qp.d qp.m c else c).Gamma 0 i i) :
    ∃ n, ∀ fuel, n ≤ fuel → ∃ o, dfactSolve sq lq fuel qp arg pl dl c st = some o := by
  set c' := (if qp.dim.nb + qp.dim.ng + qp.dim.ns > 0 then computeGammaGamma qp.d qp.m c else c) with hc'
  obtain ⟨p0, hp0⟩ := dposH_large qp sq arg hwf c'.Gamma hm hd
  have hq : 0 < nextPreg arg.reg_prim pl arg.reg_prim false := by
    unfold nextPreg; simpa [RegGrows] using hgr
  obtain ⟨n, hn⟩ := pow_unbounded_of_one_lt (p0 / nextPreg arg.reg_prim pl arg.reg_prim false) (show (1 : K) < 8 by norm_num)
  refine ⟨n + 1, fun fuel hf => ?_⟩
  have key : ∃ o, dkktMain sq lq qp arg pl dl c'.Gamma c'.gamma fuel ⟨arg.reg_prim, false, arg.reg_dual, false⟩ st = some o := by
    obtain ⟨f, rfl⟩ := Nat.exists_eq_add_of_le hf
    rw [show n + 1 + f = (n + f) + 1 by omega]
    obtain ⟨_, h2, _⟩ := dPass_jump qp sq lq arg hsq hwf hlq arg.reg_prim arg.reg_dual c'.Gamma c'.gamma st hca
    have h2 := h2 heq
    have hca' := (dPass_ok sq lq qp arg hsq hwf hlq arg.reg_prim arg.reg_dual c'.Gamma c'.gamma st hca).1
    unfold dkktMain
    dsimp only
    cases h : (dPass sq lq qp arg arg.reg_prim arg.reg_dual c'.Gamma c'.gamma st).1
    · exact ⟨_, rfl⟩
    · refine dkktMain_grow qp sq lq arg hsq hwf hlq pl dl _ _ p0 hp0 n (n + f) (by omega) _ rfl heq hq ?_ _ hca'
      dsimp only
      rw [mul_comm]
      exact le_of_lt ((div_lt_iff₀ hq).mp hn)
    · exact absurd h h2
  obtain ⟨o, ho⟩ := key
  unfold dfactSolve
  dsimp only
  rw [ho]
  exact ⟨_, rfl⟩

/-! ### when the loop does not end -/

theorem dkktMain_none (hsq : ∀ x, 0 < x → sq x * sq x = x) (hwf : qp.WF) (hlq : DLqHyp lq qp arg.alg) (pl dl : K) (G g : Vec K)
    (P : DReg K → Prop)
    (hP : ∀ r, P r → P { r with
      preg := nextPreg arg.reg_prim pl r.preg r.pinit
      pinit := true })
    (hP2 : ∀ r, P r → P { r with
      dreg := nextPreg arg.reg_prim dl r.dreg r.dinit
      dinit := true })
    (hs : ∀ r st, P r → DCache qp arg.alg st → (dPass sq lq qp arg r.preg r.dreg G g st).1 ≠ .done) (fuel : ℕ) (r : DReg K) (hr : P r)
    (st : DKkt K) (hca : DCache qp arg.alg st) : dkktMain sq lq qp arg pl dl G g fuel r st = none := by
  induction fuel generalizing r st with
  | zero =>
    have h := hs r st hr hca
    unfold dkktMain
    dsimp only
    cases h1 : (dPass sq lq qp arg r.preg r.dreg G g st).1
    · exact absurd h1 h
    · rfl
    · rfl
  | succ fuel ih =>
    have h := hs r st hr hca
    have hca' := (dPass_ok sq lq qp arg hsq hwf hlq r.preg r.dreg G g st hca).1
    unfold dkktMain
    dsimp only
    cases h1 : (dPass sq lq qp arg r.preg r.dreg G g st).1
    · exact absurd h1 h
    · exact ih _ (hP r hr) _ hca'
    · exact ih _ (hP2 r hr) _ hca'

/-- **C71 (endless loop of the default method).**  With equality constraints, the Schur complement method and no scaling
(the default), the routine never returns if the objective has a direction of nonpositive curvature, regularised by
`reg_prim`, along which no inequality constraint changes: raising the regularisation does not change the matrix that
is factorised.  The objective may well be strictly convex on the feasible set. -/
theorem dfactSolve_schur_loops (hsq : ∀ x, 0 < x → sq x * sq x = x) (hwf : qp.WF) (hne : 0 < qp.dim.ne) (ha : arg.alg ≠ 0)
    (hsc : arg.scale = false) (v : Vec K) (hv : ∃ i, i < qp.dim.nv ∧ v i ≠ 0)
    (hcv : ∀ j, j < qp.dim.nb + qp.dim.ng → (dview qp).value ⟨v, fun _ => 0, fun _ => 0⟩ j = 0)
    (hq : 2 * (dview qp).quad ⟨v, fun _ => 0, fun _ => 0⟩ + arg.reg_prim * ∑ i ∈ range qp.dim.nv, v i * v i ≤ 0)
    (fuel : ℕ) (pl dl : K) (c : Core K) (st : DKkt K) : dfactSolve sq lq fuel qp arg pl dl c st = none := by
  have hlq : DLqHyp lq qp arg.alg := fun _ h => absurd h ha
  have hca : ∀ st, DCache qp arg.alg st := fun _ _ h => absurd h ha
  unfold dfactSolve
  dsimp only
  set c' := (if qp.dim.nb + qp.dim.ng + qp.dim.ns > 0 then computeGammaGamma qp.d qp.m c else c) with hc'
  have hnp : ¬ Pd qp.dim.nv (dM qp arg.reg_prim c'.Gamma arg.reg_prim) := by
    intro hp
    have := hp v hv
    have e : ∑ j ∈ range (qp.dim.nb + qp.dim.ng), kTh (ov qp) arg.reg_prim (fun _ => c'.Gamma) 0 j * (cval (ov qp) 0 v j * cval (ov qp) 0 v j) = 0 :=
      sum_eq_zero (fun j hj => by
        have hj := mem_range.mp hj
        rw [← dvalue_packed qp hwf v j hj, show (dview qp).value (dptOf qp.dim v) j = 0 from hcv j hj, mul_zero, mul_zero])
    rw [dM_qform qp hwf, e, add_zero] at this
    linarith
  rw [dkktMain_none qp sq lq arg hsq hwf hlq pl dl _ _ (fun _ => True) (fun _ _ => trivial) (fun _ _ => trivial)
    (fun r st _ _ => by
      have := (dPass_jump qp sq lq arg hsq hwf hlq r.preg r.dreg c'.Gamma c'.gamma st (hca st)).2.2.1 hne ha hsc hnp
      rw [this]; simp) fuel _ trivial st (hca st)]

/-- **C71 (endless loop with scaling).**  With scaling, a negative diagonal entry of the condensed Hessian makes the
routine loop for ever: the square root of the entry is not a number for every regularisation. -/
theorem dfactSolve_scale_loops (hsq : ∀ x, 0 < x → sq x * sq x = x) (hwf : qp.WF) (hlq : DLqHyp lq qp arg.alg)
    (ha : qp.dim.ne = 0 ∨ arg.alg ≠ 0) (hsc : arg.scale = true)
    (fuel : ℕ) (pl dl : K) (c : Core K) (st : DKkt K) (hca : DCache qp arg.alg st)
    (hneg : ∃ i, i < qp.dim.nv ∧ dM qp arg.reg_prim
      (if qp.dim.nb + qp.dim.ng + qp.dim.ns > 0 then computeGammaGamma qp.d qp.m c else c).Gamma 0 i i < 0) :
    dfactSolve sq lq fuel qp arg pl dl c st = none := by
  unfold dfactSolve
  dsimp only
  rw [dkktMain_none qp sq lq arg hsq hwf hlq pl dl _ _ (fun _ => True) (fun _ _ => trivial) (fun _ _ => trivial)
    (fun r st _ hca => by
      have := (dPass_jump qp sq lq arg hsq hwf hlq r.preg r.dreg
        (if qp.dim.nb + qp.dim.ng + qp.dim.ns > 0 then computeGammaGamma qp.d qp.m c else c).Gamma
        (if qp.dim.nb + qp.dim.ng + qp.dim.ns > 0 then computeGammaGamma qp.d qp.m c else c).gamma st hca).2.2.2.1 ha hsc hneg
      rw [this]; simp) fuel _ trivial st hca]

/-- a unit vector picks a diagonal entry -/
theorem qform_unit (n : ℕ) (M : Mat K) (i : ℕ) (hi : i < n) : qform n M (fun j => if j = i then 1 else 0) = M i i := by
  unfold qform
  rw [sum_eq_single i (fun a _ ha => by simp [ha]) (fun h => absurd (mem_range.mpr hi) h),
    sum_eq_single i (fun a _ ha => by simp [ha]) (fun h => absurd (mem_range.mpr hi) h)]
  simp

/-- diagonal entry of the condensed Hessian: curvature of the objective along the variable, plus the barrier terms of
the constraints the variable enters -/
theorem dM_diag (hwf : qp.WF) (reg : K) (G : Vec K) (i : ℕ) (hi : i < qp.dim.nv) :
    dM qp reg G 0 i i = 2 * (dview qp).quad ⟨fun j => if j = i then 1 else 0, fun _ => 0, fun _ => 0⟩
      + ∑ j ∈ range (qp.dim.nb + qp.dim.ng), kTh (ov qp) reg (fun _ => G) 0 j *
        ((dview qp).value (dptOf qp.dim (fun j => if j = i then 1 else 0)) j *
          (dview qp).value (dptOf qp.dim (fun j => if j = i then 1 else 0)) j) := by
  rw [← qform_unit qp.dim.nv (dM qp reg G 0) i hi, dM_qform qp hwf, zero_mul, add_zero]
  congr 1
  exact sum_congr rfl (fun j hj => by rw [dvalue_packed qp hwf _ j (mem_range.mp hj)])

/-- **C71 (termination with scaling).**  At an interior iterate the regularisation loop of the scaled methods ends if the
objective is not concave along any single variable. -/
theorem dfactSolve_ends_scaled [Archimedean K] (hsq : ∀ x, 0 < x → sq x * sq x = x) (hwf : qp.WF) (hlq : DLqHyp lq qp arg.alg)
    (hsc : arg.scale = true) (heq : DEqOk qp arg arg.reg_dual) (pl dl : K)
    (hgr : RegGrows arg.reg_prim pl) (sol : DqSol K) (hint : DInterior qp sol) (hs : DSlackOk qp arg.reg_prim sol) (c : Core K)
    (hc : DCoreOf qp sol c) (ht : c.t_lam_min ≠ 1) (st : DKkt K) (hca : DCache qp arg.alg st)
    (hd : ∀ i, i < qp.dim.nv → 0 ≤ (dview qp).quad ⟨fun j => if j = i then 1 else 0, fun _ => 0, fun _ => 0⟩) :
    ∃ n, ∀ fuel, n ≤ fuel → ∃ o, dfactSolve sq lq fuel qp arg pl dl c st = some o := by
  have hcs := dcoreStep qp sol c hc ht
  have hth := dTh_nonneg qp hwf arg.reg_prim sol hint hs _ hcs.G
  refine dfactSolve_ends qp sq lq arg hsq hwf hlq (fun _ _ => hsc) heq pl dl hgr c st hca (fun _ _ i hi => ?_)
  rw [dM_diag qp hwf _ _ i hi]
  refine add_nonneg (mul_nonneg (by norm_num) (hd i hi)) (sum_nonneg fun j hj => mul_nonneg ?_ (mul_self_nonneg _))
  exact hth j (mem_range.mp hj)

/-- **C71 (endless loop with scaling), in terms of the problem.**  If the objective is strictly concave along a variable that
enters no inequality constraint, the scaled methods never return. -/
theorem dfactSolve_scale_loops_var (hsq : ∀ x, 0 < x → sq x * sq x = x) (hwf : qp.WF) (hlq : DLqHyp lq qp arg.alg)
    (ha : qp.dim.ne = 0 ∨ arg.alg ≠ 0) (hsc : arg.scale = true)
    (fuel : ℕ) (pl dl : K) (c : Core K) (st : DKkt K) (hca : DCache qp arg.alg st) (i : ℕ) (hi : i < qp.dim.nv)
    (hv : ∀ j, j < qp.dim.nb + qp.dim.ng → (dview qp).value (dptOf qp.dim (fun j => if j = i then 1 else 0)) j = 0)
    (hq : (dview qp).quad ⟨fun j => if j = i then 1 else 0, fun _ => 0, fun _ => 0⟩ < 0) :
    dfactSolve sq lq fuel qp arg pl dl c st = none := by
  refine dfactSolve_scale_loops qp sq lq arg hsq hwf hlq ha hsc fuel pl dl c st hca ⟨i, hi, ?_⟩
  rw [dM_diag qp hwf _ _ i hi, sum_eq_zero (fun j hj => by rw [hv j (mem_range.mp hj), mul_zero, mul_zero])]
  linarith

/-- **C71 (dual regularisation is never introduced).**  `compute_dreg` compares the dual regularisation with the primal
parameter: with `reg_dual = 0`, `reg_prim ≠ 0` and no earlier dual regularisation, dependent equality constraints make
the routine loop for ever with the Schur complement method without scaling, because zero divided by 3 or multiplied by 8 is
zero. -/
theorem dfactSolve_dreg_loops (hsq : ∀ x, 0 < x → sq x * sq x = x) (hwf : qp.WF) (hne : 0 < qp.dim.ne) (ha : arg.alg ≠ 0)
    (hsc : arg.scale = false) (hrd : arg.reg_dual = 0) (hrp : arg.reg_prim ≠ 0) (hr : ¬ FullRank qp.dim.ne qp.dim.nv qp.A)
    (fuel : ℕ) (pl : K) (c : Core K) (st : DKkt K) : dfactSolve sq lq fuel qp arg pl 0 c st = none := by
  have hlq : DLqHyp lq qp arg.alg := fun _ h => absurd h ha
  have hca : ∀ st, DCache qp arg.alg st := fun _ _ h => absurd h ha
  unfold dfactSolve
  dsimp only
  rw [dkktMain_none qp sq lq arg hsq hwf hlq pl 0 _ _ (fun r => r.dreg = 0) (fun _ h => h)
    (fun r h => by
      have h0 : ¬ (0 : K) = arg.reg_prim := fun h => hrp h.symm
      unfold nextPreg
      simp only [h0, h, if_false]
      split_ifs <;> simp)
    (fun r st hd _ =>
      (dPass_jump qp sq lq arg hsq hwf hlq r.preg r.dreg _ _ st (hca st)).2.2.2.2.1 hne ha hsc hd hr) fuel _ hrd st (hca st)]

/-! ### the step is unique -/

theorem linD_zero_of (qo : OcpQp K) (hwf : qo.WF) (v : ℕ → Vec K) (k j : ℕ) (hk : k ≤ qo.dim.N) (hj : j < nct qo.dim k)
    (hux : ∀ i, i < qo.dim.nu k + qo.dim.nx k + 2 * qo.dim.ns k → v k i = 0) : linD qo v k j = 0 := by
  have hw : linD qo v k j = - wval qo v k j := by
    simp only [linD, wval]; split_ifs <;> ring
  rw [hw]
  have hc : ∀ j, cval qo k (v k) j = 0 := by
    intro j
    rw [cval_congr' qo hwf k hk (v k) (fun _ => 0) (fun i hi => hux i (by omega))]
    unfold cval
    split_ifs <;> simp
  have hs : ∀ o j, j < qo.dim.nb k + qo.dim.ng k → (o = 0 ∨ o = qo.dim.ns k) →
      slk qo k (v k) (qo.dim.nu k + qo.dim.nx k + o) j = 0 := by
    intro o j hj ho
    unfold slk
    split_ifs with h
    · rfl
    · rcases hir_of_wf hwf hk j hj with h' | h'
      · exact absurd h' h
      · exact hux _ (by rcases ho with rfl | rfl <;> omega)
  simp only [wval, hc]
  unfold nct at hj
  split_ifs with h1 h2
  · have := hs 0 j h1 (Or.inl rfl)
    rw [add_zero] at this
    rw [this]; ring
  · rw [hs _ _ (by omega) (Or.inr rfl)]; ring
  · rw [hux _ (by omega)]; ring

/-- the objective is strictly convex on the null space of the equality constraints -/
def DStrictlyConvex : Prop := ∀ p : DPt K, (∀ i, i < qp.dim.ne → (dview qp).Av p.v i = 0) →
  ((∃ i, i < qp.dim.nv ∧ p.v i ≠ 0) ∨ ∃ i, i < qp.dim.ns ∧ (p.sl i ≠ 0 ∨ p.su i ≠ 0)) → 0 < (dview qp).quad p

/-- **C71 (uniqueness).**  If the objective is strictly convex on the null space of the equality constraints, the linearised
KKT system at an interior iterate has at most one solution; the equality multipliers are unique if the equality
constraints are independent. -/
theorem dnewton_unique (hwf : qp.WF) (sol : DqSol K) (hint : DInterior qp sol) (hsc : DStrictlyConvex qp) (s s' : DqSol K)
    (h : DNewtonStep qp sol 0 (fun _ => 0) (fun _ => 0) s) (h' : DNewtonStep qp sol 0 (fun _ => 0) (fun _ => 0) s') :
    (∀ i, i < qp.dim.nv + 2 * qp.dim.ns → s.v i = s'.v i) ∧
    (∀ j, j < qp.dim.nct → s.lam j = s'.lam j ∧ s.t j = s'.t j) ∧
    (FullRank qp.dim.ne qp.dim.nv qp.A → ∀ i, i < qp.dim.ne → s.pi i = s'.pi i) := by
  set e := (osol s).sub (osol s') with he
  have hwo := ov_wf qp hwf
  have hD : ∀ j, j < qp.dim.nct → linD (ov qp) e.ux 0 j = - e.t 0 j := by
    intro j hj
    have h1 := h.d j hj
    have h2 := h'.d j hj
    rw [vD_lin] at h1 h2
    show linD (ov qp) (fun k i => (osol s).ux k i - (osol s').ux k i) 0 j = -((osol s).t 0 j - (osol s').t 0 j)
    rw [linD_sub]; linear_combination h1 - h2
  have hA : ∀ i, i < qp.dim.ne → ∑ j ∈ range qp.dim.nv, qp.A i j * e.ux 0 j = 0 := by
    intro i hi
    have h1 := h.b i hi
    have h2 := h'.b i hi
    have : ∑ j ∈ range qp.dim.nv, qp.A i j * e.ux 0 j = ∑ j ∈ range qp.dim.nv, qp.A i j * s.v j - ∑ j ∈ range qp.dim.nv, qp.A i j * s'.v j := by
      rw [← sum_sub_distrib]
      exact sum_congr rfl (fun j _ => by show qp.A i j * (s.v j - s'.v j) = _; ring)
    rw [this]; linear_combination h2 - h1
  have hM : ∀ j, j < qp.dim.nct → sol.lam j * e.t 0 j + e.lam 0 j * sol.t j = 0 := by
    intro j hj
    have h1 := h.m j hj
    have h2 := h'.m j hj
    show sol.lam j * (s.t j - s'.t j) + (s.lam j - s'.lam j) * sol.t j = 0
    linear_combination h1 - h2
  have hG1 : ∀ i, i < qp.dim.nv → vG (ov qp) e (e.lam 0) 0 i = qp.gz i + ∑ k ∈ range qp.dim.ne, qp.A k i * (s.pi k - s'.pi k) := by
    intro i hi
    have h0 := vG_sub (ov qp) (osol s) (osol s') 0 i
    have h1 := h.g i hi
    have h2 := h'.g i hi
    have e1 : ∑ k ∈ range qp.dim.ne, qp.A k i * (s.pi k - s'.pi k) = ∑ k ∈ range qp.dim.ne, qp.A k i * s.pi k
        - ∑ k ∈ range qp.dim.ne, qp.A k i * s'.pi k := by
      rw [← sum_sub_distrib]
      exact sum_congr rfl (fun j _ => by ring)
    rw [e1]
    have h0' : vG (ov qp) (osol s) s.lam 0 i - vG (ov qp) (osol s') s'.lam 0 i = vG (ov qp) e (e.lam 0) 0 i - qp.gz i := h0
    linear_combination h1 - h2 - h0'
  have hG2 : ∀ i, i < 2 * qp.dim.ns → vG (ov qp) e (e.lam 0) 0 (qp.dim.nv + i) = qp.gz (qp.dim.nv + i) := by
    intro i hi
    have h0 := vG_sub (ov qp) (osol s) (osol s') 0 (qp.dim.nv + i)
    have h1 := h.gs i hi
    have h2 := h'.gs i hi
    have h0' : vG (ov qp) (osol s) s.lam 0 (qp.dim.nv + i) - vG (ov qp) (osol s') s'.lam 0 (qp.dim.nv + i) =
      vG (ov qp) e (e.lam 0) 0 (qp.dim.nv + i) - qp.gz (qp.dim.nv + i) := h0
    linear_combination h1 - h2 - h0'
  have hpair := vG_pair (ov qp) hwo e (fun k => e.lam k) e.ux
  have nvt0 : nvt (ov qp).dim 0 = qp.dim.nv + 2 * qp.dim.ns := rfl
  have pv : ∀ a : ℕ → Vec K, pairV (ov qp).dim a e.ux = ∑ i ∈ range (qp.dim.nv + 2 * qp.dim.ns), a 0 i * e.ux 0 i := by
    intro a
    show ∑ k ∈ range (0 + 1), _ = _
    simp only [zero_add, range_one, sum_singleton]
    rfl
  have p1 : pairV (ov qp).dim (fun k i => vG (ov qp) e (e.lam k) k i) e.ux = pairV (ov qp).dim (ov qp).rqz e.ux := by
    rw [pv, pv, sum_range_add _ qp.dim.nv, sum_range_add _ qp.dim.nv]
    congr 1
    · have e1 : ∀ i ∈ range qp.dim.nv, vG (ov qp) e (e.lam 0) 0 i * e.ux 0 i =
          qp.gz i * e.ux 0 i + ∑ k ∈ range qp.dim.ne, (s.pi k - s'.pi k) * (qp.A k i * e.ux 0 i) := by
        intro i hi
        rw [hG1 i (mem_range.mp hi), add_mul, sum_mul]
        congr 1
        exact sum_congr rfl (fun k _ => by ring)
      rw [sum_congr rfl e1, sum_add_distrib, sum_comm]
      rw [sum_eq_zero (s := range qp.dim.ne) (fun k hk => by rw [← mul_sum, hA k (mem_range.mp hk), mul_zero]), add_zero]
      rfl
    · refine sum_congr rfl (fun i hi => ?_)
      rw [hG2 i (mem_range.mp hi)]
      rfl
  have p2 : pairV (ov qp).dim (fun k i => hessMul (ov qp) e.ux k i + (ov qp).rqz k i) e.ux =
      2 * (dview qp).quad (dptOf qp.dim (e.ux 0)) + pairV (ov qp).dim (ov qp).rqz e.ux := by
    have hu : e.ux = fun _ => e.ux 0 := rfl
    rw [oquad, ← hu, quad_pair, pairV_add_left]; ring
  have p3 : pairE (ov qp).dim e.pi (linB (ov qp) e.ux) = 0 := by
    show ∑ k ∈ range 0, _ = (0 : K)
    simp
  have p4 : 0 ≤ pairC (ov qp).dim (fun k => e.lam k) (linD (ov qp) e.ux) := by
    unfold pairC
    refine sum_nonneg (fun k hk => sum_nonneg (fun j hj => ?_))
    have hk : k = 0 := by have : k < 0 + 1 := mem_range.mp hk; omega
    subst hk
    have hj : j < qp.dim.nct := mem_range.mp hj
    rw [hD j hj]
    have h1 := hM j hj
    obtain ⟨hl, ht⟩ := hint j hj
    have h2 : e.lam 0 j * -(e.t 0 j) * sol.t j = sol.lam j * (e.t 0 j * e.t 0 j) := by linear_combination - e.t 0 j * h1
    by_contra hneg
    have h3 := mul_neg_of_neg_of_pos (not_le.mp hneg) ht
    have h4 := mul_nonneg hl (mul_self_nonneg (e.t 0 j))
    linarith
  rw [p1, p2, p3] at hpair
  have hz := hsc (dptOf qp.dim (e.ux 0)) (fun i hi => by rw [dview_Av qp _ i hi]; exact hA i hi)
  have hux : ∀ i, i < qp.dim.nv + 2 * qp.dim.ns → e.ux 0 i = 0 := by
    intro i hi
    by_contra hne
    have : 0 < (dview qp).quad (dptOf qp.dim (e.ux 0)) := by
      refine hz ?_
      by_cases h1 : i < qp.dim.nv
      · exact Or.inl ⟨i, h1, hne⟩
      · by_cases h2 : i < qp.dim.nv + qp.dim.ns
        · refine Or.inr ⟨i - qp.dim.nv, by omega, Or.inl ?_⟩
          show e.ux 0 (qp.dim.nv + (i - qp.dim.nv)) ≠ 0
          rw [show qp.dim.nv + (i - qp.dim.nv) = i by omega]; exact hne
        · refine Or.inr ⟨i - (qp.dim.nv + qp.dim.ns), by omega, Or.inr ?_⟩
          show e.ux 0 (qp.dim.nv + qp.dim.ns + (i - (qp.dim.nv + qp.dim.ns))) ≠ 0
          rw [show qp.dim.nv + qp.dim.ns + (i - (qp.dim.nv + qp.dim.ns)) = i by omega]; exact hne
    linarith
  have hlt : ∀ j, j < qp.dim.nct → e.lam 0 j = 0 ∧ e.t 0 j = 0 := by
    intro j hj
    have h1 : e.t 0 j = 0 := by
      have h1 := hD j hj
      have h2 : linD (ov qp) e.ux 0 j = 0 := by
        rw [linD_zero_of (ov qp) hwo e.ux 0 j (Nat.zero_le _) hj (fun i hi => hux i hi)]
      linarith
    refine ⟨?_, h1⟩
    have h2 := hM j hj
    rw [h1, mul_zero, zero_add] at h2
    exact (mul_eq_zero.mp h2).resolve_right (ne_of_gt (hint j hj).2)
  refine ⟨fun i hi => sub_eq_zero.mp (hux i hi), fun j hj => ⟨sub_eq_zero.mp (hlt j hj).1, sub_eq_zero.mp (hlt j hj).2⟩, fun hr i hi => ?_⟩
  refine sub_eq_zero.mp (hr (fun k => s.pi k - s'.pi k) (fun j hj => ?_) i hi)
  have h1 := hG1 j hj
  have h2 : vG (ov qp) e (e.lam 0) 0 j = qp.gz j := by
    simp only [vG]
    rw [if_pos (show j < (ov qp).dim.nu 0 + (ov qp).dim.nx 0 from hj), if_neg (show ¬ 0 < (ov qp).dim.N from Nat.lt_irrefl 0),
      if_neg (fun h => Nat.lt_irrefl 0 h.1)]
    have a1 : hmul (ov qp) 0 (e.ux 0) j = 0 := by
      unfold hmul
      exact sum_eq_zero (fun i hi => by
        have hi : i < qp.dim.nv := mem_range.mp hi
        rw [hux i (by omega), mul_zero])
    have a2 : cvalT (ov qp) 0 (fun l => e.lam 0 ((ov qp).dim.nb 0 + (ov qp).dim.ng 0 + l) - e.lam 0 l) j = 0 := by
      rw [cvalT_congr (ov qp) 0 _ (fun _ => 0) j (fun l hl => by
        have hl : l < qp.dim.nb + qp.dim.ng := hl
        rw [(hlt l (by unfold DDim.nct; omega)).1,
          show e.lam 0 ((ov qp).dim.nb 0 + (ov qp).dim.ng 0 + l) = 0 from
            (hlt (qp.dim.nb + qp.dim.ng + l) (by unfold DDim.nct; omega)).1, sub_zero])]
      unfold cvalT
      simp
    rw [a1, a2]
    show 0 + qp.gz j - 0 + 0 + 0 = qp.gz j
    ring
  linarith

/-- **C71 (methods agree).**  Without regularisation, on a problem that is strictly convex on the null space of the equality
constraints, any two runs of the factorise-and-solve routine at the same interior iterate that end without a breakdown, with
whatever method, scaling, previous regularisation and workspace contents, return the same step. -/
theorem dmethods_agree (hsq : ∀ x, 0 < x → sq x * sq x = x) (hwf : qp.WF) (hu : DUnshared qp) (sol : DqSol K)
    (hint : DInterior qp sol) (hsc : DStrictlyConvex qp) (arg' : DArg K)
    (h0 : arg.reg_prim = 0 ∧ arg.reg_dual = 0) (h0' : arg'.reg_prim = 0 ∧ arg'.reg_dual = 0)
    (hlq : DLqHyp lq qp arg.alg) (hlq' : DLqHyp lq qp arg'.alg)
    (hden : ∀ i, i < 2 * qp.dim.ns → dslackCurv qp 0 sol i ≠ 0) (fuel fuel' : ℕ) (pl dl pl' dl' : K) (c c' : Core K)
    (hc : DCoreOf qp sol c) (hc' : DCoreOf qp sol c') (ht : c.t_lam_min ≠ 1) (ht' : c'.t_lam_min ≠ 1)
    (st st' : DKkt K) (hca : DCache qp arg.alg st) (hca' : DCache qp arg'.alg st') (o o' : DKktOut K)
    (h : dfactSolve sq lq fuel qp arg pl dl c st = some o) (h' : dfactSolve sq lq fuel' qp arg' pl' dl' c' st' = some o')
    (hn : o.npd_reg_hess = false) (hn' : o'.npd_reg_hess = false) :
    (∀ i, i < qp.dim.nv + 2 * qp.dim.ns → o.st.v i = o'.st.v i) ∧
    (∀ j, j < qp.dim.nct → o.st.lam j = o'.st.lam j ∧ o.st.t j = o'.st.t j) ∧
    (FullRank qp.dim.ne qp.dim.nv qp.A → ∀ i, i < qp.dim.ne → o.st.pi i = o'.st.pi i) := by
  have n1 := (dfactSolve_newton sq lq qp arg hsq fuel hwf hu hlq sol (by rw [h0.1]; exact hden) pl dl c hc ht st hca o h).2 hn h0.1 h0.2
  have n2 := (dfactSolve_newton sq lq qp arg' hsq fuel' hwf hu hlq' sol (by rw [h0'.1]; exact hden) pl' dl' c' hc' ht' st' hca' o' h').2
    hn' h0'.1 h0'.2
  exact dnewton_unique qp hwf sol hint hsc _ _ n1 n2

end
end Hpipm
