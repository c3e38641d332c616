/-
Convex problems: the Newton step is unique (C28) and the factorise-and-solve routine always finds it without raising
the regularisation (C25).
-/
import Verif.KktPd

namespace Hpipm
open Finset
set_option linter.unusedSectionVars false

section
variable {K : Type*} [Field K] [LinearOrder K] [IsStrictOrderedRing K]

/-- regularisation of the Newton system as a quadratic form: `dr` on inputs and states, `reg` on slacks -/
def regQuad (qp : OcpQp K) (dr : ℕ → ℕ → K) (reg : K) (v : ℕ → Vec K) : K :=
  ∑ k ∈ range (qp.dim.N + 1), ((∑ i ∈ range (qp.dim.nu k + qp.dim.nx k), dr k i * v k i * v k i)
    + ∑ i ∈ range (2 * qp.dim.ns k), reg * v k (qp.dim.nu k + qp.dim.nx k + i) * v k (qp.dim.nu k + qp.dim.nx k + i))

/-- the regularised objective of the QP is strictly convex -/
def StrictlyConvex (qp : OcpQp K) (dr : ℕ → ℕ → K) (reg : K) : Prop :=
  ∀ v : ℕ → Vec K, (∃ k i, k ≤ qp.dim.N ∧ i < qp.dim.nu k + qp.dim.nx k + 2 * qp.dim.ns k ∧ v k i ≠ 0) →
    0 < 2 * (view qp).quad (ptOf qp.dim v) + regQuad qp dr reg v

/-- a convex objective with positive regularisation is strictly convex -/
theorem strictlyConvex_of_convex (qp : OcpQp K) (hc : (view qp).Convex) (dr : ℕ → ℕ → K) (reg : K) (hreg : 0 < reg)
    (hdr : ∀ k i, k ≤ qp.dim.N → i < qp.dim.nu k + qp.dim.nx k → 0 < dr k i) : StrictlyConvex qp dr reg := by
  rintro v ⟨k, i, hk, hi, hv⟩
  have h1 : 0 ≤ 2 * (view qp).quad (ptOf qp.dim v) := mul_nonneg (by norm_num) (hc _)
  have hq : 0 < v k i * v k i := mul_self_pos.mpr hv
  have nn1 : ∀ k, k ≤ qp.dim.N → ∀ i, i ∈ range (qp.dim.nu k + qp.dim.nx k) → 0 ≤ dr k i * v k i * v k i := by
    intro k hk i hi
    rw [mul_assoc]
    exact mul_nonneg (le_of_lt (hdr k i hk (mem_range.mp hi))) (mul_self_nonneg _)
  have nn2 : ∀ k, ∀ i, i ∈ range (2 * qp.dim.ns k) →
      0 ≤ reg * v k (qp.dim.nu k + qp.dim.nx k + i) * v k (qp.dim.nu k + qp.dim.nx k + i) := by
    intro k i _
    rw [mul_assoc]
    exact mul_nonneg (le_of_lt hreg) (mul_self_nonneg _)
  refine add_pos_of_nonneg_of_pos h1 (lt_of_lt_of_le ?_ (single_le_sum (f := fun k =>
    (∑ i ∈ range (qp.dim.nu k + qp.dim.nx k), dr k i * v k i * v k i)
    + ∑ i ∈ range (2 * qp.dim.ns k), reg * v k (qp.dim.nu k + qp.dim.nx k + i) * v k (qp.dim.nu k + qp.dim.nx k + i))
    (fun k hk => add_nonneg (sum_nonneg (nn1 k (by have := mem_range.mp hk; omega))) (sum_nonneg (nn2 k)))
    (mem_range.mpr (Nat.lt_succ_of_le hk))))
  by_cases hi1 : i < qp.dim.nu k + qp.dim.nx k
  · refine add_pos_of_pos_of_nonneg (lt_of_lt_of_le ?_ (single_le_sum (nn1 k hk) (mem_range.mpr hi1))) (sum_nonneg (nn2 k))
    rw [mul_assoc]
    exact mul_pos (hdr k i hk hi1) hq
  · refine add_pos_of_nonneg_of_pos (sum_nonneg (nn1 k hk)) (lt_of_lt_of_le ?_ (single_le_sum (nn2 k)
      (mem_range.mpr (show i - (qp.dim.nu k + qp.dim.nx k) < 2 * qp.dim.ns k by omega))))
    rw [show qp.dim.nu k + qp.dim.nx k + (i - (qp.dim.nu k + qp.dim.nx k)) = i by omega, mul_assoc]
    exact mul_pos hreg hq

/-- restriction to one stage -/
theorem StrictlyConvex.stage {qp : OcpQp K} {dr : ℕ → ℕ → K} {reg : K} (h : StrictlyConvex qp dr reg) (k : ℕ) (hk : k ≤ qp.dim.N)
    (w : Vec K) (hw : ∃ i, i < qp.dim.nu k + qp.dim.nx k + 2 * qp.dim.ns k ∧ w i ≠ 0) :
    0 < (∑ i ∈ range (qp.dim.nu k + qp.dim.nx k), (hmul qp k w i * w i + dr k i * w i * w i))
      + ∑ i ∈ range (2 * qp.dim.ns k), (qp.Z k i + reg) * w (qp.dim.nu k + qp.dim.nx k + i) * w (qp.dim.nu k + qp.dim.nx k + i) := by
  obtain ⟨i, hi, hw⟩ := hw
  have h0 := h (fun q => if q = k then w else fun _ => 0) ⟨k, i, hk, hi, by rw [if_pos rfl]; exact hw⟩
  have e1 : 2 * (view qp).quad (ptOf qp.dim (fun q => if q = k then w else fun _ => 0)) =
      (∑ i ∈ range (qp.dim.nu k + qp.dim.nx k), hmul qp k w i * w i)
      + ∑ s ∈ range (2 * qp.dim.ns k), qp.Z k s * w (qp.dim.nu k + qp.dim.nx k + s) * w (qp.dim.nu k + qp.dim.nx k + s) := by
    unfold UserQp.quad
    have : (view qp).N = qp.dim.N := rfl
    rw [this, sum_eq_single_of_mem k (mem_range.mpr (by omega))]
    · rw [stageQuad_packed]; simp only [if_true]; ring
    · intro q _ hq
      rw [stageQuad_packed]; simp only [if_neg hq, mul_zero, sum_const_zero, add_zero]
  have e2 : regQuad qp dr reg (fun q => if q = k then w else fun _ => 0) =
      (∑ i ∈ range (qp.dim.nu k + qp.dim.nx k), dr k i * w i * w i)
      + ∑ s ∈ range (2 * qp.dim.ns k), reg * w (qp.dim.nu k + qp.dim.nx k + s) * w (qp.dim.nu k + qp.dim.nx k + s) := by
    unfold regQuad
    rw [sum_eq_single_of_mem k (mem_range.mpr (by omega))]
    · simp only [if_true]
    · intro q _ hq
      simp only [if_neg hq, mul_zero, sum_const_zero, add_zero]
  rw [e1, e2] at h0
  simp only [add_mul, sum_add_distrib]
  linarith

/-- the constraint multipliers of an iterate are nonnegative and its slacks positive -/
def Interior (qp : OcpQp K) (sol : Sol K) : Prop :=
  ∀ k j, k ≤ qp.dim.N → j < nct qp.dim k → 0 ≤ sol.lam k j ∧ 0 < sol.t k j

theorem slackCurv_pos {qp : OcpQp K} {dr : ℕ → ℕ → K} {reg : K} (h : StrictlyConvex qp dr reg) (sol : Sol K) (hi : Interior qp sol)
    (k i : ℕ) (hk : k ≤ qp.dim.N) (his : i < 2 * qp.dim.ns k) :
    0 < slackCurv qp reg sol k i := by
  have hz : 0 < qp.Z k i + reg := by
    have := h.stage k hk (fun q => if q = qp.dim.nu k + qp.dim.nx k + i then 1 else 0)
      ⟨qp.dim.nu k + qp.dim.nx k + i, by omega, by rw [if_pos rfl]; exact one_ne_zero⟩
    rw [sum_eq_zero, zero_add, sum_eq_single_of_mem i (mem_range.mpr his)] at this
    · simpa using this
    · intro q _ hq
      rw [if_neg (by omega), mul_zero]
    · intro q hq
      have := mem_range.mp hq
      rw [if_neg (by omega), mul_zero, mul_zero, add_zero]
  have hq : ∀ j, j < nct qp.dim k → 0 ≤ sol.lam k j / sol.t k j := fun j hj =>
    div_nonneg (hi k j hk hj).1 (le_of_lt (hi k j hk hj).2)
  unfold slackCurv
  simp only []
  have a1 := hq (2 * (qp.dim.nb k + qp.dim.ng k) + i) (by unfold nct; omega)
  have a2 : 0 ≤ ∑ j ∈ range (qp.dim.nb k + qp.dim.ng k), (if qp.idxs_rev k j ≠ -1 ∧ i = (qp.idxs_rev k j).toNat
      then sol.lam k j / sol.t k j else 0) := sum_nonneg (fun j hj => by
    have := mem_range.mp hj
    split_ifs
    · exact hq j (by unfold nct; omega)
    · exact le_refl _)
  have a3 : 0 ≤ ∑ j ∈ range (qp.dim.nb k + qp.dim.ng k), (if qp.idxs_rev k j ≠ -1 ∧ i = qp.dim.ns k + (qp.idxs_rev k j).toNat
      then sol.lam k (qp.dim.nb k + qp.dim.ng k + j) / sol.t k (qp.dim.nb k + qp.dim.ng k + j) else 0) := sum_nonneg (fun j hj => by
    have := mem_range.mp hj
    split_ifs
    · exact hq _ (by unfold nct; omega)
    · exact le_refl _)
  linarith

/-- condensed constraint weights are nonnegative -/
theorem kTh_nonneg {qp : OcpQp K} (hwf : qp.WF) {dr : ℕ → ℕ → K} {reg : K} (h : StrictlyConvex qp dr reg) (sol : Sol K)
    (hi : Interior qp sol) (G : ℕ → Vec K) (k j : ℕ) (hk : k ≤ qp.dim.N) (hj : j < qp.dim.nb k + qp.dim.ng k)
    (hG : ∀ j, j < nct qp.dim k → G k j = wG sol k j) : 0 ≤ kTh qp reg G k j := by
  have hGn : ∀ j, j < nct qp.dim k → 0 ≤ G k j := by
    intro j hj
    rw [hG j hj, wG]
    exact mul_nonneg (le_of_lt (one_div_pos.mpr (hi k j hk hj).2)) (hi k j hk hj).1
  have hzr : ∀ i, i < 2 * qp.dim.ns k → 0 < qp.Z k i + reg := by
    intro i his
    have := h.stage k hk (fun q => if q = qp.dim.nu k + qp.dim.nx k + i then 1 else 0)
      ⟨qp.dim.nu k + qp.dim.nx k + i, by omega, by rw [if_pos rfl]; exact one_ne_zero⟩
    rw [sum_eq_zero, zero_add, sum_eq_single_of_mem i (mem_range.mpr his)] at this
    · simpa using this
    · intro q _ hq
      rw [if_neg (by omega), mul_zero]
    · intro q hq
      have := mem_range.mp hq
      rw [if_neg (by omega), mul_zero, mul_zero, add_zero]
  have gen : ∀ a d : K, 0 ≤ a → 0 < d → a ≤ d → 0 ≤ a - a * (1 / d) * a := by
    intro a d ha hd had
    have : a - a * (1 / d) * a = a * ((d - a) / d) := by field_simp
    rw [this]
    exact mul_nonneg ha (div_nonneg (by linarith) (le_of_lt hd))
  have sum_ge : ∀ (w : Vec K), (∀ j, j < qp.dim.nb k + qp.dim.ng k → 0 ≤ w j) → qp.idxs_rev k j ≠ -1 →
      w j ≤ slkSum (qp.dim.nb k + qp.dim.ng k) (qp.idxs_rev k) w (qp.idxs_rev k j).toNat := by
    intro w hw hs
    unfold slkSum
    refine le_trans (le_of_eq ?_) (single_le_sum (fun l hl => ?_) (mem_range.mpr hj))
    · rw [if_pos ⟨hs, rfl⟩]
    · split_ifs
      · exact hw l (mem_range.mp hl)
      · exact le_refl _
  rcases hir_of_wf hwf hk j hj with hs | hs
  · unfold kTh slkTh
    rw [if_neg (by simp [hs]), if_neg (by simp [hs])]
    exact add_nonneg (hGn _ (by unfold nct; omega)) (hGn _ (by unfold nct; omega))
  · have hs' : qp.idxs_rev k j ≠ -1 := by omega
    unfold kTh slkTh
    rw [if_pos hs', if_pos hs']
    refine add_nonneg (gen _ _ (hGn _ (by unfold nct; omega)) ?_ ?_) (gen _ _ (hGn _ (by unfold nct; omega)) ?_ ?_)
    · rw [slkDen_curv qp hwf reg sol G k _ hk (by omega) hG]
      exact slackCurv_pos h sol hi k _ hk (by omega)
    · have h1 := sum_ge (G k) (fun l hl => hGn l (by unfold nct; omega)) hs'
      have h2 := hzr (0 + (qp.idxs_rev k j).toNat) (by omega)
      have h3 := hGn (2 * (qp.dim.nb k + qp.dim.ng k) + (0 + (qp.idxs_rev k j).toNat)) (by unfold nct; omega)
      unfold slkDen
      rw [if_pos (by omega), zero_add]
      rw [zero_add] at h2 h3
      linarith
    · rw [slkDen_curv qp hwf reg sol G k _ hk (by omega) hG]
      exact slackCurv_pos h sol hi k _ hk (by omega)
    · have h1 := sum_ge (fun l => G k (qp.dim.nb k + qp.dim.ng k + l)) (fun l hl => hGn _ (by unfold nct; omega)) hs'
      have h2 := hzr (qp.dim.ns k + (qp.idxs_rev k j).toNat) (by omega)
      have h3 := hGn (2 * (qp.dim.nb k + qp.dim.ng k) + (qp.dim.ns k + (qp.idxs_rev k j).toNat)) (by unfold nct; omega)
      unfold slkDen
      rw [if_neg (by omega), Nat.add_sub_cancel_left]
      linarith

/-- condensed stage Hessians of a strictly convex problem are positive definite -/
theorem kH_pd {qp : OcpQp K} (hwf : qp.WF) {dr : ℕ → ℕ → K} {reg : K} (h : StrictlyConvex qp dr reg) (sol : Sol K)
    (hi : Interior qp sol) (G : ℕ → Vec K) (k : ℕ) (hk : k ≤ qp.dim.N) (hG : ∀ j, j < nct qp.dim k → G k j = wG sol k j) :
    Pd (qp.dim.nu k + qp.dim.nx k) (kH qp dr reg G k) := by
  rintro x ⟨i, hin, hx⟩
  have e : qform (qp.dim.nu k + qp.dim.nx k) (kH qp dr reg G k) x =
      ∑ i ∈ range (qp.dim.nu k + qp.dim.nx k), (hmul qp k x i * x i + dr k i * x i * x i)
      + ∑ j ∈ range (qp.dim.nb k + qp.dim.ng k), kTh qp reg G k j * (cval qp k x j * cval qp k x j) := by
    have e1 : qform (qp.dim.nu k + qp.dim.nx k) (kH qp dr reg G k) x =
        ∑ i ∈ range (qp.dim.nu k + qp.dim.nx k), (hmul qp k x i * x i + dr k i * x i * x i
          + cvalT qp k (fun l => kTh qp reg G k l * cval qp k x l) i * x i) := by
      unfold qform
      refine sum_congr rfl (fun i hi => ?_)
      have := kH_apply qp hwf dr reg G k i hk (mem_range.mp hi) x
      calc ∑ j ∈ range (qp.dim.nu k + qp.dim.nx k), x i * kH qp dr reg G k i j * x j
          = x i * ∑ j ∈ range (qp.dim.nu k + qp.dim.nx k), kH qp dr reg G k i j * x j := by
            rw [mul_sum]; exact sum_congr rfl (fun j _ => by ring)
        _ = _ := by rw [this]; ring
    rw [e1, sum_add_distrib, cvalT_adj qp hwf k hk]
    congr 1
    exact sum_congr rfl (fun j _ => by ring)
  rw [e]
  refine add_pos_of_pos_of_nonneg ?_ (sum_nonneg (fun j hj => mul_nonneg (kTh_nonneg hwf h sol hi G k j hk (mem_range.mp hj) hG)
    (mul_self_nonneg _)))
  have := h.stage k hk (fun q => if q < qp.dim.nu k + qp.dim.nx k then x q else 0) ⟨i, by omega, by rw [if_pos hin]; exact hx⟩
  have e2 : ∑ i ∈ range (2 * qp.dim.ns k), (qp.Z k i + reg) * (if qp.dim.nu k + qp.dim.nx k + i < qp.dim.nu k + qp.dim.nx k then x (qp.dim.nu k + qp.dim.nx k + i) else 0)
      * (if qp.dim.nu k + qp.dim.nx k + i < qp.dim.nu k + qp.dim.nx k then x (qp.dim.nu k + qp.dim.nx k + i) else 0) = 0 :=
    sum_eq_zero (fun i _ => by rw [if_neg (by omega), mul_zero])
  rw [e2, add_zero] at this
  refine lt_of_lt_of_eq this (sum_congr rfl (fun i hi => ?_))
  have hi := mem_range.mp hi
  rw [if_pos hi]
  have e3 : hmul qp k (fun q => if q < qp.dim.nu k + qp.dim.nx k then x q else 0) i = hmul qp k x i := by
    unfold hmul
    exact sum_congr rfl (fun j hj => by beta_reduce; rw [if_pos (mem_range.mp hj)])
  rw [e3]

/-- **C25.**  For a QP whose regularised objective is strictly convex (for instance a convex one with `reg > 0`) and an
interior iterate, the factorise-and-solve routine returns after one sweep, without raising the regularisation,
whichever of its two algorithms is selected. -/
theorem factSolve_total (sq : K → K) (hsq : ∀ x, 0 < x → sq x * sq x = x) (fuel : ℕ) (qp : OcpQp K) (hwf : qp.WF)
    (hN : 1 ≤ qp.dim.N) (sol : Sol K) (hint : Interior qp sol) (dual sqr : Bool) (reg preg_last : K)
    (hsc : StrictlyConvex qp (fun _ _ => reg) reg) (c : Core K)
    (hc : CoreOf qp sol c) (ht : c.t_lam_min ≠ 1) (st : KktSt K) (hR : ROk qp st) (hB : BOk qp st) :
    ∃ out, factSolveKktStep sq fuel qp dual sqr reg preg_last c st = some out ∧
      out.npd_reg_hess = false ∧ out.preg = reg ∧ out.sqr = sqr ∧ out.preg_last = preg_last := by
  unfold factSolveKktStep
  simp only []
  have hcs := coreStep_gammaGamma qp sol c hc ht
  simp only [] at hcs
  set c' := computeGammaGamma (stFlat (nct qp.dim) qp.d (qp.dim.N + 1)) (stFlat (nct qp.dim) qp.m (qp.dim.N + 1)) c with hc'
  have hpd := fun k (hk : k ≤ qp.dim.N) => kH_pd hwf hsc sol hint (stView qp.dim c'.Gamma) k hk (fun j hj => hcs.G k j hk hj)
  have hs : (if sqr then sqBack sq qp reg reg (stView qp.dim c'.Gamma) (stView qp.dim c'.gamma) st
      else clBack sq qp reg reg (stView qp.dim c'.Gamma) (stView qp.dim c'.gamma) st).1 = false := by
    cases sqr
    · refine clBack_pd sq hsq qp hwf hN reg reg _ _ st hR hB (fun k hk => ?_)
      have : drCl qp reg reg = fun _ _ => reg := by funext k i; simp [drCl]
      rw [this]; exact hpd k hk
    · exact sqBack_pd sq hsq qp hwf reg reg _ _ st hR hB hpd
  have hm : kktMain sq qp reg preg_last (stView qp.dim c'.Gamma) (stView qp.dim c'.gamma) fuel reg false sqr st =
      some (reg, false, sqr, (if sqr then sqBack sq qp reg reg (stView qp.dim c'.Gamma) (stView qp.dim c'.gamma) st
      else clBack sq qp reg reg (stView qp.dim c'.Gamma) (stView qp.dim c'.gamma) st).2) := by
    unfold kktMain
    simp only []
    rw [if_neg (by rw [hs]; simp)]
  rw [hm]
  exact ⟨_, rfl, rfl, rfl, rfl, rfl⟩

/-- difference of two points -/
def Sol.sub (s d : Sol K) : Sol K where
  ux := fun k i => s.ux k i - d.ux k i
  pi := fun k i => s.pi k i - d.pi k i
  lam := fun k i => s.lam k i - d.lam k i
  t := fun k i => s.t k i - d.t k i

theorem slkT_sub (qp : OcpQp K) (k : ℕ) (w w' : Vec K) (s : ℕ) :
    slkT qp k (fun j => w j - w' j) s = slkT qp k w s - slkT qp k w' s := by
  have := slkT_add qp k w (fun j => - w' j) s
  rw [slkT_neg] at this
  simpa [sub_eq_add_neg] using this

theorem cvalT_sub (qp : OcpQp K) (k : ℕ) (w w' : Vec K) (i : ℕ) :
    cvalT qp k (fun j => w j - w' j) i = cvalT qp k w i - cvalT qp k w' i := by
  have e : w = fun j => (w j - w' j) + w' j := by funext j; ring
  have := cvalT_add qp k (fun j => w j - w' j) w' i
  rw [← e] at this
  rw [this]; ring

theorem hmul_sub (qp : OcpQp K) (k : ℕ) (w w' : Vec K) (i : ℕ) :
    hmul qp k (fun j => w j - w' j) i = hmul qp k w i - hmul qp k w' i := by
  have e : w = fun j => (w j - w' j) + w' j := by funext j; ring
  have := hmul_add qp k (fun j => w j - w' j) w' i
  rw [← e] at this
  rw [this]; ring

theorem linB_sub (qp : OcpQp K) (v w : ℕ → Vec K) (k i : ℕ) :
    linB qp (fun k i => v k i - w k i) k i = linB qp v k i - linB qp w k i := by
  have e : v = fun k i => (v k i - w k i) + w k i := by funext k i; ring
  have := linB_add qp (fun k i => v k i - w k i) w k i
  rw [← e] at this
  rw [this]; ring

theorem linD_sub (qp : OcpQp K) (v w : ℕ → Vec K) (k i : ℕ) :
    linD qp (fun k i => v k i - w k i) k i = linD qp v k i - linD qp w k i := by
  have e : v = fun k i => (v k i - w k i) + w k i := by funext k i; ring
  have := linD_add qp (fun k i => v k i - w k i) w k i
  rw [← e] at this
  rw [this]; ring

theorem vG_sub (qp : OcpQp K) (s s' : Sol K) (k i : ℕ) :
    vG qp s (s.lam k) k i - vG qp s' (s'.lam k) k i = vG qp (s.sub s') ((s.sub s').lam k) k i - qp.rqz k i := by
  have s1 : (∑ j ∈ range (qp.dim.nx (k + 1)), qp.BAbt k i j * (s.pi k j - s'.pi k j)) =
      (∑ j ∈ range (qp.dim.nx (k + 1)), qp.BAbt k i j * s.pi k j)
      - ∑ j ∈ range (qp.dim.nx (k + 1)), qp.BAbt k i j * s'.pi k j := by
    rw [← sum_sub_distrib]; exact sum_congr rfl (fun j _ => by ring)
  have c1 : (fun j => s.lam k (qp.dim.nb k + qp.dim.ng k + j) - s'.lam k (qp.dim.nb k + qp.dim.ng k + j) - (s.lam k j - s'.lam k j)) =
      fun j => (s.lam k (qp.dim.nb k + qp.dim.ng k + j) - s.lam k j) - (s'.lam k (qp.dim.nb k + qp.dim.ng k + j) - s'.lam k j) := by
    funext j; ring
  have c2 : (s.sub s').ux k = fun j => s.ux k j - s'.ux k j := rfl
  have c3 : (s.sub s').lam k = fun j => s.lam k j - s'.lam k j := rfl
  have c4 : (fun j => s.lam k (qp.dim.nb k + qp.dim.ng k + j) - s'.lam k (qp.dim.nb k + qp.dim.ng k + j)) =
    fun j => (fun j => s.lam k (qp.dim.nb k + qp.dim.ng k + j)) j - (fun j => s'.lam k (qp.dim.nb k + qp.dim.ng k + j)) j := rfl
  simp only [vG, c2, c3, c1, hmul_sub, cvalT_sub, slkT_sub]
  simp only [Sol.sub, s1]
  by_cases hi1 : i < qp.dim.nu k + qp.dim.nx k
  · simp only [if_pos hi1]
    by_cases h2 : 0 < k ∧ qp.dim.nu k ≤ i <;> by_cases h3 : k < qp.dim.N <;>
      simp only [h2, h3, and_self, if_true, if_false] <;> ring
  · simp only [if_neg hi1]
    by_cases h2 : i - (qp.dim.nu k + qp.dim.nx k) < qp.dim.ns k <;>
      simp only [h2, if_true, if_false] <;> ring

/-- **C28.**  When the regularised objective is strictly convex the Newton system at an interior iterate has at most
one solution: primal step, slacks, and all multipliers coincide.  In particular both factorisation algorithms, and
any other solver, return the same step. -/
theorem newton_unique (qp : OcpQp K) (hwf : qp.WF) (sol : Sol K) (hint : Interior qp sol) (dr : ℕ → ℕ → K) (reg : K)
    (hsc : StrictlyConvex qp dr reg) (s s' : Sol K) (h : NewtonStep qp sol dr reg s) (h' : NewtonStep qp sol dr reg s') :
    (∀ k i, k ≤ qp.dim.N → i < qp.dim.nu k + qp.dim.nx k + 2 * qp.dim.ns k → s.ux k i = s'.ux k i) ∧
    (∀ k i, k < qp.dim.N → i < qp.dim.nx (k + 1) → s.pi k i = s'.pi k i) ∧
    (∀ k j, k ≤ qp.dim.N → j < 2 * qp.dim.nb k + 2 * qp.dim.ng k + 2 * qp.dim.ns k →
      s.lam k j = s'.lam k j ∧ s.t k j = s'.t k j) := by
  set e := s.sub s' with he
  have hD : ∀ k j, k ≤ qp.dim.N → j < nct qp.dim k → linD qp e.ux k j = - e.t k j := by
    intro k j hk hj
    have h1 := h.d k j hk hj
    have h2 := h'.d k j hk hj
    rw [vD_lin] at h1 h2
    show linD qp (fun k i => s.ux k i - s'.ux k i) k j = -(s.t k j - s'.t k j)
    rw [linD_sub]; linear_combination h1 - h2
  have hBq : ∀ k i, k < qp.dim.N → i < qp.dim.nx (k + 1) → linB qp e.ux k i = 0 := by
    intro k i hk hi
    have h1 := h.b k i hk hi
    have h2 := h'.b k i hk hi
    rw [vB_lin] at h1 h2
    show linB qp (fun k i => s.ux k i - s'.ux k i) k i = 0
    rw [linB_sub]; linear_combination h1 - h2
  have hM : ∀ k j, k ≤ qp.dim.N → j < nct qp.dim k → sol.lam k j * e.t k j + e.lam k j * sol.t k j = 0 := by
    intro k j hk hj
    have h1 := h.m k j hk hj
    have h2 := h'.m k j hk hj
    simp only [he, Sol.sub]; linear_combination h1 - h2
  have hG1 : ∀ k i, k ≤ qp.dim.N → i < qp.dim.nu k + qp.dim.nx k → vG qp e (e.lam k) k i = qp.rqz k i - dr k i * e.ux k i := by
    intro k i hk hi
    have := vG_sub qp s s' k i
    rw [h.g k i hk hi, h'.g k i hk hi] at this
    have e1 : e.ux k i = s.ux k i - s'.ux k i := rfl
    rw [e1]; linear_combination -this
  have hG2 : ∀ k i, k ≤ qp.dim.N → i < 2 * qp.dim.ns k → vG qp e (e.lam k) k (qp.dim.nu k + qp.dim.nx k + i) =
      qp.rqz k (qp.dim.nu k + qp.dim.nx k + i) - reg * e.ux k (qp.dim.nu k + qp.dim.nx k + i) := by
    intro k i hk hi
    have := vG_sub qp s s' k (qp.dim.nu k + qp.dim.nx k + i)
    rw [h.gs k i hk hi, h'.gs k i hk hi] at this
    have e1 : e.ux k (qp.dim.nu k + qp.dim.nx k + i) = s.ux k (qp.dim.nu k + qp.dim.nx k + i) - s'.ux k (qp.dim.nu k + qp.dim.nx k + i) := rfl
    rw [e1]; linear_combination -this
  -- energy identity
  have hpair := vG_pair qp hwf e (fun k => e.lam k) e.ux
  have p1 : pairV qp.dim (fun k i => vG qp e (e.lam k) k i) e.ux = pairV qp.dim qp.rqz e.ux - regQuad qp dr reg e.ux := by
    unfold pairV regQuad
    rw [← sum_sub_distrib]
    refine sum_congr rfl (fun k hk => ?_)
    have hk : k ≤ qp.dim.N := by have := mem_range.mp hk; omega
    unfold nvt
    rw [sum_range_add _ (qp.dim.nu k + qp.dim.nx k), sum_range_add _ (qp.dim.nu k + qp.dim.nx k)]
    have a1 : ∑ i ∈ range (qp.dim.nu k + qp.dim.nx k), vG qp e (e.lam k) k i * e.ux k i =
        ∑ i ∈ range (qp.dim.nu k + qp.dim.nx k), qp.rqz k i * e.ux k i -
        ∑ i ∈ range (qp.dim.nu k + qp.dim.nx k), dr k i * e.ux k i * e.ux k i := by
      rw [← sum_sub_distrib]
      exact sum_congr rfl (fun i hi => by rw [hG1 k i hk (mem_range.mp hi)]; ring)
    have a2 : ∑ i ∈ range (2 * qp.dim.ns k), vG qp e (e.lam k) k (qp.dim.nu k + qp.dim.nx k + i) * e.ux k (qp.dim.nu k + qp.dim.nx k + i) =
        ∑ i ∈ range (2 * qp.dim.ns k), qp.rqz k (qp.dim.nu k + qp.dim.nx k + i) * e.ux k (qp.dim.nu k + qp.dim.nx k + i) -
        ∑ i ∈ range (2 * qp.dim.ns k), reg * e.ux k (qp.dim.nu k + qp.dim.nx k + i) * e.ux k (qp.dim.nu k + qp.dim.nx k + i) := by
      rw [← sum_sub_distrib]
      exact sum_congr rfl (fun i hi => by rw [hG2 k i hk (mem_range.mp hi)]; ring)
    rw [a1, a2]; ring
  have p2 : pairV qp.dim (fun k i => hessMul qp e.ux k i + qp.rqz k i) e.ux =
      2 * (view qp).quad (ptOf qp.dim e.ux) + pairV qp.dim qp.rqz e.ux := by
    rw [quad_pair, pairV_add_left]; ring
  have p3 : pairE qp.dim e.pi (linB qp e.ux) = 0 := by
    unfold pairE
    refine sum_eq_zero (fun k hk => sum_eq_zero (fun i hi => ?_))
    rw [hBq k i (mem_range.mp hk) (mem_range.mp hi), mul_zero]
  have p4 : 0 ≤ pairC qp.dim (fun k => e.lam k) (linD qp e.ux) := by
    unfold pairC
    refine sum_nonneg (fun k hk => sum_nonneg (fun j hj => ?_))
    have hk : k ≤ qp.dim.N := by have := mem_range.mp hk; omega
    have hj := mem_range.mp hj
    rw [hD k j hk hj]
    have h1 := hM k j hk hj
    obtain ⟨hl, ht⟩ := hint k j hk hj
    have h2 : e.lam k j * -(e.t k j) * sol.t k j = sol.lam k j * (e.t k j * e.t k j) := by linear_combination - e.t k j * h1
    by_contra hneg
    have h3 := mul_neg_of_neg_of_pos (not_le.mp hneg) ht
    have h4 := mul_nonneg hl (mul_self_nonneg (e.t k j))
    linarith
  rw [p1, p2, p3] at hpair
  have hux : ∀ k i, k ≤ qp.dim.N → i < qp.dim.nu k + qp.dim.nx k + 2 * qp.dim.ns k → e.ux k i = 0 := by
    intro k i hk hi
    by_contra hne
    have := hsc e.ux ⟨k, i, hk, hi, hne⟩
    linarith
  have hlt : ∀ k j, k ≤ qp.dim.N → j < nct qp.dim k → e.t k j = 0 ∧ e.lam k j = 0 := by
    intro k j hk hj
    have h1 : e.t k j = 0 := by
      have h1 := hD k j hk hj
      have h2 : linD qp e.ux k j = 0 := by
        have hw : linD qp e.ux k j = - wval qp e.ux k j := by
          simp only [linD, wval]; split_ifs <;> ring
        rw [hw]
        have hc : ∀ j, cval qp k (e.ux k) j = 0 := by
          intro j
          rw [cval_congr' qp hwf k hk (e.ux k) (fun _ => 0) (fun i hi => hux k i hk (by omega))]
          unfold cval
          split_ifs <;> simp
        have hs : ∀ o j, j < qp.dim.nb k + qp.dim.ng k → (o = 0 ∨ o = qp.dim.ns k) →
            slk qp k (e.ux k) (qp.dim.nu k + qp.dim.nx k + o) j = 0 := by
          intro o j hj ho
          unfold slk
          split_ifs with h
          · rfl
          · rcases hir_of_wf hwf hk j hj with h' | h'
            · exact absurd h' h
            · exact hux k _ hk (by rcases ho with rfl | rfl <;> omega)
        simp only [wval, hc]
        unfold nct at hj
        split_ifs with h1 h2
        · have := hs 0 j h1 (Or.inl rfl)
          rw [add_zero] at this
          rw [this]; ring
        · rw [hs _ _ (by omega) (Or.inr rfl)]; ring
        · rw [hux k _ hk (by omega)]; ring
      rw [h2] at h1
      linarith
    refine ⟨h1, ?_⟩
    have h2 := hM k j hk hj
    rw [h1, mul_zero, zero_add] at h2
    exact (mul_eq_zero.mp h2).resolve_right (ne_of_gt (hint k j hk hj).2)
  refine ⟨fun k i hk hi => sub_eq_zero.mp (hux k i hk hi), ?_, fun k j hk hj =>
    ⟨sub_eq_zero.mp (hlt k j hk hj).2, sub_eq_zero.mp (hlt k j hk hj).1⟩⟩
  -- multipliers of the dynamics, backwards
  have hpi : ∀ d k a, k + 1 + d = qp.dim.N → a < qp.dim.nx (k + 1) → e.pi k a = 0 := by
    intro d
    induction d using Nat.strong_induction_on with
    | _ d ih =>
      intro k a hk ha
      have h1 := hG1 (k + 1) (qp.dim.nu (k + 1) + a) (by omega) (by omega)
      rw [hux (k + 1) _ (by omega) (by omega), mul_zero, sub_zero] at h1
      simp only [vG] at h1
      rw [if_pos (by omega), if_pos ⟨by omega, by omega⟩, Nat.add_sub_cancel_left, Nat.add_sub_cancel] at h1
      have e1 : hmul qp (k + 1) (e.ux (k + 1)) (qp.dim.nu (k + 1) + a) = 0 :=
        sum_eq_zero (fun j hj => by rw [hux (k + 1) j (by omega) (by have := mem_range.mp hj; omega), mul_zero])
      have e2 : cvalT qp (k + 1) (fun j => e.lam (k + 1) (qp.dim.nb (k + 1) + qp.dim.ng (k + 1) + j) - e.lam (k + 1) j) (qp.dim.nu (k + 1) + a) = 0 := by
        rw [cvalT_congr qp (k + 1) _ (fun _ => 0)]
        · unfold cvalT; simp
        · intro j hj
          rw [(hlt (k + 1) _ (by omega) (by unfold nct; omega)).2, (hlt (k + 1) j (by omega) (by unfold nct; omega)).2, sub_zero]
      have e3 : (if k + 1 < qp.dim.N then ∑ j ∈ range (qp.dim.nx (k + 1 + 1)), qp.BAbt (k + 1) (qp.dim.nu (k + 1) + a) j * e.pi (k + 1) j else 0) = 0 := by
        split_ifs with hlt
        · exact sum_eq_zero (fun j hj => by rw [ih (d - 1) (by omega) (k + 1) j (by omega) (mem_range.mp hj), mul_zero])
        · rfl
      rw [e1, e2, e3] at h1
      linear_combination -h1
  exact fun k a hk ha => sub_eq_zero.mp (hpi (qp.dim.N - k - 1) k a (by omega) ha)

end
end Hpipm
