/-
The primal part of a search direction (intermediate results for C67): whatever the quality of the factorisation, the
direction returned by the KKT routines satisfies the linearised dynamics and the linearised inequality constraints
exactly, because the forward sweeps compute the states from the dynamics and the slack steps from the constraint values.
-/
import Verif.IpmItref
import Verif.KktSolve

namespace Hpipm
open Finset
set_option linter.unusedSectionVars false

section
variable {K : Type*} [Field K] [LinearOrder K]

/-- the part of a forward step that does not need nonzero pivots -/
structure DStep (qp : OcpQp K) (n k : ℕ) (st st' : KktSt K) : Prop where
  BAbt : st'.BAbt = st.BAbt
  uxo : ∀ q, q ≠ k → q ≠ k + 1 → st'.ux q = st.ux q
  uxk : ∀ i, n ≤ i → st'.ux k i = st.ux k i
  ux1 : ∀ c, c < qp.dim.nx (k + 1) → st'.ux (k + 1) (qp.dim.nu (k + 1) + c) =
    ∑ j ∈ range (qp.dim.nu k + qp.dim.nx k), st.BAbt k j c * st'.ux k j + qp.b k c

theorem sqFwd_dstep (qp : OcpQp K) (dual : Bool) (n k : ℕ) (st : KktSt K) : DStep qp n k st (sqFwd qp dual n k st) := by
  have hk1 : k + 1 ≠ k := by omega
  have hk2 : k ≠ k + 1 := by omega
  refine ⟨rfl, fun q h1 h2 => ?_, fun i hi => ?_, fun c hc => ?_⟩
  · simp only [sqFwd, upd_ne _ _ h2, upd_ne _ _ h1]
  · simp only [sqFwd, upd_ne _ _ hk2, upd_same]
    rw [trsv_ltn_mn_out _ _ _ _ _ hi, rowex, if_neg (by omega)]
  · simp only [sqFwd, upd_ne _ _ hk2, upd_same]
    rw [gemv_t, if_pos (by omega)]
    simp only [Nat.add_sub_cancel_left, zero_add, one_mul]
    ring

theorem clFwd_dstep (qp : OcpQp K) (dual : Bool) (n k : ℕ) (st : KktSt K) : DStep qp n k st (clFwd qp dual n k st) := by
  have hk1 : k + 1 ≠ k := by omega
  have hk2 : k ≠ k + 1 := by omega
  refine ⟨rfl, fun q h1 h2 => ?_, fun i hi => ?_, fun c hc => ?_⟩
  · simp only [clFwd, upd_ne _ _ h2, upd_ne _ _ h1]
  · simp only [clFwd, upd_ne _ _ hk2, upd_same]
    rw [trsv_ltn_mn_out _ _ _ _ _ hi, rowex, if_neg (by omega)]
  · simp only [clFwd, upd_ne _ _ hk2, upd_same]
    rw [gemv_t, if_pos (by omega)]
    simp only [Nat.add_sub_cancel_left, zero_add, one_mul]
    ring

theorem fwdSub_dstep (qp : OcpQp K) (dual sqr : Bool) (n k : ℕ) (st : KktSt K) :
    DStep qp n k st (fwdSub qp dual sqr n k st) := by
  have hk1 : k + 1 ≠ k := by omega
  have hk2 : k ≠ k + 1 := by omega
  refine ⟨rfl, fun q h1 h2 => ?_, fun i hi => ?_, fun c hc => ?_⟩
  · simp only [fwdSub, upd_ne _ _ h2, upd_ne _ _ h1]
  · simp only [fwdSub, upd_ne _ _ hk2, upd_same]
    rw [trsv_ltn_mn_out _ _ _ _ _ hi, vecsc, if_neg (by omega)]
  · simp only [fwdSub, upd_ne _ _ hk2, upd_same]
    rw [gemv_t, if_pos (by omega)]
    simp only [Nat.add_sub_cancel_left, zero_add, one_mul]
    ring

/-- the states of all stages follow from the dynamics -/
theorem dyn_chain (qp : OcpQp K) (hN : 1 ≤ qp.dim.N) (step : ℕ → ℕ → KktSt K → KktSt K) (last : KktSt K → KktSt K)
    (st0 : KktSt K) (hs : ∀ n k st, DStep qp n k st (step n k st))
    (hl : ∀ st, (∀ q, q ≠ qp.dim.N → (last st).ux q = st.ux q) ∧
      (∀ i, qp.dim.nu qp.dim.N ≤ i → (last st).ux qp.dim.N i = st.ux qp.dim.N i)) :
    ∀ k c, k < qp.dim.N → c < qp.dim.nx (k + 1) →
      (last (loop (qp.dim.N - 1) (fun i st => step (qp.dim.nu (i + 1)) (i + 1) st)
        (step (qp.dim.nu 0 + qp.dim.nx 0) 0 st0))).ux (k + 1) (qp.dim.nu (k + 1) + c) =
      ∑ j ∈ range (qp.dim.nu k + qp.dim.nx k), st0.BAbt k j c *
        (last (loop (qp.dim.N - 1) (fun i st => step (qp.dim.nu (i + 1)) (i + 1) st)
          (step (qp.dim.nu 0 + qp.dim.nx 0) 0 st0))).ux k j + qp.b k c := by
  have key := loop_inv (S := KktSt K) (fun i st => st.BAbt = st0.BAbt ∧
      (∀ k c, k ≤ i → c < qp.dim.nx (k + 1) → st.ux (k + 1) (qp.dim.nu (k + 1) + c) =
        ∑ j ∈ range (qp.dim.nu k + qp.dim.nx k), st0.BAbt k j c * st.ux k j + qp.b k c))
    (qp.dim.N - 1) (fun i st => step (qp.dim.nu (i + 1)) (i + 1) st) (step (qp.dim.nu 0 + qp.dim.nx 0) 0 st0) ?_ ?_
  · set st := loop (qp.dim.N - 1) (fun i st => step (qp.dim.nu (i + 1)) (i + 1) st) (step (qp.dim.nu 0 + qp.dim.nx 0) 0 st0)
    obtain ⟨-, k2⟩ := key
    obtain ⟨l1, l2⟩ := hl st
    intro k c hk hc
    rw [l1 k (by omega), ← k2 k c (by omega) hc]
    by_cases hq : k + 1 = qp.dim.N
    · rw [hq]; exact l2 _ (by omega)
    · rw [l1 _ hq]
  · have h := hs (qp.dim.nu 0 + qp.dim.nx 0) 0 st0
    refine ⟨h.BAbt, fun k c hk hc => ?_⟩
    have : k = 0 := by omega
    subst this
    exact h.ux1 c hc
  · rintro i st hi ⟨hB, k2⟩
    have h := hs (qp.dim.nu (i + 1)) (i + 1) st
    refine ⟨h.BAbt.trans hB, fun k c hk hc => ?_⟩
    by_cases hk1 : k = i + 1
    · subst hk1
      rw [← hB]
      exact h.ux1 c hc
    · rw [h.uxo k hk1 (by omega), ← k2 k c (by omega) hc]
      by_cases hk2 : k = i
      · subst hk2; exact h.uxk _ (by omega)
      · rw [h.uxo _ (by omega) (by omega)]

theorem fwd_dyn (qp : OcpQp K) (dual sqr : Bool) (hN : 1 ≤ qp.dim.N) (st : KktSt K) :
    ∀ k c, k < qp.dim.N → c < qp.dim.nx (k + 1) → (fwd qp dual sqr st).ux (k + 1) (qp.dim.nu (k + 1) + c) =
      ∑ j ∈ range (qp.dim.nu k + qp.dim.nx k), st.BAbt k j c * (fwd qp dual sqr st).ux k j + qp.b k c := by
  refine dyn_chain qp hN (fun n k st => if sqr then sqFwd qp dual n k st else clFwd qp dual n k st) (fwdLast qp) st ?_ ?_
  · intro n k s
    cases sqr
    · exact clFwd_dstep qp dual n k s
    · exact sqFwd_dstep qp dual n k s
  · intro s
    refine ⟨fun q hq => ?_, fun i hi => ?_⟩
    · simp only [fwdLast, upd_ne _ _ hq]
    · simp only [fwdLast, upd_same]
      rw [trsv_ltn_mn_out _ _ _ _ _ hi, rowex, if_neg (by omega)]

theorem fwdSub_dyn (qp : OcpQp K) (dual sqr : Bool) (hN : 1 ≤ qp.dim.N) (st : KktSt K) :
    let st' := fwdSubLast qp (loop (qp.dim.N - 1) (fun i st => fwdSub qp dual sqr (qp.dim.nu (i + 1)) (i + 1) st)
      (fwdSub qp dual sqr (qp.dim.nu 0 + qp.dim.nx 0) 0 st))
    ∀ k c, k < qp.dim.N → c < qp.dim.nx (k + 1) → st'.ux (k + 1) (qp.dim.nu (k + 1) + c) =
      ∑ j ∈ range (qp.dim.nu k + qp.dim.nx k), st.BAbt k j c * st'.ux k j + qp.b k c := by
  refine dyn_chain qp hN (fun n k st => fwdSub qp dual sqr n k st) (fwdSubLast qp) st ?_ ?_
  · intro n k s
    exact fwdSub_dstep qp dual sqr n k s
  · intro s
    refine ⟨fun q hq => ?_, fun i hi => ?_⟩
    · simp only [fwdSubLast, upd_ne _ _ hq]
    · simp only [fwdSubLast, upd_same]
      rw [trsv_ltn_mn_out _ _ _ _ _ hi, vecsc, if_neg (by omega)]

variable [IsStrictOrderedRing K]

/-- a direction whose primal part satisfies the linearised equality and inequality constraints -/
structure PrimStep (qp : OcpQp K) (b d ux t : ℕ → Vec K) : Prop where
  dyn : ∀ k i, k < qp.dim.N → i < qp.dim.nx (k + 1) → b k i + linB qp ux k i = 0
  con : ∀ k j, k ≤ qp.dim.N → j < nct qp.dim k → qp.d_mask k j * (d k j + t k j + linD qp ux k j) = 0

theorem wval_lin (qp : OcpQp K) (v : ℕ → Vec K) (k j : ℕ) : wval qp v k j = - linD qp v k j := by
  simp only [wval, linD]; split_ifs <;> ring

theorem tail_prim (qp : OcpQp K) (hwf : qp.WF) (G : ℕ → Vec K) (c : Core K) (hnc : c.nc = stOff (nct qp.dim) (qp.dim.N + 1))
    (st : KktSt K) (B : ℕ → Mat K)
    (hB : ∀ k i j, k < qp.dim.N → i < qp.dim.nu k + qp.dim.nx k → B k i j = qp.BAbt k i j)
    (hd : ∀ k c, k < qp.dim.N → c < qp.dim.nx (k + 1) → st.ux (k + 1) (qp.dim.nu (k + 1) + c) =
      ∑ j ∈ range (qp.dim.nu k + qp.dim.nx k), B k j c * st.ux k j + qp.b k c) :
    PrimStep qp qp.b qp.d (kktTail qp G c st).ux (kktTail qp G c st).t := by
  have h := kktTail_ok qp hwf G c hnc st
  refine ⟨fun k i hk hi => ?_, fun k j hk hj => ?_⟩
  · unfold linB
    rw [h.uxv (k + 1) _ (by omega) (by omega), hd k i hk hi]
    have e : ∑ j ∈ range (qp.dim.nu k + qp.dim.nx k), qp.BAbt k j i * (kktTail qp G c st).ux k j =
        ∑ j ∈ range (qp.dim.nu k + qp.dim.nx k), B k j i * st.ux k j :=
      sum_congr rfl (fun j hj => by rw [h.uxv k j (by omega) (mem_range.mp hj), hB k j i hk (mem_range.mp hj)])
    rw [e]
    ring
  · rw [h.t k j hk hj, wval_lin]; ring

theorem computeGammaGamma_nc (d m : Vec K) (c : Core K) : (computeGammaGamma d m c).nc = c.nc := (computeGammaGamma_keep d m c).nc
theorem computeGamma_nc (d m : Vec K) (c : Core K) : (computeGamma d m c).nc = c.nc := (computeGamma_keep d m c).nc

theorem factSolve_prim (sq : K → K) (fuel : ℕ) (qp : OcpQp K) (hwf : qp.WF) (hN : 1 ≤ qp.dim.N) (dual sqr : Bool) (reg pl : K) (c : Core K)
    (hnc : c.nc = stOff (nct qp.dim) (qp.dim.N + 1)) (st : KktSt K)
    (hB : ∀ k i j, i < qp.dim.nu k + qp.dim.nx k → st.BAbt k i j = qp.BAbt k i j) (o : KktOut K)
    (h : factSolveKktStep sq fuel qp dual sqr reg pl c st = some o) : PrimStep qp qp.b qp.d o.st.ux o.st.t := by
  unfold factSolveKktStep at h
  simp only at h
  split at h
  · cases h
  · rename_i preg init sqr' st1 he
    have hm := kktMain_mkeep sq qp reg _ _ pl fuel _ _ _ _ _ he
    cases h
    refine tail_prim qp hwf _ _ ?_ _ st1.BAbt (fun k i j _ hi => ?_) (fwd_dyn qp dual sqr' hN st1)
    · rw [computeGammaGamma_nc]; exact hnc
    · rw [hm.B k i j hi]; exact hB k i j hi

theorem solve_prim (qp : OcpQp K) (hwf : qp.WF) (hN : 1 ≤ qp.dim.N) (dual sqr useP : Bool) (c : Core K)
    (hnc : c.nc = stOff (nct qp.dim) (qp.dim.N + 1)) (st : KktSt K)
    (hB : ∀ k i j, i < qp.dim.nu k + qp.dim.nx k → st.BAbt k i j = qp.BAbt k i j) :
    PrimStep qp qp.b qp.d (solveKktStep qp dual sqr useP c st).2.ux (solveKktStep qp dual sqr useP c st).2.t := by
  unfold solveKktStep
  dsimp only
  refine tail_prim qp hwf _ _ ?_ _ _ (fun k i j _ hi => ?_) (fwdSub_dyn qp dual sqr hN _)
  · rw [computeGamma_nc]; exact hnc
  · refine Eq.trans ?_ (hB k i j hi)
    refine MKeep.B (D := qp.dim) ?_ k i j hi
    refine MKeep.trans (MKeep.trans ?_ (MKeep.loop fun i s => bwdSub_mkeep _ _ _ _ _ _ _ s)) (bwdSub_mkeep _ _ _ _ _ _ _ _)
    exact (rhsStage_mkeep _ _ _ _ _).trans (MKeep.of_eq rfl rfl)

end
end Hpipm
