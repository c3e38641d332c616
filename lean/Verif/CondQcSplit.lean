/-
C102: condensing of the quadratic constraints in two parts: COND_QCQP_QC_LHS and COND_QCQP_QC_RHS, cond/x_cond_qcqp.c:562-787.
-/
import Verif.CondQcFlags
import Verif.CondSplitCon

namespace Hpipm
open Finset
set_option linter.unusedSectionVars false

section
variable {K : Type*} [Field K]

/-- a constraint of a stage `kk>0` in COND_QCQP_QC_LHS, x_cond_qcqp.c:643-683: the statements of COND_QCQP_QC without the constant (ROWEX, DOT) and
without the correction of the bounds -/
def qcLhsLater (Q : Qcqp K) (nz : ℕ → ℕ → ℕ) (Gamma : ℕ → Mat K) (N kk jj : ℕ) (s : QcSt K) : QcSt K :=
  { qcLater Q nz Gamma (fun _ _ => 0) N kk jj s with
    d2 := s.d2
    tmp_nuxM := s.tmp_nuxM }

/-- COND_QCQP_QC_LHS, x_cond_qcqp.c:562-687 -/
def condQcLhs (Q : Qcqp K) (nz : ℕ → ℕ → ℕ) (Gamma : ℕ → Mat K) (N : ℕ) (s : QcSt K) : QcSt K :=
  let D := Q.base.dim
  if N = 0 then
    { s with Hq2 := loop (Q.nq 0) (fun jj H => upd H jj (gecp (D.nu 0 + D.nx 0) (D.nu 0 + D.nx 0) (s.Hq 0 jj) 0 0 (H jj) 0 0)) s.Hq2 }
  else
    loop (N + 1) (fun kk s => loop (Q.nq kk) (fun jj s => if kk = 0 then qcFirst Q nz N jj s else qcLhsLater Q nz Gamma N kk jj s) s)
      { s with Ct2 := gese (qcNvc D N) (qcNqc Q.nq N) 0 s.Ct2 0 (qcNgc D N) }

/-- a constraint of a stage `kk>0` in COND_QCQP_QC_RHS, x_cond_qcqp.c:751-782 -/
def qcRhsLater (Q : Qcqp K) (nz : ℕ → ℕ → ℕ) (Gammab : ℕ → Vec K) (N kk jj : ℕ) (s : QcSt K) : QcSt K :=
  let D := Q.base.dim
  let nu := D.nu kk
  let nx := D.nx kk
  let nbc := qcNbc D N
  let ngc := qcNgc D N
  let q := qcPos Q.nq N kk + jj
  let z := nz kk jj
  let M := if z % 2 = 1 then trtr_l (nu + nx) (s.Hq kk jj) 0 0 (s.Hq kk jj) 0 0 else s.Hq kk jj
  let tx := if z % 2 = 1 then gemv_n nx nx 1 M nu nu (Gammab (kk - 1)) 0 0 s.tmp_nuxM 0 s.tmp_nuxM 0 else s.tmp_nuxM
  let rho := if z % 2 = 1 then 1 / 2 * dot nx tx 0 (Gammab (kk - 1)) 0 else 0
  let d2 := upd s.d2 (nbc + ngc + q) (s.d2 (nbc + ngc + q) - rho)
  { s with
    Hq := upd s.Hq kk (upd (s.Hq kk) jj M)
    d2 := upd d2 (2 * nbc + 2 * ngc + qcNqc Q.nq N + q) (d2 (2 * nbc + 2 * ngc + qcNqc Q.nq N + q) + rho)
    tmp_nuxM := tx }

/-- COND_QCQP_QC_RHS, x_cond_qcqp.c:693-787; in stage 0 the correction is zero -/
def condQcRhs (Q : Qcqp K) (nz : ℕ → ℕ → ℕ) (Gammab : ℕ → Vec K) (N : ℕ) (s : QcSt K) : QcSt K :=
  if N = 0 then s
  else loop (N + 1) (fun kk s => loop (Q.nq kk) (fun jj s => if kk = 0 then s else qcRhsLater Q nz Gammab N kk jj s) s) s

/-! ### the two parts together -/

/-- equal up to bounds and the scratch vector -/
structure QcSameL (s t : QcSt K) : Prop where
  Hq : t.Hq = s.Hq
  Hq2 : t.Hq2 = s.Hq2
  nz2 : t.nz2 = s.nz2
  Ct2 : t.Ct2 = s.Ct2
  GQ : t.GQ = s.GQ
  tmp : t.tmp_nvc = s.tmp_nvc
  ub : t.ub = s.ub

theorem qcFirst_sameL (Q : Qcqp K) (nz : ℕ → ℕ → ℕ) (N jj : ℕ) (s t : QcSt K) (h : QcSameL s t) : QcSameL (qcFirst Q nz N jj s) (qcFirst Q nz N jj t) := by
  obtain ⟨h1, h2, h3, h4, h5, h6, h7⟩ := h
  unfold qcFirst
  dsimp only
  rw [h1]
  split
  · exact ⟨rfl, h2, h3, h4, h5, h6, rfl⟩
  · refine ⟨rfl, ?_, ?_, h4, h5, h6, h7⟩
    · dsimp only; rw [h2]
    · dsimp only; rw [h3]

theorem qcLater_sameL (Q : Qcqp K) (nz : ℕ → ℕ → ℕ) (G : ℕ → Mat K) (g : ℕ → Vec K) (N kk jj : ℕ) (s t : QcSt K) (h : QcSameL s t) :
    QcSameL (qcLater Q nz G g N kk jj s) (qcLhsLater Q nz G N kk jj t) := by
  obtain ⟨h1, h2, h3, h4, h5, h6, h7⟩ := h
  cases s
  cases t
  simp only at h1 h2 h3 h4 h5 h6 h7
  subst h1 h2 h3 h4 h5 h6 h7
  exact ⟨rfl, rfl, rfl, rfl, rfl, rfl, rfl⟩

/-- the first part computes what the whole computes, except the bounds, which it does not touch -/
theorem condQcLhs_eq (Q : Qcqp K) (nz : ℕ → ℕ → ℕ) (G : ℕ → Mat K) (g : ℕ → Vec K) (N : ℕ) (s : QcSt K) :
    QcSameL (condQc Q nz G g N s) (condQcLhs Q nz G N s) ∧ (condQcLhs Q nz G N s).d2 = s.d2 := by
  unfold condQc condQcLhs
  dsimp only
  split_ifs with hN
  · exact ⟨⟨rfl, rfl, rfl, rfl, rfl, rfl, rfl⟩, rfl⟩
  · refine ⟨?_, ?_⟩
    · refine loop_rel2 QcSameL _ _ _ _ _ ⟨rfl, rfl, rfl, rfl, rfl, rfl, rfl⟩ fun k a b _ hab => ?_
      refine loop_rel2 QcSameL _ _ _ _ _ hab fun j a b _ hab => ?_
      split_ifs
      · exact qcFirst_sameL Q nz N j a b hab
      · exact qcLater_sameL Q nz G g N k j a b hab
    · refine loop_inv (fun _ (t : QcSt K) => t.d2 = s.d2) (N + 1) _ _ rfl fun k a _ ha => ?_
      refine loop_inv (fun _ (t : QcSt K) => t.d2 = s.d2) (Q.nq k) _ a ha fun j b _ hb => ?_
      split_ifs
      · have : (qcFirst Q nz N j b).d2 = b.d2 := by
          unfold qcFirst
          dsimp only
          split <;> rfl
        exact this.trans hb
      · exact hb

/-- the two constants agree, when the last row of the dynamics is the affine part -/
theorem qcRhs_d2 (Q : Qcqp K) (nz : ℕ → ℕ → ℕ) (G : ℕ → Mat K) (g : ℕ → Vec K) (N k j : ℕ) (s t : QcSt K) (hs : QcLow Q s) (ht : QcLow Q t) (h : t.d2 = s.d2)
    (hrow : ∀ l, l < Q.base.dim.nx k → G (k - 1) (sumTo Q.base.dim.nu k + Q.base.dim.nx 0) l = g (k - 1) l) :
    (qcRhsLater Q nz g N k j t).d2 = (qcLater Q nz G g N k j s).d2 := by
  have key : (if nz k j % 2 = 1 then 1 / 2 * dot (Q.base.dim.nx k) (if nz k j % 2 = 1 then gemv_n (Q.base.dim.nx k) (Q.base.dim.nx k) 1
        (if nz k j % 2 = 1 then trtr_l (Q.base.dim.nu k + Q.base.dim.nx k) (t.Hq k j) 0 0 (t.Hq k j) 0 0 else t.Hq k j) (Q.base.dim.nu k) (Q.base.dim.nu k)
        (g (k - 1)) 0 0 t.tmp_nuxM 0 t.tmp_nuxM 0 else t.tmp_nuxM) 0 (g (k - 1)) 0 else 0)
      = (if nz k j % 2 = 1 then 1 / 2 * dot (Q.base.dim.nx k) (if nz k j % 2 = 1 then rowex (Q.base.dim.nx k) 1
        (if nz k j % 2 = 1 then gemm_nn (sumTo Q.base.dim.nu k + Q.base.dim.nx 0 + 1) (Q.base.dim.nx k) (Q.base.dim.nx k) 1 (G (k - 1)) 0 0
          (if nz k j % 2 = 1 then trtr_l (Q.base.dim.nu k + Q.base.dim.nx k) (s.Hq k j) 0 0 (s.Hq k j) 0 0 else s.Hq k j) (Q.base.dim.nu k) (Q.base.dim.nu k)
          0 (s.GQ (k - 1)) 0 0 (s.GQ (k - 1)) 0 0 else s.GQ (k - 1)) (sumTo Q.base.dim.nu k + Q.base.dim.nx 0) 0 s.tmp_nuxM 0 else s.tmp_nuxM) 0 (g (k - 1)) 0 else 0) := by
    by_cases hz : nz k j % 2 = 1
    · simp only [hz, if_true]
      congr 1
      unfold dot
      refine sum_congr rfl fun l hl => ?_
      have hl := mem_range.mp hl
      congr 1
      unfold gemv_n rowex gemm_nn
      simp only [Nat.sub_zero, one_mul, zero_mul, zero_add, Nat.zero_le, true_and, hl, if_true, Nat.lt_succ_self]
      refine sum_congr rfl fun m hm => ?_
      have hm := mem_range.mp hm
      rw [hrow m hm, qc_full _ _ _ _ _ _ rfl hl hm, qc_full _ _ _ _ _ _ rfl hm hl, symL_commA, mul_comm]
      congr 1
      unfold symL
      split_ifs
      · rw [hs _ _ _ _ (by omega), ht _ _ _ _ (by omega)]
      · rw [hs _ _ _ _ (by omega), ht _ _ _ _ (by omega)]
    · simp only [hz, if_false]
  unfold qcRhsLater qcLater
  dsimp only
  rw [key, h]

theorem qcRhs_low (Q : Qcqp K) (nz : ℕ → ℕ → ℕ) (g : ℕ → Vec K) (N k j : ℕ) (t : QcSt K) (h : QcLow Q t) : QcLow Q (qcRhsLater Q nz g N k j t) := by
  intro k' j' i l hl
  unfold qcRhsLater
  dsimp only
  by_cases hk : k' = k
  · subst hk
    rw [upd_same]
    by_cases hj : j' = j
    · subst hj
      rw [upd_same]
      split_ifs
      · rw [qc_low _ _ _ _ hl]; exact h _ _ _ _ hl
      · exact h _ _ _ _ hl
    · rw [upd_ne _ _ hj]; exact h _ _ _ _ hl
  · rw [upd_ne _ _ hk]; exact h _ _ _ _ hl

/-- the second part gives the bounds that the whole gives, when the dynamics matrices have the affine part in the last row, as COND_BABT leaves them;
it writes nothing of the target but the bounds -/
theorem condQcRhs_eq (Q : Qcqp K) (nz : ℕ → ℕ → ℕ) (G : ℕ → Mat K) (g : ℕ → Vec K) (N : ℕ) (s t : QcSt K) (hs : s.Hq = Q.Hq) (ht : QcLow Q t) (h : t.d2 = s.d2)
    (hrow : ∀ k l, k < N → l < Q.base.dim.nx (k + 1) → G k (sumTo Q.base.dim.nu (k + 1) + Q.base.dim.nx 0) l = g k l) :
    (condQcRhs Q nz g N t).d2 = (condQc Q nz G g N s).d2 ∧ (condQcRhs Q nz g N t).Hq2 = t.Hq2 ∧ (condQcRhs Q nz g N t).nz2 = t.nz2 ∧
    (condQcRhs Q nz g N t).Ct2 = t.Ct2 ∧ QcLow Q (condQcRhs Q nz g N t) := by
  unfold condQc condQcRhs
  dsimp only
  split_ifs with hN
  · exact ⟨h, rfl, rfl, rfl, ht⟩
  · have A := loop_rel2 (fun a b => b.d2 = a.d2 ∧ QcLow Q a ∧ QcLow Q b ∧ b.Hq2 = t.Hq2 ∧ b.nz2 = t.nz2 ∧ b.Ct2 = t.Ct2) (N + 1) (qcStage Q nz G g N)
      (fun kk s => loop (Q.nq kk) (fun jj s => if kk = 0 then s else qcRhsLater Q nz g N kk jj s) s)
      { s with Ct2 := gese (qcNvc Q.base.dim N) (qcNqc Q.nq N) 0 s.Ct2 0 (qcNgc Q.base.dim N) } t
      ⟨h, fun a b i l _ => by show s.Hq a b i l = _; rw [hs], ht, rfl, rfl, rfl⟩ (fun k a b hk hab => by
        unfold qcStage
        refine loop_rel2 (fun a b => b.d2 = a.d2 ∧ QcLow Q a ∧ QcLow Q b ∧ b.Hq2 = t.Hq2 ∧ b.nz2 = t.nz2 ∧ b.Ct2 = t.Ct2) _ _ _ _ _ hab
          fun j a b _ ⟨i1, i2, i3, i4, i5, i6⟩ => ?_
        refine ⟨?_, qcStep_low Q nz G g N k j a i2, ?_, ?_⟩
        · split_ifs with h0
          · have : (qcFirst Q nz N j a).d2 = a.d2 := by
              unfold qcFirst
              dsimp only
              split <;> rfl
            rw [this, i1]
          · refine qcRhs_d2 Q nz G g N k j a b i2 i3 i1 fun l hl => ?_
            have := hrow (k - 1) l (by omega) (by rw [show k - 1 + 1 = k by omega]; exact hl)
            rw [show k - 1 + 1 = k by omega] at this
            exact this
        · split_ifs
          · exact i3
          · exact qcRhs_low Q nz g N k j b i3
        · split_ifs
          · exact ⟨i4, i5, i6⟩
          · exact ⟨i4, i5, i6⟩)
    exact ⟨A.1, A.2.2.2.1, A.2.2.2.2.1, A.2.2.2.2.2, A.2.2.1⟩

end

section
variable {K : Type*} [Field K] [LinearOrder K] [IsStrictOrderedRing K]

/-- with the dynamics of COND_BABT, the two parts one after the other give the condensed quadratic constraints of COND_QCQP_QC -/
theorem condQcSplit_eq (Q : Qcqp K) (nz : ℕ → ℕ → ℕ) (arg : CondArg) (ws : CondWs K) (tg : CondTgt K) (N : ℕ) (s : QcSt K) (hN : N ≤ Q.base.dim.N)
    (hs : s.Hq = Q.Hq) :
    let r := (condBabt Q.inner arg ws tg).1
    let t := condQcRhs Q nz r.Gammab N (condQcLhs Q nz r.Gamma N s)
    let c := condQc Q nz r.Gamma r.Gammab N s
    t.Hq2 = c.Hq2 ∧ t.nz2 = c.nz2 ∧ t.Ct2 = c.Ct2 ∧ t.d2 = c.d2 := by
  intro r t c
  obtain ⟨L, Ld⟩ := condQcLhs_eq Q nz r.Gamma r.Gammab N s
  have hlow : QcLow Q (condQcLhs Q nz r.Gamma N s) := fun a b i l hl => by
    rw [L.Hq]; exact condQc_keeps Q nz r.Gamma r.Gammab N s hs a b i l hl
  have R := condQcRhs_eq Q nz r.Gamma r.Gammab N s (condQcLhs Q nz r.Gamma N s) hs hlow Ld (fun k l hk hl => by
    exact (condBabt_dyn Q.inner arg ws tg (show 0 < Q.base.dim.N by omega)).2 k l (show k < Q.base.dim.N by omega) hl)
  exact ⟨R.2.1.trans L.Hq2, R.2.2.1.trans L.nz2, R.2.2.2.1.trans L.Ct2, R.1⟩

end

example := condQcSplit_eq (exCq 1 1 0 0 3 1) exCqNz exCfArg exCfWs exCqTgt 1 (exCqSt (exCq 1 1 0 0 3 1).Hq) (by decide) rfl

/-- the work space when condensing in two parts: COND_BAT then COND_B (x_cond_qcqp.c:845, 878) -/
def exCqSplitWs (Q : Qcqp ℚ) : CondWs ℚ := (condB Q.inner exCfArg (condBat Q.inner exCfArg exCfWs exCqTgt).1 exCqTgt).1

/-- COND_BAT does not write the affine part in the last rows of the dynamics, from which COND_QCQP_QC_LHS takes the gradient: condensing in two parts
gives another constraint than condensing at once; the constraint of the user is `u1^2 + 5/2 x1^2 ≤ 10` with `x1 = u0 + x0 + 1` -/
theorem condQcSplit_stale : (condQcRhs (exCq 0 1 0 0 0 1) exCqNz (exCqSplitWs (exCq 0 1 0 0 0 1)).Gammab 1
      (condQcLhs (exCq 0 1 0 0 0 1) exCqNz (exCqSplitWs (exCq 0 1 0 0 0 1)).Gamma 1 (exCqSt (exCq 0 1 0 0 0 1).Hq))).Ct2 1 0 = 0 ∧
    (condQc (exCq 0 1 0 0 0 1) exCqNz (condBabt (exCq 0 1 0 0 0 1).inner exCfArg exCfWs exCqTgt).1.Gamma
      (condBabt (exCq 0 1 0 0 0 1).inner exCfArg exCfWs exCqTgt).1.Gammab 1 (exCqSt (exCq 0 1 0 0 0 1).Hq)).Ct2 1 0 = 5 ∧
    (condQcRhs (exCq 0 1 0 0 0 1) exCqNz (exCqSplitWs (exCq 0 1 0 0 0 1)).Gammab 1
      (condQcLhs (exCq 0 1 0 0 0 1) exCqNz (exCqSplitWs (exCq 0 1 0 0 0 1)).Gamma 1 (exCqSt (exCq 0 1 0 0 0 1).Hq))).d2 1 = 7 + 5 / 2 := by
  refine ⟨?_, ?_, ?_⟩ <;> decide +kernel

end Hpipm
