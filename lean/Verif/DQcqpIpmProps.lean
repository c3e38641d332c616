/-
C100: the interior point solver for dense QPs with quadratic constraints: masks, linearisation, start, invariants of the loops.
-/
import Verif.DQcqpIpm
import Verif.IpmStatus

namespace Hpipm
open Finset
set_option linter.unusedSectionVars false

section
variable {K : Type*} [Field K] [LinearOrder K] [IsStrictOrderedRing K]

/-! ### the masks used by the solver -/

/-- the entries the solver switches off: lower sides of quadratic constraints, lower bounds of the slacks which soften quadratic
constraints -/
def DCut (Q : DQcqp K) (j : ℕ) : Prop :=
  (Q.base.dim.nb + Q.base.dim.ng ≤ j ∧ j < Q.base.dim.nb + (Q.base.dim.ng + Q.nq)) ∨
  ∃ jj, jj < Q.nq ∧ Q.base.idxs_rev (Q.base.dim.nb + Q.base.dim.ng + jj) ≠ -1 ∧
    j = 2 * Q.base.dim.nb + 2 * Q.base.dim.ng + 2 * Q.nq + (Q.base.idxs_rev (Q.base.dim.nb + Q.base.dim.ng + jj)).toNat

/-- **C100** The masks of the caller's QCQP after a call. -/
theorem dqmaskLower_mask (Q : DQcqp K) (j : ℕ) :
    (DCut Q j → (dqmaskLower Q).base.d_mask j = 0) ∧ (¬ DCut Q j → (dqmaskLower Q).base.d_mask j = Q.base.d_mask j) :=
  maskLower_mask (oqv Q) 0 j (Nat.zero_le _)

theorem dqmaskLower_wf {Q : DQcqp K} (h : Q.WF) : (dqmaskLower Q).WF := ⟨h.1, h.2⟩

theorem dqmaskLower_01 {Q : DQcqp K} (h : DMask01 Q.inner) : DMask01 (dqmaskLower Q).inner := by
  intro j hj
  show (dqmaskLower Q).base.d_mask j = 0 ∨ (dqmaskLower Q).base.d_mask j = 1
  by_cases hc : DCut Q j
  · exact Or.inl ((dqmaskLower_mask Q j).1 hc)
  · rw [(dqmaskLower_mask Q j).2 hc]; exact h j hj

/-! ### the linearisation -/

/-- the part of the QP that does not depend on the iterate -/
structure DQpFix (Q : DQcqp K) (qp : DenseQp K) : Prop where
  dim : qp.dim = Q.inner.dim
  C : ∀ i l, i < Q.base.dim.nv → l < Q.base.dim.ng → qp.Ct i l = Q.base.Ct i l
  mask : ∀ j, j < Q.inner.dim.nct → qp.d_mask j = Q.base.d_mask j
  m : ∀ j, j < Q.inner.dim.nct → qp.m j = Q.base.m j
  Z : ∀ j, j < 2 * Q.base.dim.ns → qp.Z j = Q.base.Z j
  idxb : ∀ j, j < Q.base.dim.nb → qp.idxb j = Q.base.idxb j
  idxs : ∀ j, j < Q.base.dim.nb + (Q.base.dim.ng + Q.nq) → qp.idxs_rev j = Q.base.idxs_rev j
  A : ∀ i l, i < Q.base.dim.ne → l < Q.base.dim.nv → qp.A i l = Q.base.A i l
  b : ∀ j, j < Q.base.dim.ne → qp.b j = Q.base.b j
  gz : ∀ j, j < Q.base.dim.nv + 2 * Q.base.dim.ns → qp.gz j = Q.base.gz j

/-- weight of quadratic constraint `j` in the Hessian of the QP -/
def dqw (Q : DQcqp K) (lam : Vec K) (j : ℕ) : K :=
  -lam (Q.base.dim.nb + Q.base.dim.ng + j) + lam (2 * Q.base.dim.nb + 2 * Q.base.dim.ng + Q.nq + j)

/-- gradient of quadratic constraint `j` at the iterate -/
def dqgrad (Q : DQcqp K) (v : Vec K) (j i : ℕ) : K :=
  (∑ l ∈ range Q.base.dim.nv, (dqview Q).hess j i l * v l) + (dqview Q).gq j i

/-- the QP and the caches after a linearisation at `sol` -/
structure DQpApprox (Q : DQcqp K) (sol : DqSol K) (qp : DenseQp K) (rws : DQresWs K) : Prop where
  fix : DQpFix Q qp
  H : ∀ i l, i < Q.base.dim.nv → l < Q.base.dim.nv → qp.Hv i l = Q.base.Hv i l + ∑ j ∈ range Q.nq, dqw Q sol.lam j * Q.Hq j i l
  C : ∀ i j, i < Q.base.dim.nv → j < Q.nq → qp.Ct i (Q.base.dim.ng + j) = dqgrad Q sol.v j i
  dup : ∀ j, j < Q.nq → qp.d (2 * Q.base.dim.nb + 2 * Q.base.dim.ng + Q.nq + j) =
    Q.base.d (2 * Q.base.dim.nb + 2 * Q.base.dim.ng + Q.nq + j) + (dqview Q).qvalue (dptOf Q.inner.dim sol.v) j
  dlin : ∀ j, j < Q.inner.dim.nct →
    ¬ (Q.base.dim.nb + Q.base.dim.ng ≤ j ∧ j < Q.base.dim.nb + (Q.base.dim.ng + Q.nq)) →
    ¬ (2 * Q.base.dim.nb + 2 * Q.base.dim.ng + Q.nq ≤ j ∧ j < 2 * Q.base.dim.nb + 2 * Q.base.dim.ng + 2 * Q.nq) → qp.d j = Q.base.d j
  f : ∀ j, j < Q.nq → rws.q_fun j = (dqview Q).qvalue (dptOf Q.inner.dim sol.v) j
  adj : ∀ i, i < Q.base.dim.nv → rws.q_adj i = ∑ j ∈ range Q.nq, dqw Q sol.lam j * dqgrad Q sol.v j i

theorem dqgrad_packed (Q : DQcqp K) (v : Vec K) (j i : ℕ) :
    dqgrad Q v j i = hqMul (oqv Q) 0 j v i + (oqv Q).base.DCt 0 i ((oqv Q).base.dim.ng 0 + j) := by
  show _ + _ = _ + _
  congr 1
  simp only [hqMul, symL, Nat.zero_add, DUserQcqp.hess]
  rfl

theorem dqval_packed (Q : DQcqp K) (v : Vec K) (j : ℕ) :
    (dqview Q).qvalue (dptOf Q.inner.dim v) j = qVal (oqv Q) 0 j v := by
  rw [dqqvalue, qvalue_packed]

theorem dquad_val (Q : DQcqp K) (sol : DqSol K) (st : DQwSt K) :
    (∀ i l, i < Q.base.dim.nv → l < Q.base.dim.nv → (dquad Q sol st).qp.Hv i l = Q.base.Hv i l + ∑ j ∈ range Q.nq, dqw Q sol.lam j * Q.Hq j i l) ∧
    (∀ i j, i < Q.base.dim.nv → j < Q.nq → (dquad Q sol st).qp.Ct i (Q.base.dim.ng + j) = dqgrad Q sol.v j i) ∧
    (∀ i l, ¬ (Q.base.dim.ng ≤ l ∧ l < Q.base.dim.ng + Q.nq) → (dquad Q sol st).qp.Ct i l = st.qp.Ct i l) ∧
    (∀ j, j < Q.nq → (dquad Q sol st).qp.d (2 * Q.base.dim.nb + 2 * Q.base.dim.ng + Q.nq + j) =
      Q.base.d (2 * Q.base.dim.nb + 2 * Q.base.dim.ng + Q.nq + j) + (dqview Q).qvalue (dptOf Q.inner.dim sol.v) j) ∧
    (∀ j, j < Q.inner.dim.nct →
      ¬ (Q.base.dim.nb + Q.base.dim.ng ≤ j ∧ j < Q.base.dim.nb + (Q.base.dim.ng + Q.nq)) →
      ¬ (2 * Q.base.dim.nb + 2 * Q.base.dim.ng + Q.nq ≤ j ∧ j < 2 * Q.base.dim.nb + 2 * Q.base.dim.ng + 2 * Q.nq) →
      (dquad Q sol st).qp.d j = Q.base.d j) ∧
    (∀ j, j < Q.nq → (dquad Q sol st).rws.q_fun j = (dqview Q).qvalue (dptOf Q.inner.dim sol.v) j) ∧
    (∀ i, i < Q.base.dim.nv → (dquad Q sol st).rws.q_adj i = ∑ j ∈ range Q.nq, dqw Q sol.lam j * dqgrad Q sol.v j i) := by
  have hv := qapLoop_val (oqv Q) 0 sol.v sol.lam
    { H := gecp Q.base.dim.nv Q.base.dim.nv Q.base.Hv 0 0 st.qp.Hv 0 0
      DCt := st.qp.Ct
      d := veccp Q.inner.dim.nct Q.base.d 0 st.qp.d 0
      adj := vecse Q.base.dim.nv 0 st.rws.q_adj 0
      f := st.rws.q_fun
      nux0 := st.nv0
      nux1 := st.nv1 }
  have hn : Q.inner.dim.nct = 2 * Q.base.dim.nb + 2 * (Q.base.dim.ng + Q.nq) + 2 * Q.base.dim.ns := rfl
  refine ⟨fun i l hi hl => ?_, fun i j hi hj => ?_, fun i l h => ?_, fun j hj => ?_, fun j hj h1 h2 => ?_, fun j hj => ?_, fun i hi => ?_⟩
  · refine (hv.H i l hi hl).trans ?_
    show gecp Q.base.dim.nv Q.base.dim.nv Q.base.Hv 0 0 st.qp.Hv 0 0 i l + _ = _
    congr 1
    unfold gecp
    rw [if_pos (by omega)]
    simp only [Nat.sub_zero, Nat.zero_add]
  · refine (hv.C i j hi hj).trans ?_
    rw [dqgrad_packed, add_comm]
  · exact hv.Cout i l h
  · refine (hv.dup j hj).trans ?_
    rw [dqval_packed]
    refine congrArg (· + _) ?_
    exact veccp_lt _ _ _ _ (show 2 * Q.base.dim.nb + 2 * Q.base.dim.ng + Q.nq + j < _ by omega)
  · refine (hv.dout j ?_ ?_).trans (veccp_lt _ _ _ _ hj)
    · exact h1
    · intro h
      unfold UpQ at h
      refine h2 ?_
      have h' := h
      simp only [show (oqv Q).base.dim.nb 0 = Q.base.dim.nb from rfl, show (oqv Q).base.dim.ng 0 = Q.base.dim.ng from rfl,
        show (oqv Q).nq 0 = Q.nq from rfl] at h'
      omega
  · refine (hv.f j hj).trans (dqval_packed Q _ j).symm
  · refine (hv.adj i hi).trans ?_
    show vecse Q.base.dim.nv 0 st.rws.q_adj 0 i + _ = _
    rw [show vecse Q.base.dim.nv 0 st.rws.q_adj 0 i = 0 from if_pos (by omega), zero_add]
    refine sum_congr rfl fun j _ => ?_
    rw [dqgrad_packed]; rfl

theorem dapproxQp_val (Q : DQcqp K) (sol : DqSol K) (st : DQwSt K) (hd : st.qp.dim = Q.inner.dim) :
    DQpApprox Q sol (dapproxQp Q sol st).qp (dapproxQp Q sol st).rws := by
  obtain ⟨h1, h2, h3, h4, h5, h6, h7⟩ := dquad_val Q sol st
  refine ⟨⟨hd, ?_, ?_, ?_, ?_, ?_, ?_, ?_, ?_, ?_⟩, h1, ?_, h4, h5, h6, h7⟩
  · intro i l hi hl
    show gecp _ _ Q.base.Ct 0 0 _ 0 0 i l = _
    unfold gecp; rw [if_pos (by omega)]; simp only [Nat.sub_zero, Nat.zero_add]
  · intro j hj; exact veccp_lt _ _ _ _ hj
  · intro j hj; exact veccp_lt _ _ _ _ hj
  · intro j hj; exact veccp_lt _ _ _ _ hj
  · intro j hj; exact veccp_lt _ _ _ _ hj
  · intro j hj; exact veccp_lt _ _ _ _ hj
  · intro i l hi hl
    show gecp _ _ Q.base.A 0 0 _ 0 0 i l = _
    unfold gecp; rw [if_pos (by omega)]; simp only [Nat.sub_zero, Nat.zero_add]
  · intro j hj; exact veccp_lt _ _ _ _ hj
  · intro j hj; exact veccp_lt _ _ _ _ hj
  · intro i j hi hj
    rw [← h2 i j hi hj]
    show gecp _ _ Q.base.Ct 0 0 _ 0 0 i _ = _
    unfold gecp; rw [if_neg (by omega)]

theorem dupdateQp_val (Q : DQcqp K) (sol : DqSol K) (st : DQwSt K) (hf : DQpFix Q st.qp) :
    DQpApprox Q sol (dupdateQp Q sol st).qp (dupdateQp Q sol st).rws := by
  obtain ⟨h1, h2, h3, h4, h5, h6, h7⟩ := dquad_val Q sol st
  refine ⟨⟨hf.dim, ?_, hf.mask, ?_, hf.Z, hf.idxb, hf.idxs, hf.A, hf.b, hf.gz⟩, h1, h2, h4, h5, h6, h7⟩
  · intro i l hi hl
    rw [← hf.C i l hi hl]
    exact h3 i l (by omega)
  · intro j hj; exact veccp_lt _ _ _ _ hj

/-! ### the start -/

theorem dqiniBox_cen (nb nbg nbgm : ℕ) (hn : nb ≤ nbg) (idxb : ℕ → ℕ) (d mask : Vec K) (mu0 : K) (s : IniSt K) (i : ℕ)
    (hi : i < nb ∨ (nbg ≤ i ∧ i < nbg + nb)) :
    Cen mu0 (loop nb (dqiniBox nbg nbgm idxb d mask mu0) s).lam (loop nb (dqiniBox nbg nbgm idxb d mask mu0) s).t i := by
  have h := loop_inv (S := IniSt K) (fun n s => ∀ i, i < n ∨ (nbg ≤ i ∧ i < nbg + n) → Cen mu0 s.lam s.t i) nb
    (dqiniBox nbg nbgm idxb d mask mu0) s (fun i hi => by omega) (by
      intro n s hn ih i hi
      have key : ∀ r : K × K × K, 0 < r.2.1 → 0 < r.2.2 →
          Cen mu0 (upd (upd s.lam n (mu0 / r.2.1)) (nbg + n) (mu0 / r.2.2))
            (upd (upd s.t n r.2.1) (nbg + n) r.2.2) i := by
        intro r h1 h2
        apply cen_upd2 _ _ _ _ _ _ _ (by omega) h1 h2
        by_cases h3 : i = n
        · exact Or.inl h3
        · by_cases h4 : i = nbg + n
          · exact Or.inr (Or.inl h4)
          · exact Or.inr (Or.inr (ih i (by omega)))
      have hp := thr0_pos (K := K)
      unfold dqiniBox
      extract_lets x dl du tl tu r
      apply key
      · show 0 < r.2.1
        simp only [r]
        split_ifs with h1 h2 h3
        · exact hp
        · exact hp
        · exact lt_of_lt_of_le hp (not_lt.1 h1)
        · exact lt_of_lt_of_le hp (not_lt.1 h1)
      · show 0 < r.2.2
        simp only [r]
        split_ifs with h1 h2 h3
        · exact hp
        · exact lt_of_lt_of_le hp (not_lt.1 h2)
        · exact hp
        · exact lt_of_lt_of_le hp (not_lt.1 h3))
  exact h i hi

theorem dqiniGen_cen (nb ng nq : ℕ) (d mask : Vec K) (mu0 : K) (s : IniSt K) (i : ℕ)
    (hi : (i < nb ∨ (nb + ng + nq ≤ i ∧ i < 2 * nb + ng + nq)) ∧ Cen mu0 s.lam s.t i ∨ (nb ≤ i ∧ i < nb + ng) ∨
      (2 * nb + ng + nq ≤ i ∧ i < 2 * nb + 2 * ng + nq)) :
    Cen mu0 (loop ng (dqiniGen nb ng nq d mask mu0) s).lam (loop ng (dqiniGen nb ng nq d mask mu0) s).t i := by
  have h := loop_inv (S := IniSt K) (fun n s' => ∀ i,
      ((i < nb ∨ (nb + ng + nq ≤ i ∧ i < 2 * nb + ng + nq)) ∧ Cen mu0 s.lam s.t i ∨ (nb ≤ i ∧ i < nb + n) ∨
        (2 * nb + ng + nq ≤ i ∧ i < 2 * nb + ng + nq + n)) → Cen mu0 s'.lam s'.t i) ng
    (dqiniGen nb ng nq d mask mu0) s (by
      rintro i (h | h | h)
      · exact h.2
      · omega
      · omega) (by
      intro n s' hn ih i hi
      unfold dqiniGen
      dsimp only
      apply cen_upd2 _ _ _ _ _ _ _ (by omega) (clipGt_pos _) (clipGt_pos _)
      by_cases h3 : i = nb + n
      · exact Or.inl h3
      · by_cases h4 : i = 2 * nb + ng + nq + n
        · exact Or.inr (Or.inl h4)
        · refine Or.inr (Or.inr (ih i ?_))
          rcases hi with h | h | h
          · exact Or.inl h
          · right; left; omega
          · right; right; omega)
  apply h
  rcases hi with h | h | h
  · exact Or.inl h
  · right; left; omega
  · right; right; omega

/-- the settings under which the start is in the interior -/
def DQInitOk (sq : K → K) (a : IpmArg K) : Prop :=
  (a.i .warm_start < 2 ∧ 0 < a.r .mu0 ∧ 0 < sq (a.r .mu0) ∧ sq (a.r .mu0) * sq (a.r .mu0) = a.r .mu0) ∨
  a.i .warm_start = 2 ∨ (3 ≤ a.i .warm_start ∧ 0 < a.r .t0_min ∧ 0 < a.r .lam0_min)

/-- **C100** Start of the dense QCQP solver: every slack is strictly positive and every multiplier other than those of the (absent)
lower sides of the quadratic constraints is; after a start which is not a warm start from the previous multipliers their products are
the initial barrier parameter. -/
theorem dqinitVar_interior (sq : K → K) (Q : DQcqp K) (a : IpmArg K) (sol : DqSol K) (hi : DQInitOk sq a)
    (j : ℕ) (hj : j < 2 * Q.base.dim.nb + 2 * (Q.base.dim.ng + Q.nq) + 2 * Q.base.dim.ns) :
    0 < (dqinitVar sq Q a sol).t j ∧
    (¬ (Q.base.dim.nb + Q.base.dim.ng ≤ j ∧ j < Q.base.dim.nb + (Q.base.dim.ng + Q.nq)) →
      0 < (dqinitVar sq Q a sol).lam j ∧
      (a.i .warm_start < 2 → (dqinitVar sq Q a sol).lam j * (dqinitVar sq Q a sol).t j = a.r .mu0)) := by
  have hj' : j < Q.inner.dim.nct := hj
  rcases hi with ⟨h1, h2, h3, h4⟩ | h | ⟨h1, h2, h3⟩
  · have done : ∀ {l t : Vec K}, Cen (a.r .mu0) l t j → 0 < t j ∧
        (¬ (Q.base.dim.nb + Q.base.dim.ng ≤ j ∧ j < Q.base.dim.nb + (Q.base.dim.ng + Q.nq)) →
          0 < l j ∧ (a.i .warm_start < 2 → l j * t j = a.r .mu0)) :=
      fun h => ⟨h.1, fun _ => ⟨h.lam_pos h2, fun _ => h.2⟩⟩
    unfold dqinitVar
    extract_lets D n mu0 fin st sol1 sol2 s1 s2 s3 r
    rw [if_neg (by omega), if_neg (by omega)]
    split_ifs with t0 t1
    · obtain ⟨e3, e4⟩ := iniConst_val n (sq mu0) (sq mu0) (st sol2) j hj'
      apply done
      show Cen mu0 (iniConst n (sq mu0) (sq mu0) (st sol2)).lam (iniConst n (sq mu0) (sq mu0) (st sol2)).t j
      unfold Cen
      rw [e3, e4]
      exact ⟨h3, h4⟩
    · obtain ⟨e3, e4⟩ := iniConst_val n mu0 1 (st sol2) j hj'
      apply done
      show Cen mu0 (iniConst n mu0 1 (st sol2)).lam (iniConst n mu0 1 (st sol2)).t j
      unfold Cen
      rw [e3, e4]
      exact ⟨one_pos, mul_one _⟩
    · have hr : 0 < r := by
        simp only [r]
        split_ifs with hh
        · exact thr0_pos
        · exact lt_of_lt_of_le thr0_pos (not_lt.mp hh)
      obtain ⟨q1, q2, q3⟩ := qiniQuad_cen (D.nb + D.ng) Q.nq mu0 r hr s3 j
      show 0 < (loop Q.nq (qiniQuad (D.nb + D.ng) Q.nq mu0 r) s3).t j ∧ (_ → 0 < (loop Q.nq (qiniQuad (D.nb + D.ng) Q.nq mu0 r) s3).lam j ∧
        (_ → (loop Q.nq (qiniQuad (D.nb + D.ng) Q.nq mu0 r) s3).lam j * (loop Q.nq (qiniQuad (D.nb + D.ng) Q.nq mu0 r) s3).t j = _))
      have eb : Q.base.dim = D := rfl
      rw [eb] at hj
      by_cases c1 : D.nb + D.ng ≤ j ∧ j < D.nb + D.ng + Q.nq
      · rw [q1 c1]
        refine ⟨one_pos, fun hl => absurd ?_ hl⟩
        rw [eb]; omega
      · by_cases c2 : 2 * (D.nb + D.ng) + Q.nq ≤ j ∧ j < 2 * (D.nb + D.ng) + 2 * Q.nq
        · exact done (q2 c2)
        · obtain ⟨e3, e4⟩ := q3 c1 c2
          apply done
          unfold Cen
          rw [e3, e4]
          show Cen mu0 s3.lam s3.t j
          apply diniSoft_cen
          by_cases hj2 : j < 2 * D.nb + 2 * D.ng + 2 * Q.nq
          · refine Or.inl ⟨hj2, ?_⟩
            have hb := dqiniBox_cen D.nb (D.nb + D.ng + Q.nq) (D.nb + D.ng) (by omega) Q.base.idxb Q.base.d Q.base.d_mask mu0 (st sol2) j
            simp only [s2]
            split
            · apply dqiniGen_cen
              by_cases c : j < D.nb ∨ (D.nb + D.ng + Q.nq ≤ j ∧ j < 2 * D.nb + D.ng + Q.nq)
              · refine Or.inl ⟨c, ?_⟩
                have hb' : Cen mu0 s1.lam s1.t j := hb (by omega)
                have e7 : gemv_t D.nv D.ng 1 Q.base.Ct 0 0 s1.ux 0 0 s1.t D.nb s1.t D.nb j = s1.t j := by
                  unfold gemv_t; rw [if_neg (by omega)]
                unfold Cen at hb' ⊢
                dsimp only
                rw [e7]
                exact hb'
              · right; omega
            · exact hb (by omega)
          · right; omega
  · unfold dqinitVar
    extract_lets D n mu0 fin st sol1 sol2 s1 s2 s3 r
    rw [if_neg (by omega), if_pos h]
    obtain ⟨e3, e4⟩ := iniClip_val n thr0 thr0 (st sol) j hj'
    show 0 < (iniClip n thr0 thr0 (st sol)).t j ∧ (_ → 0 < (iniClip n thr0 thr0 (st sol)).lam j ∧ (_ → _ * _ = _))
    rw [e3, e4]
    exact ⟨lt_max_of_lt_left thr0_pos, fun _ => ⟨lt_max_of_lt_left thr0_pos, fun h' => by omega⟩⟩
  · unfold dqinitVar
    extract_lets D n mu0 fin st sol1 sol2 s1 s2 s3 r
    rw [if_pos h1]
    obtain ⟨e3, e4⟩ := iniClip_val n (a.r .lam0_min) (a.r .t0_min) (st sol) j hj'
    show 0 < (iniClip n (a.r .lam0_min) (a.r .t0_min) (st sol)).t j ∧ (_ → 0 < (iniClip n (a.r .lam0_min) (a.r .t0_min) (st sol)).lam j ∧ (_ → _ * _ = _))
    rw [e3, e4]
    exact ⟨lt_max_of_lt_left h2, fun _ => ⟨lt_max_of_lt_left h3, fun h' => by omega⟩⟩

end
end Hpipm
