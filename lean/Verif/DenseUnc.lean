/-
C72: the direct solve of a dense QP without inequality constraints (x_dense_qp_kkt.c:315-497) returns the global optimum.
-/
import Verif.DenseKktEx
import Verif.KktEx

namespace Hpipm
open Finset
set_option linter.unusedSectionVars false

section
variable {K : Type*} [Field K] [LinearOrder K] [IsStrictOrderedRing K]
variable (sq : K → K) (lq : ℕ → ℕ → Mat K → Mat K × Mat K) (qp : DenseQp K)

/-- there is no inequality constraint -/
def DNoIneq : Prop := qp.dim.nb = 0 ∧ qp.dim.ng = 0 ∧ qp.dim.ns = 0

/-- the Hessian is stored as a full symmetric matrix -/
def DSymH : Prop := ∀ i j, i < qp.dim.nv → j < qp.dim.nv → qp.Hv i j = qp.Hv j i

theorem dnoineq_M (h : DNoIneq qp) (G : Vec K) (i j : ℕ) (hij : j ≤ i) : dM qp 0 G 0 i j = qp.Hv i j := by
  rw [dM_split qp 0 G 0 i j hij]
  unfold dBox
  rw [h.1, h.2.1]
  simp

theorem dnoineq_g (h : DNoIneq qp) (G g : Vec K) (i : ℕ) : dgr qp 0 G g i = qp.gz i := by
  have : dgr qp 0 G g i = qp.gz i + ((∑ l ∈ range qp.dim.nb, if qp.idxb l = i then kVt (ov qp) 0 (fun _ => G) (fun _ => g) 0 l else 0)
      + ∑ l ∈ range qp.dim.ng, qp.Ct i l * kVt (ov qp) 0 (fun _ => G) (fun _ => g) 0 (qp.dim.nb + l)) := rfl
  rw [this, h.1, h.2.1]
  simp

theorem dnoineq_slk (h : DNoIneq qp) (G g Zs v : Vec K) : DSlk qp 0 G g Zs v :=
  ⟨fun i hi => by rw [h.2.2] at hi; omega, fun i hi => by rw [h.2.2] at hi; omega⟩

/-- a solution of the condensed system without inequality constraints has zero residuals -/
theorem dnoineq_res (hwf : qp.WF) (h : DNoIneq qp) (G g : Vec K) (st : DKkt K)
    (hs : DLinSol qp 0 G g (fun _ => 0) (fun _ => 0) st) (res : DRes K) (ws : ResWs K) (hws : DWsOk ws qp) :
    (∀ i, i < qp.dim.nv + 2 * qp.dim.ns → (dresCompute qp (dstepOf st) res ws).res_g i = 0) ∧
    (∀ i, i < qp.dim.ne → (dresCompute qp (dstepOf st) res ws).res_b i = 0) := by
  have hn : qp.dim.nct = 0 := by unfold DDim.nct; rw [h.1, h.2.1, h.2.2]
  set c : Core K := { (coreMk 0 (fun _ => 0) (fun _ => 0) (fun _ => 0) (fun _ => 0) 0 0 : Core K) with Gamma := G, gamma := g } with hc
  have hc' : DCoreStep qp (dstepOf st) c := ⟨⟨hn.symm, fun j hj => by omega, fun j hj => by omega, fun j hj => by omega⟩,
    fun j hj => by omega, fun j hj => by omega, fun j hj => by omega⟩
  have hu : DUnshared qp := fun j _ hj => by rw [h.1, h.2.1] at hj; omega
  have hN := (dtail_newton qp hwf hu (dstepOf st) c hc' 0 (fun _ => 0) (fun _ => 0) st hs (fun i hi => by rw [h.2.2] at hi; omega)).1
  have et : dkktTail qp c st = st := by
    unfold dkktTail
    rw [if_neg (by rw [h.1, h.2.1, h.2.2]; omega)]
  rw [et] at hN
  have hv := dresCompute_val qp hwf (dstepOf st) res ws hws
  refine ⟨fun i hi => ?_, fun i hi => ?_⟩
  · rw [h.2.2] at hi
    have h1 := hN.g i (by omega)
    rw [hv.g i (by omega), vG_congr (ov qp) (osol (dstepOf st)) _ (dstepOf st).lam 0 i (fun j hj => by
      have : j < qp.dim.nct := hj
      omega) (by show i < qp.dim.nv + 0 + 2 * qp.dim.ns; omega)]
    unfold atp
    rw [if_pos (by omega), h1, neg_zero]
  · rw [hv.b i hi]
    exact hN.b i hi

variable {sq lq}

/-- null space method -/
theorem dunconstr_null (hsq : ∀ x, 0 < x → sq x * sq x = x) (h : DNoIneq qp) (hne : 0 < qp.dim.ne)
    (hmn : qp.dim.ne ≤ qp.dim.nv) (hr : FullRank qp.dim.ne qp.dim.nv qp.A)
    (hl : LqOk qp.dim.ne qp.dim.nv qp.A (lq qp.dim.ne qp.dim.nv qp.A).1 (lq qp.dim.ne qp.dim.nv qp.A).2)
    (hS : DSymH qp) (G g : Vec K)
    (hpd : ∀ L Q, LqOk qp.dim.ne qp.dim.nv qp.A L Q →
      Pd (qp.dim.nv - qp.dim.ne) (fun a c => ∑ i ∈ range qp.dim.nv, (∑ j ∈ range qp.dim.nv,
        Q (qp.dim.ne + a) j * dM qp 0 G 0 i j) * Q (qp.dim.ne + c) i + if a = c then 0 else 0)) (st : DKkt K) :
    DLinSol qp 0 G g (fun _ => 0) (fun _ => 0) (dunconstr sq lq qp 0 st).2 := by
  set nv := qp.dim.nv with hnv
  set ne := qp.dim.ne with hne'
  set f := lq ne nv qp.A with hf
  set Zt := gecp (nv - ne) nv f.2 ne 0 st.Zt 0 0 with hZt
  set ZtH := gemm_nt (nv - ne) nv nv 1 Zt 0 0 qp.Hv 0 0 0 st.ZtH 0 0 st.ZtH 0 0 with hZtH
  set W := syrk_ln_mn (nv - ne) (nv - ne) nv 1 ZtH 0 0 Zt 0 0 0 st.ZtHZ 0 0 st.ZtHZ 0 0 with hW
  set s1 : DKkt K := { st with A_LQ := f.1, A_Q := f.2, Zt := Zt, ZtH := ZtH, ZtHZ := potrf_l_mn sq (nv - ne) (nv - ne) W W, lv := qp.gz, Lv := qp.Hv } with hs1
  have hZ : ∀ a j, a < nv - ne → j < nv → Zt a j = f.2 (ne + a) j := by
    intro a j ha hj
    rw [hZt, gecp, if_pos (by omega)]
    simp
  have hLfull : ∀ i j, i < nv → j < nv → qp.Hv i j = dM qp 0 G 0 i j := by
    intro i j hi hj
    by_cases hij : j ≤ i
    · rw [dnoineq_M qp h G i j hij]
    · rw [hS i j hi hj, dM_sym, dnoineq_M qp h G j i (by omega)]
  have hZH : ∀ a i, a < nv - ne → i < nv → ZtH a i = ∑ j ∈ range nv, f.2 (ne + a) j * dM qp 0 G 0 i j := by
    intro a i ha hi
    rw [hZtH, gemm_nt, if_pos (by omega)]
    simp only [Nat.sub_zero, zero_add, zero_mul, one_mul]
    exact sum_congr rfl (fun j hj => by rw [hZ a j ha (mem_range.mp hj), hLfull i j hi (mem_range.mp hj)])
  have hl1 : ∀ a c, a < nv - ne → c ≤ a → W a c =
      ∑ i ∈ range nv, (∑ j ∈ range nv, f.2 (ne + a) j * dM qp 0 G 0 i j) * f.2 (ne + c) i + if a = c then 0 else 0 := by
    intro a c ha hca
    rw [hW, syrk_ln_mn, if_pos (by omega)]
    simp only [Nat.sub_zero, zero_add, zero_mul, one_mul, ite_self, add_zero]
    exact sum_congr rfl (fun i hi => by rw [hZH a i ha (mem_range.mp hi), hZ c i (by omega) (mem_range.mp hi)])
  have hsy : ∀ a c, a < nv - ne → c < nv - ne → (∑ i ∈ range nv, (∑ j ∈ range nv, f.2 (ne + a) j * dM qp 0 G 0 i j) * f.2 (ne + c) i
        + if a = c then (0 : K) else 0) = ∑ i ∈ range nv, (∑ j ∈ range nv, f.2 (ne + c) j * dM qp 0 G 0 i j) * f.2 (ne + a) i
        + if c = a then 0 else 0 := by
    intro a c _ _
    simp only [ite_self, add_zero]
    simp only [sum_mul]
    rw [sum_comm]
    exact sum_congr rfl (fun i _ => sum_congr rfl (fun j _ => by rw [dM_sym qp 0 G 0 j i]; ring))
  have hns := potrf_nonsing sq hsq (D := W) (le_refl _) hl1 hsy (hpd _ _ hl)
  have hF : NullFac qp 0 0 G s1 := ⟨hl, hZ, fun i j hi hj => hLfull i j hi (by omega), hZH,
    fac_potrf sq hsq (le_refl _) (singular_iff.mp hns) hl1 hsy⟩
  have hD := dNullSolve_ok qp hmn hr 0 0 G g s1 hF (fun i _ => (dnoineq_g qp h G g i).symm) (dnoineq_slk qp h G g _ _)
  have e : (dunconstr sq lq qp 0 st).2 = { dNullSolve qp s1 with Lv := st.Lv, lv := st.lv } := by
    unfold dunconstr
    dsimp only
    rw [if_pos hne, if_pos rfl]
    rfl
  rw [e]
  refine ⟨fun i hi => ?_, hD.eq, dnoineq_slk qp h G g _ _⟩
  rw [← hnv] at hi
  have := hD.stat i hi
  simp only [zero_mul] at this
  exact this

/-- Schur complement method -/
theorem dunconstr_schur (hsq : ∀ x, 0 < x → sq x * sq x = x) (h : DNoIneq qp) (hne : 0 < qp.dim.ne) (alg : ℕ) (ha : alg ≠ 0)
    (hr : FullRank qp.dim.ne qp.dim.nv qp.A) (G g : Vec K) (hpd : Pd qp.dim.nv (dM qp 0 G 0)) (st : DKkt K) :
    DLinSol qp 0 G g (fun _ => 0) (fun _ => 0) (dunconstr sq lq qp alg st).2 := by
  have hM : ∀ i j, i < qp.dim.nv → j ≤ i → qp.Hv i j = dM qp 0 G 0 i j := fun i j _ hij => (dnoineq_M qp h G i j hij).symm
  have hns := potrf_nonsing sq hsq (D := st.Lv) (le_refl _) hM (fun i j _ _ => dM_sym qp 0 G 0 i j) hpd
  set Lv := potrf_l_mn sq qp.dim.nv qp.dim.nv qp.Hv st.Lv with hLv
  have hH : Fac qp.dim.nv Lv (dM qp 0 G 0) := fac_potrf sq hsq (le_refl _) (singular_iff.mp hns) hM (fun i j _ _ => dM_sym qp 0 G 0 i j)
  set s0 : DKkt K := { st with Lv := Lv, lv := qp.gz } with hs0
  obtain ⟨k1, k2, k3, k4, k5, k6, k7⟩ := dSchurFactE_ok sq hsq qp 0 0 G g s0 hH (fun i _ => (dnoineq_g qp h G g i).symm) (dnoineq_slk qp h G g _ _)
  set s1 := dSchurFactE sq qp 0 s0 with hs1
  have hE : Pd qp.dim.ne (fun i j => ∑ l ∈ range qp.dim.nv, s1.AL i l * s1.AL j l + if i = j then 0 else 0) := by
    have := gram_pd (s := fun _ => 1) (fun _ _ => one_ne_zero) (fun i j hi hj => by rw [mul_one]; exact k5 i j hi hj) (fun _ => 1) (fun _ _ => one_ne_zero)
      (0 : K) (le_refl _) (Or.inr hr)
    simpa only [one_mul, mul_one] using this
  have hD := dSchurSolve_ok qp 0 0 G g s1 (k6 (k7 hE)) s1.lv k3 k4 k2 k1
  set t := dSchurSolve qp s1 with ht
  have eLe : s1.Le = syrk_potrf_ln_mn sq qp.dim.ne qp.dim.ne qp.dim.nv s1.AL s1.AL (gese qp.dim.ne qp.dim.ne 0 st.Le 0 0) (gese qp.dim.ne qp.dim.ne 0 st.Le 0 0) := by
    have : diare qp.dim.ne (0 : K) (gese qp.dim.ne qp.dim.ne 0 st.Le 0 0) 0 0 = gese qp.dim.ne qp.dim.ne 0 st.Le 0 0 := by
      funext i j
      simp [diare]
    rw [← this]; rfl
  have ep : (dunconstr sq lq qp alg st).2.pi = t.pi := by
    unfold dunconstr
    dsimp only
    rw [if_pos hne, if_neg ha]
    dsimp only
    rw [ht]
    unfold dSchurSolve
    dsimp only
    have e1 : gemv_n qp.dim.ne qp.dim.nv 1 s1.AL 0 0 (trsv_lnn qp.dim.nv Lv qp.gz st.lv) 0 1 qp.b 0 st.pi 0 = s1.pi := by
      have es : s1.pi = gemv_n qp.dim.ne qp.dim.nv 1 s1.AL 0 0 (trsv_lnn qp.dim.nv Lv qp.gz qp.gz) 0 1 qp.b 0 st.pi 0 := rfl
      rw [es]
      funext i
      unfold gemv_n
      split_ifs
      · congr 2
        refine sum_congr rfl (fun l hl => ?_)
        have hl := mem_range.mp hl
        rw [trsv_lnn, trsv_lnn, if_pos (by omega), if_pos (by omega)]
      · rfl
    rw [eLe, ← e1]
    rfl
  have ev : (dunconstr sq lq qp alg st).2.v = t.v := by
    have e1 : gemv_t qp.dim.ne qp.dim.nv 1 qp.A 0 0 t.pi 0 (-1) qp.gz 0 st.v 0 =
        gemv_t qp.dim.ne qp.dim.nv 1 qp.A 0 0 t.pi 0 (-1) s1.v 0 s1.v 0 := by
      have es : s1.v = veccp qp.dim.nv qp.gz 0 st.v 0 := rfl
      funext i
      rw [es]
      unfold gemv_t
      by_cases hi : 0 ≤ i ∧ i < 0 + qp.dim.nv
      · rw [if_pos hi, if_pos hi, veccp_in (by omega)]
        simp
      · rw [if_neg hi, if_neg hi, veccp_out (by omega)]
    have e2 : (dunconstr sq lq qp alg st).2.v =
        trsv_ltn qp.dim.nv Lv (trsv_lnn qp.dim.nv Lv (gemv_t qp.dim.ne qp.dim.nv 1 qp.A 0 0 (dunconstr sq lq qp alg st).2.pi 0 (-1) qp.gz 0 st.v 0)
          (gemv_t qp.dim.ne qp.dim.nv 1 qp.A 0 0 (dunconstr sq lq qp alg st).2.pi 0 (-1) qp.gz 0 st.v 0))
          (trsv_lnn qp.dim.nv Lv (gemv_t qp.dim.ne qp.dim.nv 1 qp.A 0 0 (dunconstr sq lq qp alg st).2.pi 0 (-1) qp.gz 0 st.v 0)
          (gemv_t qp.dim.ne qp.dim.nv 1 qp.A 0 0 (dunconstr sq lq qp alg st).2.pi 0 (-1) qp.gz 0 st.v 0)) := by
      unfold dunconstr
      dsimp only
      rw [if_pos hne, if_neg ha]
    rw [e2, ep, e1]
    rfl
  refine ⟨fun i hi => ?_, fun i hi => ?_, dnoineq_slk qp h G g _ _⟩
  · have := hD.stat i hi
    simp only [zero_mul] at this
    rw [ep, ev]
    exact this
  · have := hD.eq i hi
    simp only [zero_mul] at this
    rw [ev]
    exact this

/-- without equality constraints -/
theorem dunconstr_free (hsq : ∀ x, 0 < x → sq x * sq x = x) (h : DNoIneq qp) (h0 : qp.dim.ne = 0) (alg : ℕ)
    (G g : Vec K) (hpd : Pd qp.dim.nv (dM qp 0 G 0)) (st : DKkt K) :
    DLinSol qp 0 G g (fun _ => 0) (fun _ => 0) (dunconstr sq lq qp alg st).2 := by
  set H := rowin qp.dim.nv 1 qp.gz 0 qp.Hv qp.dim.nv 0 with hH
  have hM : ∀ i j, i < qp.dim.nv → j ≤ i → H i j = dM qp 0 G 0 i j := fun i j hi hij => by
    rw [hH, rowin, if_neg (by omega), dnoineq_M qp h G i j hij]
  set L := potrf_l_mn sq (qp.dim.nv + 1) qp.dim.nv H st.Lv with hL
  have hns := potrf_nonsing sq hsq (D := st.Lv) (Nat.le_succ _) hM (fun i j _ _ => dM_sym qp 0 G 0 i j) hpd
  have hp := singular_iff.mp hns
  have hF : Fac qp.dim.nv L (dM qp 0 G 0) := fac_potrf sq hsq (Nat.le_succ _) hp hM (fun i j _ _ => dM_sym qp 0 G 0 i j)
  have hrow : ∀ i, i < qp.dim.nv → ∑ l ∈ range qp.dim.nv, low L i l * L qp.dim.nv l = dgr qp 0 G g i := by
    intro i hi
    have e : H qp.dim.nv i = dgr qp 0 G g i := by
      rw [dnoineq_g qp h, hH, rowin, if_pos (by omega)]; simp
    rw [← e, ← potrf_spec sq hsq (qp.dim.nv + 1) qp.dim.nv (Nat.le_succ _) H st.Lv hp qp.dim.nv i (Nat.lt_succ_self _) hi (by omega)]
    refine sum_congr rfl (fun l hl => ?_)
    rw [mul_comm]
    congr 1
    rw [low, if_pos (le_of_lt (mem_range.mp hl))]
  set v0 := rowex qp.dim.nv (-1) L qp.dim.nv 0 st.v 0 with hv0
  have hD := dFreeSolve_ok qp h0 0 0 G g { st with Lv := L } hF v0 (trsv_ltn qp.dim.nv L v0 v0)
    (fun i hi => by
      rw [← hrow i hi, ← sum_neg_distrib]
      refine sum_congr rfl (fun l hl => ?_)
      rw [hv0, rowex, if_pos (by have := mem_range.mp hl; omega)]
      simp)
    (fun j hj => trsv_ltn_spec hp _ _ j hj) (dnoineq_slk qp h G g _ _) (fun _ => 0)
  have e : (dunconstr sq lq qp alg st).2 = { st with Lv := L, v := trsv_ltn qp.dim.nv L v0 v0 } := by
    unfold dunconstr
    dsimp only
    rw [if_neg (by omega)]
  rw [e]
  refine ⟨fun i hi => ?_, hD.eq, dnoineq_slk qp h G g _ _⟩
  have := hD.stat i hi
  simp only [zero_mul] at this
  exact this

/-- **C72.**  A dense QP without inequality constraints whose objective is strictly convex (for the null space method: on the
null space of the equality constraints) and whose equality constraints are independent is solved by the direct routine: the
residuals of what it writes are zero, so the point is the global optimum.  The null space method needs the Hessian in full
symmetric storage. -/
theorem dunconstr_optimal (hsq : ∀ x, 0 < x → sq x * sq x = x) (hwf : qp.WF) (h : DNoIneq qp) (alg : ℕ)
    (hlq : DLqHyp lq qp alg) (hS : 0 < qp.dim.ne → alg = 0 → DSymH qp) (hr : FullRank qp.dim.ne qp.dim.nv qp.A)
    (hcv : DCurv qp alg 0) (st : DKkt K) (res : DRes K) (ws : ResWs K) (hws : DWsOk ws qp) :
    let s := dstepOf (dunconstr sq lq qp alg st).2
    (∀ i, i < qp.dim.nv → (dresCompute qp s res ws).res_g i = 0) ∧
    (∀ i, i < qp.dim.ne → (dresCompute qp s res ws).res_b i = 0) ∧
    (dview qp).IsOptimal (dptOf qp.dim s.v) := by
  intro s
  have hn : qp.dim.nct = 0 := by unfold DDim.nct; rw [h.1, h.2.1, h.2.2]
  have hpos := dposH_of_convex qp sq ⟨alg, false, 0, 0⟩ hwf ⟨fun _ => 0, fun _ => 0, fun _ => 0, fun _ => 0⟩
    (fun j hj => by omega) (fun i hi => by rw [h.2.2] at hi; omega) (fun _ => 0) (fun j hj => by omega) hcv
  have hL : DLinSol qp 0 (fun _ => 0) (fun _ => 0) (fun _ => 0) (fun _ => 0) (dunconstr sq lq qp alg st).2 := by
    unfold DPosH at hpos
    by_cases hne : 0 < qp.dim.ne
    · rw [if_pos hne] at hpos
      by_cases ha : alg = 0
      · subst ha
        rw [if_pos rfl] at hpos
        obtain ⟨h1, h2, h3⟩ := hlq hne rfl
        exact dunconstr_null qp hsq h hne h1 h2 h3 (hS hne rfl) _ _ hpos st
      · rw [if_neg ha, if_neg (by simp)] at hpos
        exact dunconstr_schur qp hsq h hne alg ha hr _ _ hpos st
    · rw [if_neg hne, if_neg (by simp)] at hpos
      exact dunconstr_free qp hsq h (by omega) alg _ _ hpos st
  obtain ⟨hg, hb⟩ := dnoineq_res qp hwf h _ _ _ hL res ws hws
  refine ⟨fun i hi => hg i (by omega), hb, ?_⟩
  have hz : ∀ j, ¬ j < 2 * qp.dim.nb + 2 * qp.dim.ng + 2 * qp.dim.ns := fun j hj => by rw [h.1, h.2.1, h.2.2] at hj; omega
  refine dres_zero_optimal qp hwf (fun j hj => by have : j < qp.dim.nct := hj; omega) (fun p hp => ?_) s res ws hws hg hb (fun j hj => absurd hj (hz j)) (fun j hj => absurd hj (hz j))
    (fun j hj => absurd hj (hz j))
  have : (dview qp).quad p = (dview qp).quad ⟨p.v, fun _ => 0, fun _ => 0⟩ := by
    have e : (dview qp).ns = 0 := h.2.2
    unfold DUser.quad
    rw [e]
    simp
  rw [this]
  exact hcv.nonneg p.v (fun _ _ => hp)

end

/-! ### examples -/

section DUncEx

/-- the problem of `DenseKktEx` without its inequality constraints, upper triangle `u` -/
noncomputable def exDUQp (h u : ℝ) (n : ℕ) : DenseQp ℝ := { exDKQp h n with
  dim := ⟨2, n, 0, 0, 0⟩
  Hv := fun i j => if i = 0 ∧ j = 0 then 1 else if i = 1 ∧ j = 1 then h else if i = 1 ∧ j = 0 then 0 else u }

theorem exDU_noineq (h u : ℝ) (n : ℕ) : DNoIneq (exDUQp h u n) := ⟨rfl, rfl, rfl⟩

theorem exDU_wf (h u : ℝ) (n : ℕ) : (exDUQp h u n).WF := ⟨fun j hj => absurd hj (by show ¬ j < 0; omega), fun j hj => absurd hj (by show ¬ j < 0; omega)⟩

theorem exDU_quad (h u : ℝ) (n : ℕ) (v : Vec ℝ) :
    (dview (exDUQp h u n)).quad ⟨v, fun _ => 0, fun _ => 0⟩ = 1 / 2 * (v 0 * v 0 + h * (v 1 * v 1)) := by
  have hh : ∀ i j, i < 2 → j < 2 → (dview (exDUQp h u n)).hess i j = if i = j then (if i = 0 then 1 else h) else 0 := by
    intro i j hi hj
    unfold DUser.hess
    interval_cases i <;> interval_cases j <;>
      simp [dview, dgot, DenseQp.getF, unpackMat, exDUQp]
  unfold DUser.quad
  have e1 : (dview (exDUQp h u n)).nv = 2 := rfl
  rw [e1]
  simp only [sum_range_succ, range_zero, sum_empty, zero_add, mul_zero, zero_mul, sum_const_zero, add_zero]
  rw [hh 0 0 (by omega) (by omega), hh 0 1 (by omega) (by omega), hh 1 0 (by omega) (by omega),
    hh 1 1 (by omega) (by omega)]
  simp
  ring

theorem exDU_Av (h u : ℝ) (v : Vec ℝ) : (dview (exDUQp h u 1)).Av v 0 = v 1 := by
  rw [dview_Av (exDUQp h u 1) _ 0 (by decide : 0 < 1)]
  show ∑ j ∈ range 2, (exDUQp h u 1).A 0 j * v j = v 1
  simp [exDUQp, exDKQp]

theorem exDU_full (h u : ℝ) : FullRank (exDUQp h u 1).dim.ne (exDUQp h u 1).dim.nv (exDUQp h u 1).A := exDK_full h

/-- C72: null space method, objective convex on the null space only -/
example (st : DKkt ℝ) : (dview (exDUQp (-1) 0 1)).IsOptimal (dptOf (exDUQp (-1) 0 1).dim (dunconstr Real.sqrt exDKLq (exDUQp (-1) 0 1) 0 st).2.v) := by
  have key : ∀ v, DDir (exDUQp (-1) 0 1) 0 v → v 1 = 0 := by
    intro v hv
    rw [← exDU_Av (-1) 0 v]
    exact hv (by decide : 0 < 1) rfl 0 (by decide : 0 < 1)
  refine (dunconstr_optimal (exDUQp (-1) 0 1) exDK_sqrt (exDU_wf _ _ _) (exDU_noineq _ _ _) 0 (exDK_lq (-1) 0) (fun _ _ => ?_) (exDU_full _ _)
    ⟨fun v hv => ?_, le_refl _, Or.inr fun v hv hne => ?_⟩ st exDKRes exKWs (by intro h; cases h)).2.2
  · intro i j hi hj
    have : i < 2 := hi
    have : j < 2 := hj
    interval_cases i <;> interval_cases j <;> simp [exDUQp]
  · rw [exDU_quad, key v hv]; nlinarith [mul_self_nonneg (v 0)]
  · rw [exDU_quad, key v hv]
    obtain ⟨i, hi, hne⟩ := hne
    have : i < 2 := hi
    interval_cases i
    · nlinarith [sq_pos_of_ne _ hne]
    · exact absurd (key v hv) hne

/-- C72: Schur complement method; the upper triangle of the Hessian does not matter -/
example (st : DKkt ℝ) : (dview (exDUQp 1 99 1)).IsOptimal (dptOf (exDUQp 1 99 1).dim (dunconstr Real.sqrt exDKLq (exDUQp 1 99 1) 1 st).2.v) := by
  refine (dunconstr_optimal (lq := exDKLq) (exDUQp 1 99 1) exDK_sqrt (exDU_wf _ _ _) (exDU_noineq _ _ _) 1 (fun _ h => absurd h (by decide)) (fun _ h => absurd h (by decide)) (exDU_full _ _)
    ⟨fun v _ => ?_, le_refl _, Or.inr fun v _ hne => ?_⟩ st exDKRes exKWs (by intro h; cases h)).2.2
  · rw [exDU_quad]; nlinarith [mul_self_nonneg (v 0), mul_self_nonneg (v 1)]
  · rw [exDU_quad]
    obtain ⟨i, hi, hne⟩ := hne
    have : i < 2 := hi
    interval_cases i
    · nlinarith [sq_pos_of_ne _ hne, mul_self_nonneg (v 1)]
    · nlinarith [sq_pos_of_ne _ hne, mul_self_nonneg (v 0)]

/-- minimise `½ v₀² + ½ v₁²` subject to `v₀ = 2`, with 99 above the diagonal of the Hessian -/
def exDUneg : DenseQp ℚ where
  dim := ⟨2, 1, 0, 0, 0⟩
  Hv := fun i j => if i = 0 ∧ j = 0 then 1 else if i = 1 ∧ j = 1 then 1 else if i = 1 ∧ j = 0 then 0 else 99
  A := fun _ j => if j = 0 then 1 else 0
  Ct := fun _ _ => 0
  gz := fun _ => 0
  b := fun _ => 2
  d := fun _ => 0
  d_mask := fun _ => 1
  m := fun _ => 0
  Z := fun _ => 0
  idxb := fun _ => 0
  idxs_rev := fun _ => -1

def exDUst : DKkt ℚ where
  Lv := fun _ _ => 7
  Le := fun _ _ => 7
  Ctx := fun _ _ => 7
  AL := fun _ _ => 7
  A_LQ := fun _ _ => 7
  A_Q := fun _ _ => 7
  Zt := fun _ _ => 7
  ZtH := fun _ _ => 7
  ZtHZ := fun _ _ => 7
  lv := fun _ => 7
  sv := fun _ => 7
  se := fun _ => 7
  Zs := fun _ => 7
  t0 := fun _ => 7
  t1 := fun _ => 7
  t2 := fun _ => 7
  t3 := fun _ => 7
  xy := fun _ => 7
  Yxy := fun _ => 7
  xz := fun _ => 7
  tmp_nv := fun _ => 7
  use_A_fact := false
  v := fun _ => 7
  pi := fun _ => 7
  lam := fun _ => 7
  t := fun _ => 7

/-- the LQ factorisation of `(1 0)` -/
def exDUlq : ℕ → ℕ → Mat ℚ → Mat ℚ × Mat ℚ := fun _ _ _ => (fun _ _ => 1, fun i j => if i = j then 1 else 0)

/-- **C72, negative.**  If only the lower triangle of the Hessian is set (as every other routine assumes), the direct null space
method uses what is above the diagonal and misses the optimum of this strictly convex QP; the Schur complement method
finds it.  (The pivots of the example are 1, so `sq` may be any function with `sq 1 = 1`.) -/
theorem dunconstr_upper_matters :
    ¬ (dview exDUneg).IsOptimal (dptOf exDUneg.dim (dunconstr (fun x => x) exDUlq exDUneg 0 exDUst).2.v) ∧
    (dunconstr (fun x => x) exDUlq exDUneg 0 exDUst).2.v 1 = -198 ∧
    (dunconstr (fun x => x) exDUlq exDUneg 1 exDUst).2.v 1 = 0 := by
  refine ⟨fun h => ?_, by decide +kernel, by decide +kernel⟩
  have hf : (dview exDUneg).Feasible ⟨fun i => if i = 0 then 2 else 0, fun _ => 0, fun _ => 0⟩ := by
    refine ⟨fun i hi => ?_, fun j hj => absurd hj (by show ¬ j < 0 + 0; omega), fun j hj => absurd hj (by show ¬ j < 0 + 0; omega),
      fun j hj => absurd hj (by show ¬ j < 0; omega), fun j hj => absurd hj (by show ¬ j < 0; omega)⟩
    have : i < 1 := hi
    interval_cases i
    decide +kernel
  have := h.2 _ hf
  revert this
  decide +kernel

end DUncEx
end Hpipm

