/-
The factorisations and substitutions of the dense KKT solver (intermediate results): stored factors and
the linear systems solved with them.
-/
import Verif.DenseKktVal
import Verif.KktConv

namespace Hpipm
open Finset
set_option linter.unusedSectionVars false

section
variable {K : Type*} [Field K] [LinearOrder K] [IsStrictOrderedRing K]

/-- the step `s` solves the linearised KKT system of the dense QP `qp` at the iterate `sol`, with errors `eg`, `eb`
in stationarity and equality constraints and shift `reg` of the slack Hessian -/
structure DNewtonStep (qp : DenseQp K) (sol : DqSol K) (reg : K) (eg eb : Vec K) (s : DqSol K) : Prop where
  g : ∀ i, i < qp.dim.nv → vG (ov qp) (osol s) s.lam 0 i - ∑ k ∈ range qp.dim.ne, qp.A k i * s.pi k = - eg i
  gs : ∀ i, i < 2 * qp.dim.ns → vG (ov qp) (osol s) s.lam 0 (qp.dim.nv + i) = - reg * s.v (qp.dim.nv + i)
  b : ∀ i, i < qp.dim.ne → qp.b i - ∑ j ∈ range qp.dim.nv, qp.A i j * s.v j = eb i
  d : ∀ j, j < qp.dim.nct → vD (ov qp) (osol s) 0 j = 0
  m : ∀ j, j < qp.dim.nct → qp.m j + sol.lam j * s.t j + s.lam j * sol.t j = 0

/-- every slack softens at most one constraint -/
def DUnshared (qp : DenseQp K) : Prop := ∀ j j', j < qp.dim.nb + qp.dim.ng → j' < qp.dim.nb + qp.dim.ng →
  qp.idxs_rev j ≠ -1 → qp.idxs_rev j = qp.idxs_rev j' → j = j'

/-- curvature in the direction of slack `i` -/
def dslackCurv (qp : DenseQp K) (reg : K) (sol : DqSol K) (i : ℕ) : K :=
  let n := qp.dim.nb + qp.dim.ng
  qp.Z i + reg + sol.lam (2 * n + i) / sol.t (2 * n + i)
    + ∑ j ∈ range n, (if qp.idxs_rev j ≠ -1 ∧ i = (qp.idxs_rev j).toNat then sol.lam j / sol.t j else 0)
    + ∑ j ∈ range n, (if qp.idxs_rev j ≠ -1 ∧ i = qp.dim.ns + (qp.idxs_rev j).toNat
        then sol.lam (n + j) / sol.t (n + j) else 0)

/-- the tail turns a solution of the condensed system into a Newton step -/
theorem dtail_newton (qp : DenseQp K) (hwf : qp.WF) (hu : DUnshared qp) (sol : DqSol K) (c : Core K)
    (hc : DCoreStep qp sol c) (reg : K) (eg eb : Vec K) (st : DKkt K) (hs : DLinSol qp reg c.Gamma c.gamma eg eb st)
    (hden : ∀ i, i < 2 * qp.dim.ns → dslackCurv qp reg sol i ≠ 0) :
    DNewtonStep qp sol reg eg eb (dstepOf (dkktTail qp c st)) ∧
    (∀ i, i < qp.dim.nv → (dkktTail qp c st).v i = st.v i) ∧ (dkktTail qp c st).pi = st.pi := by
  obtain ⟨hE, hpi, ht⟩ := dtail_stepEq qp hwf sol c hc reg st hs.slk
  have huo : Unshared (ov qp) := fun _ j j' _ hj hj' => hu j j' hj hj'
  have hwo := ov_wf qp hwf
  have hv : ∀ i, i < qp.dim.nv → (dkktTail qp c st).v i = st.v i := fun i hi => hE.uxv 0 i (Nat.zero_le _) hi
  refine ⟨⟨fun i hi => ?_, fun i hi => ?_, fun i hi => ?_, fun j hj => ?_, fun j hj => ?_⟩, hv, hpi⟩
  · have h1 := hs.stat i hi
    have e : ∑ j ∈ range qp.dim.nv, dM qp reg c.Gamma 0 i j * st.v j = _ :=
      kH_apply (ov qp) hwo (fun _ _ => 0) reg (fun _ => c.Gamma) 0 i (Nat.zero_le _) hi st.v
    rw [e] at h1
    have e2 : cvalT (ov qp) 0 (fun j => (osol (dstepOf (dkktTail qp c st))).lam 0 (qp.dim.nb + qp.dim.ng + j)
          - (osol (dstepOf (dkktTail qp c st))).lam 0 j) i =
        cvalT (ov qp) 0 (fun l => kTh (ov qp) reg (fun _ => c.Gamma) 0 l * cval (ov qp) 0 st.v l) i
        + cvalT (ov qp) 0 (kVt (ov qp) reg (fun _ => c.Gamma) (fun _ => c.gamma) 0) i := by
      rw [← cvalT_add]
      exact cvalT_congr (ov qp) 0 _ _ i (fun j hj => hE.elim hwo huo 0 j (Nat.zero_le _) hj)
    have e3 : hmul (ov qp) 0 (dkktTail qp c st).v i = hmul (ov qp) 0 st.v i := by
      unfold hmul
      exact sum_congr rfl (fun j hj => by rw [hv j (mem_range.mp hj)])
    have e4 : vG (ov qp) (osol (dstepOf (dkktTail qp c st))) (dstepOf (dkktTail qp c st)).lam 0 i =
        hmul (ov qp) 0 (dkktTail qp c st).v i + qp.gz i
        + cvalT (ov qp) 0 (fun j => (osol (dstepOf (dkktTail qp c st))).lam 0 (qp.dim.nb + qp.dim.ng + j)
          - (osol (dstepOf (dkktTail qp c st))).lam 0 j) i := by
      simp only [vG]
      rw [if_pos (show i < (ov qp).dim.nu 0 + (ov qp).dim.nx 0 from hi), if_neg (show ¬ 0 < (ov qp).dim.N from Nat.lt_irrefl 0),
        if_neg (fun h => Nat.lt_irrefl 0 h.1)]
      simp only [add_zero, sub_zero]
      rfl
    rw [e4, e2, e3]
    show _ - ∑ k ∈ range qp.dim.ne, qp.A k i * (dkktTail qp c st).pi k = _
    rw [hpi, ← h1]
    show _ = hmul (ov qp) 0 st.v i + 0 * st.v i + _ + (qp.gz i + _) - _
    ring
  · refine hE.slack hwo 0 i (Nat.zero_le _) hi ?_
    rw [slkDen_curv (ov qp) hwo reg (osol sol) (fun _ => c.Gamma) 0 i (Nat.zero_le _) hi (fun j hj => hc.G j hj)]
    exact hden i hi
  · rw [← hs.eq i hi]
    congr 1
    exact sum_congr rfl (fun j hj => congrArg _ (hv j (mem_range.mp hj)))
  · rw [vD_wval]
    show qp.d j + (dkktTail qp c st).t j - wval (ov qp) (fun _ => (dkktTail qp c st).v) 0 j = 0
    rw [ht j hj]; ring
  · have h2 := hE.lam 0 j (Nat.zero_le _) hj
    show qp.m j + sol.lam j * (dkktTail qp c st).t j + (osol (dstepOf (dkktTail qp c st))).lam 0 j * sol.t j = 0
    rw [h2, hc.G j hj, hc.g j hj, ht j hj]
    have := hc.of.pos j hj
    show qp.m j + sol.lam j * (wval (ov qp) (fun _ => (dkktTail qp c st).v) 0 j - qp.d j)
      + -(1 / sol.t j * sol.lam j * wval (ov qp) (fun _ => (dkktTail qp c st).v) 0 j
        + 1 / sol.t j * (qp.m j - sol.lam j * qp.d j)) * sol.t j = 0
    field_simp
    ring

theorem diare_low (n : ℕ) (e : K) (L : Mat K) (i j : ℕ) (hi : i < n) (hj : j ≤ i) :
    diare n e L 0 0 i j = L i j + if i = j then e else 0 := diare_drOk n e L i j hi hj

/-- positive definite matrices factorise without zero pivots -/
theorem potrf_nonsing (sq : K → K) (hsq : ∀ x, 0 < x → sq x * sq x = x) {m n : ℕ} (hnm : n ≤ m) {C D M : Mat K}
    (hC : ∀ i j, i < n → j ≤ i → C i j = M i j) (hsym : ∀ i j, i < n → j < n → M i j = M j i) (hpd : Pd n M) :
    singular n (potrf_l_mn sq m n C D) = false := by
  refine singular_eq_false (fun j hj => ?_)
  rw [potrf_l_mn, if_pos ⟨by omega, hj, le_refl _⟩]
  exact chol_pd sq hsq n n (le_refl _) C M hC hsym hpd j hj

/-! ### null space method -/

/-- stored factors of the null space method -/
structure NullFac (qp : DenseQp K) (reg preg : K) (G : Vec K) (st : DKkt K) : Prop where
  lq : LqOk qp.dim.ne qp.dim.nv qp.A st.A_LQ st.A_Q
  Zt : ∀ a j, a < qp.dim.nv - qp.dim.ne → j < qp.dim.nv → st.Zt a j = st.A_Q (qp.dim.ne + a) j
  H : ∀ i j, i < qp.dim.nv → j ≤ i → st.Lv i j = dM qp reg G 0 i j
  ZtH : ∀ a i, a < qp.dim.nv - qp.dim.ne → i < qp.dim.nv →
    st.ZtH a i = ∑ j ∈ range qp.dim.nv, st.A_Q (qp.dim.ne + a) j * dM qp reg G 0 i j
  W : Fac (qp.dim.nv - qp.dim.ne) st.ZtHZ (fun a c => ∑ i ∈ range qp.dim.nv,
    (∑ j ∈ range qp.dim.nv, st.A_Q (qp.dim.ne + a) j * dM qp reg G 0 i j) * st.A_Q (qp.dim.ne + c) i + if a = c then preg else 0)

/-- projection of the step on the null space of the equality constraints, as spanned by the last rows of `Q` -/
def nullProj (qp : DenseQp K) (Q : Mat K) (v : Vec K) (i : ℕ) : K :=
  ∑ a ∈ range (qp.dim.nv - qp.dim.ne), Q (qp.dim.ne + a) i * ∑ j ∈ range qp.dim.nv, Q (qp.dim.ne + a) j * v j

theorem symv_sum {n : ℕ} {L M : Mat K} (hL : ∀ i j, i < n → j ≤ i → L i j = M i j) (hM : ∀ i j, M i j = M j i)
    (v : Vec K) (i : ℕ) (hi : i < n) : ∑ j ∈ range n, symL L 0 0 i (0 + j) * v (0 + j) = ∑ j ∈ range n, M i j * v j := by
  apply sum_congr rfl
  intro j hj
  have hj := mem_range.mp hj
  simp only [zero_add, symL]
  split_ifs with h
  · rw [hL i j hi h]
  · rw [hL j i hj (by omega), hM]

theorem dNullSolve_ok (qp : DenseQp K) (hmn : qp.dim.ne ≤ qp.dim.nv) (hr : FullRank qp.dim.ne qp.dim.nv qp.A)
    (reg preg : K) (G g : Vec K) (st : DKkt K) (hF : NullFac qp reg preg G st)
    (hlv : ∀ i, i < qp.dim.nv → st.lv i = dgr qp reg G g i) (hs : DSlk qp reg G g st.Zs st.v) :
    DLinSol qp reg G g (fun i => preg * nullProj qp st.A_Q (dNullSolve qp st).v i) (fun _ => 0) (dNullSolve qp st) := by
  have hpiv := hF.lq.piv hr
  set nv := qp.dim.nv with hnv
  set ne := qp.dim.ne with hne
  generalize es : dNullSolve qp st = s
  unfold dNullSolve at es
  extract_lets xy Yxy xz1 xz2 xz3 xz v tmp pi1 pi at es
  subst es
  have hYxy : ∀ j, j < nv → Yxy j = ∑ l ∈ range ne, st.A_Q l j * xy l := by
    intro j hj
    simp only [Yxy]
    rw [gemv_t_in (by omega)]; simp [hne]
  have hxz1 : ∀ a, a < nv - ne → xz2 a = -(∑ i ∈ range nv, (∑ j ∈ range nv, st.A_Q (ne + a) j * dM qp reg G 0 i j) * Yxy i)
      - ∑ i ∈ range nv, st.A_Q (ne + a) i * dgr qp reg G g i := by
    intro a ha
    simp only [xz2]
    rw [gemv_n_in (by omega)]
    simp only [xz1]
    rw [gemv_n_in (by omega)]
    simp only [Nat.sub_zero, zero_add, zero_mul, one_mul, neg_mul]
    rw [sub_eq_add_neg]
    congr 1
    · congr 1
      exact sum_congr rfl (fun i hi => by rw [hF.ZtH a i ha (mem_range.mp hi)])
    · congr 1
      exact sum_congr rfl (fun i hi => by rw [hF.Zt a i ha (mem_range.mp hi), hlv i (mem_range.mp hi)])
  have hv : ∀ j, j < nv → v j = ∑ a ∈ range (nv - ne), st.A_Q (ne + a) j * xz a + Yxy j := by
    intro j hj
    simp only [v]
    rw [gemv_t_in (by omega)]
    simp only [Nat.sub_zero, zero_add, one_mul]
    rw [add_comm]
    congr 1
    exact sum_congr rfl (fun a ha => by rw [hF.Zt a j (mem_range.mp ha) hj])
  have htmp : ∀ i, i < nv → tmp i = ∑ j ∈ range nv, dM qp reg G 0 i j * v j + dgr qp reg G g i := by
    intro i hi
    simp only [tmp]
    rw [symv_l_in (by omega)]
    simp only [Nat.sub_zero, zero_add, one_mul]
    rw [hlv i hi, add_comm]
    congr 1
    have := symv_sum hF.H (dM_sym qp reg G 0) v i hi
    simpa only [zero_add] using this
  have hpi : ∀ l, l < ne → ∑ i ∈ range ne, low st.A_LQ i l * pi i = ∑ j ∈ range nv, st.A_Q l j * tmp j := by
    intro l hl
    simp only [pi]
    rw [trsv_ltn_spec hpiv _ _ l hl]
    simp only [pi1]
    rw [gemv_n_in (by omega)]
    simp [hnv]
  obtain ⟨h1, h2⟩ := null_solve hmn hF.lq preg (W := fun a c => ∑ i ∈ range nv,
    (∑ j ∈ range nv, st.A_Q (ne + a) j * dM qp reg G 0 i j) * st.A_Q (ne + c) i + if a = c then preg else 0)
    (fun a c _ _ => rfl) (fun i j _ _ => dM_sym qp reg G 0 i j) (dgr qp reg G g) qp.b xy Yxy xz v tmp pi
    (fun i hi => trsv_lnn_spec hpiv _ _ i hi) hYxy
    (fun a ha => (hF.W.trsv xz2 xz2 _ a ha).trans (hxz1 a ha)) hv htmp hpi
  refine ⟨h1, h2, hs.Zs, fun i hi => ?_⟩
  rw [← hs.v i hi]
  show gemv_t _ _ _ _ _ _ _ _ _ _ _ _ _ (qp.dim.nv + i) = _
  rw [gemv_t_out (by omega)]

/-- the cached LQ factorisation belongs to the current equality constraints -/
def LqCache (qp : DenseQp K) (st : DKkt K) : Prop := st.use_A_fact = true →
  LqOk qp.dim.ne qp.dim.nv qp.A st.A_LQ st.A_Q ∧
  ∀ a j, a < qp.dim.nv - qp.dim.ne → j < qp.dim.nv → st.Zt a j = st.A_Q (qp.dim.ne + a) j

theorem dLq_ok (lq : ℕ → ℕ → Mat K → Mat K × Mat K) (qp : DenseQp K)
    (hlq : LqOk qp.dim.ne qp.dim.nv qp.A (lq qp.dim.ne qp.dim.nv qp.A).1 (lq qp.dim.ne qp.dim.nv qp.A).2)
    (st : DKkt K) (hc : LqCache qp st) : (dLq lq qp st).use_A_fact = true ∧ LqCache qp (dLq lq qp st) := by
  unfold dLq
  by_cases h : st.use_A_fact = true
  · simp only [if_pos h]; exact ⟨h, hc⟩
  · simp only [if_neg h]
    refine ⟨trivial, fun _ => ⟨hlq, fun a j ha hj => ?_⟩⟩
    simp only [gecp]
    rw [if_pos (by omega)]; simp

theorem dNullFact_ok (sq : K → K) (hsq : ∀ x, 0 < x → sq x * sq x = x) (qp : DenseQp K) (hwf : qp.WF)
    (reg preg : K) (G g : Vec K) (st : DKkt K) (hu : st.use_A_fact = true) (hc : LqCache qp st) :
    let s := dNullFact sq qp reg preg G g st
    (∀ i, i < qp.dim.nv → s.lv i = dgr qp reg G g i) ∧ DSlk qp reg G g s.Zs s.v ∧
    s.use_A_fact = true ∧ LqCache qp s ∧
    (singular (qp.dim.nv - qp.dim.ne) s.ZtHZ = false → NullFac qp reg preg G s) ∧
    (Pd (qp.dim.nv - qp.dim.ne) (fun a c => ∑ i ∈ range qp.dim.nv, (∑ j ∈ range qp.dim.nv,
        s.A_Q (qp.dim.ne + a) j * dM qp reg G 0 i j) * s.A_Q (qp.dim.ne + c) i + if a = c then preg else 0) →
      singular (qp.dim.nv - qp.dim.ne) s.ZtHZ = false) := by
  obtain ⟨L, lv, C, z, u, t0, t1, t2, t3, he, h1, h2, h3⟩ := dBarH_val qp hwf reg G g 0
    { st with Lv := trcp_l qp.dim.nv qp.Hv 0 0 st.Lv 0 0 } (fun i j hi hj => by
      simp only [trcp_l]
      rw [if_pos (by omega)]; simp)
  intro s
  have es : s = dNullFact sq qp reg preg G g st := rfl
  unfold dNullFact at es
  simp only [he] at es
  rw [es]
  obtain ⟨hq, hZ⟩ := hc hu
  refine ⟨h2, h1, hu, fun _ => ⟨hq, hZ⟩, ?_⟩
  dsimp only
  set nv := qp.dim.nv with hnv
  set ne := qp.dim.ne with hne
  set Lv := trtr_l nv L 0 0 L 0 0 with hLv
  have hLfull : ∀ i j, i < nv → j < nv → Lv i j = dM qp reg G 0 i j := by
    intro i j hi hj
    rw [hLv, trtr_l]
    by_cases h : i ≤ j
    · rw [if_pos (by omega)]
      simp only [Nat.sub_zero, zero_add]
      rw [h3 j i hj h, dM_sym]
    · rw [if_neg (by omega), h3 i j hi (by omega)]
  set ZtH := gemm_nt (nv - ne) nv nv 1 st.Zt 0 0 Lv 0 0 0 st.ZtH 0 0 st.ZtH 0 0 with hZtH
  have hZH : ∀ a i, a < nv - ne → i < nv → ZtH a i = ∑ j ∈ range nv, st.A_Q (ne + a) j * dM qp reg G 0 i j := by
    intro a i ha hi
    rw [hZtH, gemm_nt, if_pos (by omega)]
    simp only [Nat.sub_zero, zero_add, zero_mul, one_mul]
    exact sum_congr rfl (fun j hj => by rw [hZ a j ha (mem_range.mp hj), hLfull i j hi (mem_range.mp hj)])
  have hcs : ∀ D : Mat K, (∀ a c, a < nv - ne → c ≤ a → diare (nv - ne) preg (syrk_ln_mn (nv - ne) (nv - ne) nv 1 ZtH 0 0 st.Zt 0 0 0 D 0 0 D 0 0) 0 0 a c =
      ∑ i ∈ range nv, (∑ j ∈ range nv, st.A_Q (ne + a) j * dM qp reg G 0 i j) * st.A_Q (ne + c) i + if a = c then preg else 0) ∧
      (∀ a c, a < nv - ne → c < nv - ne → (∑ i ∈ range nv, (∑ j ∈ range nv, st.A_Q (ne + a) j * dM qp reg G 0 i j) * st.A_Q (ne + c) i
        + if a = c then preg else 0) = ∑ i ∈ range nv, (∑ j ∈ range nv, st.A_Q (ne + c) j * dM qp reg G 0 i j) * st.A_Q (ne + a) i
        + if c = a then preg else 0) := by
    intro D
    refine ⟨fun a c ha hca => ?_, fun a c ha hc => ?_⟩
    · rw [diare_low (nv - ne) preg _ a c ha hca]
      congr 1
      rw [syrk_ln_mn, if_pos (by omega)]
      simp only [Nat.sub_zero, zero_add, zero_mul, one_mul]
      exact sum_congr rfl (fun i hi => by rw [hZH a i ha (mem_range.mp hi), hZ c i (by omega) (mem_range.mp hi)])
    · congr 1
      · simp only [sum_mul]
        rw [sum_comm]
        exact sum_congr rfl (fun i _ => sum_congr rfl (fun j _ => by rw [dM_sym qp reg G 0 j i]; ring))
      · by_cases h : a = c
        · rw [if_pos h, if_pos h.symm]
        · rw [if_neg h, if_neg (fun h' => h h'.symm)]
  exact ⟨fun hs => ⟨hq, hZ, fun i j hi hj => hLfull i j hi (by omega), hZH,
    fac_potrf sq hsq (le_refl _) (singular_iff.mp hs) (hcs _).1 (hcs st.ZtHZ).2⟩,
    fun hpd => potrf_nonsing sq hsq (le_refl _) (hcs _).1 (hcs st.ZtHZ).2 hpd⟩

/-! ### Schur complement method without scaling -/

/-- stored factors of the Schur complement method -/
structure SchurFac (qp : DenseQp K) (reg dreg : K) (G : Vec K) (st : DKkt K) : Prop where
  H : Fac qp.dim.nv st.Lv (dM qp reg G reg)
  AL : ∀ i j, i < qp.dim.ne → j < qp.dim.nv → ∑ l ∈ range qp.dim.nv, low st.Lv j l * st.AL i l = qp.A i j
  E : Fac qp.dim.ne st.Le (fun i j => ∑ l ∈ range qp.dim.nv, st.AL i l * st.AL j l + if i = j then dreg else 0)

theorem dM_shift (qp : DenseQp K) (reg : K) (G : Vec K) (e : K) (v : Vec K) (i : ℕ) (hi : i < qp.dim.nv) :
    ∑ j ∈ range qp.dim.nv, dM qp reg G e i j * v j = ∑ j ∈ range qp.dim.nv, dM qp reg G 0 i j * v j + e * v i := by
  have : ∀ j ∈ range qp.dim.nv, dM qp reg G e i j * v j = dM qp reg G 0 i j * v j + (if i = j then 1 else 0) * (e * v j) := by
    intro j _
    rw [dM_add]
    split_ifs <;> ring
  rw [sum_congr rfl this, sum_add_distrib, sum_delta i hi (fun j => e * v j)]

theorem dSchurSolve_ok (qp : DenseQp K) (reg dreg : K) (G g : Vec K) (st : DKkt K) (hF : SchurFac qp reg dreg G st)
    (lg : Vec K) (hlg : ∀ i, i < qp.dim.nv → ∑ l ∈ range qp.dim.nv, low st.Lv i l * lg l = dgr qp reg G g i)
    (hp : ∀ i, i < qp.dim.ne → st.pi i = ∑ l ∈ range qp.dim.nv, st.AL i l * lg l + qp.b i)
    (hv : ∀ i, i < qp.dim.nv → st.v i = dgr qp reg G g i) (hs : DSlk qp reg G g st.Zs st.v) :
    DLinSol qp reg G g (fun i => reg * (dSchurSolve qp st).v i) (fun i => dreg * (dSchurSolve qp st).pi i)
      (dSchurSolve qp st) := by
  generalize es : dSchurSolve qp st = s
  unfold dSchurSolve at es
  extract_lets nv ne pi1 pi v1 v2 v at es
  subst es
  obtain ⟨h1, h2⟩ := schur_solve (S := fun i j => ∑ l ∈ range qp.dim.nv, st.AL i l * st.AL j l + if i = j then dreg else 0)
    hF.H hF.AL (fun _ => dreg) (fun i j _ _ => rfl) (dgr qp reg G g) qp.b lg st.pi pi v1 v hlg hp
    (fun i hi => hF.E.trsv st.pi st.pi pi1 i hi)
    (fun j hj => by
      simp only [v1, nv, ne]
      rw [gemv_t_in (by omega)]
      simp only [Nat.sub_zero, zero_add, one_mul]
      rw [hv j hj]; ring)
    ⟨v2, fun i hi => trsv_lnn_spec hF.H.piv _ _ i hi, fun j hj => trsv_ltn_spec hF.H.piv _ _ j hj⟩
  refine ⟨fun i hi => ?_, h2, hs.Zs, fun i hi => ?_⟩
  · have := h1 i hi
    rw [dM_shift qp reg G reg v i hi] at this
    linear_combination this
  · rw [← hs.v i hi]
    show trsv_ltn qp.dim.nv _ _ _ (qp.dim.nv + i) = _
    rw [trsv_ltn_out _ _ _ (by omega)]
    show trsv_lnn qp.dim.nv _ _ _ (qp.dim.nv + i) = _
    rw [trsv_lnn_out _ _ _ (by omega)]
    show gemv_t _ qp.dim.nv _ _ _ _ _ _ _ _ _ _ _ (qp.dim.nv + i) = _
    rw [gemv_t_out (by omega)]

theorem dSchurFactH_ok (sq : K → K) (hsq : ∀ x, 0 < x → sq x * sq x = x) (qp : DenseQp K) (hwf : qp.WF)
    (reg : K) (G g : Vec K) (st : DKkt K) :
    let s := dSchurFactH sq qp reg G g st
    (∀ i, i < qp.dim.nv → s.lv i = dgr qp reg G g i) ∧ DSlk qp reg G g s.Zs s.v ∧
    (singular qp.dim.nv s.Lv = false → Fac qp.dim.nv s.Lv (dM qp reg G reg)) ∧
    (Pd qp.dim.nv (dM qp reg G reg) → singular qp.dim.nv s.Lv = false) := by
  obtain ⟨L, lv, C, z, u, t0, t1, t2, t3, he, h1, h2, h3, h4⟩ := dBar_val qp hwf reg G g
    { st with Lv := diare qp.dim.nv reg (gecp qp.dim.nv qp.dim.nv qp.Hv 0 0 st.Lv 0 0) 0 0 }
  intro s
  have es : s = dSchurFactH sq qp reg G g st := rfl
  unfold dSchurFactH at es
  simp only [he] at es
  rw [es]
  refine ⟨h3, h1, ?_⟩
  dsimp only
  have hH : ∀ i j, i < qp.dim.nv → j ≤ i → L i j = qp.Hv i j + (if i = j then reg else 0) + dBox qp reg G i j := by
    intro i j hi hj
    rw [h2 i j]
    dsimp only
    rw [diare_low qp.dim.nv reg _ i j hi hj, gecp, if_pos (by omega)]
    simp
  have hsy : ∀ i j, i < qp.dim.nv → j < qp.dim.nv → dM qp reg G reg i j = dM qp reg G reg j i := fun i j _ _ => dM_sym qp reg G reg i j
  by_cases hn : qp.dim.ng > 0
  · rw [if_pos hn]
    have hl : ∀ i j, i < qp.dim.nv → j ≤ i → L i j + ∑ l ∈ range qp.dim.ng, C i l * qp.Ct j l = dM qp reg G reg i j := by
      intro i j hi hj
      rw [dM_split qp reg G reg i j hj, hH i j hi hj]
      congr 1
      exact sum_congr rfl (fun l hl => by rw [h4 i l hi (mem_range.mp hl)])
    exact ⟨fun hs => fac_potrf sq hsq (le_refl _) (singular_iff.mp hs) hl hsy, fun hpd => potrf_nonsing sq hsq (le_refl _) hl hsy hpd⟩
  · rw [if_neg hn]
    have hl : ∀ i j, i < qp.dim.nv → j ≤ i → L i j = dM qp reg G reg i j := by
      intro i j hi hj
      have : qp.dim.ng = 0 := by omega
      rw [dM_split qp reg G reg i j hj, hH i j hi hj, this, range_zero, sum_empty, add_zero]
    exact ⟨fun hs => fac_potrf sq hsq (le_refl _) (singular_iff.mp hs) hl hsy, fun hpd => potrf_nonsing sq hsq (le_refl _) hl hsy hpd⟩

theorem dSchurFactE_ok (sq : K → K) (hsq : ∀ x, 0 < x → sq x * sq x = x) (qp : DenseQp K)
    (reg dreg : K) (G g : Vec K) (st : DKkt K) (hH : Fac qp.dim.nv st.Lv (dM qp reg G reg))
    (hlv : ∀ i, i < qp.dim.nv → st.lv i = dgr qp reg G g i) (hs : DSlk qp reg G g st.Zs st.v) :
    let s := dSchurFactE sq qp dreg st
    DSlk qp reg G g s.Zs s.v ∧ (∀ i, i < qp.dim.nv → s.v i = dgr qp reg G g i) ∧
    (∀ i, i < qp.dim.nv → ∑ l ∈ range qp.dim.nv, low s.Lv i l * s.lv l = dgr qp reg G g i) ∧
    (∀ i, i < qp.dim.ne → s.pi i = ∑ l ∈ range qp.dim.nv, s.AL i l * s.lv l + qp.b i) ∧
    (∀ i j, i < qp.dim.ne → j < qp.dim.nv → ∑ l ∈ range qp.dim.nv, low s.Lv j l * s.AL i l = qp.A i j) ∧
    (singular qp.dim.ne s.Le = false → SchurFac qp reg dreg G s) ∧
    (Pd qp.dim.ne (fun i j => ∑ l ∈ range qp.dim.nv, s.AL i l * s.AL j l + if i = j then dreg else 0) →
      singular qp.dim.ne s.Le = false) := by
  intro s
  have hAL : ∀ i j, i < qp.dim.ne → j < qp.dim.nv → ∑ l ∈ range qp.dim.nv, low s.Lv j l * s.AL i l = qp.A i j :=
    fun i j hi hj => trsm_spec hH.piv _ _ i j hi hj
  have hl : ∀ i j, i < qp.dim.ne → j ≤ i → diare qp.dim.ne dreg (gese qp.dim.ne qp.dim.ne 0 st.Le 0 0) 0 0 i j
      + ∑ l ∈ range qp.dim.nv, s.AL i l * s.AL j l =
      ∑ l ∈ range qp.dim.nv, s.AL i l * s.AL j l + if i = j then dreg else 0 := by
    intro i j hi hj
    rw [diare_low qp.dim.ne dreg _ i j hi hj, gese, if_pos (by omega), zero_add, add_comm]
  have hsy : ∀ i j, i < qp.dim.ne → j < qp.dim.ne → (∑ l ∈ range qp.dim.nv, s.AL i l * s.AL j l + if i = j then dreg else 0) =
      ∑ l ∈ range qp.dim.nv, s.AL j l * s.AL i l + if j = i then dreg else 0 := by
    intro i j _ _
    congr 1
    · exact sum_congr rfl (fun l _ => mul_comm _ _)
    · by_cases h : i = j
      · rw [if_pos h, if_pos h.symm]
      · rw [if_neg h, if_neg (fun h' => h h'.symm)]
  refine ⟨⟨hs.Zs, fun i hi => ?_⟩, fun i hi => ?_, fun i hi => ?_, fun i hi => ?_, hAL,
    fun h => ⟨hH, hAL, fac_potrf sq hsq (le_refl _) (singular_iff.mp h) hl hsy⟩,
    fun hpd => potrf_nonsing sq hsq (le_refl _) hl hsy hpd⟩
  · rw [← hs.v i hi]
    show veccp _ _ _ _ _ (qp.dim.nv + i) = _
    rw [veccp_out (by omega)]
  · show veccp _ _ _ _ _ i = _
    rw [veccp_in (by omega)]
    simp only [Nat.sub_zero, zero_add]
    exact hlv i hi
  · rw [← hlv i hi]
    exact trsv_lnn_spec hH.piv _ _ i hi
  · show gemv_n _ _ _ _ _ _ _ _ _ _ _ _ _ i = _
    rw [gemv_n_in (by omega)]
    simp only [Nat.sub_zero, zero_add, one_mul]
    rw [add_comm]; rfl

/-! ### scaling -/

/-- scaling factor for a diagonal entry -/
def scl (sq : K → K) (x : K) : K := if sq x = 0 then 1 else 1 / sq x

theorem scl_ne (sq : K → K) (x : K) : scl sq x ≠ 0 := by
  unfold scl
  split_ifs with h
  · exact one_ne_zero
  · exact one_div_ne_zero h

/-- the square of the scaling factor: the inverse of a positive entry, one for a zero entry -/
theorem scl_sq (sq : K → K) (hsq : ∀ x, 0 ≤ x → sq x * sq x = x) (x : K) (hx : 0 ≤ x) :
    1 / (scl sq x * scl sq x) = if x = 0 then 1 else x := by
  unfold scl
  have h := hsq x hx
  by_cases h0 : sq x = 0
  · rw [if_pos h0]
    rw [h0, zero_mul] at h
    rw [if_pos h.symm]; simp
  · rw [if_neg h0, if_neg (fun h1 => h0 (by rw [h1] at h; rw [h1]; exact mul_self_eq_zero.mp h))]
    field_simp
    rw [pow_two, h]

theorem scaleLoop_val (sq : K → K) (n : ℕ) (x : Vec K) (i : ℕ) :
    scaleLoop sq n x i = if i < n then scl sq (x i) else x i := by
  revert i
  unfold scaleLoop
  refine loop_inv (S := Vec K) (fun k s => ∀ i, s i = if i < k then scl sq (x i) else x i) n _ _ (by simp) ?_
  intro k s hk h i
  by_cases hi : i = k
  · subst hi
    have := h i
    rw [if_neg (lt_irrefl i)] at this
    rw [upd_same, if_pos (Nat.lt_succ_self i), this]; rfl
  · rw [upd_ne _ _ hi, h i]
    have : (i < k + 1) = (i < k) := by apply propext; omega
    simp only [this]

theorem anyNeg_of {n : ℕ} {x : Vec K} (h : ∀ i, i < n → 0 ≤ x i) : anyNeg n x = false := by
  unfold anyNeg
  induction n with
  | zero => rfl
  | succ n ih =>
    rw [loop_succ, ih (fun i hi => h i (by omega))]
    simp [h n (Nat.lt_succ_self n)]

theorem anyNeg_false {n : ℕ} {x : Vec K} (h : anyNeg n x = false) : ∀ i, i < n → 0 ≤ x i := by
  unfold anyNeg at h
  have key : ∀ m, loop m (fun i s => s || decide (x i < 0)) false = false → ∀ i, i < m → 0 ≤ x i := by
    intro m
    induction m with
    | zero => intro _ i hi; omega
    | succ m ih =>
      intro hm i hi
      rw [loop_succ] at hm
      simp only [Bool.or_eq_false_iff, decide_eq_false_iff_not, not_lt] at hm
      by_cases him : i = m
      · subst him; exact hm.2
      · exact ih hm.1 i (by omega)
  exact key n h

/-- stored factors of the scaled Hessian -/
structure ScaleFac (sq : K → K) (qp : DenseQp K) (reg preg : K) (G : Vec K) (st : DKkt K) : Prop where
  nonneg : ∀ i, i < qp.dim.nv → 0 ≤ dM qp reg G 0 i i
  sv : ∀ i, i < qp.dim.nv → st.sv i = scl sq (dM qp reg G 0 i i)
  H : Fac qp.dim.nv st.Lv (fun i j => st.sv i * dM qp reg G 0 i j * st.sv j + if i = j then preg else 0)

theorem dScaleFact_ok (sq : K → K) (hsq : ∀ x, 0 < x → sq x * sq x = x) (qp : DenseQp K) (reg preg : K) (G : Vec K)
    (st : DKkt K) (hL : ∀ i j, i < qp.dim.nv → j ≤ i → st.Lv i j = dM qp reg G 0 i j) :
    ((dScaleFact sq qp.dim.nv preg st).1 = false → ScaleFac sq qp reg preg G (dScaleFact sq qp.dim.nv preg st).2) ∧
    ((∀ i, i < qp.dim.nv → 0 ≤ dM qp reg G 0 i i) →
      Pd qp.dim.nv (fun i j => scl sq (dM qp reg G 0 i i) * dM qp reg G 0 i j * scl sq (dM qp reg G 0 j j) + if i = j then preg else 0) →
      (dScaleFact sq qp.dim.nv preg st).1 = false) := by
  unfold dScaleFact
  simp only [Bool.or_eq_false_iff]
  have hd : ∀ i, i < qp.dim.nv → ddiaex qp.dim.nv st.Lv st.sv i = dM qp reg G 0 i i := by
    intro i hi
    rw [ddiaex, if_pos hi, hL i i hi (le_refl _)]
  have hsv : ∀ i, i < qp.dim.nv → scaleLoop sq qp.dim.nv (ddiaex qp.dim.nv st.Lv st.sv) i = scl sq (dM qp reg G 0 i i) := by
    intro i hi
    rw [scaleLoop_val, if_pos hi, hd i hi]
  have hC : ∀ i j, i < qp.dim.nv → j ≤ i → diare qp.dim.nv preg (gemm_nd qp.dim.nv qp.dim.nv 1
      (gemm_l_diag qp.dim.nv qp.dim.nv (scaleLoop sq qp.dim.nv (ddiaex qp.dim.nv st.Lv st.sv)) st.Lv st.Lv) 0 0
      (scaleLoop sq qp.dim.nv (ddiaex qp.dim.nv st.Lv st.sv)) 0 0
      (gemm_l_diag qp.dim.nv qp.dim.nv (scaleLoop sq qp.dim.nv (ddiaex qp.dim.nv st.Lv st.sv)) st.Lv st.Lv) 0 0
      (gemm_l_diag qp.dim.nv qp.dim.nv (scaleLoop sq qp.dim.nv (ddiaex qp.dim.nv st.Lv st.sv)) st.Lv st.Lv) 0 0) 0 0 i j =
      scl sq (dM qp reg G 0 i i) * dM qp reg G 0 i j * scl sq (dM qp reg G 0 j j) + if i = j then preg else 0 := by
    intro i j hi hj
    rw [diare_low qp.dim.nv preg _ i j hi hj, gemm_nd, if_pos (by omega)]
    simp only [Nat.sub_zero, zero_add, zero_mul, one_mul, gemm_l_diag]
    rw [if_pos ⟨hi, by omega⟩, hL i j hi hj, hsv i hi, hsv j (by omega)]
  have hsy : ∀ i j, i < qp.dim.nv → j < qp.dim.nv →
      (scl sq (dM qp reg G 0 i i) * dM qp reg G 0 i j * scl sq (dM qp reg G 0 j j) + if i = j then preg else 0) =
      scl sq (dM qp reg G 0 j j) * dM qp reg G 0 j i * scl sq (dM qp reg G 0 i i) + if j = i then preg else 0 := by
    intro i j _ _
    rw [dM_sym qp reg G 0 i j]
    congr 1
    · ring
    · by_cases h : i = j
      · rw [if_pos h, if_pos h.symm]
      · rw [if_neg h, if_neg (fun h' => h h'.symm)]
  refine ⟨fun h => ⟨fun i hi => ?_, hsv, ?_⟩, fun h0 hpd => ⟨anyNeg_of (fun i hi => by rw [hd i hi]; exact h0 i hi),
    potrf_nonsing sq hsq (le_refl _) hC hsy hpd⟩⟩
  · rw [← hd i hi]; exact anyNeg_false h.1 i hi
  · have hF := fac_potrf sq hsq (le_refl _) (singular_iff.mp h.2) hC hsy
    refine ⟨hF.piv, fun i j hi hj => (hF.fac i j hi hj).trans ?_⟩
    dsimp only
    rw [hsv i hi, hsv j hj]

/-- error of the scaled methods: the perturbation of the scaled Hessian in the original variables -/
def sclErr (sq : K → K) (preg : K) (d x : K) : K := preg * (1 / (scl sq d * scl sq d)) * x

/-- undoing the scaling of the variables -/
theorem scale_undo (sq : K → K) (qp : DenseQp K) (reg preg : K) (G : Vec K) (st : DKkt K) (hF : ScaleFac sq qp reg preg G st)
    (y : Vec K) (i : ℕ) (hi : i < qp.dim.nv) (r : K)
    (h : ∑ j ∈ range qp.dim.nv, (st.sv i * dM qp reg G 0 i j * st.sv j + if i = j then preg else 0) * y j = st.sv i * r) :
    ∑ j ∈ range qp.dim.nv, dM qp reg G 0 i j * (st.sv j * y j) = r - sclErr sq preg (dM qp reg G 0 i i) (st.sv i * y i) := by
  have e : ∑ j ∈ range qp.dim.nv, (st.sv i * dM qp reg G 0 i j * st.sv j + if i = j then preg else 0) * y j =
      st.sv i * ∑ j ∈ range qp.dim.nv, dM qp reg G 0 i j * (st.sv j * y j) + preg * y i := by
    have : ∀ j ∈ range qp.dim.nv, (st.sv i * dM qp reg G 0 i j * st.sv j + if i = j then preg else 0) * y j =
        st.sv i * (dM qp reg G 0 i j * (st.sv j * y j)) + (if i = j then 1 else 0) * (preg * y j) := by
      intro j _
      split_ifs <;> ring
    rw [sum_congr rfl this, sum_add_distrib, sum_delta i hi (fun j => preg * y j), mul_sum]
  rw [e] at h
  have hn : st.sv i ≠ 0 := by rw [hF.sv i hi]; exact scl_ne _ _
  unfold sclErr
  rw [← hF.sv i hi]
  have h' : ∑ j ∈ range qp.dim.nv, dM qp reg G 0 i j * (st.sv j * y j) = (st.sv i * r - preg * y i) / st.sv i := by
    rw [eq_div_iff hn]; linear_combination h
  rw [h']
  field_simp

theorem dFreeSSolve_ok (sq : K → K) (qp : DenseQp K) (h0 : qp.dim.ne = 0) (reg preg : K) (G g : Vec K) (st : DKkt K)
    (hF : ScaleFac sq qp reg preg G st) (hlv : ∀ i, i < qp.dim.nv → st.lv i = dgr qp reg G g i)
    (hs : DSlk qp reg G g st.Zs st.v) (eb : Vec K) :
    DLinSol qp reg G g (fun i => sclErr sq preg (dM qp reg G 0 i i) ((dFreeSSolve qp st).v i)) eb (dFreeSSolve qp st) := by
  generalize es : dFreeSSolve qp st = s
  unfold dFreeSSolve at es
  extract_lets nv v1 v2 v3 v4 v5 v6 at es
  subst es
  have hv3 : ∀ i, i < qp.dim.nv → v3 i = st.sv i * (-(dgr qp reg G g i)) := by
    intro i hi
    simp only [v3, v2, v1, nv]
    rw [gemv_diag_in (by omega)]
    simp only [Nat.sub_zero, zero_add, zero_mul, one_mul, vecsc]
    rw [if_pos (by omega), veccp_in (by omega)]
    simp only [Nat.sub_zero, zero_add, hlv i hi]; ring
  have hv6 : ∀ i, i < qp.dim.nv → v6 i = st.sv i * v5 i := by
    intro i hi
    simp only [v6, nv]
    rw [gemv_diag_in (by omega)]; simp
  refine ⟨fun i hi => ?_, fun i hi => by omega, hs.Zs, fun i hi => ?_⟩
  · have h1 := hF.H.trsv v3 v3 v4 i hi
    rw [hv3 i hi] at h1
    have h2 := scale_undo sq qp reg preg G st hF _ i hi _ h1
    have e : ∑ j ∈ range qp.dim.nv, dM qp reg G 0 i j * v6 j = ∑ j ∈ range qp.dim.nv, dM qp reg G 0 i j * (st.sv j * v5 j) :=
      sum_congr rfl (fun j hj => by rw [hv6 j (mem_range.mp hj)])
    show ∑ j ∈ range qp.dim.nv, dM qp reg G 0 i j * v6 j + _ - _ = - sclErr sq preg _ (v6 i)
    rw [e, h2, h0, hv6 i hi]
    simp only [range_zero, sum_empty]
    show _ - sclErr sq preg _ (st.sv i * v5 i) + _ - _ = _
    ring
  · rw [← hs.v i hi]
    simp only [v6, v5, v4, v3, v2, v1, nv]
    rw [gemv_diag_out (by omega), trsv_ltn_out _ _ _ (by omega), trsv_lnn_out _ _ _ (by omega), gemv_diag_out (by omega),
      vecsc, if_neg (by omega), veccp_out (by omega)]

/-- stored factors of the scaled Schur complement method -/
structure SchurSFac (sq : K → K) (qp : DenseQp K) (reg preg dreg : K) (G : Vec K) (st : DKkt K) : Prop where
  H : ScaleFac sq qp reg preg G st
  AL : ∀ i j, i < qp.dim.ne → j < qp.dim.nv → ∑ l ∈ range qp.dim.nv, low st.Lv j l * st.AL i l = qp.A i j * st.sv j
  se : ∀ i, i < qp.dim.ne → st.se i = scl sq (∑ l ∈ range qp.dim.nv, st.AL i l * st.AL i l)
  E : Fac qp.dim.ne st.Le (fun i j => st.se i * (∑ l ∈ range qp.dim.nv, st.AL i l * st.AL j l) * st.se j
    + if i = j then dreg else 0)

theorem dSchurSFact_ok (sq : K → K) (hsq : ∀ x, 0 < x → sq x * sq x = x) (qp : DenseQp K)
    (reg preg dreg : K) (G g : Vec K) (st : DKkt K) (hH : ScaleFac sq qp reg preg G st)
    (hlv : ∀ i, i < qp.dim.nv → st.lv i = dgr qp reg G g i) (hs : DSlk qp reg G g st.Zs st.v) :
    let s := dSchurSFact sq qp dreg st
    DSlk qp reg G g s.Zs s.v ∧ (∀ i, i < qp.dim.nv → s.v i = s.sv i * dgr qp reg G g i) ∧
    (∀ i, i < qp.dim.nv → ∑ l ∈ range qp.dim.nv, low s.Lv i l * s.lv l = s.sv i * dgr qp reg G g i) ∧
    (∀ i j, i < qp.dim.ne → j < qp.dim.nv → ∑ l ∈ range qp.dim.nv, low s.Lv j l * s.AL i l = qp.A i j * s.sv j) ∧
    (singular qp.dim.ne s.Le = false → SchurSFac sq qp reg preg dreg G s) ∧
    (Pd qp.dim.ne (fun i j => scl sq (∑ l ∈ range qp.dim.nv, s.AL i l * s.AL i l) * (∑ l ∈ range qp.dim.nv, s.AL i l * s.AL j l)
        * scl sq (∑ l ∈ range qp.dim.nv, s.AL j l * s.AL j l) + if i = j then dreg else 0) →
      singular qp.dim.ne s.Le = false) := by
  intro s
  have hS : ∀ Le0 : Mat K, ∀ i j, i < qp.dim.ne → j ≤ i → syrk_ln_mn qp.dim.ne qp.dim.ne qp.dim.nv 1 s.AL 0 0 s.AL 0 0 1
      (gese qp.dim.ne qp.dim.ne 0 Le0 0 0) 0 0 (gese qp.dim.ne qp.dim.ne 0 Le0 0 0) 0 0 i j =
      ∑ l ∈ range qp.dim.nv, s.AL i l * s.AL j l := by
    intro Le0 i j hi hj
    rw [syrk_ln_mn, if_pos (by omega)]
    simp only [Nat.sub_zero, zero_add, one_mul]
    rw [gese, if_pos (by omega), zero_add]
  have hse : ∀ i, i < qp.dim.ne → s.se i = scl sq (∑ l ∈ range qp.dim.nv, s.AL i l * s.AL i l) := by
    intro i hi
    show scaleLoop sq qp.dim.ne (ddiaex qp.dim.ne (syrk_ln_mn qp.dim.ne qp.dim.ne qp.dim.nv 1 s.AL 0 0 s.AL 0 0 1
      (gese qp.dim.ne qp.dim.ne 0 st.Le 0 0) 0 0 (gese qp.dim.ne qp.dim.ne 0 st.Le 0 0) 0 0) st.se) i = _
    rw [scaleLoop_val, if_pos hi, ddiaex, if_pos hi, hS _ i i hi (le_refl _)]
  have hAL : ∀ i j, i < qp.dim.ne → j < qp.dim.nv → ∑ l ∈ range qp.dim.nv, low s.Lv j l * s.AL i l = qp.A i j * s.sv j := by
    intro i j hi hj
    refine (trsm_spec hH.H.piv _ _ i j hi hj).trans ?_
    rw [gemm_nd, if_pos (by omega)]
    simp only [Nat.sub_zero, zero_add, zero_mul, one_mul]
    rw [gecp, if_pos (by omega)]
    simp only [Nat.sub_zero, zero_add]
    rfl
  obtain ⟨C, D, hLe, hC⟩ : ∃ C D : Mat K, s.Le = potrf_l_mn sq qp.dim.ne qp.dim.ne C D ∧ ∀ i j, i < qp.dim.ne → j ≤ i →
      C i j = scl sq (∑ l ∈ range qp.dim.nv, s.AL i l * s.AL i l) * (∑ l ∈ range qp.dim.nv, s.AL i l * s.AL j l)
        * scl sq (∑ l ∈ range qp.dim.nv, s.AL j l * s.AL j l) + if i = j then dreg else 0 := by
    refine ⟨_, _, rfl, fun i j hi hj => ?_⟩
    rw [diare_low qp.dim.ne dreg _ i j hi hj, gemm_nd, if_pos (by omega)]
    simp only [Nat.sub_zero, zero_add, zero_mul, one_mul, gemm_l_diag]
    rw [if_pos ⟨hi, by omega⟩]
    have e := hS st.Le i j hi hj
    rw [← hse i hi, ← hse j (by omega), ← e]
    rfl
  have hsy : ∀ i j, i < qp.dim.ne → j < qp.dim.ne →
      (scl sq (∑ l ∈ range qp.dim.nv, s.AL i l * s.AL i l) * (∑ l ∈ range qp.dim.nv, s.AL i l * s.AL j l)
        * scl sq (∑ l ∈ range qp.dim.nv, s.AL j l * s.AL j l) + if i = j then dreg else 0) =
      scl sq (∑ l ∈ range qp.dim.nv, s.AL j l * s.AL j l) * (∑ l ∈ range qp.dim.nv, s.AL j l * s.AL i l)
        * scl sq (∑ l ∈ range qp.dim.nv, s.AL i l * s.AL i l) + if j = i then dreg else 0 := by
    intro i j _ _
    congr 1
    · rw [sum_congr rfl (fun l _ => mul_comm (s.AL i l) (s.AL j l))]; ring
    · by_cases h : i = j
      · rw [if_pos h, if_pos h.symm]
      · rw [if_neg h, if_neg (fun h' => h h'.symm)]
  have hlg : ∀ i, i < qp.dim.nv → gemv_diag qp.dim.nv 1 st.sv 0 st.lv 0 0 st.lv 0 st.lv 0 i = st.sv i * dgr qp reg G g i := by
    intro i hi
    rw [gemv_diag_in (by omega)]
    simp only [Nat.sub_zero, zero_add, zero_mul, one_mul, hlv i hi]
  refine ⟨⟨hs.Zs, fun i hi => ?_⟩, fun i hi => ?_, fun i hi => ?_, hAL, fun h => ?_, fun hpd => ?_⟩
  · rw [← hs.v i hi]
    show veccp _ _ _ _ _ (qp.dim.nv + i) = _
    rw [veccp_out (by omega)]
  · show veccp _ _ _ _ _ i = _
    rw [veccp_in (by omega)]
    simp only [Nat.sub_zero, zero_add]
    exact hlg i hi
  · exact (trsv_lnn_spec hH.H.piv _ _ i hi).trans (hlg i hi)
  · refine ⟨⟨hH.nonneg, hH.sv, hH.H⟩, hAL, hse, ?_⟩
    rw [hLe] at h ⊢
    have hF := fac_potrf sq hsq (le_refl _) (singular_iff.mp h) hC hsy
    refine ⟨hF.piv, fun i j hi hj => (hF.fac i j hi hj).trans ?_⟩
    rw [hse i hi, hse j hj]
  · rw [hLe]
    exact potrf_nonsing sq hsq (le_refl _) hC hsy hpd

theorem dSchurSSolve_ok (sq : K → K) (qp : DenseQp K) (reg preg dreg : K) (G g : Vec K) (st : DKkt K)
    (hF : SchurSFac sq qp reg preg dreg G st)
    (hlg : ∀ i, i < qp.dim.nv → ∑ l ∈ range qp.dim.nv, low st.Lv i l * st.lv l = st.sv i * dgr qp reg G g i)
    (hv : ∀ i, i < qp.dim.nv → st.v i = st.sv i * dgr qp reg G g i) (hs : DSlk qp reg G g st.Zs st.v) :
    DLinSol qp reg G g (fun i => sclErr sq preg (dM qp reg G 0 i i) ((dSchurSSolve qp st).v i))
      (fun i => sclErr sq dreg (∑ l ∈ range qp.dim.nv, st.AL i l * st.AL i l) ((dSchurSSolve qp st).pi i))
      (dSchurSSolve qp st) := by
  generalize es : dSchurSSolve qp st = s
  unfold dSchurSSolve at es
  extract_lets nv ne p1 p2 p3 p4 p5 lv v1 v2 v3 v4 at es
  subst es
  have hp1 : ∀ i, i < qp.dim.ne → p1 i = ∑ l ∈ range qp.dim.nv, st.AL i l * st.lv l + qp.b i := by
    intro i hi
    simp only [p1, nv, ne]
    rw [gemv_n_in (by omega)]
    simp only [Nat.sub_zero, zero_add, one_mul]; ring
  have hp2 : ∀ i, i < qp.dim.ne → p2 i = st.se i * p1 i := by
    intro i hi
    simp only [p2, ne]
    rw [gemv_diag_in (by omega)]; simp
  have hp5 : ∀ i, i < qp.dim.ne → p5 i = st.se i * p4 i := by
    intro i hi
    simp only [p5, ne]
    rw [gemv_diag_in (by omega)]; simp
  have hsen : ∀ i, i < qp.dim.ne → st.se i ≠ 0 := fun i hi => by rw [hF.se i hi]; exact scl_ne _ _
  have hlv : ∀ j, j < qp.dim.nv → lv j = ∑ i ∈ range qp.dim.ne, qp.A i j * p5 i := by
    intro j hj
    simp only [lv, nv, ne]
    rw [gemv_t_in (by omega)]; simp
  have hv1 : ∀ j, j < qp.dim.nv → v1 j = ∑ i ∈ range qp.dim.ne, (qp.A i j * st.sv j) * p5 i - st.sv j * dgr qp reg G g j := by
    intro j hj
    simp only [v1, nv]
    rw [gemv_diag_in (by omega)]
    simp only [Nat.sub_zero, zero_add, one_mul]
    rw [hv j hj, hlv j hj, mul_sum, sub_eq_neg_add, neg_one_mul]
    congr 1
    exact sum_congr rfl (fun i _ => by ring)
  have hv4 : ∀ i, i < qp.dim.nv → v4 i = st.sv i * v3 i := by
    intro i hi
    simp only [v4, nv]
    rw [gemv_diag_in (by omega)]; simp
  -- the Schur complement system in the unscaled multipliers
  have hpi : ∀ i, i < qp.dim.ne → ∑ j ∈ range qp.dim.ne, (∑ l ∈ range qp.dim.nv, st.AL i l * st.AL j l
      + if i = j then dreg * (1 / (st.se i * st.se i)) else 0) * p5 j = p1 i := by
    intro i hi
    have h1 := hF.E.trsv p2 p2 p3 i hi
    rw [hp2 i hi] at h1
    have h1' : ∑ j ∈ range qp.dim.ne, (st.se i * (∑ l ∈ range qp.dim.nv, st.AL i l * st.AL j l) * st.se j
      + if i = j then dreg else 0) * p4 j = st.se i * p1 i := h1
    have e : ∑ j ∈ range qp.dim.ne, (st.se i * (∑ l ∈ range qp.dim.nv, st.AL i l * st.AL j l) * st.se j
      + if i = j then dreg else 0) * p4 j = st.se i * ∑ j ∈ range qp.dim.ne, (∑ l ∈ range qp.dim.nv, st.AL i l * st.AL j l
      + if i = j then dreg * (1 / (st.se i * st.se i)) else 0) * p5 j := by
      rw [mul_sum]
      refine sum_congr rfl (fun j hj => ?_)
      rw [hp5 j (mem_range.mp hj)]
      have := hsen i hi
      split_ifs with hij
      · subst hij; field_simp
      · ring
    rw [e] at h1'
    exact mul_left_cancel₀ (hsen i hi) h1'
  obtain ⟨h1, h2⟩ := schur_solve (A := fun i j => qp.A i j * st.sv j)
    (S := fun i j => ∑ l ∈ range qp.dim.nv, st.AL i l * st.AL j l + if i = j then dreg * (1 / (st.se i * st.se i)) else 0)
    hF.H.H hF.AL (fun i => dreg * (1 / (st.se i * st.se i))) (fun i j _ _ => rfl) (fun i => st.sv i * dgr qp reg G g i)
    qp.b st.lv p1 p5 v1 v3 hlg hp1 hpi hv1
    ⟨v2, fun i hi => trsv_lnn_spec hF.H.H.piv _ _ i hi, fun j hj => trsv_ltn_spec hF.H.H.piv _ _ j hj⟩
  refine ⟨fun i hi => ?_, fun i hi => ?_, hs.Zs, fun i hi => ?_⟩
  · have h3 := scale_undo sq qp reg preg G st hF.H v3 i hi
      (∑ k ∈ range qp.dim.ne, qp.A k i * p5 k - dgr qp reg G g i) (by
        have := h1 i hi
        have e : ∑ k ∈ range qp.dim.ne, qp.A k i * st.sv i * p5 k = st.sv i * ∑ k ∈ range qp.dim.ne, qp.A k i * p5 k := by
          rw [mul_sum]; exact sum_congr rfl (fun k _ => by ring)
        rw [e] at this
        linear_combination this)
    have e : ∑ j ∈ range qp.dim.nv, dM qp reg G 0 i j * v4 j = ∑ j ∈ range qp.dim.nv, dM qp reg G 0 i j * (st.sv j * v3 j) :=
      sum_congr rfl (fun j hj => by rw [hv4 j (mem_range.mp hj)])
    show ∑ j ∈ range qp.dim.nv, dM qp reg G 0 i j * v4 j + _ - _ = - sclErr sq preg _ (v4 i)
    rw [e, h3, hv4 i hi]
    ring
  · show _ - ∑ j ∈ range qp.dim.nv, qp.A i j * v4 j = sclErr sq dreg _ (p5 i)
    rw [sclErr, ← hF.se i hi, ← h2 i hi]
    congr 1
    exact sum_congr rfl (fun j hj => by rw [hv4 j (mem_range.mp hj)]; ring)
  · rw [← hs.v i hi]
    simp only [v4, v3, v2, v1, nv]
    rw [gemv_diag_out (by omega), trsv_ltn_out _ _ _ (by omega), trsv_lnn_out _ _ _ (by omega), gemv_diag_out (by omega)]

/-! ### without equality constraints and scaling -/

theorem dFreeSolve_ok (qp : DenseQp K) (h0 : qp.dim.ne = 0) (reg preg : K) (G g : Vec K) (st : DKkt K)
    (hF : Fac qp.dim.nv st.Lv (dM qp reg G preg)) (y v : Vec K)
    (hy : ∀ i, i < qp.dim.nv → ∑ l ∈ range qp.dim.nv, low st.Lv i l * y l = -(dgr qp reg G g i))
    (hv : ∀ j, j < qp.dim.nv → ∑ i ∈ range qp.dim.nv, low st.Lv i j * v i = y j) (hs : DSlk qp reg G g st.Zs v) (eb : Vec K) :
    DLinSol qp reg G g (fun i => preg * v i) eb { st with v := v } := by
  refine ⟨fun i hi => ?_, fun i hi => by omega, hs⟩
  have h1 := hF.solve hy hv i hi
  rw [dM_shift qp reg G preg v i hi] at h1
  rw [h0]
  simp only [range_zero, sum_empty]
  linear_combination h1

theorem dFreeFact_ok (sq : K → K) (hsq : ∀ x, 0 < x → sq x * sq x = x) (qp : DenseQp K) (hwf : qp.WF)
    (reg preg : K) (G g : Vec K) (st : DKkt K) :
    let s := dFreeFact sq qp reg preg G g st
    DSlk qp reg G g s.Zs s.v ∧
    (singular qp.dim.nv s.Lv = false → Fac qp.dim.nv s.Lv (dM qp reg G preg) ∧
      ∀ i, i < qp.dim.nv → ∑ l ∈ range qp.dim.nv, low s.Lv i l * s.Lv qp.dim.nv l = dgr qp reg G g i) ∧
    (Pd qp.dim.nv (dM qp reg G preg) → singular qp.dim.nv s.Lv = false) := by
  intro s
  obtain ⟨z, u, t0, t1, t2, t3, he, h1, h2, h3⟩ := dCond_val qp hwf reg G g { st with
    Lv := diare qp.dim.nv preg (rowin qp.dim.nv 1 qp.gz 0 (gecp qp.dim.nv qp.dim.nv qp.Hv 0 0 st.Lv 0 0) qp.dim.nv 0) 0 0 }
  have es : s = dFreeFact sq qp reg preg G g st := rfl
  unfold dFreeFact at es
  simp only [he] at es
  set L1 := (if qp.dim.nb > 0 then diaad_sp qp.dim.nb 1 t0 0 qp.idxb (diare qp.dim.nv preg (rowin qp.dim.nv 1 qp.gz 0
    (gecp qp.dim.nv qp.dim.nv qp.Hv 0 0 st.Lv 0 0) qp.dim.nv 0) 0 0) 0 0 else (diare qp.dim.nv preg (rowin qp.dim.nv 1 qp.gz 0
    (gecp qp.dim.nv qp.dim.nv qp.Hv 0 0 st.Lv 0 0) qp.dim.nv 0) 0 0)) with hL1
  set L2 := (if qp.dim.nb > 0 then rowad_sp qp.dim.nb 1 t1 0 qp.idxb L1 qp.dim.nv 0 else L1) with hL2
  have hL1v : ∀ i j, L1 i j = diare qp.dim.nv preg (rowin qp.dim.nv 1 qp.gz 0
    (gecp qp.dim.nv qp.dim.nv qp.Hv 0 0 st.Lv 0 0) qp.dim.nv 0) 0 0 i j + dBox qp reg G i j := dBox_add qp reg G t0 _ h2
  have hL2v : ∀ i j, L2 i j = L1 i j + ∑ l ∈ range qp.dim.nb, if i = qp.dim.nv ∧ qp.idxb l = j
      then kVt (ov qp) reg (fun _ => G) (fun _ => g) 0 l else 0 := by
    intro i j
    rw [hL2]
    by_cases hn : qp.dim.nb > 0
    · simp only [if_pos hn, rowad_sp, zero_add, one_mul]
      congr 1
      apply sum_congr rfl
      intro l hl
      rw [h3 l (by have := mem_range.mp hl; omega)]
    · have : qp.dim.nb = 0 := by omega
      simp only [this, gt_iff_lt, lt_irrefl, if_false, range_zero, sum_empty, add_zero]
  have hlow : ∀ i j, i < qp.dim.nv → j ≤ i → L2 i j = qp.Hv i j + (if i = j then preg else 0) + dBox qp reg G i j := by
    intro i j hi hj
    rw [hL2v, hL1v, diare_low qp.dim.nv preg _ i j hi hj, rowin, if_neg (by omega), gecp, if_pos (by omega),
      sum_eq_zero (fun l _ => if_neg (by omega))]
    simp
  have hrow : ∀ j, j < qp.dim.nv → L2 qp.dim.nv j = qp.gz j + ∑ l ∈ range qp.dim.nb, if qp.idxb l = j
      then kVt (ov qp) reg (fun _ => G) (fun _ => g) 0 l else 0 := by
    intro j hj
    have e0 : dBox qp reg G qp.dim.nv j = 0 := sum_eq_zero (fun l hl => if_neg (fun hc => by
      have := hwf.idxb l (mem_range.mp hl); omega))
    rw [hL2v, hL1v, e0, diare, if_neg (by omega), rowin, if_pos (by omega)]
    simp
  have edg : ∀ i, dgr qp reg G g i = qp.gz i + ((∑ l ∈ range qp.dim.nb, if qp.idxb l = i then kVt (ov qp) reg (fun _ => G) (fun _ => g) 0 l else 0)
      + ∑ l ∈ range qp.dim.ng, qp.Ct i l * kVt (ov qp) reg (fun _ => G) (fun _ => g) 0 (qp.dim.nb + l)) := fun _ => rfl
  have fin : ∀ C D : Mat K, (∀ i j, i < qp.dim.nv → j ≤ i → C i j = dM qp reg G preg i j) →
      (∀ j, j < qp.dim.nv → C qp.dim.nv j = dgr qp reg G g j) →
      (singular qp.dim.nv (potrf_l_mn sq (qp.dim.nv + 1) qp.dim.nv C D) = false →
      Fac qp.dim.nv (potrf_l_mn sq (qp.dim.nv + 1) qp.dim.nv C D) (dM qp reg G preg) ∧
      ∀ i, i < qp.dim.nv → ∑ l ∈ range qp.dim.nv, low (potrf_l_mn sq (qp.dim.nv + 1) qp.dim.nv C D) i l *
        potrf_l_mn sq (qp.dim.nv + 1) qp.dim.nv C D qp.dim.nv l = dgr qp reg G g i) ∧
      (Pd qp.dim.nv (dM qp reg G preg) → singular qp.dim.nv (potrf_l_mn sq (qp.dim.nv + 1) qp.dim.nv C D) = false) := by
    intro C D hC hR
    refine ⟨fun hsg => ?_, fun hpd => potrf_nonsing sq hsq (Nat.le_succ _) hC (fun i j _ _ => dM_sym qp reg G preg i j) hpd⟩
    refine ⟨fac_potrf sq hsq (Nat.le_succ _) (singular_iff.mp hsg) hC (fun i j _ _ => dM_sym qp reg G preg i j), fun i hi => ?_⟩
    rw [← hR i hi, ← potrf_spec sq hsq (qp.dim.nv + 1) qp.dim.nv (Nat.le_succ _) C D (singular_iff.mp hsg) qp.dim.nv i
      (Nat.lt_succ_self _) hi (by omega)]
    refine sum_congr rfl (fun l hl => ?_)
    rw [mul_comm]
    congr 1
    rw [low, if_pos (le_of_lt (mem_range.mp hl))]
  by_cases hn : qp.dim.ng > 0
  · rw [if_pos hn] at es
    rw [es]
    refine ⟨h1, fin _ _ (fun i j hi hj => ?_) (fun j hj => ?_)⟩
    · rw [dM_split qp reg G preg i j hj, hlow i j hi hj]
      congr 1
      refine sum_congr rfl (fun l hl => ?_)
      have hl := mem_range.mp hl
      rw [rowin, if_neg (by omega), gemm_nd, if_pos (by omega), h2 _ (by omega)]; simp
    · rw [edg, hrow j hj, ← add_assoc]
      congr 1
      refine sum_congr rfl (fun l hl => ?_)
      have hl := mem_range.mp hl
      rw [rowin, if_pos (by omega), h3 _ (by omega)]
      simp only [Nat.sub_zero, one_mul]; ring
  · rw [if_neg hn] at es
    rw [es]
    have h0 : qp.dim.ng = 0 := by omega
    refine ⟨h1, fin _ _ (fun i j hi hj => ?_) (fun j hj => ?_)⟩
    · rw [dM_split qp reg G preg i j hj, hlow i j hi hj, h0, range_zero, sum_empty, add_zero]
    · rw [edg, hrow j hj, h0, range_zero, sum_empty, add_zero]

end
end Hpipm
