/-
Unconstrained Riccati solve (C24): for a QP without inequality constraints
OCP_QP_FACT_SOLVE_KKT_UNCONSTR (ocp_qp/x_ocp_qp_kkt.c:316-493) returns a point whose stationarity and dynamics
residuals vanish, up to the primal regularisation, with both Riccati variants.
-/
import Verif.KktEx

namespace Hpipm
open Finset
set_option linter.unusedSectionVars false

section
variable {K : Type*} [Field K] [LinearOrder K]

/-- a QP without inequality constraints and slacks -/
def NoIneq (qp : OcpQp K) : Prop := ∀ k, k ≤ qp.dim.N → qp.dim.nb k = 0 ∧ qp.dim.ng k = 0 ∧ qp.dim.ns k = 0

/-- Hessian shift applied by the two variants: all variables (square-root), inputs only (classical) -/
def drUn (qp : OcpQp K) (sqr : Bool) (reg : K) (k i : ℕ) : K := if sqr = true ∨ i < qp.dim.nu k then reg else 0

/-- Riccati data of the unconstrained problem -/
def uData (qp : OcpQp K) (dr : ℕ → ℕ → K) (Lam P : ℕ → Mat K) : RicData K := kData qp dr 0 (fun _ _ => 0) (fun _ _ => 0) Lam P

theorem kH_noIneq {qp : OcpQp K} (h : NoIneq qp) (dr : ℕ → ℕ → K) (reg : K) (G : ℕ → Vec K) (k i j : ℕ) (hk : k ≤ qp.dim.N) :
    kH qp dr reg G k i j = symL (qp.RSQrq k) 0 0 i j + (if i = j then dr k i else 0) := by
  obtain ⟨h1, h2, _⟩ := h k hk
  simp only [kH, h1, h2, range_zero, sum_empty, add_zero]

theorem kg_noIneq {qp : OcpQp K} (h : NoIneq qp) (reg : K) (G g : ℕ → Vec K) (k i : ℕ) (hk : k ≤ qp.dim.N) :
    kg qp reg G g k i = qp.rqz k i := by
  obtain ⟨h1, h2, _⟩ := h k hk
  simp only [kg, cvalT, h1, h2, range_zero, sum_empty, add_zero]

/-- the stage matrix after inserting the gradient and the shift -/
theorem unAug_cmat {qp : OcpQp K} (h : NoIneq qp) (dr : ℕ → ℕ → K) (reg : K) (n k : ℕ) (hk : k ≤ qp.dim.N)
    (hn : n ≤ qp.dim.nu k + qp.dim.nx k)
    (hdr : ∀ i, i < qp.dim.nu k + qp.dim.nx k → dr k i = if i < n then reg else 0) (st : KktSt K) (hR : ROk qp st) :
    CMat (qp.dim.nu k + qp.dim.nx k)
      (diare n reg (rowin (qp.dim.nu k + qp.dim.nx k) 1 (qp.rqz k) 0 (st.RSQrq k) (qp.dim.nu k + qp.dim.nx k) 0) 0 0)
      (kH qp dr 0 (fun _ _ => 0) k) (kg qp 0 (fun _ _ => 0) (fun _ _ => 0) k) := by
  refine ⟨fun i j hi hj => ?_, fun j hj => ?_⟩
  · rw [kH_noIneq h dr _ _ k i j hk, symL, if_pos hj, zero_add, zero_add, hdr i hi, ← hR k i j hk hi hj]
    have e : rowin (qp.dim.nu k + qp.dim.nx k) 1 (qp.rqz k) 0 (st.RSQrq k) (qp.dim.nu k + qp.dim.nx k) 0 i j = st.RSQrq k i j := by
      rw [rowin, if_neg (by omega)]
    simp only [diare, Nat.zero_le, Nat.sub_zero, true_and, zero_add]
    by_cases hij : i = j
    · subst hij
      by_cases hin : i < n
      · rw [if_pos ⟨hin, rfl⟩, if_pos rfl, if_pos hin, e]
      · rw [if_neg (fun hc => hin hc.1), if_pos rfl, if_neg hin, e, add_zero]
    · rw [if_neg (fun hc => hij hc.2), if_neg hij, e, add_zero]
  · rw [kg_noIneq h _ _ _ k j hk]
    simp only [diare, Nat.zero_le, Nat.sub_zero, true_and, zero_add]
    rw [if_neg (by omega), rowin, if_pos (by omega)]
    simp

/-- removing the shift restores the Hessian -/
theorem unRest {qp : OcpQp K} (reg : K) (n k : ℕ) (hk : k ≤ qp.dim.N) (st : KktSt K) (hR : ROk qp st) (i j : ℕ)
    (hi : i < qp.dim.nu k + qp.dim.nx k) (hj : j ≤ i) :
    diare n (-reg) (diare n reg (rowin (qp.dim.nu k + qp.dim.nx k) 1 (qp.rqz k) 0 (st.RSQrq k) (qp.dim.nu k + qp.dim.nx k) 0) 0 0) 0 0 i j
      = qp.RSQrq k i j := by
  rw [← hR k i j hk hi hj]
  have e : rowin (qp.dim.nu k + qp.dim.nx k) 1 (qp.rqz k) 0 (st.RSQrq k) (qp.dim.nu k + qp.dim.nx k) 0 i j = st.RSQrq k i j := by
    rw [rowin, if_neg (by omega)]
  simp only [diare, Nat.zero_le, Nat.sub_zero, true_and, zero_add]
  by_cases h : i < n ∧ i = j
  · simp only [if_pos h, e]; ring
  · simp only [if_neg h, e]

theorem rok_upd {qp : OcpQp K} {st st' : KktSt K} {k : ℕ} {R : Mat K} (hR : ROk qp st) (he : st'.RSQrq = upd st.RSQrq k R)
    (h : ∀ i j, i < qp.dim.nu k + qp.dim.nx k → j ≤ i → R i j = qp.RSQrq k i j) : ROk qp st' := by
  intro q i j hq hi hj
  rw [he]
  by_cases hqk : q = k
  · subst hqk; rw [upd_same]; exact h i j hi hj
  · rw [upd_ne _ _ hqk]; exact hR q i j hq hi hj

theorem bok_upd {qp : OcpQp K} {st st' : KktSt K} {k : ℕ} (hB : BOk qp st)
    (he : st'.BAbt = upd st.BAbt k (rowin (qp.dim.nx (k + 1)) 1 (qp.b k) 0 (st.BAbt k) (qp.dim.nu k + qp.dim.nx k) 0)) : BOk qp st' := by
  intro q i a hq hi ha
  rw [he]
  by_cases hqk : q = k
  · subst hqk; rw [upd_same, rowin, if_neg (by omega)]; exact hB q i a hq hi ha
  · rw [upd_ne _ _ hqk]; exact hB q i a hq hi ha

/-! ### square-root variant -/

/-- stage `k` has been factorised by the square-root variant -/
def SqU (sq : K → K) (qp : OcpQp K) (dr : ℕ → ℕ → K) (L : ℕ → Mat K) (k : ℕ) : Prop :=
  ∃ C L0, L k = potrf_l_mn sq (qp.dim.nu k + qp.dim.nx k + 1) (qp.dim.nu k + qp.dim.nx k) C L0 ∧
    CMat (qp.dim.nu k + qp.dim.nx k) C
      ((uData qp dr L (fun q => sqP (qp.dim.nu q) (qp.dim.nx q) (L q))).M k)
      ((uData qp dr L (fun q => sqP (qp.dim.nu q) (qp.dim.nx q) (L q))).m
        (fun q => sqp (qp.dim.nu q) (qp.dim.nx q) (L q)) k)

theorem SqU.upd {sq : K → K} {qp : OcpQp K} {dr : ℕ → ℕ → K} {L : ℕ → Mat K} {k q : ℕ} (h : SqU sq qp dr L q) (X : Mat K)
    (hq : k < q) : SqU sq qp dr (upd L k X) q := by
  obtain ⟨C, L0, h1, h2⟩ := h
  have e1 : Hpipm.upd L k X q = L q := upd_ne _ _ (by omega)
  have e2 : Hpipm.upd L k X (q + 1) = L (q + 1) := upd_ne _ _ (by omega)
  refine ⟨C, L0, by rw [e1, h1], ?_⟩
  unfold uData at h2 ⊢
  rw [kData_M_congr qp dr 0 _ _ (Lam := L) (P := fun q => sqP (qp.dim.nu q) (qp.dim.nx q) (L q)) (by simp only [e2]),
    kData_m_congr qp dr 0 _ _ (Lam := L) (P := fun q => sqP (qp.dim.nu q) (qp.dim.nx q) (L q))
      (p := fun q => sqp (qp.dim.nu q) (qp.dim.nx q) (L q)) (by simp only [e2]) (by simp only [e2])]
  exact h2

theorem unSq_sweep (sq : K → K) (qp : OcpQp K) (hni : NoIneq qp) (reg : K) (st : KktSt K) (hR : ROk qp st) (hB : BOk qp st) :
    let s := loop qp.dim.N (fun ii st => unSqMid sq qp reg (qp.dim.N - ii - 1) st) (unSqLast sq qp reg st)
    ROk qp s ∧ BOk qp s ∧ ∀ k, k ≤ qp.dim.N → SqU sq qp (drUn qp true reg) s.L k := by
  intro s
  have hdr : ∀ k i, i < qp.dim.nu k + qp.dim.nx k → drUn qp true reg k i = if i < qp.dim.nu k + qp.dim.nx k then reg else 0 := by
    intro k i hi
    rw [if_pos hi, drUn, if_pos (Or.inl rfl)]
  have key := loop_inv (S := KktSt K) (fun nn s => ROk qp s ∧ BOk qp s ∧
      (∀ k, qp.dim.N ≤ k + nn → k ≤ qp.dim.N → SqU sq qp (drUn qp true reg) s.L k)) qp.dim.N
    (fun ii st => unSqMid sq qp reg (qp.dim.N - ii - 1) st) (unSqLast sq qp reg st) ?_ ?_
  · exact ⟨key.1, key.2.1, fun k hk => key.2.2 k (by omega) hk⟩
  · refine ⟨rok_upd hR (k := qp.dim.N) rfl (fun i j hi hj => unRest reg _ _ (le_refl _) st hR i j hi hj), hB, fun k hk1 hk2 => ?_⟩
    have : k = qp.dim.N := by omega
    subst this
    refine ⟨_, _, (upd_same _ _ _), ?_⟩
    · unfold uData
      rw [kData_M_ge _ _ _ _ _ _ _ (lt_irrefl _), kData_m_ge _ _ _ _ _ _ _ _ (lt_irrefl _)]
      exact unAug_cmat hni _ reg _ _ (le_refl _) (le_refl _) (hdr _) st hR
  · rintro nn t hnn ⟨h1, h2, h3⟩
    set k := qp.dim.N - nn - 1 with hk
    have hkN : k < qp.dim.N := by omega
    refine ⟨rok_upd h1 (k := k) rfl (fun i j hi hj => unRest reg _ _ (le_of_lt hkN) t h1 i j hi hj), bok_upd h2 (k := k) rfl, fun q hq1 hq2 => ?_⟩
    by_cases hqk : q = k
    · rw [hqk]
      set nv := qp.dim.nu k + qp.dim.nx k with hnv
      set n1 := qp.dim.nx (k + 1) with hn1
      set nu1 := qp.dim.nu (k + 1) with hnu1
      obtain ⟨a1, a2, _⟩ := sqAL_in nv nu1 n1 (t.L (k + 1)) (t.BAbt k) t.AL0 (qp.b k)
      set A := gead 1 n1 1 (t.L (k + 1)) (nu1 + n1) nu1 (trmm_rlnn (nv + 1) n1 1 (t.L (k + 1)) nu1 nu1
        (rowin n1 1 (qp.b k) 0 (t.BAbt k) nv 0) 0 0 t.AL0 0 0) nv 0 with hA
      have hg := unAug_cmat hni (drUn qp true reg) reg nv k (le_of_lt hkN) (le_refl _) (hdr k) t h1
      have a1' : ∀ i a, i < nv → a < n1 → A i a = ∑ l ∈ range n1, qp.BAbt k i l * low (t.L (k + 1)) (nu1 + l) (nu1 + a) := by
        intro i a hi ha
        rw [a1 i a hi ha]
        exact sum_congr rfl (fun l hl => by rw [h2 k i l hkN hi (mem_range.mp hl)])
      have hX : ∀ i j, i < nv → j ≤ i → ∑ l ∈ range n1, A i l * A j l =
          ∑ a ∈ range n1, ∑ c ∈ range n1, qp.BAbt k i a * sqP nu1 n1 (t.L (k + 1)) a c * qp.BAbt k j c := by
        intro i j hi hj
        simp only [sqP]
        rw [← sq_prod n1 (qp.BAbt k i) (qp.BAbt k j) (fun l a => low (t.L (k + 1)) (nu1 + l) (nu1 + a))]
        apply sum_congr rfl
        intro l hl
        rw [a1' i l hi (mem_range.mp hl), a1' j l (by omega) (mem_range.mp hl)]
      have hx : ∀ j, j < nv → ∑ l ∈ range n1, A nv l * A j l =
          ∑ a ∈ range n1, qp.BAbt k j a * (∑ c ∈ range n1, sqP nu1 n1 (t.L (k + 1)) a c * qp.b k c + sqp nu1 n1 (t.L (k + 1)) a) := by
        intro j hj
        have := sq_prod_row n1 (qp.b k) (fun l => t.L (k + 1) (nu1 + n1) (nu1 + l)) (qp.BAbt k j)
          (fun l a => low (t.L (k + 1)) (nu1 + l) (nu1 + a))
        simp only [sqP, sqp]
        rw [← this]
        apply sum_congr rfl
        intro l hl
        rw [a2 l (mem_range.mp hl), a1' j l hj (mem_range.mp hl)]
      have hC := ric_add hg hX hx
      refine ⟨_, _, (upd_same _ _ _), ?_⟩
      · have e : (unSqMid sq qp reg k t).L (k + 1) = t.L (k + 1) := upd_ne _ _ (by omega)
        unfold uData
        rw [kData_M_lt _ _ _ _ _ _ _ hkN, kData_m_lt _ _ _ _ _ _ _ _ hkN]
        simp only [e]
        exact hC
    · exact (h3 q (by omega) hq2).upd _ (by omega)

/-! ### classical variant -/

/-- stage `k ≥ 1` has been factorised by the classical variant -/
def ClU (sq : K → K) (qp : OcpQp K) (dr : ℕ → ℕ → K) (st : KktSt K) (k : ℕ) : Prop :=
  ∃ C L0, st.L k = potrf_l_mn sq (qp.dim.nu k + qp.dim.nx k + 1) (qp.dim.nu k) C L0 ∧
    CMat (qp.dim.nu k + qp.dim.nx k) C ((uData qp dr st.L st.P).M k)
      ((uData qp dr st.L st.P).m (fun q => st.P q (qp.dim.nx q)) k) ∧ SchurOk qp.dim k C st

theorem ClU.upd {sq : K → K} {qp : OcpQp K} {dr : ℕ → ℕ → K} {st st' : KktSt K} {k q : ℕ} (h : ClU sq qp dr st q)
    (hL : ∀ q, q ≠ k → st'.L q = st.L q) (hP : ∀ q, q ≠ k → st'.P q = st.P q) (hq : k < q) : ClU sq qp dr st' q := by
  obtain ⟨C, L0, h1, h2, h3⟩ := h
  have e1 : st'.L q = st.L q := hL _ (by omega)
  have e2 : st'.P (q + 1) = st.P (q + 1) := hP _ (by omega)
  have e3 : st'.P q = st.P q := hP _ (by omega)
  refine ⟨C, L0, by rw [e1, h1], ?_, ⟨fun i j => ?_, fun i j => ?_, fun j => ?_⟩⟩
  · unfold uData at h2 ⊢
    rw [kData_M_congr qp dr 0 _ _ (Lam := st.L) (P := st.P) e2,
      kData_m_congr qp dr 0 _ _ (Lam := st.L) (P := st.P) (p := fun q => st.P q (qp.dim.nx q)) e2 (by simp only [e2])]
    exact h2
  · rw [e1, e3]; exact h3.lower i j
  · rw [e3]; exact h3.sym i j
  · rw [e1, e3]; exact h3.row j

/-- the Schur complement of the last stage, computed from the problem matrix -/
theorem schur_R (D : QpDim) (k : ℕ) (C R L Ls P0 : Mat K) (st' : KktSt K) (hL : st'.L k = L)
    (hP' : st'.P k = trtr_l (D.nx k) (syrk_ln_mn (D.nx k + 1) (D.nx k) (D.nu k) (-1) (gecp (D.nx k + 1) (D.nu k) L (D.nu k) 0 Ls 0 0) 0 0
      (gecp (D.nx k + 1) (D.nu k) L (D.nu k) 0 Ls 0 0) 0 0 1 R (D.nu k) (D.nu k) P0 0 0) 0 0
      (syrk_ln_mn (D.nx k + 1) (D.nx k) (D.nu k) (-1) (gecp (D.nx k + 1) (D.nu k) L (D.nu k) 0 Ls 0 0) 0 0
      (gecp (D.nx k + 1) (D.nu k) L (D.nu k) 0 Ls 0 0) 0 0 1 R (D.nu k) (D.nu k) P0 0 0) 0 0)
    (hRC : ∀ i j, i ≤ D.nx k → j < D.nx k → j ≤ i → R (D.nu k + i) (D.nu k + j) = C (D.nu k + i) (D.nu k + j)) :
    SchurOk D k C st' := by
  have hs : ∀ i j, i < D.nx k + 1 → j < D.nx k → j ≤ i →
      syrk_ln_mn (D.nx k + 1) (D.nx k) (D.nu k) (-1) (gecp (D.nx k + 1) (D.nu k) L (D.nu k) 0 Ls 0 0) 0 0
        (gecp (D.nx k + 1) (D.nu k) L (D.nu k) 0 Ls 0 0) 0 0 1 R (D.nu k) (D.nu k) P0 0 0 i j =
      C (D.nu k + i) (D.nu k + j) - ∑ l ∈ range (D.nu k), L (D.nu k + i) l * L (D.nu k + j) l := by
    intro i j hi hj hij
    rw [syrk_ln_mn, if_pos (by omega)]
    have e2 : ∑ l ∈ range (D.nu k), gecp (D.nx k + 1) (D.nu k) L (D.nu k) 0 Ls 0 0 (0 + (i - 0)) (0 + l) *
          gecp (D.nx k + 1) (D.nu k) L (D.nu k) 0 Ls 0 0 (0 + (j - 0)) (0 + l) =
        ∑ l ∈ range (D.nu k), L (D.nu k + i) l * L (D.nu k + j) l := by
      apply sum_congr rfl
      intro l hl
      have hl := mem_range.mp hl
      rw [gecp, if_pos (by omega), gecp, if_pos (by omega)]
      simp only [Nat.sub_zero, zero_add]
    rw [e2, Nat.sub_zero, Nat.sub_zero, hRC i j (by omega) hj hij]; ring
  have hP : ∀ i j, i < D.nx k + 1 → j < D.nx k → j ≤ i → st'.P k i j = C (D.nu k + i) (D.nu k + j) -
      ∑ l ∈ range (D.nu k), L (D.nu k + i) l * L (D.nu k + j) l := by
    intro i j hi hj hij
    rw [hP']
    by_cases hij2 : i = j
    · subst hij2
      rw [trtr_l, if_pos (by omega)]
      simp only [Nat.sub_zero, zero_add]
      exact hs i i hi hj hij
    · rw [trtr_l, if_neg (by omega)]
      exact hs i j hi hj hij
  have hPt : ∀ i j, j < D.nx k → i ≤ j → st'.P k i j = st'.P k j i := by
    intro i j hj hij
    by_cases hij2 : i = j
    · rw [hij2]
    · rw [hP', trtr_l, if_pos (by omega), trtr_l, if_neg (by omega)]
      simp only [Nat.sub_zero, zero_add]
  have hlow : ∀ i l, l < D.nu k → low (st'.L k) (D.nu k + i) l = L (D.nu k + i) l := by
    intro i l hl
    rw [hL, low, if_pos (by omega)]
  refine ⟨fun i j hi hj => ?_, fun i j hi hj => ?_, fun j hj => ?_⟩
  · have : ∑ l ∈ range (D.nu k), low (st'.L k) (D.nu k + i) l * low (st'.L k) (D.nu k + j) l =
        ∑ l ∈ range (D.nu k), L (D.nu k + i) l * L (D.nu k + j) l :=
      sum_congr rfl (fun l hl => by rw [hlow i l (mem_range.mp hl), hlow j l (mem_range.mp hl)])
    rw [hP i j (by omega) (by omega) hj, this]
    ring
  · rcases Nat.le_total i j with h | h
    · exact hPt i j hj h
    · exact (hPt j i hi h).symm
  · have : ∑ l ∈ range (D.nu k), low (st'.L k) (D.nu k + j) l * st'.L k (D.nu k + D.nx k) l =
        ∑ l ∈ range (D.nu k), L (D.nu k + D.nx k) l * L (D.nu k + j) l :=
      sum_congr rfl (fun l hl => by rw [hlow j l (mem_range.mp hl), hL]; exact mul_comm _ _)
    rw [hP (D.nx k) j (by omega) hj (by omega), this]; ring

/-- matrix handed to the factorisation by the classical variant -/
theorem unClC (qp : OcpQp K) (hni : NoIneq qp) (reg : K) (k : ℕ) (hkN : k < qp.dim.N) (t : KktSt K) (h1 : ROk qp t) (h2 : BOk qp t)
    (hP : ∀ i j, i < qp.dim.nx (k + 1) → j < qp.dim.nx (k + 1) → t.P (k + 1) i j = t.P (k + 1) j i) :
    CMat (qp.dim.nu k + qp.dim.nx k)
      (fun i j => (unClProp qp reg k t).RSQrq k i j + ∑ l ∈ range (qp.dim.nx (k + 1)),
        (unClProp qp reg k t).AL0 i l * (unClProp qp reg k t).BAbt k j l)
      (ricM (qp.dim.nx (k + 1)) (kH qp (drUn qp false reg) 0 (fun _ _ => 0) k) (qp.BAbt k) (t.P (k + 1)))
      (ricm (qp.dim.nx (k + 1)) (kg qp 0 (fun _ _ => 0) (fun _ _ => 0) k) (qp.BAbt k) (t.P (k + 1)) (qp.b k)
        (t.P (k + 1) (qp.dim.nx (k + 1)))) := by
  obtain ⟨_, _, _, _, _, a1, a2⟩ := clProp_val qp k hkN t h2 hP
  have hg := unAug_cmat hni (drUn qp false reg) reg (qp.dim.nu k) k (le_of_lt hkN) (by omega)
    (fun i hi => by simp [drUn]) t h1
  refine cl_C qp k _ _ _ _ _ _ _ _ _ _ ?_ (fun i a hi ha => ?_) a1 a2
  · simp only [unClProp, upd_same]; exact hg
  · exact bok_upd (st' := unClProp qp reg k t) h2 (k := k) rfl k i a hkN hi ha

theorem unCl_sweep (sq : K → K) (qp : OcpQp K) (hni : NoIneq qp) (hN : 1 ≤ qp.dim.N) (reg : K) (st : KktSt K) (hR : ROk qp st)
    (hB : BOk qp st) :
    let s0 := loop (qp.dim.N - 1) (fun ii st => unClMid sq qp reg (qp.dim.N - ii - 1) st) (unClLast sq qp reg st)
    let s := unClFirst sq qp reg 0 s0
    ROk qp s ∧ BOk qp s ∧ (∀ k, 1 ≤ k → k ≤ qp.dim.N → ClU sq qp (drUn qp false reg) s k) ∧
      ∃ C L0, s.L 0 = potrf_l_mn sq (qp.dim.nu 0 + qp.dim.nx 0 + 1) (qp.dim.nu 0 + qp.dim.nx 0) C L0 ∧
        CMat (qp.dim.nu 0 + qp.dim.nx 0) C ((uData qp (drUn qp false reg) s.L s.P).M 0)
          ((uData qp (drUn qp false reg) s.L s.P).m (fun q => s.P q (qp.dim.nx q)) 0) := by
  intro s0 s
  have hdr : ∀ k i, i < qp.dim.nu k + qp.dim.nx k → drUn qp false reg k i = if i < qp.dim.nu k then reg else 0 := by
    intro k i hi; simp [drUn]
  have key := loop_inv (S := KktSt K) (fun nn s => ROk qp s ∧ BOk qp s ∧
      (∀ k, qp.dim.N ≤ k + nn → k ≤ qp.dim.N → ClU sq qp (drUn qp false reg) s k)) (qp.dim.N - 1)
    (fun ii st => unClMid sq qp reg (qp.dim.N - ii - 1) st) (unClLast sq qp reg st) ?_ ?_
  · obtain ⟨h1, h2, h3⟩ := key
    change ROk qp s0 at h1
    change BOk qp s0 at h2
    change ∀ k, qp.dim.N ≤ k + (qp.dim.N - 1) → k ≤ qp.dim.N → ClU sq qp (drUn qp false reg) s0 k at h3
    obtain ⟨_, _, _, _, hS⟩ := h3 1 (by omega) hN
    have eR : s.RSQrq = upd s0.RSQrq 0 (diare (qp.dim.nu 0) (-reg) (diare (qp.dim.nu 0) reg
        (rowin (qp.dim.nu 0 + qp.dim.nx 0) 1 (qp.rqz 0) 0 (s0.RSQrq 0) (qp.dim.nu 0 + qp.dim.nx 0) 0) 0 0) 0 0) := by
      funext q
      by_cases hq : q = 0
      · subst hq; simp only [s, unClFirst, unClProp, upd_same]
      · simp only [s, unClFirst, unClProp, upd_ne _ _ hq]
    have eB : s.BAbt = upd s0.BAbt 0 (rowin (qp.dim.nx (0 + 1)) 1 (qp.b 0) 0 (s0.BAbt 0) (qp.dim.nu 0 + qp.dim.nx 0) 0) := rfl
    refine ⟨rok_upd h1 eR (fun i j hi hj => unRest reg _ _ (by omega) s0 h1 i j hi hj), bok_upd h2 eB,
      fun k hk1 hk2 => (h3 k (by omega) hk2).upd (k := 0) (fun q hq => upd_ne _ _ hq) (fun q hq => rfl) (by omega), ?_⟩
    refine ⟨_, _, (upd_same (unClProp qp reg 0 s0).L 0 _ : s.L 0 = _), ?_⟩
    · have hlt : 0 < qp.dim.N := by omega
      have e : s.P (0 + 1) = s0.P (0 + 1) := rfl
      unfold uData
      rw [kData_M_lt _ _ _ _ _ _ _ hlt, kData_m_lt _ _ _ _ _ _ _ _ hlt]
      exact unClC qp hni reg 0 hlt s0 h1 h2 hS.sym
  · refine ⟨rok_upd hR (k := qp.dim.N) rfl (fun i j hi hj => unRest reg _ _ (le_refl _) st hR i j hi hj), hB, fun k hk1 hk2 => ?_⟩
    have : k = qp.dim.N := by omega
    subst this
    refine ⟨_, _, (upd_same _ _ _), ?_, ?_⟩
    · unfold uData
      rw [kData_M_ge _ _ _ _ _ _ _ (lt_irrefl _), kData_m_ge _ _ _ _ _ _ _ _ (lt_irrefl _)]
      exact unAug_cmat hni _ reg _ _ (le_refl _) (by omega) (hdr _) st hR
    · refine schur_R qp.dim qp.dim.N _ _ _ st.Ls (st.P qp.dim.N) _ (upd_same st.L _ _) (upd_same st.P _ _) ?_
      intro i j hi hj hij
      simp only [diare, Nat.zero_le, Nat.sub_zero, true_and, zero_add]
      rw [if_neg (by omega)]
  · rintro nn t hnn ⟨h1, h2, h3⟩
    set k := qp.dim.N - nn - 1 with hk
    have hkN : k < qp.dim.N := by omega
    obtain ⟨_, _, _, _, hS⟩ := h3 (k + 1) (by omega) (by omega)
    have eR : (unClMid sq qp reg k t).RSQrq = upd t.RSQrq k (diare (qp.dim.nu k) (-reg) (diare (qp.dim.nu k) reg
        (rowin (qp.dim.nu k + qp.dim.nx k) 1 (qp.rqz k) 0 (t.RSQrq k) (qp.dim.nu k + qp.dim.nx k) 0) 0 0) 0 0) := by
      funext q
      by_cases hq : q = k
      · rw [hq]; simp only [unClMid, schurStage, unClProp, upd_same]
      · simp only [unClMid, schurStage, unClProp, upd_ne _ _ hq]
    have eB : (unClMid sq qp reg k t).BAbt = upd t.BAbt k
      (rowin (qp.dim.nx (k + 1)) 1 (qp.b k) 0 (t.BAbt k) (qp.dim.nu k + qp.dim.nx k) 0) := rfl
    have hC := unClC qp hni reg k hkN t h1 h2 hS.sym
    set u := unClProp qp reg k t with hu
    set nv := qp.dim.nu k + qp.dim.nx k with hnv
    set C := syrk_ln_mn (nv + 1) nv (qp.dim.nx (k + 1)) 1 u.AL0 0 0 (u.BAbt k) 0 0 1 (u.RSQrq k) 0 0 (u.L k) 0 0 with hCd
    have hC' : CMat nv C _ _ := hC.congr (fun i j hi hj hij => by
      rw [hCd, syrk_ln_mn, if_pos (by omega)]; simp)
    set t1 : KktSt K := { u with
      L := upd u.L k (potrf_l_mn sq (nv + 1) (qp.dim.nu k) C C)
      RSQrq := upd u.RSQrq k (diare (qp.dim.nu k) (-reg) (u.RSQrq k) 0 0) } with ht1
    have hmid : unClMid sq qp reg k t = schurStage qp.dim k t1 := rfl
    obtain ⟨g1, g2, g3, g4, g5, g6, g7⟩ := schurStage_val sq qp.dim k C t1 (by simp only [ht1, upd_same]; rfl)
    refine ⟨rok_upd h1 eR (fun i j hi hj => unRest reg _ _ (le_of_lt hkN) t h1 i j hi hj), bok_upd h2 eB, fun q hq1 hq2 => ?_⟩
    by_cases hqk : q = k
    · rw [hqk, hmid]
      refine ⟨C, C, by rw [g2]; simp only [ht1, upd_same]; rfl, ?_, g7⟩
      have e : (schurStage qp.dim k t1).P (k + 1) = t.P (k + 1) := by rw [g1.P _ (by omega)]; rfl
      unfold uData
      rw [kData_M_lt _ _ _ _ _ _ _ hkN, kData_m_lt _ _ _ _ _ _ _ _ hkN]
      simp only [e]
      exact hC'
    · rw [hmid]
      refine (h3 q (by omega) hq2).upd (k := k) (fun q hq => ?_) (fun q hq => ?_) (by omega)
      · rw [g2]; exact upd_ne _ _ hq
      · rw [g1.P _ hq]; rfl

/-! ### result -/

theorem NoIneq.wf {qp : OcpQp K} (h : NoIneq qp) : qp.WF := by
  refine ⟨fun k j hk hj => ?_, fun k j hk hj => ?_⟩ <;> obtain ⟨h1, h2, _⟩ := h k hk <;> omega

theorem NoIneq.unshared {qp : OcpQp K} (h : NoIneq qp) : Unshared qp := by
  intro k j j' hk hj
  obtain ⟨h1, h2, _⟩ := h k hk
  omega

theorem NoIneq.nct {qp : OcpQp K} (h : NoIneq qp) {k : ℕ} (hk : k ≤ qp.dim.N) : nct qp.dim k = 0 := by
  obtain ⟨h1, h2, h3⟩ := h k hk
  simp [Hpipm.nct, h1, h2, h3]

/-- number of columns of stage `k` that the unconstrained solver factorises -/
def nfac (D : QpDim) (sqr : Bool) (k : ℕ) : ℕ := if sqr = true ∨ k = 0 then D.nu k + D.nx k else D.nu k

/-- state before the forward sweep -/
def unBack (sq : K → K) (qp : OcpQp K) (sqr : Bool) (reg : K) (st : KktSt K) : KktSt K :=
  if sqr then loop qp.dim.N (fun ii st => unSqMid sq qp reg (qp.dim.N - ii - 1) st) (unSqLast sq qp reg st)
  else unClFirst sq qp reg 0
    (loop (qp.dim.N - 1) (fun ii st => unClMid sq qp reg (qp.dim.N - ii - 1) st) (unClLast sq qp reg st))

theorem unconstr_eq (sq : K → K) (qp : OcpQp K) (hN : 1 ≤ qp.dim.N) (dual sqr : Bool) (reg : K) (st : KktSt K) :
    unconstr sq qp dual sqr reg st = fwd qp dual sqr (unBack sq qp sqr reg st) := by
  cases sqr
  · have e : qp.dim.N - (qp.dim.N - 1) - 1 = 0 := by omega
    simp only [unconstr, unBack, Bool.false_eq_true, if_false, if_pos (show qp.dim.N > 0 by omega), e]
  · rfl

/-- the same state with the products `P*b` filled in (the unconstrained routine does not store them) -/
def withPb (qp : OcpQp K) (P : ℕ → Mat K) (st : KktSt K) : KktSt K :=
  { st with Pb := fun k a => ∑ c ∈ range (qp.dim.nx (k + 1)), P (k + 1) a c * qp.b k c }

theorem unBack_ok (sq : K → K) (hsq : ∀ x, 0 < x → sq x * sq x = x) (qp : OcpQp K) (hni : NoIneq qp) (hN : 1 ≤ qp.dim.N)
    (sqr : Bool) (reg : K) (st : KktSt K) (hR : ROk qp st) (hB : BOk qp st)
    (hp : ∀ k j, k ≤ qp.dim.N → j < nfac qp.dim sqr k → (unBack sq qp sqr reg st).L k j j ≠ 0) :
    let s := unBack sq qp sqr reg st
    BOk qp s ∧ (uData qp (drUn qp sqr reg) s.L (ctgP qp.dim sqr s)).Fac ∧
    (uData qp (drUn qp sqr reg) s.L (ctgP qp.dim sqr s)).Rhs (ctgp qp.dim sqr s) (fun k l => s.L k (qp.dim.nu k + qp.dim.nx k) l) := by
  intro s
  have hslk : ∀ (w : KktSt K) k, k ≤ qp.dim.N → StSlk qp 0 (fun _ _ => 0) (fun _ _ => 0) k w := by
    intro w k hk
    obtain ⟨_, _, h3⟩ := hni k hk
    exact ⟨fun i hi => by omega, fun i hi => by omega⟩
  cases sqr
  · obtain ⟨h1, h2, h3, C, L0, h4, h5⟩ := unCl_sweep sq qp hni hN reg st hR hB
    change ROk qp s at h1
    change BOk qp s at h2
    have hb := clBack_back sq hsq qp (drUn qp false reg) 0 (fun _ _ => 0) (fun _ _ => 0) (withPb qp s.P s) h1 h2 hN
      ⟨hslk _ 0 (by omega), fun a _ => rfl, ⟨C, L0, h4, h5⟩, fun j hj => hp 0 j (by omega) (by simpa [nfac] using hj)⟩
      (fun k hk1 hk => by
        obtain ⟨C, L0, g1, g2, g3⟩ := h3 k hk1 hk
        exact ⟨hslk _ k hk, fun a _ _ => rfl, ⟨C, L0, g1, g2, ⟨g3.lower, g3.sym, g3.row⟩⟩, fun j hj => hp k j hk (by
          simp only [nfac]; rw [if_neg (by simp; omega)]; exact hj)⟩)
    exact ⟨h2, hb.fac, hb.rhs⟩
  · obtain ⟨h1, h2, h3⟩ := unSq_sweep sq qp hni reg st hR hB
    change ROk qp s at h1
    change BOk qp s at h2
    have hb := sqBack_back sq hsq qp (drUn qp true reg) 0 (fun _ _ => 0) (fun _ _ => 0)
      (withPb qp (fun q => sqP (qp.dim.nu q) (qp.dim.nx q) (s.L q)) s) h1 h2
      (fun k hk => by
        obtain ⟨C, L0, g1, g2⟩ := h3 k hk
        exact ⟨hslk _ k hk, fun a _ _ => rfl, ⟨C, L0, g1, g2⟩, fun j hj => hp k j hk (by simpa [nfac] using hj)⟩)
    exact ⟨h2, hb.fac, hb.rhs⟩

theorem nel_le_nfac (D : QpDim) (sqr : Bool) (k : ℕ) : nel D k ≤ nfac D sqr k := by
  unfold nel nfac
  by_cases h : k = 0
  · subst h; simp
  · rw [if_neg h]; split_ifs <;> omega

theorem fwd_L (qp : OcpQp K) (dual sqr : Bool) (st : KktSt K) : (fwd qp dual sqr st).L = st.L := by
  have h1 : ∀ n k (s : KktSt K), (sqFwd qp dual n k s).L = s.L := by
    intro n k s; simp only [sqFwd]
  have h2 : ∀ n k (s : KktSt K), (clFwd qp dual n k s).L = s.L := by
    intro n k s; simp only [clFwd]
  have h3 : ∀ (s : KktSt K), (fwdLast qp s).L = s.L := fun s => rfl
  have h : ∀ n k (s : KktSt K), (if sqr then sqFwd qp dual n k s else clFwd qp dual n k s).L = s.L := by
    intro n k s; split_ifs
    · exact h1 n k s
    · exact h2 n k s
  simp only [fwd]
  rw [h3]
  refine loop_inv (S := KktSt K) (fun _ s => s.L = st.L) _ _ _ (h _ _ _) (fun i s _ hs => ?_)
  rw [h, hs]

/-- the unconstrained solve satisfies the optimality conditions in terms of the packed problem -/
theorem unconstr_opt [IsStrictOrderedRing K] (sq : K → K) (hsq : ∀ x, 0 < x → sq x * sq x = x) (qp : OcpQp K) (hni : NoIneq qp) (hN : 1 ≤ qp.dim.N)
    (sqr : Bool) (reg : K) (st : KktSt K) (hR : ROk qp st) (hB : BOk qp st)
    (hp : ∀ k j, k ≤ qp.dim.N → j < nfac qp.dim sqr k → (unconstr sq qp true sqr reg st).L k j j ≠ 0) :
    let s := stepOf (unconstr sq qp true sqr reg st)
    (∀ k i, k ≤ qp.dim.N → i < qp.dim.nu k + qp.dim.nx k → vG qp s (s.lam k) k i = - drUn qp sqr reg k i * s.ux k i) ∧
    (∀ k i, k < qp.dim.N → i < qp.dim.nx (k + 1) → vB qp s k i = 0) := by
  intro s
  have hue := unconstr_eq sq qp hN true sqr reg st
  set s0 := unBack sq qp sqr reg st with hs0
  -- the forward sweep does not touch the factor, so the pivots are those before it
  have hL : (fwd qp true sqr s0).L = s0.L := fwd_L qp true sqr s0
  have hp0 : ∀ k j, k ≤ qp.dim.N → j < nfac qp.dim sqr k → s0.L k j j ≠ 0 := by
    intro k j hk hj
    have := hp k j hk hj
    rwa [hue, hL] at this
  obtain ⟨hb, hfac, hrhs⟩ := unBack_ok sq hsq qp hni hN sqr reg st hR hB hp0
  simp only [← hs0] at hb hfac hrhs
  have hF := fwd_done qp true sqr hN s0 (fun k j hk hj => hp0 k j hk (lt_of_lt_of_le hj (nel_le_nfac _ _ _)))
  rw [← hue] at hF
  have hdyn : (uData qp (drUn qp sqr reg) s0.L (ctgP qp.dim sqr s0)).Dyn (unconstr sq qp true sqr reg st).ux := by
    intro k a hk ha
    refine (hF.dyn k a hk ha).trans ?_
    congr 1
    exact sum_congr rfl (fun j hj => by rw [hb k j a hk (mem_range.mp hj) ha]; rfl)
  have hstat := hfac.solves hrhs hdyn hF.solve (hF.pi rfl)
  have hE : StepEq qp 0 (fun _ _ => 0) (fun _ _ => 0) (unconstr sq qp true sqr reg st).ux s := by
    refine ⟨fun k i _ _ => rfl, fun k i hk hi => ?_, fun k i hk hi => ?_, fun k j hk hj => ?_⟩
    · have := (hni k hk).2.2; omega
    · have := (hni k hk).2.2; omega
    · rw [hni.nct hk] at hj; omega
  exact ⟨fun k i hk hi => hE.stat hni.wf hni.unshared (drUn qp sqr reg) s0.L _ hstat k i hk hi,
    fun k i hk hi => hE.dyn (drUn qp sqr reg) s0.L _ hdyn k i hk hi⟩


/-- **C24.**  For a QP without inequality constraints the solution returned by the unconstrained solver has zero dynamics
residual and a stationarity residual equal to minus the regularisation times the solution (zero with `reg_prim = 0`),
for both Riccati variants, whenever the factorisation has met no zero pivot.  The residuals are those of
OCP_QP_RES_COMPUTE. -/
theorem unconstr_residual [IsStrictOrderedRing K] (sq : K → K) (hsq : ∀ x, 0 < x → sq x * sq x = x) (qp : OcpQp K) (hni : NoIneq qp)
    (hN : 1 ≤ qp.dim.N) (sqr : Bool) (reg : K) (st : KktSt K) (hR : ROk qp st) (hB : BOk qp st)
    (hp : ∀ k j, k ≤ qp.dim.N → j < nfac qp.dim sqr k → (unconstr sq qp true sqr reg st).L k j j ≠ 0)
    (res : Res K) (ws : ResWs K) (hws : ws.Ok qp) :
    let s := stepOf (unconstr sq qp true sqr reg st)
    let r := resCompute qp s res ws
    (∀ k i, k ≤ qp.dim.N → i < qp.dim.nu k + qp.dim.nx k → r.res_g k i = - drUn qp sqr reg k i * s.ux k i) ∧
    (∀ k i, k < qp.dim.N → i < qp.dim.nx (k + 1) → r.res_b k i = 0) := by
  intro s r
  obtain ⟨h1, h2⟩ := unconstr_opt sq hsq qp hni hN sqr reg st hR hB hp
  have hv := (resCompute_val qp hni.wf s res ws hws).1
  refine ⟨fun k i hk hi => ?_, fun k i hk hi => ?_⟩
  · rw [← h1 k i hk hi, (hv k hk).1.g i (by unfold nvt; omega)]
    obtain ⟨e1, e2, e3⟩ := hni k hk
    simp only [vG, cvalT, e1, e2, range_zero, sum_empty, if_pos hi]
    rfl
  · rw [← h2 k i hk hi]
    exact (hv k (le_of_lt hk)).1.b hk i hi

end

section
variable {K : Type*} [Field K] [LinearOrder K] [IsStrictOrderedRing K]

/-- no breakdown: with a strictly convex (shifted) objective every pivot of the unconstrained solver is nonzero -/
theorem unconstr_piv (sq : K → K) (hsq : ∀ x, 0 < x → sq x * sq x = x) (qp : OcpQp K) (hni : NoIneq qp) (hN : 1 ≤ qp.dim.N)
    (dual sqr : Bool) (reg : K) (hsc : StrictlyConvex qp (drUn qp sqr reg) 0) (st : KktSt K) (hR : ROk qp st) (hB : BOk qp st) (k j : ℕ)
    (hk : k ≤ qp.dim.N) (hj : j < nfac qp.dim sqr k) : (unconstr sq qp dual sqr reg st).L k j j ≠ 0 := by
  rw [unconstr_eq sq qp hN, fwd_L]
  have hpd : ∀ k, k ≤ qp.dim.N → Pd (qp.dim.nu k + qp.dim.nx k) (kH qp (drUn qp sqr reg) 0 (fun _ _ => 0) k) := fun k hk =>
    kH_pd hni.wf hsc ⟨fun _ _ => 0, fun _ _ => 0, fun _ _ => 0, fun _ _ => 0⟩
      (fun k j hk hj => by rw [hni.nct hk] at hj; omega) _ k hk (fun j hj => by rw [hni.nct hk] at hj; omega)
  cases sqr
  · obtain ⟨_, _, h3, C, L0, h4, h5⟩ := unCl_sweep sq qp hni hN reg st hR hB
    set s := unBack sq qp false reg st with hs
    have hM : ∀ d k, k + d = qp.dim.N → 1 ≤ k → Psd (qp.dim.nx k) (s.P k) ∧ Pd (qp.dim.nu k + qp.dim.nx k)
        ((uData qp (drUn qp false reg) s.L s.P).M k) ∧ (∀ i j, i < qp.dim.nu k + qp.dim.nx k → j < qp.dim.nu k + qp.dim.nx k →
          (uData qp (drUn qp false reg) s.L s.P).M k i j = (uData qp (drUn qp false reg) s.L s.P).M k j i) := by
      intro d
      induction d with
      | zero =>
        intro k hkd hk1
        obtain ⟨C, L0, g1, g2, g3⟩ := h3 k hk1 (by omega)
        have e : (uData qp (drUn qp false reg) s.L s.P).M k = kH qp (drUn qp false reg) 0 (fun _ _ => 0) k :=
          kData_M_ge _ _ _ _ _ _ _ (by omega)
        have hsy : ∀ i j, i < qp.dim.nu k + qp.dim.nx k → j < qp.dim.nu k + qp.dim.nx k →
            (uData qp (drUn qp false reg) s.L s.P).M k i j = (uData qp (drUn qp false reg) s.L s.P).M k j i := by
          intro i j _ _; rw [e]; exact kH_sym _ _ _ _ _ _ _
        have hP : Pd (qp.dim.nu k + qp.dim.nx k) ((uData qp (drUn qp false reg) s.L s.P).M k) := by rw [e]; exact hpd k (by omega)
        exact ⟨schurOk_psd' sq hsq qp.dim k C L0 _ _ s g1 g2 hsy hP g3, hP, hsy⟩
      | succ d ih =>
        intro k hkd hk1
        obtain ⟨i1, i2, i3⟩ := ih (k + 1) (by omega) (by omega)
        obtain ⟨_, _, _, _, g4⟩ := h3 (k + 1) (by omega) (by omega)
        obtain ⟨C, L0, g1, g2, g3⟩ := h3 k hk1 (by omega)
        have e : (uData qp (drUn qp false reg) s.L s.P).M k = _ := kData_M_lt _ _ _ _ _ _ _ (by omega)
        have hsy : ∀ i j, i < qp.dim.nu k + qp.dim.nx k → j < qp.dim.nu k + qp.dim.nx k →
            (uData qp (drUn qp false reg) s.L s.P).M k i j = (uData qp (drUn qp false reg) s.L s.P).M k j i := by
          rw [e]; exact ricM_sym' qp _ _ _ k _ g4.sym
        have hP : Pd (qp.dim.nu k + qp.dim.nx k) ((uData qp (drUn qp false reg) s.L s.P).M k) := by
          rw [e]; exact ricM_pd _ _ _ _ _ (hpd k (by omega)) i1
        exact ⟨schurOk_psd' sq hsq qp.dim k C L0 _ _ s g1 g2 hsy hP g3, hP, hsy⟩
    by_cases hk0 : k = 0
    · subst hk0
      have hj' : j < qp.dim.nu 0 + qp.dim.nx 0 := by simpa [nfac] using hj
      obtain ⟨_, _, _, _, g4⟩ := h3 1 (by omega) hN
      have e : (uData qp (drUn qp false reg) s.L s.P).M 0 = _ := kData_M_lt _ _ _ _ _ _ _ (by omega)
      change s.L 0 = _ at h4
      rw [h4]
      refine potrf_pd sq hsq _ _ (le_refl _) C L0 _ _ h5 ?_ ?_ j hj'
      · change ∀ i j, _ → _ → (uData qp (drUn qp false reg) s.L s.P).M 0 i j = (uData qp (drUn qp false reg) s.L s.P).M 0 j i
        rw [e]; exact ricM_sym' qp _ _ _ 0 _ g4.sym
      · change Pd _ ((uData qp (drUn qp false reg) s.L s.P).M 0)
        rw [e]; exact ricM_pd _ _ _ _ _ (hpd 0 (by omega)) (hM (qp.dim.N - 1) 1 (by omega) (le_refl _)).1
    · obtain ⟨C, L0, g1, g2, g3⟩ := h3 k (by omega) hk
      obtain ⟨_, i2, i3⟩ := hM (qp.dim.N - k) k (by omega) (by omega)
      have hj' : j < qp.dim.nu k := by
        simp only [nfac] at hj; rw [if_neg (by simp; omega)] at hj; exact hj
      change s.L k = _ at g1
      rw [g1]
      exact potrf_pd sq hsq _ _ (by omega) C L0 _ _ g2 i3 i2 j hj'
  · obtain ⟨_, _, h3⟩ := unSq_sweep sq qp hni reg st hR hB
    set s := unBack sq qp true reg st with hs
    obtain ⟨C, L0, g1, g2⟩ := h3 k hk
    change s.L k = _ at g1
    have hj' : j < qp.dim.nu k + qp.dim.nx k := by simpa [nfac] using hj
    rw [g1]
    by_cases hkN : k < qp.dim.N
    · unfold uData at g2
      rw [kData_M_lt _ _ _ _ _ _ _ hkN] at g2
      exact potrf_pd sq hsq _ _ (le_refl _) C L0 _ _ g2 (ricM_sym' qp _ _ _ k _ (fun i j _ _ => sqP_sym _ _ _ i j))
        (ricM_pd _ _ _ _ _ (hpd k hk) (sqP_psd _ _ _)) j hj'
    · unfold uData at g2
      rw [kData_M_ge _ _ _ _ _ _ _ hkN] at g2
      exact potrf_pd sq hsq _ _ (le_refl _) C L0 _ _ g2 (fun i j _ _ => kH_sym _ _ _ _ _ _ _) (hpd k hk) j hj'


theorem quad_packPt (qp : OcpQp K) (p : Pt K) : (view qp).quad (ptOf qp.dim (packPt qp.dim p)) = (view qp).quad p := by
  have e1 : (view qp).nu = qp.dim.nu := rfl
  have e2 : (view qp).nx = qp.dim.nx := rfl
  have e3 : (view qp).ns = qp.dim.ns := rfl
  have hu : ∀ k i, i < qp.dim.nu k → (ptOf qp.dim (packPt qp.dim p)).u k i = p.u k i := by
    intro k i hi; simp only [ptOf, packPt, if_pos hi]
  have hx : ∀ k i, i < qp.dim.nx k → (ptOf qp.dim (packPt qp.dim p)).x k i = p.x k i := by
    intro k i hi
    simp only [ptOf, packPt]
    rw [if_neg (by omega), if_pos (by omega), Nat.add_sub_cancel_left]
  have hsl : ∀ k i, i < qp.dim.ns k → (ptOf qp.dim (packPt qp.dim p)).sl k i = p.sl k i := by
    intro k i hi
    simp only [ptOf, packPt]
    rw [if_neg (by omega), if_neg (by omega), if_pos (by omega), Nat.add_sub_cancel_left]
  have hsu : ∀ k i, i < qp.dim.ns k → (ptOf qp.dim (packPt qp.dim p)).su k i = p.su k i := by
    intro k i hi
    simp only [ptOf, packPt]
    rw [if_neg (by omega), if_neg (by omega), if_neg (by omega), Nat.add_sub_cancel_left]
  unfold UserQp.quad
  refine sum_congr rfl (fun k _ => ?_)
  simp only [UserQp.stageQuad, e1, e2, e3]
  congr 1
  · congr 1
    · congr 1
      · congr 1
        · congr 1
          exact sum_congr rfl (fun i hi => sum_congr rfl (fun j hj => by rw [hu k i (mem_range.mp hi), hu k j (mem_range.mp hj)]))
        · exact sum_congr rfl (fun i hi => sum_congr rfl (fun j hj => by rw [hu k i (mem_range.mp hi), hx k j (mem_range.mp hj)]))
      · congr 1
        exact sum_congr rfl (fun i hi => sum_congr rfl (fun j hj => by rw [hx k i (mem_range.mp hi), hx k j (mem_range.mp hj)]))
    · congr 1
      exact sum_congr rfl (fun i hi => by rw [hsl k i (mem_range.mp hi)])
  · congr 1
    exact sum_congr rfl (fun i hi => by rw [hsu k i (mem_range.mp hi)])

theorem StrictlyConvex.convex {qp : OcpQp K} (h : StrictlyConvex qp (fun _ _ => 0) 0) : (view qp).Convex := by
  intro p
  rw [← quad_packPt qp p]
  set v := packPt qp.dim p
  by_cases hv : ∃ k i, k ≤ qp.dim.N ∧ i < qp.dim.nu k + qp.dim.nx k + 2 * qp.dim.ns k ∧ v k i ≠ 0
  · have := h v hv
    have e : regQuad qp (fun _ _ => 0) 0 v = 0 := by simp [regQuad]
    rw [e, add_zero] at this
    linarith
  · push Not at hv
    refine sum_nonneg (fun k hk => ?_)
    have hk : k ≤ qp.dim.N := by have := mem_range.mp hk; have e : (view qp).N = qp.dim.N := rfl; omega
    rw [stageQuad_packed]
    rw [sum_eq_zero (fun i hi => by rw [hv k i hk (by have := mem_range.mp hi; omega), mul_zero]),
      sum_eq_zero (fun i hi => by rw [hv k _ hk (by have := mem_range.mp hi; omega), mul_zero])]
    simp

/-- **C24.**  Without regularisation and with a strictly convex objective the unconstrained solver returns the global
minimiser of the problem (feasible for the dynamics, objective not larger than that of any other feasible point), with
both Riccati variants. -/
theorem unconstr_optimal (sq : K → K) (hsq : ∀ x, 0 < x → sq x * sq x = x) (qp : OcpQp K) (hni : NoIneq qp) (hN : 1 ≤ qp.dim.N)
    (sqr : Bool) (hsc : StrictlyConvex qp (fun _ _ => 0) 0) (st : KktSt K) (hR : ROk qp st) (hB : BOk qp st) :
    (view qp).IsOptimal (ptOf qp.dim (unconstr sq qp true sqr 0 st).ux) := by
  have hd0 : drUn qp sqr 0 = fun _ _ => 0 := by funext k i; simp [drUn]
  have hp := unconstr_piv sq hsq qp hni hN true sqr 0 (by rw [hd0]; exact hsc) st hR hB
  let r0 : Res K := ⟨fun _ _ => 0, fun _ _ => 0, fun _ _ => 0, fun _ _ => 0, 0, 0, 0, 0⟩
  let w0 : ResWs K := ⟨fun _ => 0, fun _ => 0, fun _ => 0, false, false, 0⟩
  have hw0 : w0.Ok qp := fun h => by simp [w0] at h
  obtain ⟨h1, h2⟩ := unconstr_residual sq hsq qp hni hN sqr 0 st hR hB hp r0 w0 hw0
  have hnn : ∀ k j, k ≤ qp.dim.N → j < 2 * qp.dim.nb k + 2 * qp.dim.ng k + 2 * qp.dim.ns k → False := by
    intro k j hk hj
    obtain ⟨e1, e2, e3⟩ := hni k hk
    omega
  refine res_zero_optimal qp hni.wf (fun k j hk hj => absurd hj (fun hj => hnn k j hk hj)) ?_
    (stepOf (unconstr sq qp true sqr 0 st)) r0 w0 hw0 ?_ h2
    (fun k j hk hj => (hnn k j hk hj).elim) (fun k j hk hj => (hnn k j hk hj).elim) (fun k j hk hj => (hnn k j hk hj).elim)
  · exact hsc.convex
  · intro k i hk hi
    rw [h1 k i hk (by have := (hni k hk).2.2; omega), hd0, neg_zero, zero_mul]


end

/-! ### example -/

/-- two stages, one input, one state, dynamics `x1 = u0 + x0 + 1`, cost `½(u0² + x0² + x1²)` plus `x0` -/
noncomputable def exUQp : OcpQp ℝ where
  dim := { exRDim with N := 1, nx := fun _ => 1, nu := fun k => if k = 0 then 1 else 0, nb := fun _ => 0, ng := fun _ => 0, ns := fun _ => 0 }
  BAbt := fun _ _ _ => 1
  RSQrq := fun _ i j => if i = j then 1 else 0
  DCt := fun _ _ _ => 1
  b := fun _ _ => 1
  rqz := fun k i => if k = 0 ∧ i = 1 then 1 else 0
  d := fun _ _ => 0
  d_mask := fun _ _ => 1
  m := fun _ _ => 0
  Z := fun _ _ => 1
  idxb := fun _ _ => 0
  idxs_rev := fun _ _ => -1
  idxe := fun _ _ => 0
  diag_H_flag := fun _ => 0

theorem exUQp_strict : StrictlyConvex exUQp (fun _ _ => 0) 0 := by
  rintro v ⟨k, i, hk, hi, hv⟩
  have e : 2 * (view exUQp).quad (ptOf exUQp.dim v) + regQuad exUQp (fun _ _ => 0) 0 v
      = v 0 0 * v 0 0 + v 0 1 * v 0 1 + v 1 0 * v 1 0 := by
    have h0 : ∀ k, exUQp.dim.ns k = 0 := fun _ => rfl
    have h1 : (view exUQp).N = 1 := rfl
    have h2 : exUQp.dim.nu 0 + exUQp.dim.nx 0 = 2 := rfl
    have h3 : exUQp.dim.nu 1 + exUQp.dim.nx 1 = 1 := rfl
    simp only [UserQp.quad, regQuad, h1, zero_mul, sum_const_zero, add_zero]
    simp only [sum_range_succ, range_zero, sum_empty, zero_add, stageQuad_packed, h0, mul_zero, h2, h3, add_zero]
    simp only [hmul, h2, h3, sum_range_succ, range_zero, sum_empty, zero_add, symL]
    simp [exUQp]
    ring
  rw [e]
  have hk' : k = 0 ∨ k = 1 := by have : exUQp.dim.N = 1 := rfl; omega
  have : v 0 0 ≠ 0 ∨ v 0 1 ≠ 0 ∨ v 1 0 ≠ 0 := by
    rcases hk' with rfl | rfl
    · have : i < 2 := hi
      have : i = 0 ∨ i = 1 := by omega
      rcases this with rfl | rfl
      · exact Or.inl hv
      · exact Or.inr (Or.inl hv)
    · have : i < 1 := hi
      have : i = 0 := by omega
      subst this; exact Or.inr (Or.inr hv)
  rcases this with h | h | h
  · have := mul_self_pos.mpr h
    nlinarith [mul_self_nonneg (v 0 1), mul_self_nonneg (v 1 0)]
  · have := mul_self_pos.mpr h
    nlinarith [mul_self_nonneg (v 0 0), mul_self_nonneg (v 1 0)]
  · have := mul_self_pos.mpr h
    nlinarith [mul_self_nonneg (v 0 0), mul_self_nonneg (v 0 1)]

/-- C24: both variants solve the example -/
example (sqr : Bool) : (view exUQp).IsOptimal (ptOf exUQp.dim (unconstr Real.sqrt exUQp true sqr 0
    { exKSt with
      BAbt := exUQp.BAbt
      RSQrq := exUQp.RSQrq }).ux) :=
  unconstr_optimal Real.sqrt exK_sqrt exUQp (fun _ _ => ⟨rfl, rfl, rfl⟩) (le_refl 1) sqr exUQp_strict _
    (fun _ _ _ _ _ _ => rfl) (fun _ _ _ _ _ _ => rfl)

end Hpipm
