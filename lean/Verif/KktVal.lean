/-
What the stage operations of the KKT solver compute (intermediate results): condensed Hessians and
gradients of the stages, and the matrices handed to the factorisation.
-/
import Verif.KktSlack
import Verif.RicChain
import Verif.ResVal

namespace Hpipm
open Finset
set_option linter.unusedSectionVars false

section
variable {K : Type*} [Field K] [LinearOrder K]

theorem upd_self {α : Type*} (a : ℕ → α) (i : ℕ) : upd a i (a i) = a := by
  funext j
  by_cases h : j = i
  · subst h; simp
  · rw [upd_ne _ _ h]

/-- inverse of the condensed slack Hessian of stage `k` -/
def kZs (qp : OcpQp K) (reg : K) (G : ℕ → Vec K) (k i : ℕ) : K :=
  1 / slkDen (qp.dim.nb k + qp.dim.ng k) (qp.dim.ns k) (qp.idxs_rev k) reg (qp.Z k) (G k) i

/-- gradient of the slacks of stage `k` -/
def kRh (qp : OcpQp K) (g : ℕ → Vec K) (k i : ℕ) : K :=
  slkRhs (qp.dim.nb k + qp.dim.ng k) (qp.dim.ns k) (qp.dim.nu k + qp.dim.nx k) (qp.idxs_rev k) (qp.rqz k) (g k) i

/-- weight of constraint `j` of stage `k` in the condensed Hessian -/
def kTh (qp : OcpQp K) (reg : K) (G : ℕ → Vec K) (k j : ℕ) : K :=
  slkTh (qp.idxs_rev k) (kZs qp reg G k) 0 (G k j) j
    + slkTh (qp.idxs_rev k) (kZs qp reg G k) (qp.dim.ns k) (G k (qp.dim.nb k + qp.dim.ng k + j)) j

/-- coefficient of constraint `j` of stage `k` in the condensed gradient, for given slack weights -/
def kVtZ (qp : OcpQp K) (Zs : Vec K) (G g : ℕ → Vec K) (k j : ℕ) : K :=
  slkVt (qp.idxs_rev k) Zs (kRh qp g k) 0 (G k j) (g k j) j
    - slkVt (qp.idxs_rev k) Zs (kRh qp g k) (qp.dim.ns k)
      (G k (qp.dim.nb k + qp.dim.ng k + j)) (g k (qp.dim.nb k + qp.dim.ng k + j)) j

/-- coefficient of constraint `j` of stage `k` in the condensed gradient -/
def kVt (qp : OcpQp K) (reg : K) (G g : ℕ → Vec K) (k j : ℕ) : K := kVtZ qp (kZs qp reg G k) G g k j

/-- condensed Hessian of stage `k`; `dr` the regularisation -/
def kH (qp : OcpQp K) (dr : ℕ → ℕ → K) (reg : K) (G : ℕ → Vec K) (k i j : ℕ) : K :=
  symL (qp.RSQrq k) 0 0 i j + (if i = j then dr k i else 0)
    + (∑ l ∈ range (qp.dim.nb k), if qp.idxb k l = i ∧ qp.idxb k l = j then kTh qp reg G k l else 0)
    + ∑ l ∈ range (qp.dim.ng k), qp.DCt k i l * kTh qp reg G k (qp.dim.nb k + l) * qp.DCt k j l

/-- condensed gradient of stage `k` -/
def kg (qp : OcpQp K) (reg : K) (G g : ℕ → Vec K) (k i : ℕ) : K :=
  qp.rqz k i + cvalT qp k (kVt qp reg G g k) i

theorem symL_comm (A : Mat K) (i j : ℕ) : symL A 0 0 i j = symL A 0 0 j i := by
  unfold symL
  by_cases h1 : j ≤ i
  · by_cases h2 : i ≤ j
    · rw [show i = j by omega]
    · rw [if_pos h1, if_neg h2]
  · rw [if_neg h1, if_pos (by omega)]

theorem kH_sym (qp : OcpQp K) (dr : ℕ → ℕ → K) (reg : K) (G : ℕ → Vec K) (k i j : ℕ) :
    kH qp dr reg G k i j = kH qp dr reg G k j i := by
  unfold kH
  rw [symL_comm]
  have e1 : (if i = j then dr k i else 0) = (if j = i then dr k j else 0) := by
    by_cases h : i = j
    · subst h; rfl
    · rw [if_neg h, if_neg (fun hc => h hc.symm)]
  have e2 : (∑ l ∈ range (qp.dim.nb k), if qp.idxb k l = i ∧ qp.idxb k l = j then kTh qp reg G k l else 0) =
      ∑ l ∈ range (qp.dim.nb k), if qp.idxb k l = j ∧ qp.idxb k l = i then kTh qp reg G k l else 0 :=
    sum_congr rfl (fun l _ => by simp only [and_comm])
  have e3 : ∑ l ∈ range (qp.dim.ng k), qp.DCt k i l * kTh qp reg G k (qp.dim.nb k + l) * qp.DCt k j l =
      ∑ l ∈ range (qp.dim.ng k), qp.DCt k j l * kTh qp reg G k (qp.dim.nb k + l) * qp.DCt k i l :=
    sum_congr rfl (fun l _ => by ring)
  rw [e1, e2, e3]

/-- the condensed Hessian applied to a vector -/
theorem kH_apply (qp : OcpQp K) (hwf : qp.WF) (dr : ℕ → ℕ → K) (reg : K) (G : ℕ → Vec K) (k i : ℕ) (hk : k ≤ qp.dim.N)
    (hi : i < qp.dim.nu k + qp.dim.nx k) (v : Vec K) :
    ∑ j ∈ range (qp.dim.nu k + qp.dim.nx k), kH qp dr reg G k i j * v j =
      hmul qp k v i + dr k i * v i + cvalT qp k (fun l => kTh qp reg G k l * cval qp k v l) i := by
  unfold kH hmul cvalT
  simp only [add_mul, sum_add_distrib]
  rw [add_assoc]
  congr 1
  · congr 1
    rw [sum_eq_single_of_mem i (mem_range.mpr hi)]
    · rw [if_pos rfl]
    · intro j _ hj
      rw [if_neg (fun h => hj h.symm), zero_mul]
  · congr 1
    · simp only [sum_mul]
      rw [sum_comm]
      apply sum_congr rfl
      intro l hl
      have hl := mem_range.mp hl
      rw [sum_eq_single_of_mem (qp.idxb k l) (mem_range.mpr (hwf.1 k l hk hl))]
      · by_cases h : qp.idxb k l = i
        · rw [if_pos ⟨h, rfl⟩, if_pos h, cval, if_pos hl]
        · rw [if_neg (fun hc => h hc.1), if_neg h, zero_mul]
      · intro j _ hj
        rw [if_neg (fun hc => hj hc.2.symm), zero_mul]
    · simp only [sum_mul]
      rw [sum_comm]
      apply sum_congr rfl
      intro l hl
      rw [cval, if_neg (by omega), Nat.add_sub_cancel_left, mul_sum, mul_sum]
      exact sum_congr rfl (fun j _ => by ring)

/-! ### condensing of the constraints of a stage -/

theorem hir_of_wf {qp : OcpQp K} (hwf : qp.WF) {k : ℕ} (hk : k ≤ qp.dim.N) :
    ∀ j, j < qp.dim.nb k + qp.dim.ng k →
      qp.idxs_rev k j = -1 ∨ (0 ≤ qp.idxs_rev k j ∧ (qp.idxs_rev k j).toNat < qp.dim.ns k) :=
  fun j hj => hwf.2 k j hk hj

theorem slkTh_congr {n ns : ℕ} {ir : ℕ → ℤ} (hir : ∀ j, j < n → ir j = -1 ∨ (0 ≤ ir j ∧ (ir j).toNat < ns))
    {Z Z' : Vec K} (h : ∀ i, i < 2 * ns → Z i = Z' i) (o : ℕ) (ho : o ≤ ns) (Gj : K) (j : ℕ) (hj : j < n) :
    slkTh ir Z o Gj j = slkTh ir Z' o Gj j := by
  unfold slkTh
  rcases hir j hj with h1 | h1
  · simp [h1]
  · rw [h (o + (ir j).toNat) (by omega)]

theorem slkVt_congr {n ns : ℕ} {ir : ℕ → ℤ} (hir : ∀ j, j < n → ir j = -1 ∨ (0 ≤ ir j ∧ (ir j).toNat < ns))
    {Z Z' R R' : Vec K} (h : ∀ i, i < 2 * ns → Z i = Z' i) (hR : ∀ i, i < 2 * ns → R i = R' i) (o : ℕ) (ho : o ≤ ns)
    (Gj gj : K) (j : ℕ) (hj : j < n) :
    slkVt ir Z R o Gj gj j = slkVt ir Z' R' o Gj gj j := by
  unfold slkVt
  rcases hir j hj with h1 | h1
  · simp [h1]
  · rw [h (o + (ir j).toNat) (by omega), hR (o + (ir j).toNat) (by omega)]

theorem condStage_val (qp : OcpQp K) (hwf : qp.WF) (reg : K) (G g : ℕ → Vec K) (k : ℕ) (hk : k ≤ qp.dim.N) (st : KktSt K) :
    ∃ z u t0 t1 t2 t3, condStage qp reg G g k st =
        { st with
          Zs := upd st.Zs k z
          ux := upd st.ux k u
          t0 := t0
          t1 := t1
          t2 := t2
          t3 := t3 } ∧
      (∀ i, i < 2 * qp.dim.ns k → z i = kZs qp reg G k i) ∧
      (∀ i, i < 2 * qp.dim.ns k → u (qp.dim.nu k + qp.dim.nx k + i) = kRh qp g k i) ∧
      (∀ i, i < qp.dim.nu k + qp.dim.nx k → u i = st.ux k i) ∧
      (∀ j, j < qp.dim.nb k + qp.dim.ng k → t0 j = kTh qp reg G k j) ∧
      (∀ j, j < qp.dim.nb k + qp.dim.ng k → t1 j = kVt qp reg G g k j) := by
  have hir := hir_of_wf hwf hk
  unfold condStage
  by_cases hs : qp.dim.ns k > 0
  · simp only [if_pos hs]
    obtain ⟨h1, h2, h3, h4, h5⟩ := condSlacksFS_val (qp.dim.nb k + qp.dim.ng k) (qp.dim.ns k) (qp.dim.nu k + qp.dim.nx k)
      (qp.idxs_rev k) reg (qp.Z k) (qp.rqz k) (G k) (g k)
      { Zs := st.Zs k, du := st.ux k, t0 := st.t0, t1 := st.t1, t2 := st.t2, t3 := st.t3 } hir
    refine ⟨_, _, _, _, _, _, rfl, h1, h2, h3, fun j hj => ?_, fun j hj => ?_⟩
    · rw [h4 j hj]
      exact congrArg₂ (· + ·) (slkTh_congr (Z' := kZs qp reg G k) hir h1 0 (by omega) _ j hj)
        (slkTh_congr (Z' := kZs qp reg G k) hir h1 _ (le_refl _) _ j hj)
    · rw [h5 j hj]
      exact congrArg₂ (· - ·) (slkVt_congr (Z' := kZs qp reg G k) (R' := kRh qp g k) hir h1 h2 0 (by omega) _ _ j hj)
        (slkVt_congr (Z' := kZs qp reg G k) (R' := kRh qp g k) hir h1 h2 _ (le_refl _) _ _ j hj)
  · have hir' : ∀ j, j < qp.dim.nb k + qp.dim.ng k → qp.idxs_rev k j = -1 := by
      intro j hj
      rcases hir j hj with h | h
      · exact h
      · omega
    have hth : ∀ j, j < qp.dim.nb k + qp.dim.ng k → kTh qp reg G k j = G k j + G k (qp.dim.nb k + qp.dim.ng k + j) := by
      intro j hj
      simp [kTh, slkTh, hir' j hj]
    have hvt : ∀ j, j < qp.dim.nb k + qp.dim.ng k → kVt qp reg G g k j = g k j - g k (qp.dim.nb k + qp.dim.ng k + j) := by
      intro j hj
      simp [kVt, kVtZ, slkVt, hir' j hj]
    simp only [if_neg hs]
    by_cases hn : qp.dim.nb k + qp.dim.ng k > 0
    · simp only [if_pos hn]
      refine ⟨st.Zs k, st.ux k, _, _, st.t2, st.t3, by rw [upd_self, upd_self], fun i hi => by omega, fun i hi => by omega,
        fun i _ => rfl, fun j hj => ?_, fun j hj => ?_⟩
      · rw [axpy_in (by omega), hth j hj]; simp
      · rw [axpy_in (by omega), hvt j hj]; simp; ring
    · simp only [if_neg hn]
      exact ⟨st.Zs k, st.ux k, st.t0, st.t1, st.t2, st.t3, by rw [upd_self, upd_self], fun i hi => by omega, fun i hi => by omega,
        fun i _ => rfl, fun j hj => by omega, fun j hj => by omega⟩

/-- regularisation of the lower triangle -/
def DrOk (nv : ℕ) (dr : Mat K → Mat K) (e : Vec K) : Prop :=
  ∀ L i j, i < nv → j ≤ i → dr L i j = L i j + if i = j then e i else 0

/-- agreement of the lower triangle of the stage Hessian -/
def ROk (qp : OcpQp K) (st : KktSt K) : Prop :=
  ∀ k i j, k ≤ qp.dim.N → i < qp.dim.nu k + qp.dim.nx k → j ≤ i → st.RSQrq k i j = qp.RSQrq k i j

/-- agreement of the dynamics matrices -/
def BOk (qp : OcpQp K) (st : KktSt K) : Prop :=
  ∀ k i a, k < qp.dim.N → i < qp.dim.nu k + qp.dim.nx k → a < qp.dim.nx (k + 1) → st.BAbt k i a = qp.BAbt k i a

theorem diare_drOk (nv : ℕ) (e : K) : DrOk nv (fun L => diare nv e L 0 0) (fun _ => e) := by
  intro L i j hi hj
  simp only [diare, Nat.zero_le, Nat.sub_zero, true_and, zero_add]
  by_cases h : i = j
  · subst h; rw [if_pos ⟨hi, rfl⟩, if_pos rfl]
  · rw [if_neg (fun hc => h hc.2), if_neg h, add_zero]

theorem drUX_drOk (D : QpDim) (reg preg : K) (k : ℕ) :
    DrOk (D.nu k + D.nx k) (drUX D reg preg k) (fun i => if i < D.nu k then preg else reg) := by
  intro L i j hi hj
  simp only [drUX, diare, Nat.zero_le, Nat.sub_zero, true_and, zero_add]
  by_cases h : i = j
  · subst h
    by_cases h1 : i < D.nu k
    · have h2 : ¬ ((D.nu k ≤ i ∧ i < D.nu k + D.nx k) ∧ D.nu k ≤ i) := by omega
      simp [h1, h2]
    · have h2 : D.nu k ≤ i := by omega
      simp [h1, h2, hi]
  · have h3 : ¬ (((D.nu k ≤ i ∧ i < D.nu k + D.nx k) ∧ D.nu k ≤ j ∧ i - D.nu k = j - D.nu k)) := by omega
    simp only [if_neg h3, h, and_false, if_false, add_zero]

theorem augStage_val (qp : OcpQp K) (hwf : qp.WF) (reg : K) (dr : Mat K → Mat K) (e : Vec K) (G g : ℕ → Vec K) (k : ℕ)
    (hk : k ≤ qp.dim.N) (hdr : DrOk (qp.dim.nu k + qp.dim.nx k) dr e) (st : KktSt K) (hR : ROk qp st) :
    ∃ z u L t0 t1 t2 t3, augStage qp reg dr G g k st =
        { st with
          Zs := upd st.Zs k z
          ux := upd st.ux k u
          L := upd st.L k L
          t0 := t0
          t1 := t1
          t2 := t2
          t3 := t3 } ∧
      (∀ i, i < 2 * qp.dim.ns k → z i = kZs qp reg G k i) ∧
      (∀ i, i < 2 * qp.dim.ns k → u (qp.dim.nu k + qp.dim.nx k + i) = kRh qp g k i) ∧
      (∀ i, i < qp.dim.nu k + qp.dim.nx k → u i = st.ux k i) ∧
      (∀ j, j < qp.dim.nb k + qp.dim.ng k → t0 j = kTh qp reg G k j) ∧
      (∀ j, j < qp.dim.nb k + qp.dim.ng k → t1 j = kVt qp reg G g k j) ∧
      (∀ i j, i < qp.dim.nu k + qp.dim.nx k → j ≤ i → L i j = symL (qp.RSQrq k) 0 0 i j + (if i = j then e i else 0)
        + ∑ l ∈ range (qp.dim.nb k), if qp.idxb k l = i ∧ qp.idxb k l = j then kTh qp reg G k l else 0) ∧
      (∀ j, j < qp.dim.nu k + qp.dim.nx k → L (qp.dim.nu k + qp.dim.nx k) j = qp.rqz k j
        + ∑ l ∈ range (qp.dim.nb k), if qp.idxb k l = j then kVt qp reg G g k l else 0) := by
  obtain ⟨z, u, t0, t1, t2, t3, he, h1, h2, h3, h4, h5⟩ := condStage_val qp hwf reg G g k hk st
  unfold augStage
  simp only [he]
  set nv := qp.dim.nu k + qp.dim.nx k with hnv
  have hda : ∀ L : Mat K, ∀ i j, (if qp.dim.nb k > 0 then diaad_sp (qp.dim.nb k) 1 t0 0 (qp.idxb k) L 0 0 else L) i j =
      L i j + ∑ l ∈ range (qp.dim.nb k), if qp.idxb k l = i ∧ qp.idxb k l = j then kTh qp reg G k l else 0 := by
    intro L i j
    by_cases hn : qp.dim.nb k > 0
    · simp only [if_pos hn, diaad_sp, zero_add, one_mul]
      congr 1
      apply sum_congr rfl
      intro l hl
      rw [h4 l (by have := mem_range.mp hl; omega)]
    · have : qp.dim.nb k = 0 := by omega
      simp only [this, gt_iff_lt, lt_irrefl, if_false, range_zero, sum_empty, add_zero]
  have hra : ∀ L : Mat K, ∀ i j, (if qp.dim.nb k > 0 then rowad_sp (qp.dim.nb k) 1 t1 0 (qp.idxb k) L nv 0 else L) i j =
      L i j + ∑ l ∈ range (qp.dim.nb k), if i = nv ∧ qp.idxb k l = j then kVt qp reg G g k l else 0 := by
    intro L i j
    by_cases hn : qp.dim.nb k > 0
    · simp only [if_pos hn, rowad_sp, zero_add, one_mul]
      congr 1
      apply sum_congr rfl
      intro l hl
      rw [h5 l (by have := mem_range.mp hl; omega)]
    · have : qp.dim.nb k = 0 := by omega
      simp only [this, gt_iff_lt, lt_irrefl, if_false, range_zero, sum_empty, add_zero]
  refine ⟨z, u, _, t0, t1, t2, t3, rfl, h1, h2, h3, h4, h5, fun i j hi hj => ?_, fun j hj => ?_⟩
  · rw [hra, hda]
    have e0 : (∑ l ∈ range (qp.dim.nb k), if i = nv ∧ qp.idxb k l = j then kVt qp reg G g k l else 0) = 0 :=
      sum_eq_zero (fun l _ => if_neg (fun hc => by omega))
    rw [e0, add_zero]
    congr 1
    have e1 : rowin nv 1 (qp.rqz k) 0 (dr (trcp_l nv (st.RSQrq k) 0 0 (st.L k) 0 0)) nv 0 i j =
        dr (trcp_l nv (st.RSQrq k) 0 0 (st.L k) 0 0) i j := by
      rw [rowin, if_neg (by omega)]
    rw [e1, hdr _ i j hi hj]
    congr 1
    simp only [trcp_l]
    rw [if_pos (by omega), symL, if_pos hj]
    simp only [Nat.sub_zero, zero_add]
    exact hR k i j hk hi hj
  · rw [hra, hda]
    have e0 : (∑ l ∈ range (qp.dim.nb k), if qp.idxb k l = nv ∧ qp.idxb k l = j then kTh qp reg G k l else 0) = 0 :=
      sum_eq_zero (fun l hl => if_neg (fun hc => by
        have := hwf.1 k l hk (mem_range.mp hl)
        omega))
    rw [e0, add_zero]
    congr 1
    · rw [rowin, if_pos (by omega)]; simp
    · exact sum_congr rfl (fun l _ => by simp)

end
end Hpipm
