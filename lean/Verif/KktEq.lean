/-
The equations satisfied by the step (intermediate results): slack elimination and the Newton system.
-/
import Verif.KktTail

namespace Hpipm
open Finset
set_option linter.unusedSectionVars false

section
variable {K : Type*} [Field K] [LinearOrder K] [IsStrictOrderedRing K]

/-- every slack softens at most one constraint -/
def Unshared (qp : OcpQp K) : Prop := ∀ k j j', k ≤ qp.dim.N → j < qp.dim.nb k + qp.dim.ng k → j' < qp.dim.nb k + qp.dim.ng k →
  qp.idxs_rev k j ≠ -1 → qp.idxs_rev k j = qp.idxs_rev k j' → j = j'

theorem slkT_unshared {qp : OcpQp K} (hwf : qp.WF) (hu : Unshared qp) {k j : ℕ} (hk : k ≤ qp.dim.N)
    (hj : j < qp.dim.nb k + qp.dim.ng k) (hs : qp.idxs_rev k j ≠ -1) (w : Vec K) :
    slkT qp k w (qp.idxs_rev k j).toNat = w j := by
  unfold slkT
  rw [sum_eq_single_of_mem j (mem_range.mpr hj)]
  · rw [if_pos ⟨hs, rfl⟩]
  · intro l hl hlj
    have hl := mem_range.mp hl
    rw [if_neg]
    rintro ⟨h1, h2⟩
    apply hlj
    have e : qp.idxs_rev k j = qp.idxs_rev k l := by
      rcases hir_of_wf hwf hk j hj with h | h
      · exact absurd h hs
      · rcases hir_of_wf hwf hk l hl with h' | h'
        · exact absurd h' h1
        · omega
    exact (hu k j l hk hj hl hs e).symm

theorem slkT_neg (qp : OcpQp K) (k : ℕ) (w : Vec K) (s : ℕ) : slkT qp k (fun j => - w j) s = - slkT qp k w s := by
  unfold slkT
  rw [← sum_neg_distrib]
  exact sum_congr rfl (fun j _ => by split_ifs <;> simp)

theorem slkT_mul (qp : OcpQp K) (k : ℕ) (w : Vec K) (a : K) (s : ℕ) : slkT qp k (fun j => w j * a) s = slkT qp k w s * a := by
  unfold slkT
  rw [sum_mul]
  exact sum_congr rfl (fun j _ => by split_ifs <;> simp)

theorem slkT_congr (qp : OcpQp K) (k : ℕ) (w w' : Vec K) (s : ℕ)
    (h : ∀ j, j < qp.dim.nb k + qp.dim.ng k → qp.idxs_rev k j ≠ -1 → s = (qp.idxs_rev k j).toNat → w j = w' j) :
    slkT qp k w s = slkT qp k w' s := by
  unfold slkT
  apply sum_congr rfl
  intro j hj
  split_ifs with hc
  · exact h j (mem_range.mp hj) hc.1 hc.2
  · rfl

theorem cvalT_congr (qp : OcpQp K) (k : ℕ) (w w' : Vec K) (i : ℕ)
    (h : ∀ j, j < qp.dim.nb k + qp.dim.ng k → w j = w' j) : cvalT qp k w i = cvalT qp k w' i := by
  unfold cvalT
  congr 1
  · apply sum_congr rfl
    intro j hj
    have := mem_range.mp hj
    rw [h j (by omega)]
  · apply sum_congr rfl
    intro j hj
    have := mem_range.mp hj
    rw [h (qp.dim.nb k + j) (by omega)]

/-- data of a step: slack values from the elimination, multipliers from the weights -/
structure StepEq (qp : OcpQp K) (reg : K) (G g : ℕ → Vec K) (v : ℕ → Vec K) (s : Sol K) : Prop where
  uxv : ∀ k i, k ≤ qp.dim.N → i < qp.dim.nu k + qp.dim.nx k → s.ux k i = v k i
  sl : ∀ k i, k ≤ qp.dim.N → i < qp.dim.ns k → s.ux k (qp.dim.nu k + qp.dim.nx k + i) =
    -(kZs qp reg G k i) * (kRh qp g k i + slkT qp k (fun j => G k j * cval qp k (v k) j) i)
  su : ∀ k i, k ≤ qp.dim.N → i < qp.dim.ns k → s.ux k (qp.dim.nu k + qp.dim.nx k + qp.dim.ns k + i) =
    -(kZs qp reg G k (qp.dim.ns k + i)) * (kRh qp g k (qp.dim.ns k + i) -
      slkT qp k (fun j => G k (qp.dim.nb k + qp.dim.ng k + j) * cval qp k (v k) j) i)
  lam : ∀ k j, k ≤ qp.dim.N → j < nct qp.dim k → s.lam k j = -(G k j * wval qp s.ux k j + g k j)

/-- the multipliers of a step act on inputs and states as the condensed constraints do -/
theorem StepEq.elim {qp : OcpQp K} {reg : K} {G g : ℕ → Vec K} {v : ℕ → Vec K} {s : Sol K} (h : StepEq qp reg G g v s)
    (hwf : qp.WF) (hu : Unshared qp) (k j : ℕ) (hk : k ≤ qp.dim.N) (hj : j < qp.dim.nb k + qp.dim.ng k) :
    s.lam k (qp.dim.nb k + qp.dim.ng k + j) - s.lam k j = kTh qp reg G k j * cval qp k (v k) j + kVt qp reg G g k j := by
  set n := qp.dim.nb k + qp.dim.ng k with hn
  rw [h.lam k j hk (by unfold nct; omega), h.lam k (n + j) hk (by unfold nct; omega)]
  have e1 : wval qp s.ux k j = cval qp k (v k) j + slk qp k (s.ux k) (qp.dim.nu k + qp.dim.nx k) j := by
    simp only [wval]
    rw [if_pos hj, cval_congr' qp hwf k hk (s.ux k) (v k) (fun i hi => h.uxv k i hk hi)]
  have e2 : wval qp s.ux k (n + j) = -(cval qp k (v k) j) + slk qp k (s.ux k) (qp.dim.nu k + qp.dim.nx k + qp.dim.ns k) j := by
    simp only [wval]
    rw [if_neg (by omega), if_pos (by omega), cval_congr' qp hwf k hk (s.ux k) (v k) (fun i hi => h.uxv k i hk hi),
      Nat.add_sub_cancel_left]
  rw [e1, e2]
  simp only [kTh, kVt, kVtZ, slkTh, slkVt, slk, ← hn]
  by_cases hs : qp.idxs_rev k j = -1
  · simp only [hs, ne_eq, not_true, if_true, if_false]; ring
  · have hlt : (qp.idxs_rev k j).toNat < qp.dim.ns k := by
      rcases hir_of_wf hwf hk j hj with h | h
      · exact absurd h hs
      · exact h.2
    simp only [hs, ne_eq, not_false_eq_true, if_true, if_false]
    rw [h.sl k _ hk hlt, h.su k _ hk hlt, slkT_unshared hwf hu hk hj hs, slkT_unshared hwf hu hk hj hs, ← hn, zero_add]
    ring

/-- stationarity with respect to the slacks -/
theorem StepEq.slack {qp : OcpQp K} {reg : K} {G g : ℕ → Vec K} {v : ℕ → Vec K} {s : Sol K} (h : StepEq qp reg G g v s)
    (hwf : qp.WF) (k i : ℕ) (hk : k ≤ qp.dim.N) (hi : i < 2 * qp.dim.ns k)
    (hden : slkDen (qp.dim.nb k + qp.dim.ng k) (qp.dim.ns k) (qp.idxs_rev k) reg (qp.Z k) (G k) i ≠ 0) :
    vG qp s (s.lam k) k (qp.dim.nu k + qp.dim.nx k + i) = - reg * s.ux k (qp.dim.nu k + qp.dim.nx k + i) := by
  set n := qp.dim.nb k + qp.dim.ng k with hn
  set nv := qp.dim.nu k + qp.dim.nx k with hnv
  have hD : slkDen n (qp.dim.ns k) (qp.idxs_rev k) reg (qp.Z k) (G k) i * kZs qp reg G k i = 1 := by
    rw [kZs, ← hn]; field_simp
  have hl : s.lam k (2 * n + i) = -(G k (2 * n + i) * s.ux k (nv + i) + g k (2 * n + i)) := by
    rw [h.lam k _ hk (by unfold nct; omega)]
    simp only [wval]
    rw [if_neg (by omega), if_neg (by omega), Nat.add_sub_cancel_left]
  simp only [vG]
  rw [if_neg (by omega)]
  simp only [← hnv, ← hn, Nat.add_sub_cancel_left]
  rw [hl]
  by_cases hi1 : i < qp.dim.ns k
  · rw [if_pos hi1]
    have hs := h.sl k i hk hi1
    rw [← hnv] at hs
    have e : slkT qp k (s.lam k) i = -(slkT qp k (fun j => G k j * cval qp k (v k) j) i + slkT qp k (G k) i * s.ux k (nv + i)
        + slkT qp k (g k) i) := by
      rw [slkT_congr qp k (s.lam k) (fun j => -((G k j * cval qp k (v k) j + G k j * s.ux k (nv + i)) + g k j)) i]
      · rw [slkT_neg, slkT_add, slkT_add, slkT_mul]
      · intro j hj hsj hij
        rw [h.lam k j hk (by unfold nct; omega)]
        simp only [wval]
        rw [if_pos hj, cval_congr' qp hwf k hk (s.ux k) (v k) (fun i hi => h.uxv k i hk hi), slk, if_neg hsj, ← hij]
        ring
    have hden' : slkDen n (qp.dim.ns k) (qp.idxs_rev k) reg (qp.Z k) (G k) i =
        qp.Z k i + reg + G k (2 * n + i) + slkT qp k (G k) i := by
      unfold slkDen; rw [if_pos hi1]; rfl
    have hrh : kRh qp g k i = qp.rqz k (nv + i) + g k (2 * n + i) + slkT qp k (g k) i := by
      unfold kRh slkRhs; rw [if_pos hi1]; rfl
    rw [hden'] at hD
    rw [hrh] at hs
    rw [e]
    linear_combination (qp.Z k i + reg + G k (2 * n + i) + slkT qp k (G k) i) * hs
      - (qp.rqz k (nv + i) + g k (2 * n + i) + slkT qp k (g k) i + slkT qp k (fun j => G k j * cval qp k (v k) j) i) * hD
  · obtain ⟨q, rfl⟩ := Nat.exists_eq_add_of_le (Nat.le_of_not_lt hi1)
    rw [if_neg hi1, Nat.add_sub_cancel_left]
    have hs := h.su k q hk (by omega)
    rw [← hnv, add_assoc] at hs
    have e : slkT qp k (fun j => s.lam k (n + j)) q = -(- slkT qp k (fun j => G k (n + j) * cval qp k (v k) j) q
        + slkT qp k (fun j => G k (n + j)) q * s.ux k (nv + (qp.dim.ns k + q)) + slkT qp k (fun j => g k (n + j)) q) := by
      rw [slkT_congr qp k (fun j => s.lam k (n + j)) (fun j => -((-(G k (n + j) * cval qp k (v k) j) +
        G k (n + j) * s.ux k (nv + (qp.dim.ns k + q))) + g k (n + j))) q]
      · rw [slkT_neg, slkT_add, slkT_add, slkT_neg, slkT_mul]
      · intro j hj hsj hij
        show s.lam k (n + j) = _
        rw [h.lam k (n + j) hk (by unfold nct; omega)]
        simp only [wval]
        rw [if_neg (by omega), if_pos (by omega), cval_congr' qp hwf k hk (s.ux k) (v k) (fun i hi => h.uxv k i hk hi),
          Nat.add_sub_cancel_left, slk, if_neg hsj, ← hij, add_assoc (qp.dim.nu k + qp.dim.nx k)]
        ring
    have hden' : slkDen n (qp.dim.ns k) (qp.idxs_rev k) reg (qp.Z k) (G k) (qp.dim.ns k + q) =
        qp.Z k (qp.dim.ns k + q) + reg + G k (2 * n + (qp.dim.ns k + q)) + slkT qp k (fun j => G k (n + j)) q := by
      unfold slkDen; rw [if_neg hi1, Nat.add_sub_cancel_left]; rfl
    have hrh : kRh qp g k (qp.dim.ns k + q) = qp.rqz k (nv + (qp.dim.ns k + q)) + g k (2 * n + (qp.dim.ns k + q))
        + slkT qp k (fun j => g k (n + j)) q := by
      unfold kRh slkRhs; rw [if_neg hi1, Nat.add_sub_cancel_left]; rfl
    rw [hden'] at hD
    rw [hrh] at hs
    rw [e]
    linear_combination (qp.Z k (qp.dim.ns k + q) + reg + G k (2 * n + (qp.dim.ns k + q)) + slkT qp k (fun j => G k (n + j)) q) * hs
      - (qp.rqz k (nv + (qp.dim.ns k + q)) + g k (2 * n + (qp.dim.ns k + q)) + slkT qp k (fun j => g k (n + j)) q
        - slkT qp k (fun j => G k (n + j) * cval qp k (v k) j) q) * hD

/-- stationarity with respect to inputs and states -/
theorem StepEq.stat {qp : OcpQp K} {reg : K} {G g : ℕ → Vec K} {v : ℕ → Vec K} {s : Sol K} (h : StepEq qp reg G g v s)
    (hwf : qp.WF) (hu : Unshared qp) (dr : ℕ → ℕ → K) (Lam P : ℕ → Mat K)
    (hs : (kData qp dr reg G g Lam P).Stat v s.pi) (k i : ℕ) (hk : k ≤ qp.dim.N) (hi : i < qp.dim.nu k + qp.dim.nx k) :
    vG qp s (s.lam k) k i = - dr k i * s.ux k i := by
  have h1 := hs k i hk hi
  have e : ∑ j ∈ range (qp.dim.nu k + qp.dim.nx k), kH qp dr reg G k i j * v k j = _ := kH_apply qp hwf dr reg G k i hk hi (v k)
  simp only [kData] at h1
  rw [e] at h1
  have e2 : cvalT qp k (fun j => s.lam k (qp.dim.nb k + qp.dim.ng k + j) - s.lam k j) i =
      cvalT qp k (fun l => kTh qp reg G k l * cval qp k (v k) l) i + cvalT qp k (kVt qp reg G g k) i := by
    rw [← cvalT_add]
    exact cvalT_congr qp k _ _ i (fun j hj => h.elim hwf hu k j hk hj)
  have e3 : hmul qp k (s.ux k) i = hmul qp k (v k) i := by
    unfold hmul
    exact sum_congr rfl (fun j hj => by rw [h.uxv k j hk (mem_range.mp hj)])
  simp only [vG]
  rw [if_pos hi, e2, e3, h.uxv k i hk hi]
  unfold kg at h1
  by_cases hN : k < qp.dim.N <;> by_cases h0 : 0 < k ∧ qp.dim.nu k ≤ i <;>
    simp only [hN, h0, if_true, if_false, and_self, and_true, true_and] at h1 ⊢ <;> linear_combination h1

/-- dynamics of the step -/
theorem StepEq.dyn {qp : OcpQp K} {reg : K} {G g : ℕ → Vec K} {v : ℕ → Vec K} {s : Sol K} (h : StepEq qp reg G g v s)
    (dr : ℕ → ℕ → K) (Lam P : ℕ → Mat K)
    (hd : (kData qp dr reg G g Lam P).Dyn v) (k i : ℕ) (hk : k < qp.dim.N) (hi : i < qp.dim.nx (k + 1)) :
    vB qp s k i = 0 := by
  have h1 := hd k i hk hi
  simp only [kData] at h1
  simp only [vB]
  rw [h.uxv (k + 1) _ (by omega) (by omega), h1]
  have e : ∑ j ∈ range (qp.dim.nu k + qp.dim.nx k), qp.BAbt k j i * s.ux k j = ∑ j ∈ range (qp.dim.nu k + qp.dim.nx k), qp.BAbt k j i * v k j :=
    sum_congr rfl (fun j hj => by rw [h.uxv k j (by omega) (mem_range.mp hj)])
  rw [e]; ring

end
end Hpipm
