/-
Condensing of the cost, first algorithm (square-root and classical): the loops of COND_RSQRQ establish the recursion of
CondQuad.lean.
-/
import Verif.CondQuad

namespace Hpipm
open Finset
set_option linter.unusedSectionVars false

section
variable {K : Type*} [Field K] [LinearOrder K] [IsStrictOrderedRing K]

theorem trcp_in {α : Type*} {m : ℕ} {A : ℕ → ℕ → α} {ai aj : ℕ} {B : ℕ → ℕ → α} {bi bj i j : ℕ}
    (h1 : bi ≤ i) (h2 : i < bi + m) (h3 : bj ≤ j) (h4 : j < bj + m) (h5 : j - bj ≤ i - bi) :
    trcp_l m A ai aj B bi bj i j = A (ai + (i - bi)) (aj + (j - bj)) := by
  unfold trcp_l; rw [if_pos ⟨⟨h1, h2⟩, ⟨h3, h4⟩, h5⟩]
theorem trcp_out {α : Type*} {m : ℕ} {A : ℕ → ℕ → α} {ai aj : ℕ} {B : ℕ → ℕ → α} {bi bj i j : ℕ}
    (h : ¬ ((bi ≤ i ∧ i < bi + m) ∧ (bj ≤ j ∧ j < bj + m) ∧ (j - bj ≤ i - bi))) :
    trcp_l m A ai aj B bi bj i j = B i j := by
  unfold trcp_l; rw [if_neg h]
theorem gead_in {m n : ℕ} {a : K} {A : Mat K} {ai aj : ℕ} {B : Mat K} {bi bj i j : ℕ}
    (h1 : bi ≤ i) (h2 : i < bi + m) (h3 : bj ≤ j) (h4 : j < bj + n) :
    gead m n a A ai aj B bi bj i j = B i j + a * A (ai + (i - bi)) (aj + (j - bj)) := by
  unfold gead; rw [if_pos ⟨⟨h1, h2⟩, h3, h4⟩]
theorem gead_out {m n : ℕ} {a : K} {A : Mat K} {ai aj : ℕ} {B : Mat K} {bi bj i j : ℕ}
    (h : ¬ ((bi ≤ i ∧ i < bi + m) ∧ (bj ≤ j ∧ j < bj + n))) : gead m n a A ai aj B bi bj i j = B i j := by
  unfold gead; rw [if_neg h]
theorem syrk_in {m n k : ℕ} {a : K} {A : Mat K} {ai aj : ℕ} {B : Mat K} {bi bj : ℕ} {b : K} {C : Mat K} {ci cj : ℕ}
    {D : Mat K} {di dj i j : ℕ} (h1 : di ≤ i) (h2 : i < di + m) (h3 : dj ≤ j) (h4 : j < dj + n) (h5 : j - dj ≤ i - di) :
    syrk_ln_mn m n k a A ai aj B bi bj b C ci cj D di dj i j = b * C (ci + (i - di)) (cj + (j - dj)) +
        a * ∑ l ∈ range k, A (ai + (i - di)) (aj + l) * B (bi + (j - dj)) (bj + l) := by
  unfold syrk_ln_mn; rw [if_pos ⟨⟨h1, h2⟩, ⟨h3, h4⟩, h5⟩]
theorem syrk_out {m n k : ℕ} {a : K} {A : Mat K} {ai aj : ℕ} {B : Mat K} {bi bj : ℕ} {b : K} {C : Mat K} {ci cj : ℕ}
    {D : Mat K} {di dj i j : ℕ} (h : ¬ ((di ≤ i ∧ i < di + m) ∧ (dj ≤ j ∧ j < dj + n) ∧ (j - dj ≤ i - di))) :
    syrk_ln_mn m n k a A ai aj B bi bj b C ci cj D di dj i j = D i j := by
  unfold syrk_ln_mn; rw [if_neg h]
theorem gemm_nt_in {m n k : ℕ} {a : K} {A : Mat K} {ai aj : ℕ} {B : Mat K} {bi bj : ℕ} {b : K} {C : Mat K} {ci cj : ℕ}
    {D : Mat K} {di dj i j : ℕ} (h1 : di ≤ i) (h2 : i < di + m) (h3 : dj ≤ j) (h4 : j < dj + n) :
    gemm_nt m n k a A ai aj B bi bj b C ci cj D di dj i j = b * C (ci + (i - di)) (cj + (j - dj)) +
        a * ∑ l ∈ range k, A (ai + (i - di)) (aj + l) * B (bi + (j - dj)) (bj + l) := by
  unfold gemm_nt; rw [if_pos ⟨⟨h1, h2⟩, h3, h4⟩]

/-- the caller's matrices keep their data rows -/
structure DataKept (qp : OcpQp K) (BAbt RSQrq : ℕ → Mat K) : Prop where
  ba : ∀ k r i, r < qp.dim.nu k + qp.dim.nx k → BAbt k r i = qp.BAbt k r i
  rs : ∀ k r i, r < qp.dim.nu k + qp.dim.nx k → RSQrq k r i = qp.RSQrq k r i

theorem dataKept_self (qp : OcpQp K) : DataKept qp qp.BAbt qp.RSQrq := ⟨fun _ _ _ _ => rfl, fun _ _ _ _ => rfl⟩

theorem dataKept_upd {qp : OcpQp K} {BAbt RSQrq : ℕ → Mat K} (h : DataKept qp BAbt RSQrq) (k n1 n2 : ℕ) (x y : Vec K) :
    DataKept qp (upd BAbt k (rowin n1 1 x 0 (BAbt k) (qp.dim.nu k + qp.dim.nx k) 0))
      (upd RSQrq k (rowin n2 1 y 0 (RSQrq k) (qp.dim.nu k + qp.dim.nx k) 0)) := by
  constructor
  · intro l r i hr
    by_cases e : l = k
    · subst e; rw [upd_same, rowin_ne (by omega)]; exact h.ba l r i hr
    · rw [upd_ne _ _ e]; exact h.ba l r i hr
  · intro l r i hr
    by_cases e : l = k
    · subst e; rw [upd_same, rowin_ne (by omega)]; exact h.rs l r i hr
    · rw [upd_ne _ _ e]; exact h.rs l r i hr

/-- an update at an earlier stage keeps the recursion facts -/
theorem costRec_upd {qp : OcpQp K} {L : ℕ → Mat K} {k l : ℕ} (M : Mat K) (h : CostRec qp L k) (hl : l < k) :
    CostRec qp (upd L l M) k := by
  have e1 : upd L l M k = L k := upd_ne _ _ (by omega)
  have e2 : upd L l M (k + 1) = L (k + 1) := upd_ne _ _ (by omega)
  constructor
  · rw [e1, e2]; exact h.quad
  · rw [e1, e2]; exact h.lin

theorem costEnd_upd {qp : OcpQp K} {L : ℕ → Mat K} {k l : ℕ} (M : Mat K) (h : CostEnd qp L k) (hl : l < k) :
    CostEnd qp (upd L l M) k := by
  have e1 : upd L l M k = L k := upd_ne _ _ (by omega)
  constructor
  · rw [e1]; exact h.quad
  · rw [e1]; exact h.lin

theorem hCols_upd {qp : OcpQp K} {N : ℕ} {L Gamma : ℕ → Mat K} {Gammab : ℕ → Vec K} {H : Mat K} {k l : ℕ} (M : Mat K)
    (h : HCols qp N L Gamma Gammab H k) (hl : l < k + 1) : HCols qp N (upd L l M) Gamma Gammab H k := by
  have e1 : upd L l M (k + 1) = L (k + 1) := upd_ne _ _ (by omega)
  constructor
  · rw [e1]; exact h.D
  · rw [e1]; exact h.M
  · rw [e1]; exact h.m

/-- the classical update -/
theorem rsqClassic_rec (qp : OcpQp K) (k : ℕ) (s : RsqSt K) (hd : DataKept qp s.BAbt s.RSQrq) :
    CostRec qp (rsqClassic qp.dim qp.b qp.rqz k s).L k := by
  set nu := qp.dim.nu k with hnu
  set nx := qp.dim.nx k with hnx
  set nx1 := qp.dim.nx (k + 1) with hnx1
  set nu1 := qp.dim.nu (k + 1) with hnu1
  set P : Mat K := symL (s.L (k + 1)) nu1 nu1 with hP
  set Lx := trtr_l nx1 (trcp_l nx1 (s.L (k + 1)) nu1 nu1 s.Lx 0 0) 0 0 (trcp_l nx1 (s.L (k + 1)) nu1 nu1 s.Lx 0 0) 0 0 with hLx
  set BA := rowin nx1 1 (qp.b k) 0 (s.BAbt k) (nu + nx) 0 with hBA
  set AL0 := gemm_nt (nu + nx + 1) nx1 nx1 1 BA 0 0 Lx 0 0 0 s.AL 0 0 s.AL 0 0 with hAL0
  set AL := gead 1 nx1 1 (s.L (k + 1)) (nu1 + nx1) nu1 AL0 (nu + nx) 0 with hAL
  set RS := rowin (nu + nx) 1 (qp.rqz k) 0 (s.RSQrq k) (nu + nx) 0 with hRS
  set Lk := syrk_ln_mn (nu + nx + 1) (nu + nx) nx1 1 AL 0 0 BA 0 0 1 RS 0 0 (s.L k) 0 0 with hLk
  have eL : (rsqClassic qp.dim qp.b qp.rqz k s).L = upd s.L k Lk := rfl
  have eLx : ∀ i j, i < nx1 → j < nx1 → Lx i j = P i j := by
    intro i j hi hj
    rw [hLx, hP]
    unfold trtr_l
    simp only [symL]
    by_cases h : i ≤ j
    · rw [if_pos (by omega), trcp_in (by omega) (by omega) (by omega) (by omega) (by omega)]
      by_cases h2 : j ≤ i
      · obtain rfl : i = j := by omega
        rw [if_pos h2]; congr 1 <;> omega
      · rw [if_neg h2]; congr 1 <;> omega
    · rw [if_neg (by omega), trcp_in (by omega) (by omega) (by omega) (by omega) (by omega), if_pos (by omega)]
      congr 1 <;> omega
  have eBA : ∀ r i, r < nu + nx → BA r i = qp.BAbt k r i := fun r i hr => by
    rw [hBA, rowin_ne (by omega)]; exact hd.ba k r i hr
  have eBb : ∀ i, i < nx1 → BA (nu + nx) i = qp.b k i := fun i hi => by
    rw [hBA, rowin_in (by omega) (by omega), one_mul]; congr 1; omega
  have eA0 : ∀ r j, r < nu + nx + 1 → j < nx1 → AL0 r j = ∑ i ∈ range nx1, BA r i * P j i := by
    intro r j hr hj
    rw [hAL0, gemm_nt_in (by omega) (by omega) (by omega) (by omega), zero_mul, zero_add, one_mul]
    refine sum_congr rfl fun i hi => ?_
    rw [← eLx j i hj (mem_range.mp hi)]
    congr 2 <;> omega
  have eA : ∀ r j, r < nu + nx → j < nx1 → AL r j = ∑ i ∈ range nx1, qp.BAbt k r i * P i j := by
    intro r j hr hj
    rw [hAL, gead_out (by omega), eA0 r j (by omega) hj]
    refine sum_congr rfl fun i _ => ?_
    rw [eBA r i hr, hP, symL_symm']
  have eAb : ∀ j, j < nx1 → AL (nu + nx) j = (∑ i ∈ range nx1, qp.b k i * P i j) + s.L (k + 1) (nu1 + nx1) (nu1 + j) := by
    intro j hj
    rw [hAL, gead_in (by omega) (by omega) (by omega) (by omega), eA0 _ j (by omega) hj, one_mul]
    congr 1
    · refine sum_congr rfl fun i hi => ?_
      rw [eBb i (mem_range.mp hi), hP, symL_symm']
    · congr 1; omega
  have eLk1 : (upd s.L k Lk) k = Lk := upd_same _ _ _
  have eLk2 : (upd s.L k Lk) (k + 1) = s.L (k + 1) := upd_ne _ _ (by omega)
  constructor
  · intro r c hr hc
    rw [eL, eLk1, eLk2, hLk, syrk_in (by omega) (by omega) (by omega) (by omega) (by omega), one_mul, one_mul]
    congr 1
    · rw [show 0 + (r - 0) = r by omega, show 0 + (c - 0) = c by omega, hRS, rowin_ne (by omega)]
      exact hd.rs k r c hr
    · rw [sum_comm]
      refine sum_congr rfl fun j hj => ?_
      rw [show 0 + (r - 0) = r by omega, show 0 + (c - 0) = c by omega, zero_add, eA r j hr (mem_range.mp hj),
        eBA c j (by omega), sum_mul]
  · intro c hc
    rw [eL, eLk1, eLk2, hLk, syrk_in (by omega) (by omega) (by omega) (by omega) (by omega), one_mul, one_mul]
    congr 1
    · rw [hRS, show 0 + (nu + nx - 0) = nu + nx by omega, rowin_in (by omega) (by omega), one_mul]; congr 1; omega
    · refine sum_congr rfl fun j hj => ?_
      rw [show 0 + (nu + nx - 0) = nu + nx by omega, show 0 + (c - 0) = c by omega, zero_add, eAb j (mem_range.mp hj),
        eBA c j (by omega)]

/-- the square-root update, when all pivots are positive -/
theorem rsqSqrt_rec (sq : K → K) (hsq : ∀ x, 0 < x → sq x * sq x = x) (qp : OcpQp K) (k : ℕ) (s : RsqSt K)
    (hd : DataKept qp s.BAbt s.RSQrq) (Lx : Mat K)
    (hLx : Lx = potrf_l_mn sq (qp.dim.nx (k + 1) + 1) (qp.dim.nx (k + 1))
      (fun i j => s.L (k + 1) (qp.dim.nu (k + 1) + i) (qp.dim.nu (k + 1) + j)) s.Lx)
    (hp : ∀ i, i < qp.dim.nx (k + 1) → 1 / Lx i i ≠ 0) :
    CostRec qp (rsqSqrt qp.dim qp.b qp.rqz k Lx s).L k := by
  set nu := qp.dim.nu k with hnu
  set nx := qp.dim.nx k with hnx
  set nx1 := qp.dim.nx (k + 1) with hnx1
  set nu1 := qp.dim.nu (k + 1) with hnu1
  set P : Mat K := symL (s.L (k + 1)) nu1 nu1 with hP
  have hpn : ∀ j, j < nx1 → potrf_l_mn sq (nx1 + 1) nx1 (fun i j => s.L (k + 1) (nu1 + i) (nu1 + j)) s.Lx j j ≠ 0 := by
    intro j hj
    rw [← hLx]
    intro h
    exact hp j hj (by rw [h]; simp)
  have fac : ∀ i j, i < nx1 + 1 → j < nx1 → j ≤ i → ∑ l ∈ range nx1, low Lx i l * low Lx j l = s.L (k + 1) (nu1 + i) (nu1 + j) := by
    intro i j hi hj hij
    rw [hLx]
    exact potrf_spec sq hsq (nx1 + 1) nx1 (by omega) _ _ hpn i j hi hj hij
  have facP : ∀ i j, i < nx1 → j < nx1 → ∑ l ∈ range nx1, low Lx i l * low Lx j l = P i j := by
    intro i j hi hj
    rw [hP]; simp only [symL]
    by_cases h : j ≤ i
    · rw [if_pos h, fac i j (by omega) hj h]
    · rw [if_neg h, ← fac j i (by omega) hi (by omega)]
      exact sum_congr rfl fun l _ => mul_comm _ _
  set BA := rowin nx1 1 (qp.b k) 0 (s.BAbt k) (nu + nx) 0 with hBA
  set AL0 := trmm_rlnn (nu + nx + 1) nx1 1 Lx 0 0 BA 0 0 s.AL 0 0 with hAL0
  set AL := gead 1 nx1 1 Lx nx1 0 AL0 (nu + nx) 0 with hAL
  set RS := rowin (nu + nx) 1 (qp.rqz k) 0 (s.RSQrq k) (nu + nx) 0 with hRS
  set Lk := syrk_ln_mn (nu + nx + 1) (nu + nx) nx1 1 AL 0 0 AL 0 0 1 RS 0 0 (s.L k) 0 0 with hLk
  have eL : (rsqSqrt qp.dim qp.b qp.rqz k Lx s).L = upd s.L k Lk := rfl
  have eBA : ∀ r i, r < nu + nx → BA r i = qp.BAbt k r i := fun r i hr => by
    rw [hBA, rowin_ne (by omega)]; exact hd.ba k r i hr
  have eBb : ∀ i, i < nx1 → BA (nu + nx) i = qp.b k i := fun i hi => by
    rw [hBA, rowin_in (by omega) (by omega), one_mul]; congr 1; omega
  have eA0 : ∀ r l, r < nu + nx + 1 → l < nx1 → AL0 r l = ∑ i ∈ range nx1, BA r i * low Lx i l := by
    intro r l hr hl
    rw [hAL0]; unfold trmm_rlnn
    rw [if_pos ⟨⟨by omega, by omega⟩, by omega, by omega⟩, one_mul]
    refine sum_congr rfl fun i hi => ?_
    simp only [low]
    by_cases h : l ≤ i
    · rw [if_pos (by omega), if_pos h]; congr 2 <;> omega
    · rw [if_neg (by omega), if_neg h, mul_zero]
  have eA : ∀ r l, r < nu + nx → l < nx1 → AL r l = ∑ i ∈ range nx1, qp.BAbt k r i * low Lx i l := by
    intro r l hr hl
    rw [hAL, gead_out (by omega), eA0 r l (by omega) hl]
    exact sum_congr rfl fun i _ => by rw [eBA r i hr]
  have eAb : ∀ l, l < nx1 → AL (nu + nx) l = (∑ i ∈ range nx1, qp.b k i * low Lx i l) + low Lx nx1 l := by
    intro l hl
    rw [hAL, gead_in (by omega) (by omega) (by omega) (by omega), eA0 _ l (by omega) hl, one_mul]
    congr 1
    · exact sum_congr rfl fun i hi => by rw [eBb i (mem_range.mp hi)]
    · simp only [low]; rw [if_pos (by omega)]; congr 1 <;> omega
  have eLk1 : (upd s.L k Lk) k = Lk := upd_same _ _ _
  have eLk2 : (upd s.L k Lk) (k + 1) = s.L (k + 1) := upd_ne _ _ (by omega)
  constructor
  · intro r c hr hc
    rw [eL, eLk1, eLk2, hLk, syrk_in (by omega) (by omega) (by omega) (by omega) (by omega), one_mul, one_mul]
    congr 1
    · rw [show 0 + (r - 0) = r by omega, show 0 + (c - 0) = c by omega, hRS, rowin_ne (by omega)]
      exact hd.rs k r c hr
    · have : ∀ l ∈ range nx1, AL (0 + (r - 0)) (0 + l) * AL (0 + (c - 0)) (0 + l)
          = ∑ i ∈ range nx1, ∑ j ∈ range nx1, qp.BAbt k r i * (low Lx i l * low Lx j l) * qp.BAbt k c j := fun l hl => by
        rw [show 0 + (r - 0) = r by omega, show 0 + (c - 0) = c by omega, zero_add, eA r l hr (mem_range.mp hl),
          eA c l (by omega) (mem_range.mp hl), sum_mul_sum]
        exact sum_congr rfl fun i _ => sum_congr rfl fun j _ => by ring
      rw [sum_congr rfl this, sum_comm]
      refine sum_congr rfl fun i hi => ?_
      rw [sum_comm]
      refine sum_congr rfl fun j hj => ?_
      rw [← sum_mul, ← mul_sum, facP i j (mem_range.mp hi) (mem_range.mp hj)]
  · intro c hc
    rw [eL, eLk1, eLk2, hLk, syrk_in (by omega) (by omega) (by omega) (by omega) (by omega), one_mul, one_mul]
    congr 1
    · rw [hRS, show 0 + (nu + nx - 0) = nu + nx by omega, rowin_in (by omega) (by omega), one_mul]; congr 1; omega
    · have : ∀ l ∈ range nx1, AL (0 + (nu + nx - 0)) (0 + l) * AL (0 + (c - 0)) (0 + l)
          = ∑ j ∈ range nx1, ((∑ i ∈ range nx1, qp.b k i * (low Lx i l * low Lx j l)) + low Lx nx1 l * low Lx j l) * qp.BAbt k c j :=
        fun l hl => by
          rw [show 0 + (nu + nx - 0) = nu + nx by omega, show 0 + (c - 0) = c by omega, zero_add, eAb l (mem_range.mp hl),
            eA c l (by omega) (mem_range.mp hl), mul_sum]
          refine sum_congr rfl fun j _ => ?_
          have : ∑ i ∈ range nx1, qp.b k i * (low Lx i l * low Lx j l)
              = (∑ i ∈ range nx1, qp.b k i * low Lx i l) * low Lx j l := by
            rw [sum_mul]; exact sum_congr rfl fun i _ => by ring
          rw [this]; ring
      rw [sum_congr rfl this, sum_comm]
      refine sum_congr rfl fun j hj => ?_
      rw [← sum_mul, sum_add_distrib, fac nx1 j (by omega) (mem_range.mp hj) (by have := mem_range.mp hj; omega), sum_comm]
      congr 2
      refine sum_congr rfl fun i hi => ?_
      rw [← mul_sum, facP i j (mem_range.mp hi) (mem_range.mp hj)]

/-- what both updates leave alone -/
structure RecFrame (qp : OcpQp K) (k : ℕ) (s s' : RsqSt K) : Prop where
  L : ∀ l, l ≠ k → s'.L l = s.L l
  H : s'.H = s.H
  g : s'.g = s.g
  nub : s'.nub = s.nub
  nuf : s'.nuf = s.nuf
  data : DataKept qp s'.BAbt s'.RSQrq

theorem rsqRec_rec (sq : K → K) (qp : OcpQp K) (sqr : ℤ) (hsq : sqr ≠ 0 → ∀ x, 0 < x → sq x * sq x = x) (k : ℕ) (s : RsqSt K)
    (hd : DataKept qp s.BAbt s.RSQrq) :
    CostRec qp (rsqRec sq qp.dim qp.b qp.rqz sqr k s).L k ∧ RecFrame qp k s (rsqRec sq qp.dim qp.b qp.rqz sqr k s) := by
  have fr1 : ∀ Lx, RecFrame qp k s (rsqSqrt qp.dim qp.b qp.rqz k Lx s) := fun Lx =>
    ⟨fun l hl => upd_ne _ _ hl, rfl, rfl, rfl, rfl, dataKept_upd hd _ _ _ _ _⟩
  have fr2 : ∀ Lx, RecFrame qp k s (rsqClassic qp.dim qp.b qp.rqz k { s with Lx := Lx }) := fun Lx =>
    ⟨fun l hl => upd_ne _ _ hl, rfl, rfl, rfl, rfl, dataKept_upd hd _ _ _ _ _⟩
  unfold rsqRec
  split
  · rename_i h0
    dsimp only
    split
    · rename_i h; exact ⟨rsqSqrt_rec sq (hsq h0) qp k s hd _ rfl h, fr1 _⟩
    · exact ⟨rsqClassic_rec qp k { s with Lx := _ } hd, fr2 _⟩
  · exact ⟨rsqClassic_rec qp k s hd, fr2 s.Lx⟩

/-- a block column of the Hessian -/
theorem rsqCols_cols (qp : OcpQp K) (N k : ℕ) (Gamma : ℕ → Mat K) (Gammab : ℕ → Vec K) (s : RsqSt K) (hk : k < N)
    (hrow : ∀ i, i < qp.dim.nx (k + 1) → Gamma k (sumTo qp.dim.nu (k + 1) + qp.dim.nx 0) i = Gammab k i)
    (hnub : s.nub = sumTo qp.dim.nu (k + 2)) (hnuf : s.nuf = later qp.dim.nu N (k + 1)) :
    let s' := rsqCols qp.dim Gamma (nuAll qp.dim N) (k + 1) s
    HCols qp N s'.L Gamma Gammab s'.H k ∧ (∀ r c, c < s.nuf → s'.H r c = s.H r c) ∧ s'.L = s.L ∧ s'.BAbt = s.BAbt
      ∧ s'.RSQrq = s.RSQrq ∧ s'.nub = sumTo qp.dim.nu (k + 1) ∧ s'.nuf = later qp.dim.nu N k := by
  intro s'
  have hnub' : s.nub - qp.dim.nu (k + 1) = sumTo qp.dim.nu (k + 1) := by
    rw [hnub, show k + 2 = k + 1 + 1 by omega, sumTo_succ]; omega
  have hnuf' : s.nuf + qp.dim.nu (k + 1) = later qp.dim.nu N k := by rw [hnuf, later_succ _ hk]; omega
  have hall : later qp.dim.nu N k + sumTo qp.dim.nu (k + 1) = nuAll qp.dim N := by
    rw [later_add_sumTo _ (by omega), sumTo_eq]; rfl
  set nu := qp.dim.nu (k + 1) with hnu
  set nx := qp.dim.nx (k + 1) with hnx
  set q := sumTo qp.dim.nu (k + 1) with hq
  set H1 := trcp_l nu (s.L (k + 1)) 0 0 s.H s.nuf s.nuf with hH1
  set H2 := gemm_nn (s.nub - nu + qp.dim.nx 0 + 1) nu nx 1 (Gamma (k + 1 - 1)) 0 0 (s.L (k + 1)) nu 0 0 H1 (s.nuf + nu) s.nuf
    H1 (s.nuf + nu) s.nuf with hH2
  have eH : s'.H = gead 1 nu 1 (s.L (k + 1)) (nu + nx) 0 H2 (nuAll qp.dim N + qp.dim.nx 0) s.nuf := rfl
  refine ⟨⟨?_, ?_, ?_⟩, ?_, rfl, rfl, rfl, ?_, ?_⟩
  · intro r c hr hc
    show s'.H _ _ = s.L (k + 1) r c
    rw [← hnuf, eH, gead_out (by omega), hH2, gemm_nn_out (by omega), hH1, trcp_in (by omega) (by omega) (by omega) (by omega) (by omega)]
    congr 1 <;> omega
  · intro r c hr hc
    show s'.H _ _ = ∑ j ∈ range nx, Gamma k r j * s.L (k + 1) (nu + j) c
    rw [← hnuf, eH, gead_out (by omega), hH2, gemm_nn_in (by omega) (by omega) (by omega) (by omega), zero_mul, zero_add, one_mul]
    refine sum_congr rfl fun j _ => ?_
    rw [show k + 1 - 1 = k by omega]
    congr 2 <;> omega
  · intro c hc
    show s'.H _ _ = (∑ j ∈ range nx, Gammab k j * s.L (k + 1) (nu + j) c) + s.L (k + 1) (nu + nx) c
    rw [← hnuf, eH, gead_in (by omega) (by omega) (by omega) (by omega), hH2,
      gemm_nn_in (by omega) (by omega) (by omega) (by omega), zero_mul, zero_add, one_mul, one_mul]
    congr 1
    · refine sum_congr rfl fun j hj => ?_
      rw [← hrow j (mem_range.mp hj), show k + 1 - 1 = k by omega,
        show 0 + (nuAll qp.dim N + qp.dim.nx 0 - (s.nuf + nu)) = q + qp.dim.nx 0 by omega, zero_add,
        show 0 + (s.nuf + c - s.nuf) = c by omega]
    · congr 1 <;> omega
  · intro r c hc
    rw [eH, gead_out (by omega), hH2, gemm_nn_out (by omega), hH1, trcp_out (by omega)]
  · exact hnub'
  · exact hnuf'

/-- invariant of the loop of the first algorithm after `nn` passes -/
structure RsqInv (qp : OcpQp K) (N : ℕ) (Gamma : ℕ → Mat K) (Gammab : ℕ → Vec K) (nn : ℕ) (s : RsqSt K) : Prop where
  data : DataKept qp s.BAbt s.RSQrq
  fin : CostEnd qp s.L N
  rc : ∀ k, N - nn ≤ k → k < N → CostRec qp s.L k
  cols : ∀ k, N - nn ≤ k + 1 → k + 1 ≤ N → HCols qp N s.L Gamma Gammab s.H k
  nub : nn < N → s.nub = sumTo qp.dim.nu (N - nn)
  nuf : nn < N → s.nuf = later qp.dim.nu N (N - nn - 1)
  hend : nn = N → HEnd qp N s.L s.H
  grad : nn = N → ∀ i, i < nuAll qp.dim N + qp.dim.nx 0 → s.g i = s.H (nuAll qp.dim N + qp.dim.nx 0) i

theorem hCols_congr {qp : OcpQp K} {N : ℕ} {L Gamma : ℕ → Mat K} {Gammab : ℕ → Vec K} {H H' : Mat K} {k : ℕ}
    (h : HCols qp N L Gamma Gammab H k) (hk : k < N)
    (e : ∀ r c, c < later qp.dim.nu N k → H' r c = H r c) : HCols qp N L Gamma Gammab H' k := by
  have el := later_succ qp.dim.nu hk
  constructor
  · intro r c hr hc; rw [e _ _ (by omega)]; exact h.D r c hr hc
  · intro r c hr hc; rw [e _ _ (by omega)]; exact h.M r c hr hc
  · intro c hc; rw [e _ _ (by omega)]; exact h.m c hc

theorem later_mono (f : ℕ → ℕ) {N k l : ℕ} (h : k ≤ l) : later f N l ≤ later f N k := by
  unfold later
  refine sum_le_sum_of_subset ?_
  intro x; simp only [mem_Ioc]; omega

theorem rsqStep_inv (sq : K → K) (qp : OcpQp K) (sqr : ℤ) (hsq : sqr ≠ 0 → ∀ x, 0 < x → sq x * sq x = x) (N n : ℕ)
    (Gamma : ℕ → Mat K) (Gammab : ℕ → Vec K) (hrow : DynRow qp n Gamma Gammab) (hn : N ≤ n) (nn : ℕ) (hnn : nn < N) (s : RsqSt K)
    (h : RsqInv qp N Gamma Gammab nn s) :
    RsqInv qp N Gamma Gammab (nn + 1) (rsqStep sq qp.dim Gamma qp.b qp.rqz sqr (nuAll qp.dim N) N nn s) := by
  obtain ⟨hrec, fr⟩ := rsqRec_rec sq qp sqr hsq (N - nn - 1) s h.data
  set k := N - nn - 1 with hk
  set s1 := rsqRec sq qp.dim qp.b qp.rqz sqr k s with hs1
  have eL : ∀ l, k < l → s1.L l = s.L l := fun l hl => fr.L l (by omega)
  have fin1 : CostEnd qp s1.L N := by
    have e := eL N (by omega)
    exact ⟨by rw [e]; exact h.fin.quad, by rw [e]; exact h.fin.lin⟩
  have rc1 : ∀ l, N - (nn + 1) ≤ l → l < N → CostRec qp s1.L l := by
    intro l hl hlN
    by_cases e : l = k
    · rw [e]; exact hrec
    · have r := h.rc l (by omega) hlN
      have e1 := eL l (by omega)
      have e2 := eL (l + 1) (by omega)
      exact ⟨by rw [e1, e2]; exact r.quad, by rw [e1, e2]; exact r.lin⟩
  have cols1 : ∀ l, N - nn ≤ l + 1 → l + 1 ≤ N → HCols qp N s1.L Gamma Gammab s1.H l := by
    intro l hl hlN
    have c := h.cols l hl hlN
    have e2 := eL (l + 1) (by omega)
    rw [fr.H]
    exact ⟨by rw [e2]; exact c.D, by rw [e2]; exact c.M, by rw [e2]; exact c.m⟩
  have nuf1 : s1.nuf = later qp.dim.nu N k := by rw [fr.nuf, h.nuf hnn]
  have nub1 : s1.nub = sumTo qp.dim.nu (k + 1) := by rw [fr.nub, h.nub hnn, show N - nn = k + 1 by omega]
  unfold rsqStep
  simp only
  rw [← hk, ← hs1]
  by_cases hlast : nn = N - 1
  · rw [if_pos hlast]
    have k0 : k = 0 := by omega
    rw [k0] at nuf1 nub1 ⊢
    have hall : later qp.dim.nu N 0 + qp.dim.nu 0 = nuAll qp.dim N := by
      have := later_add_sumTo qp.dim.nu (N := N) (k := 0) (by omega)
      rw [sumTo_eq, sumTo_eq] at this
      simpa [nuAll] using this
    set n0 := qp.dim.nu 0 + qp.dim.nx 0 with hn0
    set H1 := trcp_l n0 (s1.L 0) 0 0 s1.H s1.nuf s1.nuf with hH1
    set H2 := gecp 1 n0 (s1.L 0) n0 0 H1 (s1.nuf + qp.dim.nu 0 + qp.dim.nx 0) s1.nuf with hH2
    have e0 : ∀ r c, c < later qp.dim.nu N 0 → H2 r c = s1.H r c := by
      intro r c hc
      rw [hH2, gecp_out (by omega), hH1, trcp_out (by omega)]
    refine ⟨fr.data, fin1, rc1, ?_, fun hh => by omega, fun hh => by omega, ?_, ?_⟩
    · intro l hl hlN
      refine hCols_congr (cols1 l (by omega) hlN) (by omega) (fun r c hc => e0 r c ?_)
      exact lt_of_lt_of_le hc (later_mono _ (by omega))
    · intro _
      constructor
      · intro r c hr hc
        show H2 _ _ = s1.L 0 r c
        rw [hH2, gecp_out (by omega), hH1, trcp_in (by omega) (by omega) (by omega) (by omega) (by omega)]
        congr 1 <;> omega
      · intro c hc
        show H2 _ _ = s1.L 0 (qp.dim.nu 0 + qp.dim.nx 0) c
        rw [hH2, gecp_in (by omega) (by omega) (by omega) (by omega)]
        congr 1 <;> omega
    · intro _ i hi
      show rowex _ _ _ _ _ _ _ _ = _
      rw [rowex_in (by omega) (by omega), one_mul]
      congr 1; omega
  · rw [if_neg hlast]
    obtain ⟨k', hk'⟩ : ∃ k', k = k' + 1 := ⟨k - 1, by omega⟩
    rw [hk'] at nuf1 nub1 ⊢
    have C := rsqCols_cols qp N k' Gamma Gammab s1 (by omega) (fun i hi => hrow k' i (by omega) hi) nub1 nuf1
    dsimp only at C
    obtain ⟨c1, c2, c3, c4, c5, c6, c7⟩ := C
    refine ⟨by rw [c4, c5]; exact fr.data, by rw [c3]; exact fin1, by rw [c3]; exact rc1, ?_, ?_, ?_, fun hh => by omega,
      fun hh => by omega⟩
    · intro l hl hlN
      by_cases e : l = k'
      · rw [e]; exact c1
      · rw [c3]
        refine hCols_congr (cols1 l (by omega) hlN) (by omega) (fun r c hc => c2 r c ?_)
        rw [nuf1]; exact lt_of_lt_of_le hc (later_mono _ (by omega))
    · intro _; rw [c6]; congr 1; omega
    · intro _; rw [c7]; congr 1; omega

/-- before the loop: the last stage -/
theorem rsqLast_inv (qp : OcpQp K) (N n : ℕ) (Gamma : ℕ → Mat K) (Gammab : ℕ → Vec K) (hrow : DynRow qp n Gamma Gammab)
    (hn : N ≤ n) (hN : 0 < N) (s : RsqSt K) (hB : s.BAbt = qp.BAbt) (hR : s.RSQrq = qp.RSQrq) (hnub : s.nub = nuAll qp.dim N)
    (hnuf : s.nuf = 0) :
    RsqInv qp N Gamma Gammab 0 (rsqLast qp.dim Gamma qp.rqz (nuAll qp.dim N) N s) := by
  obtain ⟨k, rfl⟩ : ∃ k, N = k + 1 := ⟨N - 1, by omega⟩
  unfold rsqLast
  simp only
  set LN := rowin (qp.dim.nu (k + 1) + qp.dim.nx (k + 1)) 1 (qp.rqz (k + 1)) 0
    (gecp (qp.dim.nu (k + 1) + qp.dim.nx (k + 1)) (qp.dim.nu (k + 1) + qp.dim.nx (k + 1)) (s.RSQrq (k + 1)) 0 0 (s.L (k + 1)) 0 0)
    (qp.dim.nu (k + 1) + qp.dim.nx (k + 1)) 0 with hLN
  set s1 : RsqSt K := { s with L := upd s.L (k + 1) LN } with hs1
  have fin1 : CostEnd qp s1.L (k + 1) := by
    have e : s1.L (k + 1) = LN := upd_same _ _ _
    constructor
    · intro r c hr hc
      rw [e, hLN, rowin_ne (by omega), gecp_in (by omega) (by omega) (by omega) (by omega), hR]; congr 1 <;> omega
    · intro c hc
      rw [e, hLN, rowin_in (by omega) (by omega), one_mul]; congr 1; omega
  have C := rsqCols_cols qp (k + 1) k Gamma Gammab s1 (by omega) (fun i hi => hrow k i (by omega) hi)
    (by show s.nub = _; rw [hnub, sumTo_eq]; rfl) (by show s.nuf = _; rw [hnuf, later_self])
  dsimp only at C
  obtain ⟨c1, c2, c3, c4, c5, c6, c7⟩ := C
  refine ⟨?_, by rw [c3]; exact fin1, fun l h1 h2 => by omega, ?_, ?_, ?_, fun hh => by omega, fun hh => by omega⟩
  · rw [c4, c5]; show DataKept qp s.BAbt s.RSQrq; rw [hB, hR]; exact dataKept_self qp
  · intro l h1 h2
    obtain rfl : l = k := by omega
    exact c1
  · intro _; rw [c6]; rfl
  · intro _; rw [c7]; rfl

/-- the first algorithm of COND_RSQRQ: the condensed Hessian and gradient give the cost of the trajectory up to a constant;
the user's matrices keep their data -/
theorem condRsqrq_alg0 (sq : K → K) (qp : OcpQp K) (arg : CondArg) (hsq : arg.square_root_alg ≠ 0 → ∀ x, 0 < x → sq x * sq x = x) (ws : CondWs K)
    (tg : CondTgt K) (N n : ℕ) (htop : condTop qp.dim.N arg = some N) (hN : 0 < N) (halg : arg.cond_alg = 0)
    (hn : N ≤ n) (hn' : n ≤ N + 1) (hd : DynRec qp n ws.Gamma ws.Gammab) (hrow : DynRow qp n ws.Gamma ws.Gammab) :
    (∃ c : K, ∀ v, ∑ k ∈ range (N + 1), stageCost qp k (uxOf qp N v k)
      = quadL (nuAll qp.dim N + qp.dim.nx 0) (condRsqrq sq qp arg ws tg).2.2.RSQrq2 0 v
        + (∑ c ∈ range (nuAll qp.dim N + qp.dim.nx 0), (condRsqrq sq qp arg ws tg).2.2.rqz2 c * v c) + c)
    ∧ DataKept qp (condRsqrq sq qp arg ws tg).1.BAbt (condRsqrq sq qp arg ws tg).1.RSQrq := by
  have en : sumTo qp.dim.nu (N + 1) = nuAll qp.dim N := by rw [sumTo_eq]; rfl
  set s0 : RsqSt K := ⟨qp.BAbt, qp.RSQrq, ws.L, ws.Lx, ws.AL, tg.RSQrq2, tg.rqz2, nuAll qp.dim N, 0⟩ with hs0
  have I := loop_inv (RsqInv qp N ws.Gamma ws.Gammab) N
    (rsqStep sq qp.dim ws.Gamma qp.b qp.rqz arg.square_root_alg (nuAll qp.dim N) N)
    (rsqLast qp.dim ws.Gamma qp.rqz (nuAll qp.dim N) N s0)
    (rsqLast_inv qp N n ws.Gamma ws.Gammab hrow hn hN s0 rfl rfl rfl rfl)
    (fun i s hi h => rsqStep_inv sq qp arg.square_root_alg hsq N n ws.Gamma ws.Gammab hrow hn i hi s h)
  set s := loop N (rsqStep sq qp.dim ws.Gamma qp.b qp.rqz arg.square_root_alg (nuAll qp.dim N) N)
    (rsqLast qp.dim ws.Gamma qp.rqz (nuAll qp.dim N) N s0) with hs
  have e : condRsqrq sq qp arg ws tg = ({ qp with BAbt := s.BAbt, RSQrq := s.RSQrq },
      { ws with L := s.L, Lx := s.Lx, AL := s.AL }, { tg with RSQrq2 := s.H, rqz2 := s.g }) := by
    unfold condRsqrq
    rw [htop]
    dsimp only
    rw [if_neg (by omega), if_pos halg, en]
  rw [e]
  dsimp only
  refine ⟨?_, I.data⟩
  obtain ⟨c, hc⟩ := cond_cost hd hn hn' I.fin (fun k hk => I.rc k (by omega) hk) (fun k hk => I.cols k (by omega) hk) (I.hend rfl)
  refine ⟨c, fun v => ?_⟩
  rw [hc v]
  congr 2
  exact sum_congr rfl fun i hi => by rw [I.grad rfl i (mem_range.mp hi)]

end
end Hpipm
