/-
Forward sweeps of the KKT solver (intermediate results): substitution through the factorised stages
yields a point satisfying the dynamics and the triangular systems, hence the stationarity conditions.
-/
import Verif.KktSweep

namespace Hpipm
open Finset
set_option linter.unusedSectionVars false

section
variable {K : Type*} [Field K] [LinearOrder K]

/-- effect of one forward step on stage `k` (eliminating `n` variables) and its successor -/
structure FStep (qp : OcpQp K) (dual : Bool) (n k : ℕ) (ell : Vec K) (Pc : Mat K) (p : Vec K) (st st' : KktSt K) : Prop where
  L : st'.L = st.L
  P : st'.P = st.P
  BAbt : st'.BAbt = st.BAbt
  RSQrq : st'.RSQrq = st.RSQrq
  Zs : st'.Zs = st.Zs
  Pb : st'.Pb = st.Pb
  lam : st'.lam = st.lam
  t : st'.t = st.t
  uxo : ∀ q, q ≠ k → q ≠ k + 1 → st'.ux q = st.ux q
  uxk : ∀ i, n ≤ i → st'.ux k i = st.ux k i
  solve : ∀ j, j < n → ∑ i ∈ range (qp.dim.nu k + qp.dim.nx k), low (st.L k) i j * st'.ux k i = - ell j
  ux1 : ∀ c, c < qp.dim.nx (k + 1) → st'.ux (k + 1) (qp.dim.nu (k + 1) + c) =
    ∑ j ∈ range (qp.dim.nu k + qp.dim.nx k), st.BAbt k j c * st'.ux k j + qp.b k c
  ux1o : ∀ i, ¬ (qp.dim.nu (k + 1) ≤ i ∧ i < qp.dim.nu (k + 1) + qp.dim.nx (k + 1)) → st'.ux (k + 1) i = st.ux (k + 1) i
  pi : dual = true → ∀ a, a < qp.dim.nx (k + 1) → st'.pi k a =
    ∑ c ∈ range (qp.dim.nx (k + 1)), Pc a c * st'.ux (k + 1) (qp.dim.nu (k + 1) + c) + p a
  pio : ∀ q, q ≠ k → st'.pi q = st.pi q

/-- effect of the forward step of the last stage -/
structure FLast (qp : OcpQp K) (ell : Vec K) (st st' : KktSt K) : Prop where
  L : st'.L = st.L
  P : st'.P = st.P
  BAbt : st'.BAbt = st.BAbt
  RSQrq : st'.RSQrq = st.RSQrq
  Zs : st'.Zs = st.Zs
  Pb : st'.Pb = st.Pb
  lam : st'.lam = st.lam
  t : st'.t = st.t
  pi : st'.pi = st.pi
  uxo : ∀ q, q ≠ qp.dim.N → st'.ux q = st.ux q
  uxk : ∀ i, qp.dim.nu qp.dim.N ≤ i → st'.ux qp.dim.N i = st.ux qp.dim.N i
  solve : ∀ j, j < qp.dim.nu qp.dim.N →
    ∑ i ∈ range (qp.dim.nu qp.dim.N + qp.dim.nx qp.dim.N), low (st.L qp.dim.N) i j * st'.ux qp.dim.N i = - ell j

/-- number of variables eliminated at stage `k` -/
def nel (D : QpDim) (k : ℕ) : ℕ := if k = 0 then D.nu 0 + D.nx 0 else D.nu k

/-- state before forward step `k`: factorisation and the part of the vectors still needed are those of `st0` -/
structure FPre (qp : OcpQp K) (st0 : KktSt K) (k : ℕ) (st : KktSt K) : Prop where
  L : st.L = st0.L
  P : st.P = st0.P
  BAbt : st.BAbt = st0.BAbt
  RSQrq : st.RSQrq = st0.RSQrq
  Zs : st.Zs = st0.Zs
  Pb : st.Pb = st0.Pb
  lam : st.lam = st0.lam
  t : st.t = st0.t
  uxg : ∀ q, k < q → st.ux q = st0.ux q
  uxk : ∀ i, i < nel qp.dim k → st.ux k i = st0.ux k i
  uxs : ∀ q i, qp.dim.nu q + qp.dim.nx q ≤ i → st.ux q i = st0.ux q i

/-- result of a forward sweep -/
structure FDone (qp : OcpQp K) (dual : Bool) (ell : ℕ → Vec K) (Pc : ℕ → Mat K) (p : ℕ → Vec K) (st0 st : KktSt K) : Prop where
  L : st.L = st0.L
  P : st.P = st0.P
  BAbt : st.BAbt = st0.BAbt
  RSQrq : st.RSQrq = st0.RSQrq
  Zs : st.Zs = st0.Zs
  Pb : st.Pb = st0.Pb
  lam : st.lam = st0.lam
  t : st.t = st0.t
  uxs : ∀ q i, qp.dim.nu q + qp.dim.nx q ≤ i → st.ux q i = st0.ux q i
  solve : ∀ k j, k ≤ qp.dim.N → j < nel qp.dim k →
    ∑ i ∈ range (qp.dim.nu k + qp.dim.nx k), low (st0.L k) i j * st.ux k i = - ell k j
  dyn : ∀ k c, k < qp.dim.N → c < qp.dim.nx (k + 1) → st.ux (k + 1) (qp.dim.nu (k + 1) + c) =
    ∑ j ∈ range (qp.dim.nu k + qp.dim.nx k), st0.BAbt k j c * st.ux k j + qp.b k c
  pi : dual = true → ∀ k a, k < qp.dim.N → a < qp.dim.nx (k + 1) → st.pi k a =
    ∑ c ∈ range (qp.dim.nx (k + 1)), Pc (k + 1) a c * st.ux (k + 1) (qp.dim.nu (k + 1) + c) + p (k + 1) a
  pin : dual = false → st.pi = st0.pi

theorem fwd_chain (qp : OcpQp K) (dual : Bool) (hN : 1 ≤ qp.dim.N) (ell : ℕ → Vec K) (P : ℕ → Mat K) (p : ℕ → Vec K)
    (step : ℕ → ℕ → KktSt K → KktSt K) (last : KktSt K → KktSt K) (st0 : KktSt K)
    (hs : ∀ k st, k < qp.dim.N → FPre qp st0 k st →
      FStep qp dual (nel qp.dim k) k (ell k) (P (k + 1)) (p (k + 1)) st (step (nel qp.dim k) k st))
    (hpn : ∀ k st, dual = false → (step (nel qp.dim k) k st).pi = st.pi)
    (hl : ∀ st, FPre qp st0 qp.dim.N st → FLast qp (ell qp.dim.N) st (last st)) :
    FDone qp dual ell P p st0 (last (loop (qp.dim.N - 1) (fun i st => step (qp.dim.nu (i + 1)) (i + 1) st)
      (step (qp.dim.nu 0 + qp.dim.nx 0) 0 st0))) := by
  -- state after the steps of the stages below `m`
  have key := loop_inv (S := KktSt K) (fun i st => FPre qp st0 (i + 1) st ∧
      (∀ k j, k ≤ i → j < nel qp.dim k →
        ∑ i ∈ range (qp.dim.nu k + qp.dim.nx k), low (st0.L k) i j * st.ux k i = - ell k j) ∧
      (∀ k c, k ≤ i → c < qp.dim.nx (k + 1) → st.ux (k + 1) (qp.dim.nu (k + 1) + c) =
        ∑ j ∈ range (qp.dim.nu k + qp.dim.nx k), st0.BAbt k j c * st.ux k j + qp.b k c) ∧
      (dual = true → ∀ k a, k ≤ i → a < qp.dim.nx (k + 1) → st.pi k a =
        ∑ c ∈ range (qp.dim.nx (k + 1)), P (k + 1) a c * st.ux (k + 1) (qp.dim.nu (k + 1) + c) + p (k + 1) a) ∧
      (dual = false → st.pi = st0.pi))
    (qp.dim.N - 1) (fun i st => step (qp.dim.nu (i + 1)) (i + 1) st) (step (qp.dim.nu 0 + qp.dim.nx 0) 0 st0) ?_ ?_
  · set st := loop (qp.dim.N - 1) (fun i st => step (qp.dim.nu (i + 1)) (i + 1) st) (step (qp.dim.nu 0 + qp.dim.nx 0) 0 st0)
    rw [show qp.dim.N - 1 + 1 = qp.dim.N by omega] at key
    obtain ⟨hp, k1, k2, k3, k4⟩ := key
    have h := hl st hp
    have hn : nel qp.dim qp.dim.N = qp.dim.nu qp.dim.N := if_neg (by omega)
    refine ⟨by rw [h.L, hp.L], by rw [h.P, hp.P], by rw [h.BAbt, hp.BAbt], by rw [h.RSQrq, hp.RSQrq], by rw [h.Zs, hp.Zs],
      by rw [h.Pb, hp.Pb], by rw [h.lam, hp.lam], by rw [h.t, hp.t], fun q i hi => ?_, fun k j hk hj => ?_,
      fun k c hk hc => ?_, fun hd k a hk ha => ?_, fun hd => by rw [h.pi, k4 hd]⟩
    · by_cases hq : q = qp.dim.N
      · subst hq; rw [h.uxk i (by omega), hp.uxs _ i hi]
      · rw [h.uxo q hq, hp.uxs q i hi]
    · by_cases hq : k = qp.dim.N
      · subst hq
        rw [← hp.L]
        exact h.solve j (by omega)
      · rw [h.uxo k hq]; exact k1 k j (by omega) hj
    · rw [h.uxo k (by omega), ← k2 k c (by omega) hc]
      by_cases hq : k + 1 = qp.dim.N
      · rw [hq]; exact h.uxk _ (by omega)
      · rw [h.uxo _ hq]
    · rw [h.pi, k3 hd k a (by omega) ha]
      congr 1
      apply sum_congr rfl
      intro c hc
      congr 1
      by_cases hq : k + 1 = qp.dim.N
      · rw [hq]; exact (h.uxk (qp.dim.nu qp.dim.N + c) (by omega)).symm
      · rw [h.uxo _ hq]
  · have hp0 : FPre qp st0 0 st0 := ⟨rfl, rfl, rfl, rfl, rfl, rfl, rfl, rfl, fun _ _ => rfl, fun _ _ => rfl, fun _ _ _ => rfl⟩
    have hn : nel qp.dim 0 = qp.dim.nu 0 + qp.dim.nx 0 := if_pos rfl
    have h := hs 0 st0 (by omega) hp0
    have hpn0 := hpn 0 st0
    rw [hn] at h hpn0
    refine ⟨⟨h.L, h.P, h.BAbt, h.RSQrq, h.Zs, h.Pb, h.lam, h.t, fun q hq => h.uxo q (by omega) (by omega), fun i hi => ?_, fun q i hi => ?_⟩,
      fun k j hk hj => ?_, fun k c hk hc => ?_, fun hd k a hk ha => ?_, fun hd => hpn0 hd⟩
    · have hn1 : nel qp.dim (0 + 1) = qp.dim.nu (0 + 1) := if_neg (by omega)
      exact h.ux1o i (by omega)
    · by_cases hq0 : q = 0
      · subst hq0; exact h.uxk i hi
      · by_cases hq1 : q = 0 + 1
        · subst hq1; exact h.ux1o i (by omega)
        · rw [h.uxo q hq0 hq1]
    · have : k = 0 := by omega
      subst this
      rw [hn] at hj
      exact h.solve j hj
    · have : k = 0 := by omega
      subst this
      exact h.ux1 c hc
    · have : k = 0 := by omega
      subst this
      exact h.pi hd a ha
  · rintro i st hi ⟨hp, k1, k2, k3, k4⟩
    have hn : nel qp.dim (i + 1) = qp.dim.nu (i + 1) := if_neg (by omega)
    have h := hs (i + 1) st (by omega) hp
    have hpni := hpn (i + 1) st
    rw [hn] at h hpni
    refine ⟨⟨by rw [h.L, hp.L], by rw [h.P, hp.P], by rw [h.BAbt, hp.BAbt], by rw [h.RSQrq, hp.RSQrq], by rw [h.Zs, hp.Zs],
      by rw [h.Pb, hp.Pb], by rw [h.lam, hp.lam], by rw [h.t, hp.t],
      fun q hq => by rw [h.uxo q (by omega) (by omega), hp.uxg q (by omega)], fun j hj => ?_, fun q j hj => ?_⟩,
      fun k j hk hj => ?_, fun k c hk hc => ?_, fun hd k a hk ha => ?_, fun hd => by rw [hpni hd, k4 hd]⟩
    · have hn1 : nel qp.dim (i + 1 + 1) = qp.dim.nu (i + 1 + 1) := if_neg (by omega)
      rw [h.ux1o j (by omega), hp.uxg _ (by omega)]
    · by_cases hq0 : q = i + 1
      · subst hq0; rw [h.uxk j (by omega), hp.uxs _ j hj]
      · by_cases hq1 : q = i + 1 + 1
        · subst hq1; rw [h.ux1o j (by omega), hp.uxs _ j hj]
        · rw [h.uxo q hq0 hq1, hp.uxs q j hj]
    · by_cases hk1 : k = i + 1
      · subst hk1
        rw [hn] at hj
        rw [← hp.L]
        exact h.solve j hj
      · rw [h.uxo k hk1 (by omega)]; exact k1 k j (by omega) hj
    · by_cases hk1 : k = i + 1
      · subst hk1
        rw [← hp.BAbt]
        exact h.ux1 c hc
      · rw [h.uxo k hk1 (by omega), ← k2 k c (by omega) hc]
        by_cases hk2 : k = i
        · subst hk2; exact h.uxk _ (by omega)
        · rw [h.uxo _ (by omega) (by omega)]
    · by_cases hk1 : k = i + 1
      · subst hk1
        exact h.pi hd a ha
      · rw [h.pio k hk1, k3 hd k a (by omega) ha]
        congr 1
        apply sum_congr rfl
        intro c hc
        congr 1
        by_cases hk2 : k = i
        · subst hk2; exact (h.uxk _ (by omega)).symm
        · rw [h.uxo _ (by omega) (by omega)]

theorem trmv_ltn_at (m : ℕ) (A : Mat K) (ai aj : ℕ) (x : Vec K) (xi : ℕ) (z : Vec K) (j : ℕ) (hj : j < m) :
    trmv_ltn m A ai aj x xi z 0 j = ∑ i ∈ range m, (if j ≤ i then A (ai + i) (aj + j) else 0) * x (xi + i) := by
  rw [trmv_ltn, if_pos (by omega)]
  simp only [Nat.sub_zero, ite_mul, zero_mul]

theorem trmv_lnn_at (m : ℕ) (A : Mat K) (ai aj : ℕ) (x : Vec K) (xi : ℕ) (z : Vec K) (i : ℕ) (hi : i < m) :
    trmv_lnn m A ai aj x xi z 0 i = ∑ j ∈ range m, (if j ≤ i then A (ai + i) (aj + j) else 0) * x (xi + j) := by
  rw [trmv_lnn, if_pos (by omega)]
  simp only [Nat.sub_zero, ite_mul, zero_mul]

/-- `L Lᵀ x` computed by two triangular products -/
theorem sq_mul (nu nx : ℕ) (L : Mat K) (x z1 z2 : Vec K) (xi : ℕ) (a : ℕ) (ha : a < nx) :
    trmv_lnn nx L nu nu (trmv_ltn nx L nu nu x xi z1 0) 0 z2 0 a = ∑ c ∈ range nx, sqP nu nx L a c * x (xi + c) := by
  rw [trmv_lnn_at _ _ _ _ _ _ _ _ ha]
  have e : ∀ l, l ∈ range nx → (if l ≤ a then L (nu + a) (nu + l) else 0) * trmv_ltn nx L nu nu x xi z1 0 (0 + l) =
      ∑ c ∈ range nx, low L (nu + a) (nu + l) * low L (nu + c) (nu + l) * x (xi + c) := by
    intro l hl
    rw [zero_add, trmv_ltn_at _ _ _ _ _ _ _ _ (mem_range.mp hl), mul_sum]
    apply sum_congr rfl
    intro c _
    simp only [low, Nat.add_le_add_iff_left]
    ring
  rw [sum_congr rfl e, sum_comm]
  apply sum_congr rfl
  intro c _
  simp only [sqP]
  rw [sum_mul]

theorem sqFwd_step (qp : OcpQp K) (dual : Bool) (n k : ℕ) (st : KktSt K) (hn : n ≤ qp.dim.nu k + qp.dim.nx k)
    (hp : ∀ j, j < n → st.L k j j ≠ 0) :
    FStep qp dual n k (fun l => st.L k (qp.dim.nu k + qp.dim.nx k) l)
      (sqP (qp.dim.nu (k + 1)) (qp.dim.nx (k + 1)) (st.L (k + 1))) (sqp (qp.dim.nu (k + 1)) (qp.dim.nx (k + 1)) (st.L (k + 1)))
      st (sqFwd qp dual n k st) := by
  have hk1 : k + 1 ≠ k := by omega
  have hk2 : k ≠ k + 1 := by omega
  refine ⟨rfl, rfl, rfl, rfl, rfl, rfl, rfl, rfl, fun q h1 h2 => ?_, fun i hi => ?_, fun j hj => ?_, fun c hc => ?_, fun i hi => ?_,
    fun hd a ha => ?_, fun q hq => ?_⟩
  · simp only [sqFwd, upd_ne _ _ h2, upd_ne _ _ h1]
  · simp only [sqFwd, upd_ne _ _ hk2, upd_same]
    rw [trsv_ltn_mn_out _ _ _ _ _ hi, rowex, if_neg (by omega)]
  · simp only [sqFwd, upd_ne _ _ hk2, upd_same]
    rw [trsv_ltn_mn_spec _ _ hn _ _ hp j hj, rowex, if_pos (by omega)]
    simp
  · simp only [sqFwd, upd_ne _ _ hk2, upd_same]
    rw [gemv_t, if_pos (by omega)]
    simp only [Nat.add_sub_cancel_left, zero_add, one_mul]
    ring
  · simp only [sqFwd, upd_same, upd_ne _ _ hk1]
    rw [gemv_t, if_neg hi]
  · simp only [sqFwd, hd, if_true, upd_same]
    rw [trmv_lnn_at _ _ _ _ _ _ _ _ ha]
    simp only [zero_add]
    set du1 := gemv_t (qp.dim.nu k + qp.dim.nx k) (qp.dim.nx (k + 1)) 1 (st.BAbt k) 0 0
      (trsv_ltn_mn (qp.dim.nu k + qp.dim.nx k) n (st.L k) (rowex n (-1) (st.L k) (qp.dim.nu k + qp.dim.nx k) 0 (st.ux k) 0)) 0 1
      (qp.b k) 0 (upd st.ux k (trsv_ltn_mn (qp.dim.nu k + qp.dim.nx k) n (st.L k)
        (rowex n (-1) (st.L k) (qp.dim.nu k + qp.dim.nx k) 0 (st.ux k) 0)) (k + 1)) (qp.dim.nu (k + 1)) with hdu
    have e : ∀ l, l < qp.dim.nx (k + 1) →
        axpy (qp.dim.nx (k + 1)) 1 (rowex (qp.dim.nx (k + 1)) 1 (st.L (k + 1)) (qp.dim.nu (k + 1) + qp.dim.nx (k + 1)) (qp.dim.nu (k + 1)) st.tmpN 0) 0
          (trmv_ltn (qp.dim.nx (k + 1)) (st.L (k + 1)) (qp.dim.nu (k + 1)) (qp.dim.nu (k + 1)) du1 (qp.dim.nu (k + 1)) (st.pi k) 0) 0
          (trmv_ltn (qp.dim.nx (k + 1)) (st.L (k + 1)) (qp.dim.nu (k + 1)) (qp.dim.nu (k + 1)) du1 (qp.dim.nu (k + 1)) (st.pi k) 0) 0 l =
        trmv_ltn (qp.dim.nx (k + 1)) (st.L (k + 1)) (qp.dim.nu (k + 1)) (qp.dim.nu (k + 1)) du1 (qp.dim.nu (k + 1)) (st.pi k) 0 (0 + l)
          + st.L (k + 1) (qp.dim.nu (k + 1) + qp.dim.nx (k + 1)) (qp.dim.nu (k + 1) + l) := by
      intro l hl
      rw [axpy, if_pos (by omega), rowex, if_pos (by omega)]
      simp
    rw [← sq_mul (qp.dim.nu (k + 1)) (qp.dim.nx (k + 1)) (st.L (k + 1)) du1 (st.pi k) (st.pi k) (qp.dim.nu (k + 1)) a ha,
      trmv_lnn_at _ _ _ _ _ _ _ _ ha, sqp, ← sum_add_distrib]
    apply sum_congr rfl
    intro l hl
    rw [e l (mem_range.mp hl)]
    simp only [low, Nat.add_le_add_iff_left]
    ring
  · simp only [sqFwd]
    by_cases hd : dual = true
    · simp only [hd, if_true, upd_ne _ _ hq]
    · simp only [hd, Bool.false_eq_true, if_false]

theorem clFwd_step (qp : OcpQp K) (dual : Bool) (n k : ℕ) (st : KktSt K) (hn : n ≤ qp.dim.nu k + qp.dim.nx k)
    (hp : ∀ j, j < n → st.L k j j ≠ 0) :
    FStep qp dual n k (fun l => st.L k (qp.dim.nu k + qp.dim.nx k) l)
      (st.P (k + 1)) (st.P (k + 1) (qp.dim.nx (k + 1))) st (clFwd qp dual n k st) := by
  have hk1 : k + 1 ≠ k := by omega
  have hk2 : k ≠ k + 1 := by omega
  refine ⟨rfl, rfl, rfl, rfl, rfl, rfl, rfl, rfl, fun q h1 h2 => ?_, fun i hi => ?_, fun j hj => ?_, fun c hc => ?_, fun i hi => ?_,
    fun hd a ha => ?_, fun q hq => ?_⟩
  · simp only [clFwd, upd_ne _ _ h2, upd_ne _ _ h1]
  · simp only [clFwd, upd_ne _ _ hk2, upd_same]
    rw [trsv_ltn_mn_out _ _ _ _ _ hi, rowex, if_neg (by omega)]
  · simp only [clFwd, upd_ne _ _ hk2, upd_same]
    rw [trsv_ltn_mn_spec _ _ hn _ _ hp j hj, rowex, if_pos (by omega)]
    simp
  · simp only [clFwd, upd_ne _ _ hk2, upd_same]
    rw [gemv_t, if_pos (by omega)]
    simp only [Nat.add_sub_cancel_left, zero_add, one_mul]
    ring
  · simp only [clFwd, upd_same, upd_ne _ _ hk1]
    rw [gemv_t, if_neg hi]
  · simp only [clFwd, hd, if_true, upd_same]
    rw [gemv_n, if_pos (by omega), rowex, if_pos (by omega)]
    simp only [Nat.sub_zero, zero_add, one_mul]
    ring
  · simp only [clFwd]
    by_cases hd : dual = true
    · simp only [hd, if_true, upd_ne _ _ hq]
    · simp only [hd, Bool.false_eq_true, if_false]

theorem fwdLast_step (qp : OcpQp K) (st : KktSt K) (hp : ∀ j, j < qp.dim.nu qp.dim.N → st.L qp.dim.N j j ≠ 0) :
    FLast qp (fun l => st.L qp.dim.N (qp.dim.nu qp.dim.N + qp.dim.nx qp.dim.N) l) st (fwdLast qp st) := by
  refine ⟨rfl, rfl, rfl, rfl, rfl, rfl, rfl, rfl, rfl, fun q h1 => ?_, fun i hi => ?_, fun j hj => ?_⟩
  · simp only [fwdLast, upd_ne _ _ h1]
  · simp only [fwdLast, upd_same]
    rw [trsv_ltn_mn_out _ _ _ _ _ hi, rowex, if_neg (by omega)]
  · simp only [fwdLast, upd_same]
    rw [trsv_ltn_mn_spec _ _ (by omega) _ _ hp j hj, rowex, if_pos (by omega)]
    simp

/-- the cost to go as the forward sweeps read it -/
def ctgP (D : QpDim) (sqr : Bool) (st : KktSt K) (k : ℕ) : Mat K := if sqr then sqP (D.nu k) (D.nx k) (st.L k) else st.P k
/-- its linear term -/
def ctgp (D : QpDim) (sqr : Bool) (st : KktSt K) (k : ℕ) : Vec K := if sqr then sqp (D.nu k) (D.nx k) (st.L k) else st.P k (D.nx k)

theorem fwd_done (qp : OcpQp K) (dual sqr : Bool) (hN : 1 ≤ qp.dim.N) (st : KktSt K)
    (hp : ∀ k j, k ≤ qp.dim.N → j < nel qp.dim k → st.L k j j ≠ 0) :
    FDone qp dual (fun k l => st.L k (qp.dim.nu k + qp.dim.nx k) l) (ctgP qp.dim sqr st) (ctgp qp.dim sqr st) st
      (fwd qp dual sqr st) := by
  have hle : ∀ k, nel qp.dim k ≤ qp.dim.nu k + qp.dim.nx k := by
    intro k; unfold nel; split_ifs with h
    · subst h; exact le_refl _
    · omega
  have hnN : nel qp.dim qp.dim.N = qp.dim.nu qp.dim.N := if_neg (by omega)
  refine fwd_chain qp dual hN _ _ _ (fun n k st => if sqr then sqFwd qp dual n k st else clFwd qp dual n k st) (fwdLast qp) st ?_ ?_ ?_
  · intro k s hk hpre
    have hp' : ∀ j, j < nel qp.dim k → s.L k j j ≠ 0 := by rw [hpre.L]; exact fun j hj => hp k j (by omega) hj
    have h1 := sqFwd_step qp dual (nel qp.dim k) k s (hle k) hp'
    have h2 := clFwd_step qp dual (nel qp.dim k) k s (hle k) hp'
    rw [hpre.L] at h1
    rw [hpre.L, hpre.P] at h2
    cases sqr
    · exact h2
    · exact h1
  · intro k s hd
    cases sqr <;> simp [sqFwd, clFwd, hd]
  · intro s hpre
    have := fwdLast_step qp s (by rw [hpre.L]; exact fun j hj => hp _ j (le_refl _) (by omega))
    rw [hpre.L] at this
    exact this

end
end Hpipm
