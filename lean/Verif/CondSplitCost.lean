/-
The cost condensed in two steps (COND_BAT, COND_RSQ, then COND_B, COND_RQ), first algorithm: whatever the vectors used since the
matrices were condensed, the condensed Hessian and gradient give the cost of the trajectory for the present vectors.
-/
import Verif.CondSplit

namespace Hpipm
open Finset
set_option linter.unusedSectionVars false

section
variable {K : Type*} [Field K] [LinearOrder K] [IsStrictOrderedRing K]

/-! ### dynamics -/

/-- rows of `Gamma` without the affine part -/
structure DynMat (qp : OcpQp K) (n : ℕ) (Gamma : ℕ → Mat K) : Prop where
  z : 0 < n → ∀ r i, r < qp.dim.nu 0 + qp.dim.nx 0 → i < qp.dim.nx 1 → Gamma 0 r i = qp.BAbt 0 r i
  u : ∀ k r i, k + 1 < n → r < qp.dim.nu (k + 1) → i < qp.dim.nx (k + 2) → Gamma (k + 1) r i = qp.BAbt (k + 1) r i
  x : ∀ k r i, k + 1 < n → r < sumTo qp.dim.nu (k + 1) + qp.dim.nx 0 → i < qp.dim.nx (k + 2) →
    Gamma (k + 1) (qp.dim.nu (k + 1) + r) i
      = ∑ l ∈ range (qp.dim.nx (k + 1)), Gamma k r l * qp.BAbt (k + 1) (qp.dim.nu (k + 1) + l) i

/-- the affine part -/
structure DynVec (qp : OcpQp K) (n : ℕ) (Gammab : ℕ → Vec K) : Prop where
  zb : 0 < n → ∀ i, i < qp.dim.nx 1 → Gammab 0 i = qp.b 0 i
  b : ∀ k i, k + 1 < n → i < qp.dim.nx (k + 2) →
    Gammab (k + 1) i = qp.b (k + 1) i
      + ∑ l ∈ range (qp.dim.nx (k + 1)), Gammab k l * qp.BAbt (k + 1) (qp.dim.nu (k + 1) + l) i

theorem dynRec_of {qp : OcpQp K} {n : ℕ} {Gamma : ℕ → Mat K} {Gammab : ℕ → Vec K} (h : DynMat qp n Gamma) (hb : DynVec qp n Gammab) :
    DynRec qp n Gamma Gammab := ⟨h.z, hb.zb, h.u, h.x, hb.b⟩

/-- loop body of COND_BAT -/
def batStep (qp : OcpQp K) (i : ℕ) (s : (ℕ → Mat K) × ℕ) : (ℕ → Mat K) × ℕ :=
  let nx := qp.dim.nx; let nu := qp.dim.nu
  let G := gemm_nn (s.2 + nx 0) (nx (i + 2)) (nx (i + 1)) 1 (s.1 i) 0 0 (qp.BAbt (i + 1)) (nu (i + 1)) 0
    0 (s.1 (i + 1)) (nu (i + 1)) 0 (s.1 (i + 1)) (nu (i + 1)) 0
  let G := gecp (nu (i + 1)) (nx (i + 2)) (qp.BAbt (i + 1)) 0 0 G 0 0
  (upd s.1 (i + 1) G, s.2 + nu (i + 1))

theorem bat_dyn (qp : OcpQp K) (G0 : ℕ → Mat K)
    (hz : ∀ r i, r < qp.dim.nu 0 + qp.dim.nx 0 → i < qp.dim.nx 1 → G0 0 r i = qp.BAbt 0 r i) (n : ℕ) :
    let s := loop n (batStep qp) (G0, qp.dim.nu 0)
    s.2 = sumTo qp.dim.nu (n + 1) ∧ DynMat qp (n + 1) s.1 := by
  intro s
  refine loop_inv (fun n (s : (ℕ → Mat K) × ℕ) => s.2 = sumTo qp.dim.nu (n + 1) ∧ DynMat qp (n + 1) s.1) n _ _ ?_ ?_
  · have e : sumTo qp.dim.nu (0 + 1) = qp.dim.nu 0 := by rw [sumTo_succ]; simp [sumTo]
    exact ⟨e.symm, ⟨fun _ => hz, fun k _ _ hk => by omega, fun k _ _ hk => by omega⟩⟩
  · intro i s hi ⟨h1, h2⟩
    unfold batStep
    dsimp only
    set G1 := gemm_nn (s.2 + qp.dim.nx 0) (qp.dim.nx (i + 2)) (qp.dim.nx (i + 1)) 1 (s.1 i) 0 0 (qp.BAbt (i + 1)) (qp.dim.nu (i + 1)) 0
      0 (s.1 (i + 1)) (qp.dim.nu (i + 1)) 0 (s.1 (i + 1)) (qp.dim.nu (i + 1)) 0 with hG1
    set G := gecp (qp.dim.nu (i + 1)) (qp.dim.nx (i + 2)) (qp.BAbt (i + 1)) 0 0 G1 0 0 with hG
    have eo : ∀ k, k ≤ i → upd s.1 (i + 1) G k = s.1 k := fun k hk => upd_ne _ _ (by omega)
    refine ⟨by rw [h1, sumTo_succ qp.dim.nu (i + 1)], ⟨?_, ?_, ?_⟩⟩
    · intro _ r j hr hj
      rw [eo 0 (by omega)]; exact h2.z (by omega) r j hr hj
    · intro k r j hk hr hj
      by_cases e : k = i
      · subst e
        rw [upd_same, hG, gecp_in (by omega) (by omega) (by omega) (by omega)]; congr 1 <;> omega
      · rw [eo (k + 1) (by omega)]; exact h2.u k r j (by omega) hr hj
    · intro k r j hk hr hj
      by_cases e : k = i
      · subst e
        rw [upd_same, eo k (le_refl _), hG, gecp_out (by omega), hG1,
          gemm_nn_in (by omega) (by rw [h1]; omega) (by omega) (by omega), zero_mul, zero_add, one_mul]
        refine sum_congr rfl fun l _ => ?_
        have a1 : 0 + (qp.dim.nu (k + 1) + r - qp.dim.nu (k + 1)) = r := by omega
        have a2 : 0 + (j - 0) = j := by omega
        simp only [a1, a2, Nat.zero_add, Nat.sub_zero, Nat.add_sub_cancel_left]
      · rw [eo (k + 1) (by omega), eo k (by omega)]; exact h2.x k r j (by omega) hr hj

theorem condBat_dyn (qp : OcpQp K) (arg : CondArg) (ws : CondWs K) (tg : CondTgt K) (hN : 0 < qp.dim.N) :
    DynMat qp qp.dim.N (condBat qp arg ws tg).1.Gamma := by
  have H := bat_dyn qp
    (upd ws.Gamma 0 (gecp (qp.dim.nu 0 + qp.dim.nx 0) (qp.dim.nx 1) (qp.BAbt 0) 0 0 (ws.Gamma 0) 0 0))
    (fun r i hr hi => by
      rw [upd_same, gecp_in (by omega) (by omega) (by omega) (by omega)]; congr 1 <;> omega) (qp.dim.N - 1)
  dsimp only at H
  rw [show qp.dim.N - 1 + 1 = qp.dim.N by omega] at H
  have e : (condBat qp arg ws tg).1.Gamma = (loop (qp.dim.N - 1) (batStep qp)
      (upd ws.Gamma 0 (gecp (qp.dim.nu 0 + qp.dim.nx 0) (qp.dim.nx 1) (qp.BAbt 0) 0 0 (ws.Gamma 0) 0 0), qp.dim.nu 0)).1 := by
    unfold condBat
    dsimp only
    rw [if_neg (by omega)]
    split <;> rfl
  rw [e]
  exact H.2

theorem condB_dyn (qp : OcpQp K) (arg : CondArg) (ws : CondWs K) (tg : CondTgt K) (hN : 0 < qp.dim.N) :
    DynVec qp qp.dim.N (condB qp arg ws tg).1.Gammab := by
  set f := fun i (Gb : ℕ → Vec K) => upd Gb (i + 1)
    (gemv_t (qp.dim.nx (i + 1)) (qp.dim.nx (i + 2)) 1 (qp.BAbt (i + 1)) (qp.dim.nu (i + 1)) 0 (Gb i) 0 1 (qp.b (i + 1)) 0 (Gb (i + 1)) 0) with hf
  set G0 := upd ws.Gammab 0 (veccp (qp.dim.nx 1) (qp.b 0) 0 (ws.Gammab 0) 0) with hG0
  have e : (condB qp arg ws tg).1.Gammab = loop (qp.dim.N - 1) f G0 := by
    unfold condB
    dsimp only
    rw [if_neg (by omega)]
    split <;> rfl
  have H : DynVec qp (qp.dim.N - 1 + 1) (loop (qp.dim.N - 1) f G0) := by
    refine loop_inv (fun n (Gb : ℕ → Vec K) => DynVec qp (n + 1) Gb) _ _ _ ?_ ?_
    · refine ⟨fun _ i hi => ?_, fun k _ hk => by omega⟩
      rw [hG0, upd_same, vcp_in (by omega) (by omega)]; congr 1; omega
    · intro n Gb hn h
      rw [hf]
      dsimp only
      refine ⟨fun _ i hi => ?_, fun k i hk hi => ?_⟩
      · rw [upd_ne _ _ (by omega)]; exact h.zb (by omega) i hi
      · by_cases e : k = n
        · subst e
          rw [upd_same, upd_ne _ _ (show k ≠ k + 1 by omega)]
          unfold gemv_t
          rw [if_pos (by omega), one_mul, one_mul, show 0 + (i - 0) = i by omega]
          congr 1
          refine sum_congr rfl fun l _ => ?_
          rw [mul_comm, zero_add]
        · rw [upd_ne _ _ (by omega), upd_ne _ _ (by omega)]; exact h.b k i (by omega) hi
  rw [e]
  rw [show qp.dim.N - 1 + 1 = qp.dim.N by omega] at H
  exact H

/-! ### Hessian -/

/-- one step of the recursion of the Hessian of the cost to go -/
def QuadRec (qp : OcpQp K) (L : ℕ → Mat K) (k : ℕ) : Prop :=
  ∀ r c, r < qp.dim.nu k + qp.dim.nx k → c ≤ r →
    L k r c = qp.RSQrq k r c + ∑ i ∈ range (qp.dim.nx (k + 1)), ∑ j ∈ range (qp.dim.nx (k + 1)),
      qp.BAbt k r i * symL (L (k + 1)) (qp.dim.nu (k + 1)) (qp.dim.nu (k + 1)) i j * qp.BAbt k c j

/-- Hessian of the last stage -/
def QuadEnd (qp : OcpQp K) (L : ℕ → Mat K) (k : ℕ) : Prop :=
  ∀ r c, r < qp.dim.nu k + qp.dim.nx k → c ≤ r → L k r c = qp.RSQrq k r c

/-- block column of the condensed Hessian -/
structure HMat (qp : OcpQp K) (N : ℕ) (L Gamma : ℕ → Mat K) (H : Mat K) (k : ℕ) : Prop where
  D : ∀ r c, r < qp.dim.nu (k + 1) → c ≤ r →
    H (later qp.dim.nu N (k + 1) + r) (later qp.dim.nu N (k + 1) + c) = L (k + 1) r c
  M : ∀ r c, r < sumTo qp.dim.nu (k + 1) + qp.dim.nx 0 → c < qp.dim.nu (k + 1) →
    H (later qp.dim.nu N k + r) (later qp.dim.nu N (k + 1) + c)
      = ∑ j ∈ range (qp.dim.nx (k + 1)), Gamma k r j * L (k + 1) (qp.dim.nu (k + 1) + j) c

/-- last block column -/
def HMat0 (qp : OcpQp K) (N : ℕ) (L : ℕ → Mat K) (H : Mat K) : Prop :=
  ∀ r c, r < qp.dim.nu 0 + qp.dim.nx 0 → c ≤ r → H (later qp.dim.nu N 0 + r) (later qp.dim.nu N 0 + c) = L 0 r c

/-- the state blocks of the stage Hessians are positive definite (stages `1..N`) -/
def StatePd (qp : OcpQp K) (N : ℕ) : Prop :=
  ∀ k, 1 ≤ k → k ≤ N → Pd (qp.dim.nx k) (symL (qp.RSQrq k) (qp.dim.nu k) (qp.dim.nu k))

theorem symL_add {A B : Mat K} {E : Mat K} {a n : ℕ} (hE : ∀ i j, E i j = E j i)
    (h : ∀ i j, i < n → j ≤ i → A (a + i) (a + j) = B (a + i) (a + j) + E i j) (i j : ℕ) (hi : i < n) (hj : j < n) :
    symL A a a i j = symL B a a i j + E i j := by
  simp only [symL]
  by_cases h1 : j ≤ i
  · rw [if_pos h1, if_pos h1, h i j hi h1]
  · rw [if_neg h1, if_neg h1, h j i hj (by omega), hE]

theorem pd_end {qp : OcpQp K} {L : ℕ → Mat K} {N : ℕ} (hN : 0 < N) (h : StatePd qp N) (he : QuadEnd qp L N) :
    Pd (qp.dim.nx N) (symL (L N) (qp.dim.nu N) (qp.dim.nu N)) := by
  intro x hx
  have e : ∀ i j, i < qp.dim.nx N → j < qp.dim.nx N →
      symL (L N) (qp.dim.nu N) (qp.dim.nu N) i j = symL (qp.RSQrq N) (qp.dim.nu N) (qp.dim.nu N) i j + 0 :=
    symL_add (E := fun _ _ => (0 : K)) (fun _ _ => rfl) (fun i j hi hj => by rw [he _ _ (by omega) (by omega), add_zero])
  rw [qform_congr _ _ (symL (qp.RSQrq N) (qp.dim.nu N) (qp.dim.nu N)) x x (fun i j hi hj => by rw [e i j hi hj, add_zero])
    (fun _ _ => rfl)]
  exact h N (by omega) (le_refl _) x hx

theorem pd_psd {n : ℕ} {M : Mat K} (h : Pd n M) : Psd n M := by
  intro x
  by_cases hx : ∃ i, i < n ∧ x i ≠ 0
  · exact (h x hx).le
  · push Not at hx
    unfold qform
    refine le_of_eq (Eq.symm (sum_eq_zero fun i hi => sum_eq_zero fun j hj => ?_))
    rw [hx i (mem_range.mp hi)]; ring

theorem pd_rec {qp : OcpQp K} {L : ℕ → Mat K} {N k : ℕ} (hk : 1 ≤ k) (hkN : k ≤ N) (h : StatePd qp N) (hr : QuadRec qp L k)
    (h1 : Pd (qp.dim.nx (k + 1)) (symL (L (k + 1)) (qp.dim.nu (k + 1)) (qp.dim.nu (k + 1)))) :
    Pd (qp.dim.nx k) (symL (L k) (qp.dim.nu k) (qp.dim.nu k)) := by
  intro x hx
  set m := qp.dim.nx (k + 1) with hm
  set P := symL (L (k + 1)) (qp.dim.nu (k + 1)) (qp.dim.nu (k + 1)) with hP
  set B : Mat K := fun r i => qp.BAbt k (qp.dim.nu k + r) i with hB
  set E : Mat K := fun r c => ∑ i ∈ range m, ∑ j ∈ range m, B r i * P i j * B c j with hE
  have hEs : ∀ i j, E i j = E j i := by
    intro a c
    rw [hE]
    dsimp only
    rw [sum_comm]
    refine sum_congr rfl fun i _ => sum_congr rfl fun j _ => ?_
    rw [hP, symL_symm']; ring
  have e := symL_add (A := L k) (B := qp.RSQrq k) (n := qp.dim.nx k) (a := qp.dim.nu k) hEs
    (fun i j hi hj => hr _ _ (by omega) (by omega))
  have e2 : qform (qp.dim.nx k) (symL (L k) (qp.dim.nu k) (qp.dim.nu k)) x
      = qform (qp.dim.nx k) (symL (qp.RSQrq k) (qp.dim.nu k) (qp.dim.nu k)) x
        + qform m P (fun i => ∑ r ∈ range (qp.dim.nx k), B r i * x r) := by
    have q := quad_pull (qp.dim.nx k) m B P x
    have e3 : qform m P (fun i => ∑ r ∈ range (qp.dim.nx k), B r i * x r)
        = ∑ r ∈ range (qp.dim.nx k), ∑ c ∈ range (qp.dim.nx k), x r * E r c * x c := by
      have : qform m P (fun i => ∑ r ∈ range (qp.dim.nx k), B r i * x r)
          = ∑ i ∈ range m, ∑ j ∈ range m, P i j * (∑ r ∈ range (qp.dim.nx k), B r i * x r) * (∑ c ∈ range (qp.dim.nx k), B c j * x c) := by
        unfold qform
        exact sum_congr rfl fun i _ => sum_congr rfl fun j _ => by ring
      rw [this, ← q]
      exact sum_congr rfl fun r _ => sum_congr rfl fun c _ => by rw [hE]; ring
    rw [e3]
    unfold qform
    rw [← sum_add_distrib]
    refine sum_congr rfl fun r hr' => ?_
    rw [← sum_add_distrib]
    refine sum_congr rfl fun c hc' => ?_
    rw [e r c (mem_range.mp hr') (mem_range.mp hc')]; ring
  rw [e2]
  have := h k hk hkN x hx
  have := pd_psd h1 (fun i => ∑ r ∈ range (qp.dim.nx k), B r i * x r)
  linarith

/-- the classical update -/
theorem hsqClassic_rec (qp : OcpQp K) (k : ℕ) (s : HsqSt K) : QuadRec qp (hsqClassic qp.dim qp.BAbt qp.RSQrq k s).L k := by
  set nu := qp.dim.nu k with hnu
  set nx := qp.dim.nx k with hnx
  set nx1 := qp.dim.nx (k + 1) with hnx1
  set nu1 := qp.dim.nu (k + 1) with hnu1
  set P : Mat K := symL (s.L (k + 1)) nu1 nu1 with hP
  set Lx := trtr_l nx1 (trcp_l nx1 (s.L (k + 1)) nu1 nu1 s.Lx 0 0) 0 0 (trcp_l nx1 (s.L (k + 1)) nu1 nu1 s.Lx 0 0) 0 0 with hLx
  set AL := gemm_nt (nu + nx) nx1 nx1 1 (qp.BAbt k) 0 0 Lx 0 0 0 s.AL 0 0 s.AL 0 0 with hAL
  set Lk := syrk_ln_mn (nu + nx) (nu + nx) nx1 1 AL 0 0 (qp.BAbt k) 0 0 1 (qp.RSQrq k) 0 0 (s.L k) 0 0 with hLk
  have eL : (hsqClassic qp.dim qp.BAbt qp.RSQrq k s).L = upd s.L k Lk := rfl
  have eLx : ∀ i j, i < nx1 → j < nx1 → Lx i j = P i j := by
    intro i j hi hj
    rw [hLx, hP]
    unfold trtr_l
    simp only [symL]
    by_cases h : i ≤ j
    · rw [if_pos (by omega), trcp_in (by omega) (by omega) (by omega) (by omega) (by omega)]
      by_cases h2 : j ≤ i
      · obtain rfl : i = j := by omega
        rw [if_pos h2]; congr 1 <;> omega
      · rw [if_neg h2]; congr 1 <;> omega
    · rw [if_neg (by omega), trcp_in (by omega) (by omega) (by omega) (by omega) (by omega), if_pos (by omega)]
      congr 1 <;> omega
  have eA : ∀ r j, r < nu + nx → j < nx1 → AL r j = ∑ i ∈ range nx1, qp.BAbt k r i * P i j := by
    intro r j hr hj
    rw [hAL, gemm_nt_in (by omega) (by omega) (by omega) (by omega), zero_mul, zero_add, one_mul]
    refine sum_congr rfl fun i hi => ?_
    rw [hP, symL_symm', ← hP, ← eLx j i hj (mem_range.mp hi)]
    congr 2 <;> omega
  intro r c hr hc
  rw [eL, upd_same, upd_ne _ _ (show k + 1 ≠ k by omega), hLk, syrk_in (by omega) (by omega) (by omega) (by omega) (by omega), one_mul, one_mul]
  congr 1
  · rw [show 0 + (r - 0) = r by omega, show 0 + (c - 0) = c by omega]
  · rw [sum_comm]
    refine sum_congr rfl fun j hj => ?_
    rw [show 0 + (r - 0) = r by omega, show 0 + (c - 0) = c by omega, zero_add, eA r j hr (mem_range.mp hj), sum_mul]

/-- the square-root update of a positive definite cost to go -/
theorem hsqSqrt_rec (sq : K → K) (hsq : ∀ x, 0 < x → sq x * sq x = x) (qp : OcpQp K) (ex k : ℕ) (s : HsqSt K)
    (hpd : Pd (qp.dim.nx (k + 1)) (symL (s.L (k + 1)) (qp.dim.nu (k + 1)) (qp.dim.nu (k + 1)))) :
    QuadRec qp (hsqSqrt sq qp.dim qp.BAbt qp.RSQrq ex k s).L k := by
  set nu := qp.dim.nu k with hnu
  set nx := qp.dim.nx k with hnx
  set nx1 := qp.dim.nx (k + 1) with hnx1
  set nu1 := qp.dim.nu (k + 1) with hnu1
  set P : Mat K := symL (s.L (k + 1)) nu1 nu1 with hP
  set C : Mat K := fun i j => s.L (k + 1) (nu1 + i) (nu1 + j) with hC
  set Lx := potrf_l_mn sq nx1 nx1 C s.Lx with hLx
  have hCP : ∀ i j, i < nx1 → j ≤ i → C i j = P i j := fun i j _ hj => by
    rw [hC, hP]; simp only [symL]; rw [if_pos hj]
  have hpn : ∀ j, j < nx1 → Lx j j ≠ 0 := by
    intro j hj
    rw [hLx]; unfold potrf_l_mn
    rw [if_pos ⟨hj, hj, le_refl _⟩]
    exact chol_pd sq hsq nx1 nx1 (le_refl _) C P hCP (fun i j _ _ => symL_symm' _ _ _ _) hpd j hj
  have fac : ∀ i j, i < nx1 → j < nx1 → j ≤ i → ∑ l ∈ range nx1, low Lx i l * low Lx j l = C i j := by
    intro i j hi hj hij
    exact potrf_spec sq hsq nx1 nx1 (le_refl _) _ _ hpn i j hi hj hij
  have facP : ∀ i j, i < nx1 → j < nx1 → ∑ l ∈ range nx1, low Lx i l * low Lx j l = P i j := by
    intro i j hi hj
    by_cases h : j ≤ i
    · rw [fac i j hi hj h, hCP i j hi h]
    · have : ∑ l ∈ range nx1, low Lx i l * low Lx j l = ∑ l ∈ range nx1, low Lx j l * low Lx i l := sum_congr rfl fun l _ => mul_comm _ _
      rw [this, fac j i hj hi (by omega), hCP j i hj (by omega), hP, symL_symm']
  set AL := trmm_rlnn (nu + nx + ex) nx1 1 Lx 0 0 (qp.BAbt k) 0 0 s.AL 0 0 with hAL
  set Lk := syrk_ln_mn (nu + nx) (nu + nx) nx1 1 AL 0 0 AL 0 0 1 (qp.RSQrq k) 0 0 (s.L k) 0 0 with hLk
  have eL : (hsqSqrt sq qp.dim qp.BAbt qp.RSQrq ex k s).L = upd s.L k Lk := rfl
  have eA : ∀ r l, r < nu + nx → l < nx1 → AL r l = ∑ i ∈ range nx1, qp.BAbt k r i * low Lx i l := by
    intro r l hr hl
    rw [hAL]; unfold trmm_rlnn
    rw [if_pos ⟨⟨by omega, by omega⟩, by omega, by omega⟩, one_mul]
    refine sum_congr rfl fun i hi => ?_
    simp only [low]
    by_cases h : l ≤ i
    · rw [if_pos (by omega), if_pos h]; congr 2 <;> omega
    · rw [if_neg (by omega), if_neg h, mul_zero]
  intro r c hr hc
  rw [eL, upd_same, upd_ne _ _ (show k + 1 ≠ k by omega), hLk, syrk_in (by omega) (by omega) (by omega) (by omega) (by omega), one_mul, one_mul]
  congr 1
  · rw [show 0 + (r - 0) = r by omega, show 0 + (c - 0) = c by omega]
  · have : ∀ l ∈ range nx1, AL (0 + (r - 0)) (0 + l) * AL (0 + (c - 0)) (0 + l)
        = ∑ i ∈ range nx1, ∑ j ∈ range nx1, qp.BAbt k r i * (low Lx i l * low Lx j l) * qp.BAbt k c j := fun l hl => by
      rw [show 0 + (r - 0) = r by omega, show 0 + (c - 0) = c by omega, zero_add, eA r l hr (mem_range.mp hl),
        eA c l (by omega) (mem_range.mp hl), sum_mul_sum]
      exact sum_congr rfl fun i _ => sum_congr rfl fun j _ => by ring
    rw [sum_congr rfl this, sum_comm]
    refine sum_congr rfl fun i hi => ?_
    rw [sum_comm]
    refine sum_congr rfl fun j hj => ?_
    rw [← sum_mul, ← mul_sum, facP i j (mem_range.mp hi) (mem_range.mp hj)]

/-- block column -/
theorem hsqCols_cols (qp : OcpQp K) (N k ex : ℕ) (Gamma : ℕ → Mat K) (s : HsqSt K) (hk : k < N)
    (hnub : s.nub = sumTo qp.dim.nu (k + 2)) (hnuf : s.nuf = later qp.dim.nu N (k + 1)) :
    let s' := hsqCols qp.dim Gamma ex (k + 1) s
    HMat qp N s'.L Gamma s'.H k ∧ (∀ r c, c < s.nuf → s'.H r c = s.H r c) ∧ s'.L = s.L
      ∧ s'.nub = sumTo qp.dim.nu (k + 1) ∧ s'.nuf = later qp.dim.nu N k := by
  intro s'
  have hnub' : s.nub - qp.dim.nu (k + 1) = sumTo qp.dim.nu (k + 1) := by
    rw [hnub, show k + 2 = k + 1 + 1 by omega, sumTo_succ]; omega
  have hnuf' : s.nuf + qp.dim.nu (k + 1) = later qp.dim.nu N k := by rw [hnuf, later_succ _ hk]; omega
  set nu := qp.dim.nu (k + 1) with hnu
  set nx := qp.dim.nx (k + 1) with hnx
  set q := sumTo qp.dim.nu (k + 1) with hq
  set H1 := trcp_l nu (s.L (k + 1)) 0 0 s.H s.nuf s.nuf with hH1
  have eH : s'.H = gemm_nn (s.nub - nu + qp.dim.nx 0 + ex) nu nx 1 (Gamma (k + 1 - 1)) 0 0 (s.L (k + 1)) nu 0 0 H1 (s.nuf + nu) s.nuf
    H1 (s.nuf + nu) s.nuf := rfl
  refine ⟨⟨?_, ?_⟩, ?_, rfl, hnub', hnuf'⟩
  · intro r c hr hc
    show s'.H _ _ = s.L (k + 1) r c
    rw [← hnuf, eH, gemm_nn_out (by omega), hH1, trcp_in (by omega) (by omega) (by omega) (by omega) (by omega)]
    congr 1 <;> omega
  · intro r c hr hc
    show s'.H _ _ = ∑ j ∈ range nx, Gamma k r j * s.L (k + 1) (nu + j) c
    rw [← hnuf, eH, gemm_nn_in (by omega) (by omega) (by omega) (by omega), zero_mul, zero_add, one_mul]
    refine sum_congr rfl fun j _ => ?_
    rw [show k + 1 - 1 = k by omega]
    congr 2 <;> omega
  · intro r c hc
    rw [eH, gemm_nn_out (by omega), hH1, trcp_out (by omega)]

/-- invariant of the loop of COND_RSQ after `nn` passes -/
structure HsqInv (qp : OcpQp K) (N : ℕ) (Gamma : ℕ → Mat K) (nn : ℕ) (s : HsqSt K) : Prop where
  fin : QuadEnd qp s.L N
  rc : ∀ k, N - nn ≤ k → k < N → QuadRec qp s.L k
  cols : ∀ k, N - nn ≤ k + 1 → k + 1 ≤ N → HMat qp N s.L Gamma s.H k
  nub : nn < N → s.nub = sumTo qp.dim.nu (N - nn)
  nuf : nn < N → s.nuf = later qp.dim.nu N (N - nn - 1)
  hend : nn = N → HMat0 qp N s.L s.H
  pd : StatePd qp N → nn < N → Pd (qp.dim.nx (N - nn)) (symL (s.L (N - nn)) (qp.dim.nu (N - nn)) (qp.dim.nu (N - nn)))

theorem hMat_congr {qp : OcpQp K} {N : ℕ} {L L' Gamma : ℕ → Mat K} {H H' : Mat K} {k : ℕ}
    (h : HMat qp N L Gamma H k) (hk : k < N) (eL : L' (k + 1) = L (k + 1))
    (e : ∀ r c, c < later qp.dim.nu N k → H' r c = H r c) : HMat qp N L' Gamma H' k := by
  have el := later_succ qp.dim.nu hk
  constructor
  · intro r c hr hc; rw [e _ _ (by omega), eL]; exact h.D r c hr hc
  · intro r c hr hc; rw [e _ _ (by omega), eL]; exact h.M r c hr hc

/-- the matrices produced by the recursion at stage `k` -/
theorem hsqRec_rec (sq : K → K) (qp : OcpQp K) (sqr : ℤ) (hsq : sqr ≠ 0 → ∀ x, 0 < x → sq x * sq x = x) (ex k : ℕ) (s : HsqSt K)
    (hpd : sqr ≠ 0 → Pd (qp.dim.nx (k + 1)) (symL (s.L (k + 1)) (qp.dim.nu (k + 1)) (qp.dim.nu (k + 1)))) :
    let s1 := if sqr ≠ 0 then hsqSqrt sq qp.dim qp.BAbt qp.RSQrq ex k s else hsqClassic qp.dim qp.BAbt qp.RSQrq k s
    QuadRec qp s1.L k ∧ (∀ l, l ≠ k → s1.L l = s.L l) ∧ s1.H = s.H ∧ s1.nub = s.nub ∧ s1.nuf = s.nuf := by
  intro s1
  by_cases h : sqr ≠ 0
  · have e : s1 = hsqSqrt sq qp.dim qp.BAbt qp.RSQrq ex k s := if_pos h
    rw [e]
    exact ⟨hsqSqrt_rec sq (hsq h) qp ex k s (hpd h), fun l hl => upd_ne _ _ hl, rfl, rfl, rfl⟩
  · have e : s1 = hsqClassic qp.dim qp.BAbt qp.RSQrq k s := if_neg h
    rw [e]
    exact ⟨hsqClassic_rec qp k s, fun l hl => upd_ne _ _ hl, rfl, rfl, rfl⟩

theorem hsqStep_inv (sq : K → K) (qp : OcpQp K) (sqr : ℤ) (hsq : sqr ≠ 0 → ∀ x, 0 < x → sq x * sq x = x) (N : ℕ)
    (hpd : sqr ≠ 0 → StatePd qp N) (Gamma : ℕ → Mat K) (nn : ℕ) (hnn : nn < N) (s : HsqSt K) (h : HsqInv qp N Gamma nn s) :
    HsqInv qp N Gamma (nn + 1) (hsqStep sq qp.dim Gamma qp.BAbt qp.RSQrq sqr N nn s) := by
  unfold hsqStep
  dsimp only
  set k := N - nn - 1 with hk
  have hk1 : N - nn = k + 1 := by omega
  have R := hsqRec_rec sq qp sqr hsq (if nn = N - 1 then 1 else 0) k s (fun h0 => by
    have := h.pd (hpd h0) hnn
    rw [hk1] at this
    exact this)
  dsimp only at R
  generalize (if sqr ≠ 0 then hsqSqrt sq qp.dim qp.BAbt qp.RSQrq (if nn = N - 1 then 1 else 0) k s
    else hsqClassic qp.dim qp.BAbt qp.RSQrq k s) = s1 at R ⊢
  obtain ⟨hrec, eL, eH, enub, enuf⟩ := R
  have fin1 : QuadEnd qp s1.L N := by intro r c hr hc; rw [eL N (by omega)]; exact h.fin r c hr hc
  have rc1 : ∀ l, N - (nn + 1) ≤ l → l < N → QuadRec qp s1.L l := by
    intro l hl hlN
    by_cases e : l = k
    · rw [e]; exact hrec
    · intro r c hr hc
      rw [eL l e, eL (l + 1) (by omega)]
      exact h.rc l (by omega) hlN r c hr hc
  have cols1 : ∀ l, N - nn ≤ l + 1 → l + 1 ≤ N → HMat qp N s1.L Gamma s1.H l := by
    intro l hl hlN
    exact hMat_congr (h.cols l hl hlN) (by omega) (eL (l + 1) (by omega)) (fun r c _ => by rw [eH])
  have nuf1 : s1.nuf = later qp.dim.nu N k := by rw [enuf, h.nuf hnn]
  have nub1 : s1.nub = sumTo qp.dim.nu (k + 1) := by rw [enub, h.nub hnn, hk1]
  have pd1 : StatePd qp N → nn + 1 < N → Pd (qp.dim.nx k) (symL (s1.L k) (qp.dim.nu k) (qp.dim.nu k)) := by
    intro hs hlt
    have p := h.pd hs hnn
    rw [hk1] at p
    refine pd_rec (by omega) (by omega) hs hrec ?_
    rw [eL (k + 1) (by omega)]
    exact p
  by_cases hlast : nn = N - 1
  · rw [if_pos hlast]
    have k0 : k = 0 := by omega
    rw [k0] at nuf1 ⊢
    set H1 := trcp_l (qp.dim.nu 0 + qp.dim.nx 0) (s1.L 0) 0 0 s1.H s1.nuf s1.nuf with hH1
    have e0 : ∀ r c, c < later qp.dim.nu N 0 → H1 r c = s1.H r c := by
      intro r c hc
      rw [hH1, trcp_out (by omega)]
    refine ⟨fin1, rc1, ?_, fun hh => by omega, fun hh => by omega, ?_, fun _ hh => by omega⟩
    · intro l hl hlN
      refine hMat_congr (cols1 l (by omega) hlN) (by omega) rfl (fun r c hc => e0 r c ?_)
      exact lt_of_lt_of_le hc (later_mono _ (by omega))
    · intro _ r c hr hc
      show H1 _ _ = s1.L 0 r c
      rw [hH1, trcp_in (by omega) (by omega) (by omega) (by omega) (by omega)]
      congr 1 <;> omega
  · rw [if_neg hlast]
    obtain ⟨k', hk'⟩ : ∃ k', k = k' + 1 := ⟨k - 1, by omega⟩
    rw [hk'] at nuf1 nub1 ⊢
    have C := hsqCols_cols qp N k' (if sqr ≠ 0 then 1 else 0) Gamma s1 (by omega) nub1 nuf1
    dsimp only at C
    obtain ⟨c1, c2, c3, c4, c5⟩ := C
    refine ⟨by rw [c3]; exact fin1, by rw [c3]; exact rc1, ?_, ?_, ?_, fun hh => by omega, ?_⟩
    · intro l hl hlN
      by_cases e : l = k'
      · rw [e]; exact c1
      · refine hMat_congr (cols1 l (by omega) hlN) (by omega) (by rw [c3]) (fun r c hc => c2 r c ?_)
        rw [nuf1]; exact lt_of_lt_of_le hc (later_mono _ (by omega))
    · intro _; rw [c4]; congr 1; omega
    · intro _; rw [c5]; congr 1; omega
    · intro hs hlt
      have := pd1 hs hlt
      rw [c3, show N - (nn + 1) = k' + 1 by omega, ← hk']
      exact this

theorem hsqLast_inv (qp : OcpQp K) (N : ℕ) (Gamma : ℕ → Mat K) (hN : 0 < N) (s : HsqSt K) (hnub : s.nub = nuAll qp.dim N)
    (hnuf : s.nuf = 0) : HsqInv qp N Gamma 0 (hsqLast qp.dim Gamma qp.RSQrq N s) := by
  obtain ⟨k, rfl⟩ : ∃ k, N = k + 1 := ⟨N - 1, by omega⟩
  unfold hsqLast
  dsimp only
  set LN := gecp (qp.dim.nu (k + 1) + qp.dim.nx (k + 1)) (qp.dim.nu (k + 1) + qp.dim.nx (k + 1)) (qp.RSQrq (k + 1)) 0 0 (s.L (k + 1)) 0 0 with hLN
  set s1 : HsqSt K := { s with L := upd s.L (k + 1) LN } with hs1
  have fin1 : QuadEnd qp s1.L (k + 1) := by
    have e : s1.L (k + 1) = LN := upd_same _ _ _
    intro r c hr hc
    rw [e, hLN, gecp_in (by omega) (by omega) (by omega) (by omega)]; congr 1 <;> omega
  have C := hsqCols_cols qp (k + 1) k 0 Gamma s1 (by omega)
    (by show s.nub = _; rw [hnub, sumTo_eq]; rfl) (by show s.nuf = _; rw [hnuf, later_self])
  dsimp only at C
  obtain ⟨c1, c2, c3, c4, c5⟩ := C
  refine ⟨by rw [c3]; exact fin1, fun l h1 h2 => by omega, ?_, ?_, ?_, fun hh => by omega, ?_⟩
  · intro l h1 h2
    obtain rfl : l = k := by omega
    exact c1
  · intro _; rw [c4]; rfl
  · intro _; rw [c5]; rfl
  · intro hs _
    rw [c3, Nat.sub_zero]
    exact pd_end (by omega) hs fin1

/-- what COND_RSQ leaves for COND_RQ: the Hessians of the cost to go and the condensed Hessian -/
structure HesOk (qp : OcpQp K) (N : ℕ) (Gamma L : ℕ → Mat K) (H : Mat K) : Prop where
  fin : QuadEnd qp L N
  rc : ∀ k, k < N → QuadRec qp L k
  cols : ∀ k, k < N → HMat qp N L Gamma H k
  hend : HMat0 qp N L H

theorem condRsq_hes (sq : K → K) (qp : OcpQp K) (arg : CondArg) (hsq : arg.square_root_alg ≠ 0 → ∀ x, 0 < x → sq x * sq x = x)
    (ws : CondWs K) (tg : CondTgt K) (N : ℕ) (htop : condTop qp.dim.N arg = some N) (hN : 0 < N) (halg : arg.cond_alg = 0)
    (hpd : arg.square_root_alg ≠ 0 → StatePd qp N) :
    HesOk qp N ws.Gamma (condRsq sq qp arg ws tg).2.1.L (condRsq sq qp arg ws tg).2.2.RSQrq2 ∧
    (condRsq sq qp arg ws tg).1 = qp ∧ (condRsq sq qp arg ws tg).2.1.Gamma = ws.Gamma ∧
    (condRsq sq qp arg ws tg).2.2 = { tg with RSQrq2 := (condRsq sq qp arg ws tg).2.2.RSQrq2 } := by
  have en : sumTo qp.dim.nu (N + 1) = nuAll qp.dim N := by rw [sumTo_eq]; rfl
  set s0 : HsqSt K := ⟨ws.L, ws.Lx, ws.AL, tg.RSQrq2, nuAll qp.dim N, 0⟩ with hs0
  have I := loop_inv (HsqInv qp N ws.Gamma) N
    (hsqStep sq qp.dim ws.Gamma qp.BAbt qp.RSQrq arg.square_root_alg N)
    (hsqLast qp.dim ws.Gamma qp.RSQrq N s0)
    (hsqLast_inv qp N ws.Gamma hN s0 rfl rfl)
    (fun i s hi h => hsqStep_inv sq qp arg.square_root_alg hsq N hpd ws.Gamma i hi s h)
  set s := loop N (hsqStep sq qp.dim ws.Gamma qp.BAbt qp.RSQrq arg.square_root_alg N)
    (hsqLast qp.dim ws.Gamma qp.RSQrq N s0) with hs
  have e : condRsq sq qp arg ws tg = (qp, { ws with L := s.L, Lx := s.Lx, AL := s.AL }, { tg with RSQrq2 := s.H }) := by
    unfold condRsq
    rw [htop]
    dsimp only
    rw [if_neg (by omega), if_pos halg, en]
  rw [e]
  exact ⟨⟨I.fin, fun k hk => I.rc k (by omega) hk, fun k hk => I.cols k (by omega) hk, I.hend rfl⟩, rfl, rfl, rfl⟩

/-! ### gradient -/

/-- equal lower triangles -/
def SameLow (D : QpDim) (L L' : ℕ → Mat K) : Prop := ∀ k r c, r < D.nu k + D.nx k → c ≤ r → L' k r c = L k r c

theorem SameLow.symL {D : QpDim} {L L' : ℕ → Mat K} (h : SameLow D L L') (k i j : ℕ) (hi : i < D.nx k) (hj : j < D.nx k) :
    symL (L' k) (D.nu k) (D.nu k) i j = Hpipm.symL (L k) (D.nu k) (D.nu k) i j := by
  simp only [Hpipm.symL]
  split
  · exact h k _ _ (by omega) (by omega)
  · exact h k _ _ (by omega) (by omega)

theorem hesOk_low {qp : OcpQp K} {N : ℕ} {Gamma L L' : ℕ → Mat K} {H : Mat K} (h : HesOk qp N Gamma L H) (s : SameLow qp.dim L L') :
    HesOk qp N Gamma L' H := by
  refine ⟨fun r c hr hc => ?_, fun k hk r c hr hc => ?_, fun k hk => ⟨fun r c hr hc => ?_, fun r c hr hc => ?_⟩, fun r c hr hc => ?_⟩
  · rw [s N r c hr hc]; exact h.fin r c hr hc
  · rw [s k r c hr hc, h.rc k hk r c hr hc]
    congr 1
    refine sum_congr rfl fun i hi => sum_congr rfl fun j hj => ?_
    rw [s.symL (k + 1) i j (mem_range.mp hi) (mem_range.mp hj)]
  · rw [s (k + 1) r c (by omega) hc]; exact (h.cols k hk).D r c hr hc
  · rw [(h.cols k hk).M r c hr hc]
    refine sum_congr rfl fun j hj => ?_
    rw [s (k + 1) _ _ (by have := mem_range.mp hj; omega) (by omega)]
  · rw [s 0 r c hr hc]; exact h.hend r c hr hc

/-- gradient recursion -/
def LinRec (qp : OcpQp K) (L : ℕ → Mat K) (l : ℕ → Vec K) (k : ℕ) : Prop :=
  ∀ c, c < qp.dim.nu k + qp.dim.nx k →
    l k c = qp.rqz k c + ∑ j ∈ range (qp.dim.nx (k + 1)),
      ((∑ i ∈ range (qp.dim.nx (k + 1)), qp.b k i * symL (L (k + 1)) (qp.dim.nu (k + 1)) (qp.dim.nu (k + 1)) i j)
        + l (k + 1) (qp.dim.nu (k + 1) + j)) * qp.BAbt k c j

/-- gradient block of a stage -/
def LinCol (qp : OcpQp K) (N : ℕ) (L : ℕ → Mat K) (Gammab l : ℕ → Vec K) (g : Vec K) (k : ℕ) : Prop :=
  ∀ c, c < qp.dim.nu (k + 1) → g (later qp.dim.nu N (k + 1) + c)
    = (∑ j ∈ range (qp.dim.nx (k + 1)), Gammab k j * L (k + 1) (qp.dim.nu (k + 1) + j) c) + l (k + 1) c

/-- invariant of the loop of COND_RQ after `nn` passes; `L0` is the matrix at the start -/
structure RqInv (qp : OcpQp K) (N : ℕ) (L0 : ℕ → Mat K) (Gammab : ℕ → Vec K) (g0 : Vec K) (nn : ℕ) (s : RqSt K) : Prop where
  low : SameLow qp.dim L0 s.L
  fin : ∀ c, c < qp.dim.nu N + qp.dim.nx N → s.l N c = qp.rqz N c
  rc : ∀ k, N - nn ≤ k → k < N → LinRec qp L0 s.l k
  cols : ∀ k, N - nn ≤ k + 1 → k + 1 ≤ N → LinCol qp N L0 Gammab s.l s.g k
  nuf : nn < N → s.nuf = later qp.dim.nu N (N - nn - 1)
  hend : nn = N → ∀ c, c < qp.dim.nu 0 + qp.dim.nx 0 → s.g (later qp.dim.nu N 0 + c) = s.l 0 c
  out : ∀ i, nuAll qp.dim N + qp.dim.nx 0 ≤ i → s.g i = g0 i

theorem trtr_low (n : ℕ) (A : Mat K) (r c : ℕ) (hc : c ≤ r) : trtr_l n A 0 0 A 0 0 r c = A r c := by
  unfold trtr_l
  split
  · obtain rfl : r = c := by omega
    congr 1 <;> omega
  · rfl

theorem trtr_sym (n a m : ℕ) (A : Mat K) (i j : ℕ) (hi : i < m) (hj : j < m) (hn : a + m ≤ n) :
    trtr_l n A 0 0 A 0 0 (a + i) (a + j) = symL A a a i j := by
  unfold trtr_l
  simp only [symL]
  by_cases h : j ≤ i
  · rw [if_pos h]
    split
    · obtain rfl : i = j := by omega
      congr 1 <;> omega
    · rfl
  · rw [if_neg h, if_pos (by omega)]
    congr 1 <;> omega

theorem rqRec_rec (qp : OcpQp K) (k : ℕ) (L0 : ℕ → Mat K) (s : RqSt K) (hl : SameLow qp.dim L0 s.L) :
    let s1 := rqRec qp.dim qp.BAbt qp.b qp.rqz k s
    LinRec qp L0 s1.l k ∧ SameLow qp.dim L0 s1.L ∧ (∀ l, l ≠ k → s1.l l = s.l l) ∧ s1.g = s.g ∧ s1.nuf = s.nuf := by
  intro s1
  set nu := qp.dim.nu k with hnu
  set nx := qp.dim.nx k with hnx
  set nx1 := qp.dim.nx (k + 1) with hnx1
  set nu1 := qp.dim.nu (k + 1) with hnu1
  set L1 := trtr_l (nx1 + nu1) (s.L (k + 1)) 0 0 (s.L (k + 1)) 0 0 with hL1
  set tmp := gemv_n nx1 nx1 1 L1 nu1 nu1 (qp.b k) 0 1 (s.l (k + 1)) nu1 s.tmp 0 with htmp
  set lk := gemv_n (nu + nx) nx1 1 (qp.BAbt k) 0 0 tmp 0 1 (qp.rqz k) 0 (s.l k) 0 with hlk
  have eL : s1.L = upd s.L (k + 1) L1 := rfl
  have el : s1.l = upd s.l k lk := rfl
  refine ⟨?_, ?_, fun l h => by rw [el]; exact upd_ne _ _ h, rfl, rfl⟩
  · intro c hc
    rw [el, upd_same, upd_ne _ _ (show k + 1 ≠ k by omega), hlk]
    unfold gemv_n
    rw [if_pos (by omega), one_mul, one_mul, show 0 + (c - 0) = c by omega]
    congr 1
    refine sum_congr rfl fun j hj => ?_
    have hj := mem_range.mp hj
    rw [zero_add, mul_comm, htmp]
    congr 1
    unfold gemv_n
    rw [if_pos (by omega), one_mul, one_mul, add_comm]
    congr 1
    · refine sum_congr rfl fun i hi => ?_
      have hi := mem_range.mp hi
      rw [hL1, show nu1 + (j - 0) = nu1 + j by omega, trtr_sym _ _ nx1 _ _ _ hj hi (by omega), zero_add, hl.symL (k + 1) j i hj hi,
        symL_symm', mul_comm]
  · intro l r c hr hc
    rw [eL]
    by_cases e : l = k + 1
    · subst e
      rw [upd_same, hL1, trtr_low _ _ _ _ hc]; exact hl _ r c hr hc
    · rw [upd_ne _ _ e]; exact hl l r c hr hc

theorem rqCols_cols (qp : OcpQp K) (N k : ℕ) (L0 : ℕ → Mat K) (Gammab : ℕ → Vec K) (s : RqSt K) (hk : k < N) (hl : SameLow qp.dim L0 s.L)
    (hnuf : s.nuf = later qp.dim.nu N (k + 1)) :
    let s' := rqCols qp.dim Gammab (k + 1) s
    LinCol qp N L0 Gammab s'.l s'.g k ∧ (∀ i, i < s.nuf ∨ later qp.dim.nu N k ≤ i → s'.g i = s.g i) ∧ s'.L = s.L ∧ s'.l = s.l ∧
      s'.nuf = later qp.dim.nu N k := by
  intro s'
  have hnuf' : s.nuf + qp.dim.nu (k + 1) = later qp.dim.nu N k := by rw [hnuf, later_succ _ hk]; omega
  have eg : s'.g = gemv_t (qp.dim.nx (k + 1)) (qp.dim.nu (k + 1)) 1 (s.L (k + 1)) (qp.dim.nu (k + 1)) 0 (Gammab (k + 1 - 1)) 0 1
    (s.l (k + 1)) 0 s.g s.nuf := rfl
  refine ⟨?_, ?_, rfl, rfl, hnuf'⟩
  · intro c hc
    rw [← hnuf, eg]
    unfold gemv_t
    rw [if_pos (by omega), one_mul, one_mul, show 0 + (s.nuf + c - s.nuf) = c by omega, add_comm]
    congr 1
    refine sum_congr rfl fun j hj => ?_
    have hj := mem_range.mp hj
    rw [hl (k + 1) _ _ (by omega) (by omega), mul_comm, show k + 1 - 1 = k by omega, zero_add]
  · intro i hi
    rw [eg]
    unfold gemv_t
    rw [if_neg (by omega)]

theorem linCol_congr {qp : OcpQp K} {N : ℕ} {L : ℕ → Mat K} {Gammab l l' : ℕ → Vec K} {g g' : Vec K} {k : ℕ}
    (h : LinCol qp N L Gammab l g k) (hk : k < N) (el : l' (k + 1) = l (k + 1)) (e : ∀ i, i < later qp.dim.nu N k → g' i = g i) :
    LinCol qp N L Gammab l' g' k := by
  intro c hc
  have := later_succ qp.dim.nu hk
  rw [e _ (by omega), el]
  exact h c hc

theorem later_le_all (D : QpDim) {N k : ℕ} (hk : k ≤ N) : later D.nu N k ≤ nuAll D N := by
  have h1 := later_add_sumTo D.nu hk
  have h2 : sumTo D.nu (N + 1) = nuAll D N := by rw [sumTo_eq]; rfl
  omega

theorem rqStep_inv (qp : OcpQp K) (N : ℕ) (L0 : ℕ → Mat K) (Gammab : ℕ → Vec K) (g0 : Vec K) (nn : ℕ) (hnn : nn < N) (s : RqSt K)
    (h : RqInv qp N L0 Gammab g0 nn s) : RqInv qp N L0 Gammab g0 (nn + 1) (rqStep qp.dim qp.BAbt qp.b qp.rqz Gammab N nn s) := by
  unfold rqStep
  dsimp only
  set k := N - nn - 1 with hk
  have R := rqRec_rec qp k L0 s h.low
  dsimp only at R
  generalize rqRec qp.dim qp.BAbt qp.b qp.rqz k s = s1 at R ⊢
  obtain ⟨hrec, hlow, el, eg, enuf⟩ := R
  have fin1 : ∀ c, c < qp.dim.nu N + qp.dim.nx N → s1.l N c = qp.rqz N c := by intro c hc; rw [el N (by omega)]; exact h.fin c hc
  have rc1 : ∀ l, N - (nn + 1) ≤ l → l < N → LinRec qp L0 s1.l l := by
    intro l hl hlN
    by_cases e : l = k
    · rw [e]; exact hrec
    · intro c hc
      rw [el l e, el (l + 1) (by omega)]
      exact h.rc l (by omega) hlN c hc
  have cols1 : ∀ l, N - nn ≤ l + 1 → l + 1 ≤ N → LinCol qp N L0 Gammab s1.l s1.g l := by
    intro l hl hlN
    exact linCol_congr (h.cols l hl hlN) (by omega) (el (l + 1) (by omega)) (fun i _ => by rw [eg])
  have nuf1 : s1.nuf = later qp.dim.nu N k := by rw [enuf, h.nuf hnn]
  by_cases hlast : nn = N - 1
  · rw [if_pos hlast]
    have k0 : k = 0 := by omega
    rw [k0] at nuf1 ⊢
    have hall : later qp.dim.nu N 0 + qp.dim.nu 0 = nuAll qp.dim N := by
      have := later_add_sumTo qp.dim.nu (N := N) (k := 0) (by omega)
      rw [sumTo_eq, sumTo_eq] at this
      simpa [nuAll] using this
    refine ⟨hlow, fin1, rc1, ?_, fun hh => by omega, ?_, ?_⟩
    · intro l hl hlN
      refine linCol_congr (cols1 l (by omega) hlN) (by omega) rfl (fun i hi => ?_)
      dsimp only
      have := later_mono qp.dim.nu (N := N) (show 0 ≤ l by omega)
      rw [vcp_out (by omega)]
    · intro _ c hc
      dsimp only
      rw [vcp_in (by omega) (by omega)]
      congr 1; omega
    · intro i hi
      dsimp only
      rw [vcp_out (by omega), eg]; exact h.out i hi
  · rw [if_neg hlast]
    obtain ⟨k', hk'⟩ : ∃ k', k = k' + 1 := ⟨k - 1, by omega⟩
    rw [hk'] at nuf1 ⊢
    have C := rqCols_cols qp N k' L0 Gammab s1 (by omega) hlow nuf1
    dsimp only at C
    obtain ⟨c1, c2, c3, c4, c5⟩ := C
    refine ⟨by rw [c3]; exact hlow, by rw [c4]; exact fin1, by rw [c4]; exact rc1, ?_, ?_, fun hh => by omega, ?_⟩
    · intro l hl hlN
      by_cases e : l = k'
      · rw [e]; exact c1
      · refine linCol_congr (cols1 l (by omega) hlN) (by omega) (by rw [c4]) (fun i hi => c2 i (Or.inl ?_))
        rw [nuf1]; exact lt_of_lt_of_le hi (later_mono _ (by omega))
    · intro _; rw [c5]; congr 1; omega
    · intro i hi
      have := later_le_all qp.dim (show k' ≤ N by omega)
      rw [c2 i (Or.inr (by omega)), eg]; exact h.out i hi

theorem rqLast_inv (qp : OcpQp K) (N : ℕ) (Gammab : ℕ → Vec K) (hN : 0 < N) (s : RqSt K) (hnuf : s.nuf = 0) :
    RqInv qp N s.L Gammab s.g 0 (rqLast qp.dim Gammab qp.rqz N s) := by
  obtain ⟨k, rfl⟩ : ∃ k, N = k + 1 := ⟨N - 1, by omega⟩
  unfold rqLast
  set s1 : RqSt K := { s with l := upd s.l (k + 1) (veccp (qp.dim.nu (k + 1) + qp.dim.nx (k + 1)) (qp.rqz (k + 1)) 0 (s.l (k + 1)) 0) } with hs1
  have fin1 : ∀ c, c < qp.dim.nu (k + 1) + qp.dim.nx (k + 1) → s1.l (k + 1) c = qp.rqz (k + 1) c := by
    intro c hc
    show (upd s.l (k + 1) (veccp (qp.dim.nu (k + 1) + qp.dim.nx (k + 1)) (qp.rqz (k + 1)) 0 (s.l (k + 1)) 0)) (k + 1) c = _
    rw [upd_same, vcp_in (by omega) (by omega)]; congr 1; omega
  have C := rqCols_cols qp (k + 1) k s.L Gammab s1 (by omega) (fun _ _ _ _ _ => rfl) (by show s.nuf = _; rw [hnuf, later_self])
  dsimp only at C
  obtain ⟨c1, c2, c3, c4, c5⟩ := C
  refine ⟨by rw [c3]; exact fun _ _ _ _ _ => rfl, by rw [c4]; exact fin1, fun l h1 h2 => by omega, ?_, ?_, fun hh => by omega, ?_⟩
  · intro l h1 h2
    obtain rfl : l = k := by omega
    exact c1
  · intro _; rw [c5]; rfl
  · intro i hi
    have := later_le_all qp.dim (show k ≤ k + 1 by omega)
    rw [c2 i (Or.inr (by omega))]

/-- the matrix recursion with the gradient in the last row -/
def withRow (D : QpDim) (L : ℕ → Mat K) (l : ℕ → Vec K) : ℕ → Mat K := fun k r c => if r = D.nu k + D.nx k then l k c else L k r c

/-- Hessian and gradient of the second step, given the matrices of the first one -/
theorem split_cost {qp : OcpQp K} {N n : ℕ} {Gamma L : ℕ → Mat K} {Gammab l : ℕ → Vec K} {H : Mat K} {g : Vec K}
    (hn : N ≤ n) (hn' : n ≤ N + 1) (hd : DynRec qp n Gamma Gammab) (hh : HesOk qp N Gamma L H)
    (hf : ∀ c, c < qp.dim.nu N + qp.dim.nx N → l N c = qp.rqz N c) (hr : ∀ k, k < N → LinRec qp L l k)
    (hc : ∀ k, k < N → LinCol qp N L Gammab l g k)
    (h0 : ∀ c, c < qp.dim.nu 0 + qp.dim.nx 0 → g (later qp.dim.nu N 0 + c) = l 0 c) :
    ∃ c : K, ∀ v, ∑ k ∈ range (N + 1), stageCost qp k (uxOf qp N v k)
      = quadL (nuAll qp.dim N + qp.dim.nx 0) H 0 v + (∑ c ∈ range (nuAll qp.dim N + qp.dim.nx 0), g c * v c) + c := by
  set L' := withRow qp.dim L l with hL'
  set m := nuAll qp.dim N + qp.dim.nx 0 with hm
  set H' : Mat K := fun r c => if r = m then g c else H r c with hH'
  have eL : ∀ k r c, r < qp.dim.nu k + qp.dim.nx k → L' k r c = L k r c := fun k r c hr => by
    rw [hL']; unfold withRow; rw [if_neg (by omega)]
  have el : ∀ k c, L' k (qp.dim.nu k + qp.dim.nx k) c = l k c := fun k c => by rw [hL']; unfold withRow; rw [if_pos rfl]
  have eH : ∀ r c, r < m → H' r c = H r c := fun r c hr => by rw [hH']; dsimp only; rw [if_neg (by omega)]
  have eg : ∀ c, H' m c = g c := fun c => by rw [hH']; dsimp only; rw [if_pos rfl]
  have es : ∀ k i j, i < qp.dim.nx k → j < qp.dim.nx k →
      symL (L' k) (qp.dim.nu k) (qp.dim.nu k) i j = symL (L k) (qp.dim.nu k) (qp.dim.nu k) i j := by
    intro k i j hi hj
    simp only [symL]
    split
    · exact eL k _ _ (by omega)
    · exact eL k _ _ (by omega)
  have hall : ∀ k, k ≤ N → later qp.dim.nu N k + sumTo qp.dim.nu (k + 1) = nuAll qp.dim N := fun k hk => by
    rw [later_add_sumTo _ hk, sumTo_eq]; rfl
  have he : CostEnd qp L' N := ⟨fun r c hr hc => by rw [eL N r c hr]; exact hh.fin r c hr hc, fun c hc => by rw [el]; exact hf c hc⟩
  have hR : ∀ k, k < N → CostRec qp L' k := by
    intro k hk
    constructor
    · intro r c hr' hc'
      rw [eL k r c hr', hh.rc k hk r c hr' hc']
      congr 1
      refine sum_congr rfl fun i hi => sum_congr rfl fun j hj => ?_
      rw [es (k + 1) i j (mem_range.mp hi) (mem_range.mp hj)]
    · intro c hc'
      rw [el, hr k hk c hc']
      congr 1
      refine sum_congr rfl fun j hj => ?_
      rw [el]
      congr 2
      refine sum_congr rfl fun i hi => ?_
      rw [es (k + 1) i j (mem_range.mp hi) (mem_range.mp hj)]
  have hC : ∀ k, k < N → HCols qp N L' Gamma Gammab H' k := by
    intro k hk
    have ha := hall k (by omega)
    have ha1 := hall (k + 1) (by omega)
    have hs := sumTo_succ qp.dim.nu (k + 1)
    constructor
    · intro r c hr' hc'
      rw [eH _ _ (by omega), eL _ _ _ (by omega)]; exact (hh.cols k hk).D r c hr' hc'
    · intro r c hr' hc'
      rw [eH _ _ (by omega), (hh.cols k hk).M r c hr' hc']
      refine sum_congr rfl fun j hj => ?_
      rw [eL _ _ _ (by have := mem_range.mp hj; omega)]
    · intro c hc'
      rw [eg, hc k hk c hc', el]
      congr 1
      refine sum_congr rfl fun j hj => ?_
      rw [eL _ _ _ (by have := mem_range.mp hj; omega)]
  have hE : HEnd qp N L' H' := by
    have ha := hall 0 (by omega)
    have hs : sumTo qp.dim.nu (0 + 1) = qp.dim.nu 0 := by rw [sumTo_succ]; simp [sumTo]
    constructor
    · intro r c hr' hc'
      rw [eH _ _ (by omega), eL _ _ _ hr']; exact hh.hend r c hr' hc'
    · intro c hc'
      rw [eg, el]; exact h0 c hc'
  obtain ⟨c, hcc⟩ := cond_cost hd hn hn' he hR hC hE
  refine ⟨c, fun v => ?_⟩
  rw [hcc v]
  congr 1
  congr 1
  · exact quadL_congr (fun i j hi hj => by rw [eH _ _ (by omega)]) (fun _ _ => rfl)
  · exact sum_congr rfl fun c _ => by rw [eg]

/-- COND_RQ (first algorithm) after COND_RSQ: the cost of the trajectory for the present vectors; the matrices are kept for the
next call -/
theorem condRq_cost (qp : OcpQp K) (arg : CondArg) (ws : CondWs K) (tg : CondTgt K) (N n : ℕ) (htop : condTop qp.dim.N arg = some N)
    (hN : 0 < N) (halg : arg.cond_alg = 0) (hn : N ≤ n) (hn' : n ≤ N + 1) (hd : DynRec qp n ws.Gamma ws.Gammab)
    (hh : HesOk qp N ws.Gamma ws.L tg.RSQrq2) :
    (∃ c : K, ∀ v, ∑ k ∈ range (N + 1), stageCost qp k (uxOf qp N v k)
      = quadL (nuAll qp.dim N + qp.dim.nx 0) (condRq qp arg ws tg).2.RSQrq2 0 v
        + (∑ c ∈ range (nuAll qp.dim N + qp.dim.nx 0), (condRq qp arg ws tg).2.rqz2 c * v c) + c) ∧
    HesOk qp N ws.Gamma (condRq qp arg ws tg).1.L tg.RSQrq2 ∧
    (condRq qp arg ws tg).1.Gamma = ws.Gamma ∧ (condRq qp arg ws tg).1.Gammab = ws.Gammab ∧
    (condRq qp arg ws tg).2 = { tg with rqz2 := (condRq qp arg ws tg).2.rqz2 } := by
  set s0 : RqSt K := ⟨ws.L, ws.l, ws.tmp_nuxM, tg.rqz2, 0⟩ with hs0
  have I := loop_inv (RqInv qp N ws.L ws.Gammab tg.rqz2) N
    (rqStep qp.dim qp.BAbt qp.b qp.rqz ws.Gammab N) (rqLast qp.dim ws.Gammab qp.rqz N s0)
    (rqLast_inv qp N ws.Gammab hN s0 rfl)
    (fun i s hi h => rqStep_inv qp N ws.L ws.Gammab tg.rqz2 i hi s h)
  set s := loop N (rqStep qp.dim qp.BAbt qp.b qp.rqz ws.Gammab N) (rqLast qp.dim ws.Gammab qp.rqz N s0) with hs
  have e : condRq qp arg ws tg = ({ ws with L := s.L, l := s.l, tmp_nuxM := s.tmp }, { tg with rqz2 := s.g }) := by
    unfold condRq
    rw [htop]
    dsimp only
    rw [if_neg (by omega), if_pos halg]
  rw [e]
  exact ⟨split_cost hn hn' hd hh I.fin (fun k hk => I.rc k (by omega) hk) (fun k hk => I.cols k (by omega) hk) (I.hend rfl),
    hesOk_low hh I.low, rfl, rfl, rfl⟩

end
end Hpipm
