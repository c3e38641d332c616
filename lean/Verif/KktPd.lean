/-
Positive definiteness of the factorised stages (intermediate results for C25): on a convex problem the
factorisations do not break down, so the routine returns without raising the regularisation.
-/
import Verif.KktStep

namespace Hpipm
open Finset
set_option linter.unusedSectionVars false

section
variable {K : Type*} [Field K] [LinearOrder K] [IsStrictOrderedRing K]

/-- quadratic form of the leading `n×n` block -/
def qform (n : ℕ) (M : Mat K) (x : Vec K) : K := ∑ i ∈ range n, ∑ j ∈ range n, x i * M i j * x j

def Psd (n : ℕ) (M : Mat K) : Prop := ∀ x, 0 ≤ qform n M x
def Pd (n : ℕ) (M : Mat K) : Prop := ∀ x, (∃ i, i < n ∧ x i ≠ 0) → 0 < qform n M x

theorem qform_congr (n : ℕ) (M M' : Mat K) (x x' : Vec K) (hM : ∀ i j, i < n → j < n → M i j = M' i j)
    (hx : ∀ i, i < n → x i = x' i) : qform n M x = qform n M' x' := by
  unfold qform
  refine sum_congr rfl (fun i hi => sum_congr rfl (fun j hj => ?_))
  rw [hM i j (mem_range.mp hi) (mem_range.mp hj), hx i (mem_range.mp hi), hx j (mem_range.mp hj)]

theorem qform_split (n p : ℕ) (M A E : Mat K) (x : Vec K)
    (h : ∀ i j, i < n → j < n → M i j = ∑ l ∈ range p, A i l * A j l + E i j) :
    qform n M x = ∑ l ∈ range p, (∑ i ∈ range n, A i l * x i) * (∑ i ∈ range n, A i l * x i) + qform n E x := by
  have e1 : qform n M x = ∑ i ∈ range n, ∑ j ∈ range n, (∑ l ∈ range p, (A i l * x i) * (A j l * x j) + x i * E i j * x j) := by
    unfold qform
    refine sum_congr rfl (fun i hi => sum_congr rfl (fun j hj => ?_))
    rw [h i j (mem_range.mp hi) (mem_range.mp hj), mul_add, add_mul, mul_sum, sum_mul]
    congr 1
    exact sum_congr rfl (fun l _ => by ring)
  rw [e1]
  simp only [sum_add_distrib]
  congr 1
  have e2 : ∀ l, (∑ i ∈ range n, A i l * x i) * (∑ i ∈ range n, A i l * x i) =
      ∑ i ∈ range n, ∑ j ∈ range n, (A i l * x i) * (A j l * x j) := by
    intro l; rw [sum_mul]; exact sum_congr rfl (fun i _ => by rw [mul_sum])
  simp only [e2]
  rw [sum_congr rfl (fun i _ => sum_comm), sum_comm]

/-- the Schur complement of a factorised block is the quadratic form at the minimiser over the eliminated variables -/
theorem schur_qform {nu nx : ℕ} {M Lam P : Mat K} (hsym : ∀ i j, i < nu + nx → j < nu + nx → M i j = M j i)
    (hfac : ∀ i j, i < nu + nx → j < nu → j ≤ i → ∑ l ∈ range nu, low Lam i l * low Lam j l = M i j)
    (hsch : ∀ i j, i < nx → j < nx → P i j + ∑ l ∈ range nu, low Lam (nu + i) l * low Lam (nu + j) l = M (nu + i) (nu + j))
    (hp : ∀ j, j < nu → Lam j j ≠ 0) (y : Vec K) :
    ∃ z : Vec K, (∀ i, i < nx → z (nu + i) = y i) ∧ qform (nu + nx) M z = qform nx P y := by
  set z := trsv_ltn_mn (nu + nx) nu Lam (fun i => if i < nu then 0 else y (i - nu)) with hz
  have hzo : ∀ i, nu ≤ i → z i = y (i - nu) := by
    intro i hi
    rw [hz, trsv_ltn_mn_out _ _ _ _ _ hi, if_neg (by omega)]
  have hzs : ∀ l, l < nu → ∑ i ∈ range (nu + nx), low Lam i l * z i = 0 := by
    intro l hl
    rw [hz, trsv_ltn_mn_spec (nu + nx) nu (by omega) Lam _ hp l hl, if_pos hl]
  have hM : ∀ i j, i < nu + nx → j < nu + nx → M i j = ∑ l ∈ range nu, low Lam i l * low Lam j l +
      (if nu ≤ i ∧ nu ≤ j then P (i - nu) (j - nu) else 0) := by
    intro i j hi hj
    by_cases h : nu ≤ i ∧ nu ≤ j
    · rw [if_pos h]
      have := hsch (i - nu) (j - nu) (by omega) (by omega)
      rw [show nu + (i - nu) = i by omega, show nu + (j - nu) = j by omega] at this
      rw [← this]; ring
    · rw [if_neg h, add_zero]
      by_cases hji : j ≤ i
      · exact (hfac i j hi (by omega) hji).symm
      · rw [hsym i j hi hj, ← hfac j i hj (by omega) (by omega)]
        exact sum_congr rfl (fun l _ => mul_comm _ _)
  refine ⟨z, fun i hi => by rw [hzo _ (by omega), Nat.add_sub_cancel_left], ?_⟩
  rw [qform_split (nu + nx) nu M (low Lam) _ z hM]
  rw [sum_eq_zero (fun l hl => by rw [hzs l (mem_range.mp hl), zero_mul]), zero_add]
  unfold qform
  rw [sum_range_add _ nu nx]
  rw [sum_eq_zero (s := range nu), zero_add]
  · refine sum_congr rfl (fun i hi => ?_)
    rw [sum_range_add _ nu nx, sum_eq_zero (s := range nu), zero_add]
    · refine sum_congr rfl (fun j hj => ?_)
      beta_reduce
      rw [if_pos ⟨by omega, by omega⟩, hzo _ (by omega), hzo _ (by omega), Nat.add_sub_cancel_left, Nat.add_sub_cancel_left]
    · intro j hj
      have := mem_range.mp hj
      beta_reduce
      rw [if_neg (by omega : ¬ (nu ≤ nu + i ∧ nu ≤ j)), mul_zero, zero_mul]
  · intro i hi
    have := mem_range.mp hi
    refine sum_eq_zero (fun j _ => ?_)
    beta_reduce
    rw [if_neg (by omega : ¬ (nu ≤ i ∧ nu ≤ j)), mul_zero, zero_mul]

theorem schur_psd {nu nx : ℕ} {M Lam P : Mat K} (hsym : ∀ i j, i < nu + nx → j < nu + nx → M i j = M j i)
    (h : RicFac nu nx M Lam P) (hM : Psd (nu + nx) M) : Psd nx P := by
  intro y
  obtain ⟨z, _, hz⟩ := schur_qform hsym h.fac h.schur h.piv y
  rw [← hz]; exact hM z

/-- the Cholesky factorisation of a positive definite matrix does not break down -/
theorem chol_pd (sq : K → K) (hsq : ∀ x, 0 < x → sq x * sq x = x) (nv n : ℕ) (hn : n ≤ nv) (C M : Mat K)
    (hC : ∀ i j, i < nv → j ≤ i → C i j = M i j) (hsym : ∀ i j, i < nv → j < nv → M i j = M j i) (hM : Pd nv M) :
    ∀ j, j < n → chol sq n C j j ≠ 0 := by
  intro j
  induction j using Nat.strong_induction_on with
  | _ j ih =>
    intro hj
    have hs : ∀ a l, l < j → chol sq n C a l = chol sq j C a l := by
      intro a l hl
      obtain ⟨d, hd⟩ := Nat.exists_eq_add_of_le (le_of_lt hj)
      rw [hd]; exact chol_stable sq C j d a l hl
    have hpj : ∀ l, l < j → chol sq j C l l ≠ 0 := fun l hl => by rw [← hs l l hl]; exact ih l hl (by omega)
    have hspec := chol_spec_full sq hsq C j hpj
    have hlow : ∀ a l, low (chol sq j C) a l = chol sq j C a l := by
      intro a l
      unfold low
      split_ifs with h
      · rfl
      · rw [chol_upper sq C j a l (by omega)]
    set s := C j j - ∑ l ∈ range j, chol sq n C j l * chol sq n C j l with hsd
    have hse : s = C j j - ∑ l ∈ range j, chol sq j C j l * chol sq j C j l := by
      rw [hsd]; congr 1
      exact sum_congr rfl (fun l hl => by rw [hs j l (mem_range.mp hl)])
    obtain ⟨z, hz1, hz2⟩ := schur_qform (nu := j) (nx := 1) (M := M) (Lam := chol sq j C) (P := fun _ _ => s)
      (fun a b ha hb => hsym a b (by omega) (by omega))
      (fun a b ha hb hab => by
        simp only [hlow]
        rw [hspec a b hb hab, hC a b (by omega) hab])
      (fun a b ha hb => by
        have ha : a = 0 := by omega
        have hb : b = 0 := by omega
        subst ha hb
        simp only [hlow, add_zero]
        rw [hse, ← hC j j (by omega) (le_refl _)]; ring)
      hpj (fun _ => 1)
    have hpos : 0 < qform nv M (fun i => if i ≤ j then z i else 0) := by
      refine hM _ ⟨j, by omega, ?_⟩
      rw [if_pos (le_refl _)]
      have := hz1 0 (by omega)
      rw [add_zero] at this
      rw [this]; exact one_ne_zero
    have he : qform nv M (fun i => if i ≤ j then z i else 0) = qform (j + 1) M z := by
      obtain ⟨d, hd⟩ := Nat.exists_eq_add_of_le (show j + 1 ≤ nv by omega)
      rw [hd]
      unfold qform
      rw [sum_range_add _ (j + 1) d, sum_eq_zero (s := range d), add_zero]
      · refine sum_congr rfl (fun i hi => ?_)
        have hi := mem_range.mp hi
        rw [sum_range_add _ (j + 1) d, sum_eq_zero (s := range d), add_zero]
        · refine sum_congr rfl (fun l hl => ?_)
          have hl := mem_range.mp hl
          beta_reduce
          rw [if_pos (by omega : i ≤ j), if_pos (by omega : l ≤ j)]
        · intro l _
          beta_reduce
          rw [if_neg (by omega : ¬ j + 1 + l ≤ j), mul_zero]
      · intro i _
        refine sum_eq_zero (fun l _ => ?_)
        beta_reduce
        rw [if_neg (by omega : ¬ j + 1 + i ≤ j), zero_mul, zero_mul]
    rw [he, hz2] at hpos
    have hsp : 0 < s := by simpa [qform] using hpos
    rw [chol_rec sq C n j j hj (le_refl _), if_pos rfl, if_pos hsp]
    intro h0
    have := hsq s hsp
    rw [h0, zero_mul] at this
    exact absurd this.symm (ne_of_gt hsp)

theorem potrf_pd (sq : K → K) (hsq : ∀ x, 0 < x → sq x * sq x = x) (nv n : ℕ) (hn : n ≤ nv) (C L0 M : Mat K) (m : Vec K)
    (hC : CMat nv C M m) (hsym : ∀ i j, i < nv → j < nv → M i j = M j i) (hM : Pd nv M) (j : ℕ) (hj : j < n) :
    potrf_l_mn sq (nv + 1) n C L0 j j ≠ 0 := by
  rw [potrf_l_mn, if_pos ⟨by omega, hj, le_refl _⟩]
  exact chol_pd sq hsq nv n hn C M hC.1 hsym hM j hj

theorem sqP_psd (nu nx : ℕ) (L : Mat K) : Psd nx (sqP nu nx L) := by
  intro x
  rw [qform_split nx nx (sqP nu nx L) (fun i l => low L (nu + i) (nu + l)) (fun _ _ => 0) x (fun i j _ _ => by
    rw [add_zero]; rfl)]
  have : qform nx (fun _ _ => (0 : K)) x = 0 := by simp [qform]
  rw [this, add_zero]
  exact sum_nonneg (fun l _ => mul_self_nonneg _)

theorem ricM_pd (n nx : ℕ) (H BA P : Mat K) (hH : Pd n H) (hP : Psd nx P) : Pd n (ricM nx H BA P) := by
  intro x hx
  have e : qform n (ricM nx H BA P) x = qform n H x + qform nx P (fun a => ∑ i ∈ range n, BA i a * x i) := by
    have e1 : ∀ i j, x i * ricM nx H BA P i j * x j = x i * H i j * x j +
        ∑ a ∈ range nx, ∑ c ∈ range nx, BA i a * x i * P a c * (BA j c * x j) := by
      intro i j
      unfold ricM
      rw [mul_add, add_mul, mul_sum, sum_mul]
      congr 1
      refine sum_congr rfl (fun a _ => ?_)
      rw [mul_sum, sum_mul]
      exact sum_congr rfl (fun c _ => by ring)
    unfold qform
    simp only [e1, sum_add_distrib]
    congr 1
    have e2 : ∀ a c, (∑ i ∈ range n, BA i a * x i) * P a c * (∑ i ∈ range n, BA i c * x i) =
        ∑ i ∈ range n, ∑ j ∈ range n, BA i a * x i * P a c * (BA j c * x j) := by
      intro a c
      rw [sum_mul, sum_mul]
      exact sum_congr rfl (fun i _ => by rw [mul_sum])
    simp only [e2]
    calc ∑ i ∈ range n, ∑ j ∈ range n, ∑ a ∈ range nx, ∑ c ∈ range nx, BA i a * x i * P a c * (BA j c * x j)
        = ∑ i ∈ range n, ∑ a ∈ range nx, ∑ c ∈ range nx, ∑ j ∈ range n, BA i a * x i * P a c * (BA j c * x j) := by
          refine sum_congr rfl (fun i _ => ?_)
          rw [sum_comm]
          exact sum_congr rfl (fun a _ => sum_comm)
      _ = ∑ a ∈ range nx, ∑ c ∈ range nx, ∑ i ∈ range n, ∑ j ∈ range n, BA i a * x i * P a c * (BA j c * x j) := by
          rw [sum_comm]
          exact sum_congr rfl (fun a _ => sum_comm)
  rw [e]
  exact add_pos_of_pos_of_nonneg (hH x hx) (hP _)

theorem Pd.psd {n : ℕ} {M : Mat K} (h : Pd n M) : Psd n M := by
  intro x
  by_cases hx : ∃ i, i < n ∧ x i ≠ 0
  · exact le_of_lt (h x hx)
  · push Not at hx
    rw [qform_congr n M M x (fun _ => 0) (fun _ _ _ _ => rfl) hx]
    simp [qform]

theorem ricM_sym' (qp : OcpQp K) (dr : ℕ → ℕ → K) (reg : K) (G : ℕ → Vec K) (k : ℕ) (P : Mat K)
    (hP : ∀ i j, i < qp.dim.nx (k + 1) → j < qp.dim.nx (k + 1) → P i j = P j i) (i j : ℕ)
    (hi : i < qp.dim.nu k + qp.dim.nx k) (hj : j < qp.dim.nu k + qp.dim.nx k) :
    ricM (qp.dim.nx (k + 1)) (kH qp dr reg G k) (qp.BAbt k) P i j = ricM (qp.dim.nx (k + 1)) (kH qp dr reg G k) (qp.BAbt k) P j i :=
  ricM_sym (n := qp.dim.nu k + qp.dim.nx k) (fun i j _ _ => kH_sym qp dr reg G k i j) hP i j hi hj

/-- with positive definite stage Hessians the square-root sweep does not break down -/
theorem sqBack_pd (sq : K → K) (hsq : ∀ x, 0 < x → sq x * sq x = x) (qp : OcpQp K) (hwf : qp.WF) (reg preg : K)
    (G g : ℕ → Vec K) (st : KktSt K) (hR : ROk qp st) (hB : BOk qp st)
    (hH : ∀ k, k ≤ qp.dim.N → Pd (qp.dim.nu k + qp.dim.nx k) (kH qp (fun _ _ => preg) reg G k)) :
    (sqBack sq qp reg preg G g st).1 = false := by
  have key := loop_inv (S := Bool × KktSt K) (fun nn s => s.1 = false ∧ ROk qp s.2 ∧ BOk qp s.2) qp.dim.N
    (fun nn (s : Bool × KktSt K) =>
      if s.1 then s
      else
        let ss := qp.dim.N - nn - 1
        let st := sqMid sq qp reg preg G g ss s.2
        (singular (qp.dim.nu ss + qp.dim.nx ss) (st.L ss), st))
    (singular (qp.dim.nu qp.dim.N + qp.dim.nx qp.dim.N) ((sqLast sq qp reg preg G g st).L qp.dim.N), sqLast sq qp reg preg G g st)
    ?_ ?_
  · exact key.1
  · obtain ⟨f1, f2, f3, C, L0, f4, f5⟩ := sqLast_val sq qp hwf reg preg (fun _ _ => preg) (fun i hi => rfl) G g st hR
    refine ⟨singular_eq_false (fun j hj => ?_), fun q i j => ?_, fun q i a => ?_⟩
    · rw [f4]
      exact potrf_pd sq hsq _ _ (le_refl _) C L0 _ _ f5 (fun i j _ _ => kH_sym qp _ reg G _ i j) (hH _ (le_refl _)) j hj
    · show q ≤ _ → i < _ → j ≤ i → (sqLast sq qp reg preg G g st).RSQrq q i j = _
      rw [f1.RSQrq]; exact hR q i j
    · show q < _ → _ → _ → (sqLast sq qp reg preg G g st).BAbt q i a = _
      rw [f3]; exact hB q i a
  · rintro nn ⟨b, t⟩ hnn ⟨hb, h1, h2⟩
    simp only at hb h1 h2
    subst hb
    simp only [Bool.false_eq_true, if_false]
    set ss := qp.dim.N - nn - 1 with hss
    obtain ⟨f1, f2, f3, f4, C, L0, f5, f6⟩ := sqMid_val sq qp hwf reg preg (fun _ _ => preg) G g ss (by omega)
      (fun i hi => rfl) t h1 h2
    refine ⟨singular_eq_false (fun j hj => ?_), fun q i j => ?_, f3⟩
    · rw [f5]
      exact potrf_pd sq hsq _ _ (le_refl _) C L0 _ _ f6
        (ricM_sym' qp _ reg G ss _ (fun i j _ _ => sqP_sym _ _ _ i j))
        (ricM_pd _ _ _ _ _ (hH ss (by omega)) (sqP_psd _ _ _)) j hj
    · rw [f1.RSQrq]; exact h1 q i j

theorem schurOk_psd' (sq : K → K) (hsq : ∀ x, 0 < x → sq x * sq x = x) (D : QpDim) (k : ℕ) (C L0 M : Mat K) (m : Vec K) (st : KktSt K)
    (hL : st.L k = potrf_l_mn sq (D.nu k + D.nx k + 1) (D.nu k) C L0) (hC : CMat (D.nu k + D.nx k) C M m)
    (hsym : ∀ i j, i < D.nu k + D.nx k → j < D.nu k + D.nx k → M i j = M j i) (hM : Pd (D.nu k + D.nx k) M)
    (hS : SchurOk D k C st) : Psd (D.nx k) (st.P k) := by
  have hp : ∀ j, j < D.nu k → st.L k j j ≠ 0 := fun j hj => by
    rw [hL]; exact potrf_pd sq hsq _ _ (by omega) C L0 M m hC hsym hM j hj
  have hr := potrf_rows sq hsq (D.nu k + D.nx k) (D.nu k) (by omega) C L0 (st.L k) _ _ hL hC hp
  refine schur_psd hsym ⟨hr.1, fun i j hi hj => ?_, hp⟩ hM.psd
  by_cases hij : j ≤ i
  · rw [← hC.1 _ _ (by omega) (by omega)]
    exact hS.lower i j hi hij
  · rw [hsym _ _ (by omega) (by omega), ← hC.1 _ _ (by omega) (by omega), ← hS.lower j i hj (by omega)]
    congr 1
    · exact hS.sym i j hi hj
    · exact sum_congr rfl (fun l _ => mul_comm _ _)

theorem schurOk_psd (sq : K → K) (hsq : ∀ x, 0 < x → sq x * sq x = x) (D : QpDim) (k : ℕ) (C M : Mat K) (m : Vec K) (st : KktSt K)
    (hL : st.L k = potrf_l_mn sq (D.nu k + D.nx k + 1) (D.nu k) C C) (hC : CMat (D.nu k + D.nx k) C M m)
    (hsym : ∀ i j, i < D.nu k + D.nx k → j < D.nu k + D.nx k → M i j = M j i) (hM : Pd (D.nu k + D.nx k) M)
    (hS : SchurOk D k C st) : Psd (D.nx k) (st.P k) := schurOk_psd' sq hsq D k C C M m st hL hC hsym hM hS

/-- with positive definite stage Hessians the classical sweep does not break down -/
theorem clBack_pd (sq : K → K) (hsq : ∀ x, 0 < x → sq x * sq x = x) (qp : OcpQp K) (hwf : qp.WF) (hN : 1 ≤ qp.dim.N) (reg preg : K)
    (G g : ℕ → Vec K) (st : KktSt K) (hR : ROk qp st) (hB : BOk qp st)
    (hH : ∀ k, k ≤ qp.dim.N → Pd (qp.dim.nu k + qp.dim.nx k) (kH qp (drCl qp reg preg) reg G k)) :
    (clBack sq qp reg preg G g st).1 = false := by
  set dr := drCl qp reg preg with hdrd
  have hdr : ∀ k i, 1 ≤ k → dr k i = if i < qp.dim.nu k then preg else reg := by
    intro k i hk
    have : ¬ k = 0 := by omega
    simp only [hdrd, drCl, this, false_or]
  set s := clBack sq qp reg preg G g st with hsd
  set s0 := loop (qp.dim.N - 1) (fun nn (s : Bool × KktSt K) =>
      if s.1 then s
      else
        let ss := qp.dim.N - nn - 1
        let st := clMid sq qp reg preg G g ss s.2
        if singular (qp.dim.nu ss) (st.L ss) then (true, st) else (false, schurStage qp.dim ss st))
    (singular (qp.dim.nu qp.dim.N) ((clLast sq qp reg preg G g st).L qp.dim.N), clLast sq qp reg preg G g st) with hs0
  have key := loop_inv (S := Bool × KktSt K) (fun nn s => s.1 = false ∧ ROk qp s.2 ∧ BOk qp s.2 ∧
      (∀ i j, i < qp.dim.nx (qp.dim.N - nn) → j < qp.dim.nx (qp.dim.N - nn) → s.2.P (qp.dim.N - nn) i j = s.2.P (qp.dim.N - nn) j i) ∧
      Psd (qp.dim.nx (qp.dim.N - nn)) (s.2.P (qp.dim.N - nn))) (qp.dim.N - 1)
    (fun nn (s : Bool × KktSt K) =>
      if s.1 then s
      else
        let ss := qp.dim.N - nn - 1
        let st := clMid sq qp reg preg G g ss s.2
        if singular (qp.dim.nu ss) (st.L ss) then (true, st) else (false, schurStage qp.dim ss st))
    (singular (qp.dim.nu qp.dim.N) ((clLast sq qp reg preg G g st).L qp.dim.N), clLast sq qp reg preg G g st)
    ?_ ?_
  · rw [← hs0] at key
    obtain ⟨hb, h1, h2, h3, h4⟩ := key
    have hs : s = (if s0.1 then s0
      else if qp.dim.N > 0 then
        (singular (qp.dim.nu (qp.dim.N - (qp.dim.N - 1) - 1) + qp.dim.nx (qp.dim.N - (qp.dim.N - 1) - 1))
          ((clFirst sq qp reg preg G g (qp.dim.N - (qp.dim.N - 1) - 1) s0.2).L (qp.dim.N - (qp.dim.N - 1) - 1)),
          clFirst sq qp reg preg G g (qp.dim.N - (qp.dim.N - 1) - 1) s0.2)
      else s0) := rfl
    have e0 : qp.dim.N - (qp.dim.N - 1) - 1 = 0 := by omega
    have e1 : qp.dim.N - (qp.dim.N - 1) = 1 := by omega
    rw [e0] at hs
    rw [e1] at h3 h4
    rw [hs, if_neg (by rw [hb]; simp), if_pos (by omega)]
    obtain ⟨f1, f2, f3, f4, C, L0, f5, f6⟩ := clFirst_val sq qp hwf reg preg dr G g 0 (by omega)
      (fun i hi => by simp only [hdrd, drCl, true_or, if_true]) s0.2 h1 h2 h3
    refine singular_eq_false (fun j hj => ?_)
    rw [f5]
    exact potrf_pd sq hsq _ _ (le_refl _) C L0 _ _ f6 (ricM_sym' qp _ reg G 0 _ h3)
      (ricM_pd _ _ _ _ _ (hH 0 (by omega)) h4) j hj
  · obtain ⟨f1, f2, f3, C, f4, f5, f6⟩ := clLast_val sq qp hwf reg preg dr (fun i hi => hdr _ i hN) G g st hR
    refine ⟨singular_eq_false (fun j hj => ?_), fun q i j => ?_, fun q i a => ?_, f6.sym, ?_⟩
    · rw [f4]
      exact potrf_pd sq hsq _ _ (by omega) C C _ _ f5 (fun i j _ _ => kH_sym qp _ reg G _ i j) (hH _ (le_refl _)) j hj
    · show q ≤ _ → i < _ → j ≤ i → (clLast sq qp reg preg G g st).RSQrq q i j = _
      rw [f1.RSQrq]; exact hR q i j
    · show q < _ → _ → _ → (clLast sq qp reg preg G g st).BAbt q i a = _
      rw [f3]; exact hB q i a
    · exact schurOk_psd sq hsq qp.dim qp.dim.N C _ _ _ f4 f5 (fun i j _ _ => kH_sym qp _ reg G _ i j) (hH _ (le_refl _)) f6
  · rintro nn ⟨b, t⟩ hnn ⟨hb, h1, h2, h3, h4⟩
    simp only at hb h1 h2 h3 h4
    subst hb
    simp only [Bool.false_eq_true, if_false]
    rw [show qp.dim.N - (nn + 1) = qp.dim.N - nn - 1 by omega]
    set ss := qp.dim.N - nn - 1 with hss
    rw [show qp.dim.N - nn = ss + 1 by omega] at h3 h4
    obtain ⟨f1, f2, f3, f4, C, f5, f6⟩ := clMid_val sq qp hwf reg preg dr G g ss (by omega)
      (fun i hi => hdr _ i (by omega)) t h1 h2 h3
    have hsy := ricM_sym' qp dr reg G ss _ h3
    have hpd := ricM_pd (qp.dim.nu ss + qp.dim.nx ss) _ _ (qp.BAbt ss) _ (hH ss (by omega)) h4
    set t1 := clMid sq qp reg preg G g ss t with ht1
    have hR1 : ROk qp t1 := by intro q i j; rw [f1.RSQrq]; exact h1 q i j
    have hsing : singular (qp.dim.nu ss) (t1.L ss) = false := singular_eq_false (fun j hj => by
      rw [f5]; exact potrf_pd sq hsq _ _ (by omega) C C _ _ f6 hsy hpd j hj)
    simp only [hsing, Bool.false_eq_true, if_false]
    obtain ⟨g1, g2, g3, g4, g5, g6, g7⟩ := schurStage_val sq qp.dim ss C t1 f5
    refine ⟨trivial, fun q i j => ?_, fun q i a => ?_, g7.sym, ?_⟩
    · rw [g1.RSQrq]; exact hR1 q i j
    · rw [g5]; exact f3 q i a
    · exact schurOk_psd sq hsq qp.dim ss C _ _ _ (by rw [g2]; exact f5) f6 hsy hpd g7

end
end Hpipm
