/-
Condensing of the dynamics: the matrices `Gamma` and vectors `Gammab` of COND_BABT express the state of every stage in
the condensed variables.
-/
import Verif.CondSpec

namespace Hpipm
open Finset
set_option linter.unusedSectionVars false

section
variable {K : Type*} [Field K]

theorem sum_add_split (a b : ℕ) (f : ℕ → K) :
    ∑ j ∈ range (a + b), f j = (∑ j ∈ range a, f j) + ∑ j ∈ range b, f (a + j) := sum_range_add f a b

/-- what the rows of `Gamma k` contain (lemma interface, `k < n`) -/
structure DynRec (qp : OcpQp K) (n : ℕ) (Gamma : ℕ → Mat K) (Gammab : ℕ → Vec K) : Prop where
  z : 0 < n → ∀ r i, r < qp.dim.nu 0 + qp.dim.nx 0 → i < qp.dim.nx 1 → Gamma 0 r i = qp.BAbt 0 r i
  zb : 0 < n → ∀ i, i < qp.dim.nx 1 → Gammab 0 i = qp.b 0 i
  u : ∀ k r i, k + 1 < n → r < qp.dim.nu (k + 1) → i < qp.dim.nx (k + 2) → Gamma (k + 1) r i = qp.BAbt (k + 1) r i
  x : ∀ k r i, k + 1 < n → r < sumTo qp.dim.nu (k + 1) + qp.dim.nx 0 → i < qp.dim.nx (k + 2) →
    Gamma (k + 1) (qp.dim.nu (k + 1) + r) i
      = ∑ l ∈ range (qp.dim.nx (k + 1)), Gamma k r l * qp.BAbt (k + 1) (qp.dim.nu (k + 1) + l) i
  b : ∀ k i, k + 1 < n → i < qp.dim.nx (k + 2) →
    Gammab (k + 1) i = qp.b (k + 1) i
      + ∑ l ∈ range (qp.dim.nx (k + 1)), Gammab k l * qp.BAbt (k + 1) (qp.dim.nu (k + 1) + l) i

/-- the last row of `Gamma k` is `Gammab k` -/
def DynRow (qp : OcpQp K) (n : ℕ) (Gamma : ℕ → Mat K) (Gammab : ℕ → Vec K) : Prop :=
  ∀ k i, k < n → i < qp.dim.nx (k + 1) → Gamma k (sumTo qp.dim.nu (k + 1) + qp.dim.nx 0) i = Gammab k i

/-- the states are affine functions of the condensed variables, with the coefficients `Gamma` and `Gammab` -/
theorem dyn_sem {qp : OcpQp K} {n N : ℕ} {Gamma : ℕ → Mat K} {Gammab : ℕ → Vec K} (h : DynRec qp n Gamma Gammab)
    (hn : n ≤ N + 1) (v : Vec K) : ∀ k i, k < n → i < qp.dim.nx (k + 1) →
    roll qp N v (k + 1) i = (∑ r ∈ range (sumTo qp.dim.nu (k + 1) + qp.dim.nx 0), Gamma k r i * v (later qp.dim.nu N k + r))
      + Gammab k i := by
  intro k
  induction k with
  | zero =>
    intro i hk hi
    have e : sumTo qp.dim.nu (0 + 1) = qp.dim.nu 0 := by rw [sumTo_succ]; simp [sumTo]
    have e2 : later qp.dim.nu N 0 + qp.dim.nu 0 = nuAll qp.dim N := by
      have := later_add_sumTo qp.dim.nu (N := N) (k := 0) (by omega)
      rw [e, sumTo_eq] at this; exact this
    rw [e, h.zb hk i hi, sum_add_split]
    show qp.b 0 i + _ + _ = _
    have s1 : ∑ j ∈ range (qp.dim.nu 0), Gamma 0 j i * v (later qp.dim.nu N 0 + j)
        = ∑ j ∈ range (qp.dim.nu 0), qp.BAbt 0 j i * v (later qp.dim.nu N 0 + j) :=
      sum_congr rfl fun j hj => by rw [h.z hk j i (by have := mem_range.mp hj; omega) hi]
    have s2 : ∑ j ∈ range (qp.dim.nx 0), Gamma 0 (qp.dim.nu 0 + j) i * v (later qp.dim.nu N 0 + (qp.dim.nu 0 + j))
        = ∑ j ∈ range (qp.dim.nx 0), qp.BAbt 0 (qp.dim.nu 0 + j) i * roll qp N v 0 j :=
      sum_congr rfl fun j hj => by
        rw [h.z hk _ i (by have := mem_range.mp hj; omega) hi, ← add_assoc, e2]; rfl
    rw [s1, s2]; ring
  | succ k ih =>
    intro i hk hi
    have el : later qp.dim.nu N k = qp.dim.nu (k + 1) + later qp.dim.nu N (k + 1) := later_succ _ (by omega)
    rw [sumTo_succ qp.dim.nu (k + 1), show sumTo qp.dim.nu (k + 1) + qp.dim.nu (k + 1) + qp.dim.nx 0
      = qp.dim.nu (k + 1) + (sumTo qp.dim.nu (k + 1) + qp.dim.nx 0) by omega, sum_add_split, h.b k i hk hi]
    show qp.b (k + 1) i + _ + ∑ j ∈ range (qp.dim.nx (k + 1)), qp.BAbt (k + 1) (qp.dim.nu (k + 1) + j) i * roll qp N v (k + 1) j = _
    have s1 : ∑ j ∈ range (qp.dim.nu (k + 1)), Gamma (k + 1) j i * v (later qp.dim.nu N (k + 1) + j)
        = ∑ j ∈ range (qp.dim.nu (k + 1)), qp.BAbt (k + 1) j i * v (later qp.dim.nu N (k + 1) + j) :=
      sum_congr rfl fun j hj => by rw [h.u k j i hk (mem_range.mp hj) hi]
    have s2 : ∑ j ∈ range (qp.dim.nx (k + 1)), qp.BAbt (k + 1) (qp.dim.nu (k + 1) + j) i * roll qp N v (k + 1) j
        = (∑ r ∈ range (sumTo qp.dim.nu (k + 1) + qp.dim.nx 0),
            Gamma (k + 1) (qp.dim.nu (k + 1) + r) i * v (later qp.dim.nu N (k + 1) + (qp.dim.nu (k + 1) + r)))
          + ∑ l ∈ range (qp.dim.nx (k + 1)), Gammab k l * qp.BAbt (k + 1) (qp.dim.nu (k + 1) + l) i := by
      have t1 : ∀ r ∈ range (sumTo qp.dim.nu (k + 1) + qp.dim.nx 0),
          Gamma (k + 1) (qp.dim.nu (k + 1) + r) i * v (later qp.dim.nu N (k + 1) + (qp.dim.nu (k + 1) + r))
          = ∑ l ∈ range (qp.dim.nx (k + 1)),
            (Gamma k r l * qp.BAbt (k + 1) (qp.dim.nu (k + 1) + l) i) * v (later qp.dim.nu N k + r) := fun r hr => by
        rw [h.x k r i hk (mem_range.mp hr) hi, sum_mul, el]
        refine sum_congr rfl fun l _ => ?_
        rw [show later qp.dim.nu N (k + 1) + (qp.dim.nu (k + 1) + r) = qp.dim.nu (k + 1) + later qp.dim.nu N (k + 1) + r by omega]
      rw [sum_congr rfl t1, sum_comm, ← sum_add_distrib]
      refine sum_congr rfl fun l hl => ?_
      rw [ih l (by omega) (mem_range.mp hl), mul_add, mul_sum]
      congr 1
      · exact sum_congr rfl fun r _ => by ring
      · ring
    rw [s1, s2]; ring

theorem gecp_in {α : Type*} {m n : ℕ} {A : ℕ → ℕ → α} {ai aj : ℕ} {B : ℕ → ℕ → α} {bi bj i j : ℕ}
    (h1 : bi ≤ i) (h2 : i < bi + m) (h3 : bj ≤ j) (h4 : j < bj + n) :
    gecp m n A ai aj B bi bj i j = A (ai + (i - bi)) (aj + (j - bj)) := by
  unfold gecp; rw [if_pos ⟨⟨h1, h2⟩, h3, h4⟩]

theorem gecp_out {α : Type*} {m n : ℕ} {A : ℕ → ℕ → α} {ai aj : ℕ} {B : ℕ → ℕ → α} {bi bj i j : ℕ}
    (h : ¬ ((bi ≤ i ∧ i < bi + m) ∧ (bj ≤ j ∧ j < bj + n))) :
    gecp m n A ai aj B bi bj i j = B i j := by
  unfold gecp; rw [if_neg h]

theorem gemm_nn_in {m n k : ℕ} {a : K} {A : Mat K} {ai aj : ℕ} {B : Mat K} {bi bj : ℕ} {b : K} {C : Mat K} {ci cj : ℕ}
    {D : Mat K} {di dj i j : ℕ} (h1 : di ≤ i) (h2 : i < di + m) (h3 : dj ≤ j) (h4 : j < dj + n) :
    gemm_nn m n k a A ai aj B bi bj b C ci cj D di dj i j = b * C (ci + (i - di)) (cj + (j - dj)) +
        a * ∑ l ∈ range k, A (ai + (i - di)) (aj + l) * B (bi + l) (bj + (j - dj)) := by
  unfold gemm_nn; rw [if_pos ⟨⟨h1, h2⟩, h3, h4⟩]

theorem gemm_nn_out {m n k : ℕ} {a : K} {A : Mat K} {ai aj : ℕ} {B : Mat K} {bi bj : ℕ} {b : K} {C : Mat K} {ci cj : ℕ}
    {D : Mat K} {di dj i j : ℕ} (h : ¬ ((di ≤ i ∧ i < di + m) ∧ (dj ≤ j ∧ j < dj + n))) :
    gemm_nn m n k a A ai aj B bi bj b C ci cj D di dj i j = D i j := by
  unfold gemm_nn; rw [if_neg h]

theorem rowad_ne {n : ℕ} {a : K} {x : Vec K} {xi : ℕ} {A : Mat K} {ai aj i j : ℕ} (h : i ≠ ai) :
    rowad n a x xi A ai aj i j = A i j := by unfold rowad; rw [if_neg (by tauto)]

theorem rowad_in {n : ℕ} {a : K} {x : Vec K} {xi : ℕ} {A : Mat K} {ai aj j : ℕ} (h1 : aj ≤ j) (h2 : j < aj + n) :
    rowad n a x xi A ai aj ai j = A ai j + a * x (xi + (j - aj)) := by unfold rowad; rw [if_pos ⟨rfl, h1, h2⟩]

theorem rowin_ne {n : ℕ} {a : K} {x : Vec K} {xi : ℕ} {A : Mat K} {ai aj i j : ℕ} (h : i ≠ ai) :
    rowin n a x xi A ai aj i j = A i j := by unfold rowin; rw [if_neg (by tauto)]

theorem rowin_in {n : ℕ} {a : K} {x : Vec K} {xi : ℕ} {A : Mat K} {ai aj j : ℕ} (h1 : aj ≤ j) (h2 : j < aj + n) :
    rowin n a x xi A ai aj ai j = a * x (xi + (j - aj)) := by unfold rowin; rw [if_pos ⟨rfl, h1, h2⟩]

theorem rowex_in {n : ℕ} {a : K} {A : Mat K} {ai aj : ℕ} {x : Vec K} {xi j : ℕ} (h1 : xi ≤ j) (h2 : j < xi + n) :
    rowex n a A ai aj x xi j = a * A ai (aj + (j - xi)) := by unfold rowex; rw [if_pos ⟨h1, h2⟩]

/-- the state of the loop of COND_BABT before pass `i` (stages `0..i` done) -/
theorem babt_dyn (qp : OcpQp K) (G0 : ℕ → Mat K) (Gb0 : ℕ → Vec K)
    (hz : ∀ r i, r < qp.dim.nu 0 + qp.dim.nx 0 → i < qp.dim.nx 1 → G0 0 r i = qp.BAbt 0 r i)
    (hzr : ∀ i, i < qp.dim.nx 1 → G0 0 (qp.dim.nu 0 + qp.dim.nx 0) i = qp.b 0 i)
    (hzb : ∀ i, i < qp.dim.nx 1 → Gb0 0 i = qp.b 0 i) (n : ℕ) :
    let s := loop n (fun i s => babtStep qp (i + 1) s) ⟨G0, Gb0, qp.dim.nu 0⟩
    s.nu_tmp = sumTo qp.dim.nu (n + 1) ∧ DynRec qp (n + 1) s.Gamma s.Gammab ∧ DynRow qp (n + 1) s.Gamma s.Gammab := by
  intro s
  refine loop_inv (fun n (s : BabtSt K) => s.nu_tmp = sumTo qp.dim.nu (n + 1) ∧ DynRec qp (n + 1) s.Gamma s.Gammab
    ∧ DynRow qp (n + 1) s.Gamma s.Gammab) n _ _ ?_ ?_
  · have e : sumTo qp.dim.nu (0 + 1) = qp.dim.nu 0 := by rw [sumTo_succ]; simp [sumTo]
    refine ⟨e.symm, ⟨fun _ => hz, fun _ => hzb, fun k _ _ hk => by omega, fun k _ _ hk => by omega, fun k _ hk => by omega⟩, ?_⟩
    intro k i hk hi
    obtain rfl : k = 0 := by omega
    rw [e]; exact (hzr i hi).trans (hzb i hi).symm
  · intro n s _ ⟨e, h, hr⟩
    -- entries of the new Gamma
    set s' := babtStep qp (n + 1) s with hs'
    have eG : ∀ k, k ≠ n + 1 → s'.Gamma k = s.Gamma k := fun k hk => upd_ne _ _ hk
    have eB : ∀ k, k ≠ n + 1 → s'.Gammab k = s.Gammab k := fun k hk => upd_ne _ _ hk
    have et : sumTo qp.dim.nu (n + 1 + 1) = sumTo qp.dim.nu (n + 1) + qp.dim.nu (n + 1) := sumTo_succ _ _
    have e2 : qp.dim.nx (n + 1 + 1) = qp.dim.nx (n + 2) := rfl
    have gu : ∀ r i, r < qp.dim.nu (n + 1) → i < qp.dim.nx (n + 2) → s'.Gamma (n + 1) r i = qp.BAbt (n + 1) r i := by
      intro r i hr' hi
      have q : s'.Gamma (n + 1) = _ := upd_same _ _ _
      rw [q, rowad_ne (by omega), gecp_in (by omega) (by omega) (by omega) (by omega)]
      congr 1 <;> omega
    have gx : ∀ r i, r < sumTo qp.dim.nu (n + 1) + qp.dim.nx 0 → i < qp.dim.nx (n + 2) →
        s'.Gamma (n + 1) (qp.dim.nu (n + 1) + r) i
        = ∑ l ∈ range (qp.dim.nx (n + 1)), s.Gamma n r l * qp.BAbt (n + 1) (qp.dim.nu (n + 1) + l) i := by
      intro r i hr' hi
      have q : s'.Gamma (n + 1) = _ := upd_same _ _ _
      rw [q, rowad_ne (by omega), gecp_out (by omega), gemm_nn_in (by omega) (by omega) (by omega) (by omega)]
      rw [zero_mul, zero_add, one_mul]
      refine sum_congr rfl fun l _ => ?_
      rw [show n + 1 - 1 = n by omega, show 0 + (qp.dim.nu (n + 1) + r - qp.dim.nu (n + 1)) = r by omega, zero_add,
        show 0 + (i - 0) = i by omega]
    have gr : ∀ i, i < qp.dim.nx (n + 2) → s'.Gamma (n + 1) (sumTo qp.dim.nu (n + 1 + 1) + qp.dim.nx 0) i
        = qp.b (n + 1) i + ∑ l ∈ range (qp.dim.nx (n + 1)), s.Gammab n l * qp.BAbt (n + 1) (qp.dim.nu (n + 1) + l) i := by
      intro i hi
      have q : s'.Gamma (n + 1) = _ := upd_same _ _ _
      rw [q, et, ← e, rowad_in (by omega) (by omega), gecp_out (by omega), gemm_nn_in (by omega) (by omega) (by omega) (by omega)]
      rw [zero_mul, zero_add, one_mul, one_mul, show 0 + (i - 0) = i by omega, add_comm]
      congr 1
      refine sum_congr rfl fun l hl => ?_
      rw [show n + 1 - 1 = n by omega, show 0 + (s.nu_tmp + qp.dim.nu (n + 1) + qp.dim.nx 0 - qp.dim.nu (n + 1))
        = sumTo qp.dim.nu (n + 1) + qp.dim.nx 0 by omega, zero_add, hr n l (by omega) (mem_range.mp hl)]
    have gb : ∀ i, i < qp.dim.nx (n + 2) → s'.Gammab (n + 1) i
        = s'.Gamma (n + 1) (sumTo qp.dim.nu (n + 1 + 1) + qp.dim.nx 0) i := by
      intro i hi
      have q : s'.Gammab (n + 1) = _ := upd_same _ _ _
      have q2 : s'.Gamma (n + 1) = _ := upd_same _ _ _
      rw [q, q2, rowex_in (by omega) (by omega), one_mul, et, ← e, show 0 + (i - 0) = i by omega]
    refine ⟨?_, ⟨?_, ?_, ?_, ?_, ?_⟩, ?_⟩
    · rw [et, ← e]; rfl
    · intro _ r i; rw [eG 0 (by omega)]; exact h.z (by omega) r i
    · intro _ i; rw [eB 0 (by omega)]; exact h.zb (by omega) i
    · intro k r i hk hr' hi
      by_cases hkn : k = n
      · subst hkn; exact gu r i hr' hi
      · rw [eG _ (by omega)]; exact h.u k r i (by omega) hr' hi
    · intro k r i hk hr' hi
      by_cases hkn : k = n
      · subst hkn; rw [eG k (by omega)]; exact gx r i hr' hi
      · rw [eG _ (by omega), eG k (by omega)]; exact h.x k r i (by omega) hr' hi
    · intro k i hk hi
      by_cases hkn : k = n
      · subst hkn; rw [eB k (by omega), gb i hi]; exact gr i hi
      · rw [eB _ (by omega), eB k (by omega)]; exact h.b k i (by omega) hi
    · intro k i hk hi
      by_cases hkn : k = n + 1
      · subst hkn; exact (gb i hi).symm
      · rw [eG _ hkn, eB _ hkn]; exact hr k i (by omega) hi

/-- COND_BABT: the work space expresses the states by the condensed variables -/
theorem condBabt_dyn (qp : OcpQp K) (arg : CondArg) (ws : CondWs K) (tg : CondTgt K) (hN : 0 < qp.dim.N) :
    DynRec qp qp.dim.N (condBabt qp arg ws tg).1.Gamma (condBabt qp arg ws tg).1.Gammab ∧
    DynRow qp qp.dim.N (condBabt qp arg ws tg).1.Gamma (condBabt qp arg ws tg).1.Gammab := by
  have H := babt_dyn qp
    (upd ws.Gamma 0 (rowin (qp.dim.nx 1) 1 (qp.b 0) 0 (gecp (qp.dim.nu 0 + qp.dim.nx 0) (qp.dim.nx 1) (qp.BAbt 0) 0 0 (ws.Gamma 0) 0 0)
      (qp.dim.nu 0 + qp.dim.nx 0) 0))
    (upd ws.Gammab 0 (veccp (qp.dim.nx 1) (qp.b 0) 0 (ws.Gammab 0) 0))
    (fun r i hr hi => by
      rw [upd_same, rowin_ne (by omega), gecp_in (by omega) (by omega) (by omega) (by omega)]; congr 1 <;> omega)
    (fun i hi => by rw [upd_same, rowin_in (by omega) (by omega), one_mul]; congr 1; omega)
    (fun i hi => by rw [upd_same]; unfold veccp; rw [if_pos (by omega)]; congr 1; omega) (qp.dim.N - 1)
  dsimp only at H
  rw [show qp.dim.N - 1 + 1 = qp.dim.N by omega] at H
  unfold condBabt
  simp only
  rw [if_neg (by omega)]
  split
  · exact H.2
  · exact H.2

/-- COND_BABT without condensing the last stage: the dynamics of the condensed stage give the state of stage `N` -/
theorem condBabt_next (qp : OcpQp K) (arg : CondArg) (ws : CondWs K) (tg : CondTgt K) (n : ℕ) (hN : qp.dim.N = n + 1)
    (hl : arg.cond_last_stage = false) (v : Vec K) (i : ℕ) (hi : i < qp.dim.nx (n + 1)) :
    roll qp n v (n + 1) i = (condBabt qp arg ws tg).2.b2 i
      + ∑ r ∈ range (nuAll qp.dim n + qp.dim.nx 0), (condBabt qp arg ws tg).2.BAbt2 r i * v r := by
  have H := babt_dyn qp
    (upd ws.Gamma 0 (rowin (qp.dim.nx 1) 1 (qp.b 0) 0 (gecp (qp.dim.nu 0 + qp.dim.nx 0) (qp.dim.nx 1) (qp.BAbt 0) 0 0 (ws.Gamma 0) 0 0)
      (qp.dim.nu 0 + qp.dim.nx 0) 0))
    (upd ws.Gammab 0 (veccp (qp.dim.nx 1) (qp.b 0) 0 (ws.Gammab 0) 0))
    (fun r i hr hi => by
      rw [upd_same, rowin_ne (by omega), gecp_in (by omega) (by omega) (by omega) (by omega)]; congr 1 <;> omega)
    (fun i hi => by rw [upd_same, rowin_in (by omega) (by omega), one_mul]; congr 1; omega)
    (fun i hi => by rw [upd_same]; unfold veccp; rw [if_pos (by omega)]; congr 1; omega) (qp.dim.N - 1)
  dsimp only at H
  rw [show qp.dim.N - 1 + 1 = n + 1 by omega] at H
  obtain ⟨e, h, hr⟩ := H
  have S := dyn_sem h (le_refl (n + 1)) v n i (by omega) hi
  rw [later_self] at S
  have en : sumTo qp.dim.nu (n + 1) = nuAll qp.dim n := by rw [sumTo_eq]; rfl
  unfold condBabt
  simp only
  rw [if_neg (by omega), if_pos hl]
  dsimp only
  rw [hN] at *
  rw [show n + 1 - 1 = n by omega] at *
  rw [rowex_in (by omega) (by omega), e, S, one_mul, show 0 + (i - 0) = i by omega, hr n i (by omega) hi, en, add_comm]
  congr 1
  refine sum_congr rfl fun r hr' => ?_
  have := mem_range.mp hr'
  rw [gecp_in (by omega) (by omega) (by omega) (by omega), show 0 + (r - 0) = r by omega, show 0 + (i - 0) = i by omega, zero_add]

end
end Hpipm
