/-
C83: the start of the QCQP interior point solver (OCP_QCQP_INIT_VAR).
-/
import Verif.QcqpIpmProps

namespace Hpipm
open Finset
set_option linter.unusedSectionVars false

section
variable {K : Type*} [Field K] [LinearOrder K] [IsStrictOrderedRing K]

theorem qiniBox_cen (nb nbg nbgm : ℕ) (hn : nb ≤ nbg) (idxb : ℕ → ℕ) (d mask : Vec K) (mu0 : K) (s : IniSt K) (i : ℕ)
    (hi : i < nb ∨ (nbg ≤ i ∧ i < nbg + nb)) :
    Cen mu0 (loop nb (qiniBox nbg nbgm idxb d mask mu0) s).lam (loop nb (qiniBox nbg nbgm idxb d mask mu0) s).t i := by
  have h := loop_inv (S := IniSt K) (fun n s => ∀ i, i < n ∨ (nbg ≤ i ∧ i < nbg + n) → Cen mu0 s.lam s.t i) nb
    (qiniBox nbg nbgm idxb d mask mu0) s (fun i hi => by omega) (by
      intro n s hn ih i hi
      have key : ∀ r : K × K × K, 0 < r.2.1 → 0 < r.2.2 →
          Cen mu0 (upd (upd s.lam n (mu0 / r.2.1)) (nbg + n) (mu0 / r.2.2))
            (upd (upd s.t n r.2.1) (nbg + n) r.2.2) i := by
        intro r h1 h2
        apply cen_upd2 _ _ _ _ _ _ _ (by omega) h1 h2
        by_cases h3 : i = n
        · exact Or.inl h3
        · by_cases h4 : i = nbg + n
          · exact Or.inr (Or.inl h4)
          · exact Or.inr (Or.inr (ih i (by omega)))
      have hp := thr0_pos (K := K)
      unfold qiniBox
      extract_lets x dl du tl tu r
      apply key
      · show 0 < r.2.1
        simp only [r]
        split_ifs with h1 h2 h3
        · exact hp
        · exact hp
        · exact lt_of_lt_of_le hp (not_lt.1 h1)
        · exact lt_of_lt_of_le hp (not_lt.1 h1)
      · show 0 < r.2.2
        simp only [r]
        split_ifs with h1 h2 h3
        · exact hp
        · exact lt_of_lt_of_le hp (not_lt.1 h2)
        · exact hp
        · exact lt_of_lt_of_le hp (not_lt.1 h3))
  exact h i hi

theorem qiniSoft_cen (n2 n : ℕ) (mu0 : K) (s : IniSt K) (i : ℕ) :
    (n2 ≤ i ∧ i < n2 + n → Cen mu0 (loop n (qiniSoft n2 mu0) s).lam (loop n (qiniSoft n2 mu0) s).t i) ∧
    (i < n2 → (loop n (qiniSoft n2 mu0) s).lam i = s.lam i ∧ (loop n (qiniSoft n2 mu0) s).t i = s.t i) := by
  have h := loop_inv (S := IniSt K) (fun m s' =>
      (n2 ≤ i ∧ i < n2 + m → Cen mu0 s'.lam s'.t i) ∧ (i < n2 → s'.lam i = s.lam i ∧ s'.t i = s.t i)) n
    (qiniSoft n2 mu0) s ⟨fun h => by omega, fun _ => ⟨rfl, rfl⟩⟩ (by
      intro m s' _ ⟨i1, i2⟩
      unfold qiniSoft
      dsimp only
      refine ⟨fun h => ?_, fun h => ?_⟩
      · unfold Cen
        by_cases e : i = n2 + m
        · subst e
          simp only [upd_same]
          exact ⟨one_pos, by ring⟩
        · rw [upd_ne _ _ e, upd_ne _ _ e]; exact i1 (by omega)
      · rw [upd_ne _ _ (by omega), upd_ne _ _ (by omega)]; exact i2 h)
  exact h

theorem qiniQuad_cen (n0 nq : ℕ) (mu0 r : K) (hr : 0 < r) (s : IniSt K) (i : ℕ) :
    (n0 ≤ i ∧ i < n0 + nq → (loop nq (qiniQuad n0 nq mu0 r) s).t i = 1) ∧
    (2 * n0 + nq ≤ i ∧ i < 2 * n0 + 2 * nq → Cen mu0 (loop nq (qiniQuad n0 nq mu0 r) s).lam (loop nq (qiniQuad n0 nq mu0 r) s).t i) ∧
    (¬ (n0 ≤ i ∧ i < n0 + nq) → ¬ (2 * n0 + nq ≤ i ∧ i < 2 * n0 + 2 * nq) →
      (loop nq (qiniQuad n0 nq mu0 r) s).lam i = s.lam i ∧ (loop nq (qiniQuad n0 nq mu0 r) s).t i = s.t i) := by
  have h := loop_inv (S := IniSt K) (fun m s' => m ≤ nq →
      (n0 ≤ i ∧ i < n0 + m → s'.t i = 1) ∧ (2 * n0 + nq ≤ i ∧ i < 2 * n0 + nq + m → Cen mu0 s'.lam s'.t i) ∧
      (¬ (n0 ≤ i ∧ i < n0 + m) → ¬ (2 * n0 + nq ≤ i ∧ i < 2 * n0 + nq + m) → s'.lam i = s.lam i ∧ s'.t i = s.t i)) nq
    (qiniQuad n0 nq mu0 r) s (fun _ => ⟨fun h => by omega, fun h => by omega, fun _ _ => ⟨rfl, rfl⟩⟩) (by
      intro m s' _ ih hm
      obtain ⟨i1, i2, i3⟩ := ih (by omega)
      unfold qiniQuad
      dsimp only
      refine ⟨fun h => ?_, fun h => ?_, fun h h' => ?_⟩
      · rw [upd_ne _ _ (by omega)]
        by_cases e : i = n0 + m
        · subst e; rw [upd_same]
        · rw [upd_ne _ _ e]; exact i1 (by omega)
      · unfold Cen
        by_cases e : i = 2 * n0 + nq + m
        · subst e
          simp only [upd_same]
          exact ⟨hr, div_mul_cancel₀ _ hr.ne'⟩
        · rw [upd_ne _ _ e, upd_ne _ _ e, upd_ne _ _ (by omega), upd_ne _ _ (by omega)]; exact i2 (by omega)
      · rw [upd_ne _ _ (by omega), upd_ne _ _ (by omega), upd_ne _ _ (by omega), upd_ne _ _ (by omega)]
        exact i3 (by omega) (by omega))
  obtain ⟨h1, h2, h3⟩ := h le_rfl
  exact ⟨h1, fun h => h2 (by omega), fun h h' => h3 h (by omega)⟩

/-- **C83** The read through an unassigned pointer: it happens exactly when the iterate is not warm started from the previous
multipliers, the heuristic is selected and some stage has general linear constraints. -/
theorem qinitVar_none_iff (sq : K → K) (Q : Qcqp K) (a : IpmArg K) (sol : Sol K) :
    qinitVar sq Q a sol = none ↔
      a.i .warm_start < 2 ∧ a.i .t0_init ≠ 0 ∧ a.i .t0_init ≠ 1 ∧ ∃ k, k ≤ Q.base.dim.N ∧ 0 < Q.base.dim.ng k := by
  unfold qinitVar
  extract_lets D N mu0 sol1 sol2 sol3 sol4 r
  by_cases h3 : a.i .warm_start ≥ 3
  · rw [if_pos h3]; simp; omega
  · rw [if_neg h3]
    by_cases h2 : a.i .warm_start = 2
    · rw [if_pos h2]; simp; omega
    · rw [if_neg h2]
      by_cases t0 : a.i .t0_init = 0
      · rw [if_pos t0]; simp [t0]
      · rw [if_neg t0]
        by_cases t1 : a.i .t0_init = 1
        · rw [if_pos t1]; simp [t1]
        · rw [if_neg t1]
          by_cases hg : (List.range (N + 1)).any (fun k => decide (0 < D.ng k)) = true
          · rw [if_pos hg]
            simp only [List.any_eq_true, List.mem_range, decide_eq_true_eq] at hg
            obtain ⟨k, hk, hk2⟩ := hg
            simp only [true_iff]
            exact ⟨by omega, t0, t1, k, by show k ≤ N; omega, hk2⟩
          · rw [if_neg hg]
            simp only [List.any_eq_true, List.mem_range, decide_eq_true_eq, not_exists, not_and] at hg
            constructor
            · intro h; cases h
            · rintro ⟨-, -, -, k, hk, hk2⟩
              exact absurd hk2 (hg k (Nat.lt_succ_of_le hk))

/-- the settings under which the start is in the interior -/
def QInitOk (Q : Qcqp K) (a : IpmArg K) : Prop :=
  (a.i .warm_start < 2 ∧ a.i .t0_init ≠ 0 ∧ a.i .t0_init ≠ 1 ∧ (∀ k, k ≤ Q.base.dim.N → Q.base.dim.ng k = 0) ∧ 0 < a.r .mu0) ∨
  a.i .warm_start = 2 ∨ (3 ≤ a.i .warm_start ∧ 0 < a.r .t0_min ∧ 0 < a.r .lam0_min)

/-- **C83** Start of the QCQP solver: every slack is strictly positive, and so is every multiplier other than those of the
(absent) lower sides of the quadratic constraints; after the heuristic their products are the initial barrier parameter. -/
theorem qinitVar_interior (sq : K → K) (Q : Qcqp K) (a : IpmArg K) (sol : Sol K) (hi : QInitOk Q a) :
    ∃ sol', qinitVar sq Q a sol = some sol' ∧ ∀ k j, k ≤ Q.base.dim.N → j < nct Q.inner.dim k →
      0 < sol'.t k j ∧ (¬ LoQ Q k j → 0 < sol'.lam k j ∧ (a.i .warm_start < 2 → sol'.lam k j * sol'.t k j = a.r .mu0)) := by
  rcases hi with ⟨h1, h2, h3, h4, h5⟩ | h | ⟨h1, h2, h3⟩
  · unfold qinitVar
    extract_lets D N mu0 sol1 sol2 sol3 sol4 r
    rw [if_neg (by omega), if_neg (by omega), if_neg h2, if_neg h3, if_neg (by
      simp only [List.any_eq_true, List.mem_range, decide_eq_true_eq, not_exists, not_and]
      intro k hk
      have := h4 k (Nat.le_of_lt_succ hk)
      show ¬ 0 < Q.base.dim.ng k
      omega)]
    refine ⟨_, rfl, fun k j hk hj => ?_⟩
    have hg := h4 k hk
    have hn : nct Q.inner.dim k = 2 * Q.base.dim.nb k + 2 * (Q.base.dim.ng k + Q.nq k) + 2 * Q.base.dim.ns k := rfl
    have hr : 0 < r := by
      simp only [r]
      split_ifs with hh
      · exact thr0_pos
      · exact lt_of_lt_of_le thr0_pos (not_lt.mp hh)
    obtain ⟨_, e1, e2⟩ := (iniStages_val N (fun k s => loop (Q.nq k) (qiniQuad (D.nb k + D.ng k) (Q.nq k) mu0 r) s) sol4).1 k hk
    rw [e1, e2]
    obtain ⟨q1, q2, q3⟩ := qiniQuad_cen (D.nb k + D.ng k) (Q.nq k) mu0 r hr ⟨sol4.ux k, sol4.lam k, sol4.t k⟩ j
    have done : ∀ {l t : Vec K}, Cen mu0 l t j → 0 < t j ∧ (¬ LoQ Q k j → 0 < l j ∧ (a.i .warm_start < 2 → l j * t j = a.r .mu0)) :=
      fun h => ⟨h.1, fun _ => ⟨h.lam_pos h5, fun _ => h.2⟩⟩
    have eg : D.ng k = 0 := hg
    have eb : D.nb k = Q.base.dim.nb k := rfl
    by_cases c1 : D.nb k + D.ng k ≤ j ∧ j < D.nb k + D.ng k + Q.nq k
    · rw [q1 c1]
      refine ⟨one_pos, fun hl => absurd ?_ hl⟩
      unfold LoQ
      omega
    · by_cases c2 : 2 * (D.nb k + D.ng k) + Q.nq k ≤ j ∧ j < 2 * (D.nb k + D.ng k) + 2 * Q.nq k
      · exact done (q2 c2)
      · obtain ⟨e3, e4⟩ := q3 c1 c2
        apply done
        unfold Cen
        rw [e3, e4]
        show Cen mu0 (sol4.lam k) (sol4.t k) j
        obtain ⟨_, e5, e6⟩ := (iniStages_val N (fun k s =>
          loop (2 * D.ns k) (qiniSoft (2 * D.nb k + 2 * D.ng k + 2 * Q.nq k) mu0) s) sol3).1 k hk
        rw [show sol4.lam k = _ from e5, show sol4.t k = _ from e6]
        obtain ⟨s1, s2⟩ := qiniSoft_cen (2 * D.nb k + 2 * D.ng k + 2 * Q.nq k) (2 * D.ns k) mu0 ⟨sol3.ux k, sol3.lam k, sol3.t k⟩ j
        by_cases c3 : j < 2 * D.nb k + 2 * D.ng k + 2 * Q.nq k
        · obtain ⟨e7, e8⟩ := s2 c3
          unfold Cen
          rw [e7, e8]
          show Cen mu0 (sol3.lam k) (sol3.t k) j
          obtain ⟨_, e9, e10⟩ := (iniStages_val N (fun k s =>
            loop (D.nb k) (qiniBox (D.nb k + D.ng k + Q.nq k) (D.nb k + D.ng k) (Q.base.idxb k) (Q.base.d k) (Q.base.d_mask k) mu0) s) sol2).1 k hk
          rw [show sol3.lam k = _ from e9, show sol3.t k = _ from e10]
          exact qiniBox_cen (D.nb k) (D.nb k + D.ng k + Q.nq k) (D.nb k + D.ng k) (by omega) _ _ _ mu0 _ j (by omega)
        · refine s1 ⟨by omega, ?_⟩
          have : D.ns k = Q.base.dim.ns k := rfl
          omega
  · unfold qinitVar
    extract_lets D N mu0 sol1 sol2 sol3 sol4 r
    rw [if_neg (by omega), if_pos h]
    refine ⟨_, rfl, fun k j hk hj => ?_⟩
    obtain ⟨_, e1, e2⟩ := (iniStages_val N (fun k s => iniClip (nct Q.inner.dim k) thr0 thr0 s) sol).1 k hk
    rw [e1, e2]
    obtain ⟨e3, e4⟩ := iniClip_val (nct Q.inner.dim k) thr0 thr0 ⟨sol.ux k, sol.lam k, sol.t k⟩ j hj
    rw [e3, e4]
    exact ⟨lt_max_of_lt_left thr0_pos, fun _ => ⟨lt_max_of_lt_left thr0_pos, fun h' => by omega⟩⟩
  · unfold qinitVar
    extract_lets D N mu0 sol1 sol2 sol3 sol4 r
    rw [if_pos h1]
    refine ⟨_, rfl, fun k j hk hj => ?_⟩
    obtain ⟨_, e1, e2⟩ := (iniStages_val N (fun k s => iniClip (nct Q.inner.dim k) (a.r .lam0_min) (a.r .t0_min) s) sol).1 k hk
    rw [e1, e2]
    obtain ⟨e3, e4⟩ := iniClip_val (nct Q.inner.dim k) (a.r .lam0_min) (a.r .t0_min) ⟨sol.ux k, sol.lam k, sol.t k⟩ j hj
    rw [e3, e4]
    exact ⟨lt_max_of_lt_left h2, fun _ => ⟨lt_max_of_lt_left h3, fun h' => by omega⟩⟩

end
end Hpipm
