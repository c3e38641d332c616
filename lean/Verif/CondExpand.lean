/-
What EXPAND_SOL (cond/x_cond_aux.c:2164-2473) writes: the trajectory generated by the condensed variables, the
multipliers and slacks of the inequalities from their positions, and equality multipliers defined by the stationarity
of the eliminated states.
-/
import Verif.CondRun

namespace Hpipm
open Finset
set_option linter.unusedSectionVars false

section
variable {K : Type*} [Field K] [LinearOrder K] [IsStrictOrderedRing K]

/-- every entry of `x'` is the one of `x` or the wanted one -/
def Toward (T x x' : ℕ → Vec K) : Prop := ∀ k j, x' k j = x k j ∨ x' k j = T k j

theorem Toward.keep {T x x' : ℕ → Vec K} (h : Toward T x x') {k j : ℕ} (e : x k j = T k j) : x' k j = T k j := by
  rcases h k j with h | h
  · rw [h, e]
  · exact h

theorem Toward.refl (T x : ℕ → Vec K) : Toward T x x := fun _ _ => Or.inl rfl

theorem Toward.trans {T x x' x'' : ℕ → Vec K} (h : Toward T x x') (h' : Toward T x' x'') : Toward T x x'' := by
  intro k j
  rcases h' k j with e | e
  · rw [e]; exact h k j
  · exact Or.inr e

/-- two correct writes to a stage -/
theorem toward_put2 {T x : ℕ → Vec K} {k a b : ℕ} {u w : K} (hu : u = T k a) (hw : w = T k b) :
    Toward T x (upd x k (upd (upd (x k) a u) b w)) ∧ upd x k (upd (upd (x k) a u) b w) k a = T k a ∧
    upd x k (upd (upd (x k) a u) b w) k b = T k b := by
  subst hu hw
  refine ⟨fun k' j => ?_, ?_, ?_⟩
  · by_cases hk : k' = k
    · subst hk
      rw [upd_same, upd2_val]
      by_cases h1 : j = b
      · rw [if_pos h1, h1]; exact Or.inr rfl
      · rw [if_neg h1]
        by_cases h2 : j = a
        · rw [if_pos h2, h2]; exact Or.inr rfl
        · rw [if_neg h2]; exact Or.inl rfl
    · rw [upd_ne _ _ hk]; exact Or.inl rfl
  · rw [upd_same, upd2_val]
    by_cases h : a = b
    · rw [if_pos h, h]
    · rw [if_neg h, if_pos rfl]
  · rw [upd_same, upd_same]

/-- a correct block copy to a stage -/
theorem toward_cp {T x : ℕ → Vec K} {k n xi yi : ℕ} {y : Vec K} (h : ∀ i, i < n → y (xi + i) = T k (yi + i)) :
    Toward T x (upd x k (veccp n y xi (x k) yi)) ∧ ∀ i, i < n → upd x k (veccp n y xi (x k) yi) k (yi + i) = T k (yi + i) := by
  have h2 : ∀ i, i < n → upd x k (veccp n y xi (x k) yi) k (yi + i) = T k (yi + i) := by
    intro i hi
    rw [upd_same, vcp_in (by omega) (by omega), Nat.add_sub_cancel_left]; exact h i hi
  refine ⟨fun k' j => ?_, h2⟩
  by_cases hk : k' = k
  · subst hk
    by_cases hj : yi ≤ j ∧ j < yi + n
    · right
      have := h2 (j - yi) (by omega)
      rwa [show yi + (j - yi) = j by omega] at this
    · left; rw [upd_same, vcp_out (by omega)]
  · rw [upd_ne _ _ hk]; exact Or.inl rfl

/-! ### inequality multipliers and slacks -/

/-- the wanted stage vectors -/
def ineqTgt (qp : OcpQp K) (N : ℕ) (y : Vec K) (x : ℕ → Vec K) : ℕ → Vec K := fun k j =>
  if k ≤ N then y (ineqPos qp N k j) else x k j

theorem nbCond_eq (qp : OcpQp K) (N : ℕ) : sumTo (fun k => boxCount qp k (qp.dim.nb k)) (N + 1) = nbCond qp N := by
  rw [sumTo_eq]; exact sum_congr rfl fun k _ => boxCount_eq qp k _

theorem nbgCond_eq (qp : OcpQp K) (N : ℕ) : sumTo (fun k => genCount qp k (qp.dim.nb k)) (N + 1) = nbgCond qp N := by
  rw [sumTo_eq]; exact sum_congr rfl fun k _ => genCount_eq qp k _

/-- state of the loops over the boxes -/
structure EbInv (qp : OcpQp K) (N : ℕ) (T x : ℕ → Vec K) (k jj : ℕ) (s : (ℕ → Vec K) × ℕ × ℕ) : Prop where
  nbb : s.2.1 = later (nBox qp) N k + Nat.count (StaysBox qp k) jj
  nbg : s.2.2 = later (nGen qp) N k + Nat.count (fun j => ¬ StaysBox qp k j) jj
  tow : Toward T x s.1
  good : ∀ k' j, k' ≤ N → j < qp.dim.nb k' → (k < k' ∨ k' = k ∧ j < jj) →
    s.1 k' j = T k' j ∧ s.1 k' (qp.dim.nb k' + qp.dim.ng k' + j) = T k' (qp.dim.nb k' + qp.dim.ng k' + j)

theorem expBoxes_inv (qp : OcpQp K) (N : ℕ) (y : Vec K) (x : ℕ → Vec K) :
    EbInv qp N (ineqTgt qp N y x) x 0 0 (expBoxes qp N (nbCond qp N) (ngCond qp N) y x) := by
  unfold expBoxes
  dsimp only
  have key := loop_inv (fun n (s : (ℕ → Vec K) × ℕ × ℕ) => EbInv qp N (ineqTgt qp N y x) x (N - n) 0 s) N
    (fun ii (s : (ℕ → Vec K) × ℕ × ℕ) =>
      loop (qp.dim.nb (N - ii)) (fun jj s =>
        if qp.idxb (N - ii) jj < qp.dim.nu (N - ii) then
          (upd s.1 (N - ii) (upd (upd (s.1 (N - ii)) jj (y s.2.1)) (qp.dim.nb (N - ii) + qp.dim.ng (N - ii) + jj)
            (y (nbCond qp N + ngCond qp N + s.2.1))), s.2.1 + 1, s.2.2)
        else
          (upd s.1 (N - ii) (upd (upd (s.1 (N - ii)) jj (y (nbCond qp N + s.2.2))) (qp.dim.nb (N - ii) + qp.dim.ng (N - ii) + jj)
            (y (2 * nbCond qp N + ngCond qp N + s.2.2))), s.2.1, s.2.2 + 1)) s) (x, 0, 0) ?_ ?_
  · simpa using key
  · refine ⟨?_, ?_, Toward.refl _ _, fun k' j h1 h2 h3 => by omega⟩
    · show 0 = later _ N (N - 0) + _; rw [Nat.sub_zero, later_self, Nat.count_zero]
    · show 0 = later _ N (N - 0) + _; rw [Nat.sub_zero, later_self, Nat.count_zero]
  · intro n s hn I
    set k := N - n with hk
    have hk0 : 0 < k := by omega
    have inner := loop_inv (fun jj (s : (ℕ → Vec K) × ℕ × ℕ) => EbInv qp N (ineqTgt qp N y x) x k jj s) (qp.dim.nb k)
      (fun jj s =>
        if qp.idxb k jj < qp.dim.nu k then
          (upd s.1 k (upd (upd (s.1 k) jj (y s.2.1)) (qp.dim.nb k + qp.dim.ng k + jj)
            (y (nbCond qp N + ngCond qp N + s.2.1))), s.2.1 + 1, s.2.2)
        else
          (upd s.1 k (upd (upd (s.1 k) jj (y (nbCond qp N + s.2.2))) (qp.dim.nb k + qp.dim.ng k + jj)
            (y (2 * nbCond qp N + ngCond qp N + s.2.2))), s.2.1, s.2.2 + 1)) s I ?_
    · refine ⟨?_, ?_, inner.tow, fun k' j h1 h2 h3 => ?_⟩
      · rw [inner.nbb, show N - (n + 1) = k - 1 by omega, later_pred _ hk0 (by omega), Nat.count_zero]
        show _ + Nat.count (StaysBox qp k) (qp.dim.nb k) = nBox qp k + _ + 0
        unfold nBox; omega
      · rw [inner.nbg, show N - (n + 1) = k - 1 by omega, later_pred _ hk0 (by omega), Nat.count_zero]
        show _ + Nat.count (fun j => ¬ StaysBox qp k j) (qp.dim.nb k) = nGen qp k + _ + 0
        unfold nGen; omega
      · refine inner.good k' j h1 h2 ?_
        by_cases e : k' = k
        · right; exact ⟨e, by rw [← e]; exact h2⟩
        · left; omega
    · intro jj s hjj J
      have hkN : k ≤ N := by omega
      have hlo : ineqTgt qp N y x k jj = y (conPos qp N k jj) := by
        unfold ineqTgt; rw [if_pos hkN, ineqPos_lo (by omega)]
      have hup : ineqTgt qp N y x k (qp.dim.nb k + qp.dim.ng k + jj) = y (ntCond qp N + conPos qp N k jj) := by
        unfold ineqTgt; rw [if_pos hkN, ineqPos_up (by omega)]
      have fin : ∀ (x' : ℕ → Vec K) (a b : ℕ), Toward (ineqTgt qp N y x) s.1 x' →
          x' k jj = ineqTgt qp N y x k jj → x' k (qp.dim.nb k + qp.dim.ng k + jj) = ineqTgt qp N y x k (qp.dim.nb k + qp.dim.ng k + jj) →
          a = later (nBox qp) N k + Nat.count (StaysBox qp k) (jj + 1) → b = later (nGen qp) N k + Nat.count (fun j => ¬ StaysBox qp k j) (jj + 1) →
          EbInv qp N (ineqTgt qp N y x) x k (jj + 1) (x', a, b) := by
        intro x' a b ht h1 h2 ha hb
        refine ⟨ha, hb, J.tow.trans ht, fun k' j g1 g2 g3 => ?_⟩
        by_cases e : k' = k ∧ j = jj
        · obtain ⟨rfl, rfl⟩ := e; exact ⟨h1, h2⟩
        · obtain ⟨e1, e2⟩ := J.good k' j g1 g2 (by omega)
          exact ⟨ht.keep e1, ht.keep e2⟩
      by_cases hb : qp.idxb k jj < qp.dim.nu k
      · rw [if_pos hb]
        have hst : StaysBox qp k jj := Or.inr hb
        have e := conPos_box (N := N) hjj hst
        obtain ⟨t1, t2, t3⟩ := toward_put2 (T := ineqTgt qp N y x) (x := s.1) (k := k) (a := jj) (b := qp.dim.nb k + qp.dim.ng k + jj)
          (u := y s.2.1) (w := y (nbCond qp N + ngCond qp N + s.2.1)) (by rw [hlo, e, J.nbb]) (by rw [hup, e, J.nbb]; rfl)
        refine fin _ _ _ t1 t2 t3 ?_ ?_
        · rw [J.nbb, Nat.count_succ, if_pos hst]; omega
        · rw [J.nbg, Nat.count_succ, if_neg (not_not.mpr hst)]; omega
      · rw [if_neg hb]
        have hst : ¬ StaysBox qp k jj := by rintro (h | h) <;> omega
        have e := conPos_gen (N := N) hjj hst
        obtain ⟨t1, t2, t3⟩ := toward_put2 (T := ineqTgt qp N y x) (x := s.1) (k := k) (a := jj) (b := qp.dim.nb k + qp.dim.ng k + jj)
          (u := y (nbCond qp N + s.2.2)) (w := y (2 * nbCond qp N + ngCond qp N + s.2.2)) (by rw [hlo, e, J.nbg])
          (by rw [hup, e, J.nbg]; unfold ntCond; congr 1; omega)
        refine fin _ _ _ t1 t2 t3 ?_ ?_
        · rw [J.nbb, Nat.count_succ, if_neg hst]; omega
        · rw [J.nbg, Nat.count_succ, if_pos hst]; omega

/-- state of the loops over the general constraints -/
structure EgInv (qp : OcpQp K) (N : ℕ) (T x : ℕ → Vec K) (k jj : ℕ) (s : (ℕ → Vec K) × ℕ) : Prop where
  ngg : s.2 = later qp.dim.ng N k + jj
  tow : Toward T x s.1
  good : ∀ k' j, k' ≤ N → j < qp.dim.ng k' → (k < k' ∨ k' = k ∧ j < jj) →
    s.1 k' (qp.dim.nb k' + j) = T k' (qp.dim.nb k' + j) ∧ s.1 k' (2 * qp.dim.nb k' + qp.dim.ng k' + j) = T k' (2 * qp.dim.nb k' + qp.dim.ng k' + j)

theorem ineqTgt_g (qp : OcpQp K) (N : ℕ) (y : Vec K) (x : ℕ → Vec K) {k jj : ℕ} (hkN : k ≤ N) (hj : jj < qp.dim.ng k) :
    ineqTgt qp N y x k (qp.dim.nb k + jj) = y (nbCond qp N + nbgCond qp N + (later qp.dim.ng N k + jj)) ∧
    ineqTgt qp N y x k (2 * qp.dim.nb k + qp.dim.ng k + jj) = y (2 * nbCond qp N + ngCond qp N + nbgCond qp N + (later qp.dim.ng N k + jj)) := by
  unfold ineqTgt
  rw [if_pos hkN, if_pos hkN, ineqPos_lo (by omega), show 2 * qp.dim.nb k + qp.dim.ng k + jj = qp.dim.nb k + qp.dim.ng k + (qp.dim.nb k + jj) by omega,
    ineqPos_up (by omega), conPos_g (by omega), Nat.add_sub_cancel_left]
  unfold ntCond
  exact ⟨by congr 1; omega, by congr 1; omega⟩

theorem expGens_inv (qp : OcpQp K) (N : ℕ) (y : Vec K) (T x : ℕ → Vec K)
    (hT : ∀ k j, k ≤ N → T k j = y (ineqPos qp N k j)) :
    EgInv qp N T x 0 0 (expGens qp N (nbCond qp N) (ngCond qp N) (nbgCond qp N) y x) := by
  have hg : ∀ k jj, k ≤ N → jj < qp.dim.ng k →
      T k (qp.dim.nb k + jj) = y (nbCond qp N + nbgCond qp N + (later qp.dim.ng N k + jj)) ∧
      T k (2 * qp.dim.nb k + qp.dim.ng k + jj) = y (2 * nbCond qp N + ngCond qp N + nbgCond qp N + (later qp.dim.ng N k + jj)) := by
    intro k jj hk hj
    have := ineqTgt_g qp N y x hk hj
    unfold ineqTgt at this
    rw [if_pos hk, if_pos hk] at this
    rw [hT _ _ hk, hT _ _ hk]
    exact this
  unfold expGens
  dsimp only
  have key := loop_inv (fun n (s : (ℕ → Vec K) × ℕ) => EgInv qp N T x (N - n) 0 s) N
    (fun ii (s : (ℕ → Vec K) × ℕ) =>
      loop (qp.dim.ng (N - ii)) (fun jj s =>
      (upd s.1 (N - ii) (upd (upd (s.1 (N - ii)) (qp.dim.nb (N - ii) + jj) (y (nbCond qp N + nbgCond qp N + s.2))) (2 * qp.dim.nb (N - ii) + qp.dim.ng (N - ii) + jj)
        (y (2 * nbCond qp N + ngCond qp N + nbgCond qp N + s.2))), s.2 + 1)) s) (x, 0) ?_ ?_
  · simpa using key
  · exact ⟨by show 0 = later _ N (N - 0) + _; rw [Nat.sub_zero, later_self], Toward.refl _ _, fun k' j h1 h2 h3 => by omega⟩
  · intro n s hn I
    set k := N - n with hk
    have hk0 : 0 < k := by omega
    have inner := loop_inv (fun jj (s : (ℕ → Vec K) × ℕ) => EgInv qp N T x k jj s) (qp.dim.ng k)
      (fun jj s =>
      (upd s.1 k (upd (upd (s.1 k) (qp.dim.nb k + jj) (y (nbCond qp N + nbgCond qp N + s.2))) (2 * qp.dim.nb k + qp.dim.ng k + jj)
        (y (2 * nbCond qp N + ngCond qp N + nbgCond qp N + s.2))), s.2 + 1)) s I ?_
    · refine ⟨?_, inner.tow, fun k' j h1 h2 h3 => ?_⟩
      · rw [inner.ngg, show N - (n + 1) = k - 1 by omega, later_pred _ hk0 (by omega)]; omega
      · refine inner.good k' j h1 h2 ?_
        by_cases e : k' = k
        · right; exact ⟨e, by rw [← e]; exact h2⟩
        · left; omega
    · intro jj s hjj J
      have hkN : k ≤ N := by omega
      obtain ⟨hlo, hup⟩ := hg k jj hkN hjj
      obtain ⟨t1, t2, t3⟩ := toward_put2 (T := T) (x := s.1) (k := k) (a := qp.dim.nb k + jj)
        (b := 2 * qp.dim.nb k + qp.dim.ng k + jj)
        (u := y (nbCond qp N + nbgCond qp N + s.2)) (w := y (2 * nbCond qp N + ngCond qp N + nbgCond qp N + s.2))
        (by rw [hlo, J.ngg]) (by rw [hup, J.ngg])
      refine ⟨by show s.2 + 1 = _; rw [J.ngg]; omega, J.tow.trans t1, fun k' j g1 g2 g3 => ?_⟩
      by_cases e : k' = k ∧ j = jj
      · obtain ⟨rfl, rfl⟩ := e; exact ⟨t2, t3⟩
      · obtain ⟨e1, e2⟩ := J.good k' j g1 g2 (by omega)
        exact ⟨t1.keep e1, t1.keep e2⟩

/-- loops over the slacks of all stages (two entries per slack) -/
theorem slkLoop_inv (D : QpDim) (N : ℕ) (y : Vec K) (T x : ℕ → Vec K) (o1 : ℕ → ℕ) (a b : ℕ)
    (h1 : ∀ k i, k ≤ N → i < D.ns k → T k (o1 k + i) = y (a + later D.ns N k + i) ∧ T k (o1 k + D.ns k + i) = y (b + later D.ns N k + i)) :
    Toward T x (loop (N + 1) (fun ii (s : (ℕ → Vec K) × ℕ) =>
      (loop (D.ns (N - ii)) (fun jj x => upd x (N - ii)
        (upd (upd (x (N - ii)) (o1 (N - ii) + jj) (y (a + s.2 + jj))) (o1 (N - ii) + D.ns (N - ii) + jj) (y (b + s.2 + jj)))) s.1,
      s.2 + D.ns (N - ii))) (x, 0)).1 ∧
    ∀ k i, k ≤ N → i < D.ns k →
      (loop (N + 1) (fun ii (s : (ℕ → Vec K) × ℕ) =>
      (loop (D.ns (N - ii)) (fun jj x => upd x (N - ii)
        (upd (upd (x (N - ii)) (o1 (N - ii) + jj) (y (a + s.2 + jj))) (o1 (N - ii) + D.ns (N - ii) + jj) (y (b + s.2 + jj)))) s.1,
      s.2 + D.ns (N - ii))) (x, 0)).1 k (o1 k + i) = T k (o1 k + i) ∧
      (loop (N + 1) (fun ii (s : (ℕ → Vec K) × ℕ) =>
      (loop (D.ns (N - ii)) (fun jj x => upd x (N - ii)
        (upd (upd (x (N - ii)) (o1 (N - ii) + jj) (y (a + s.2 + jj))) (o1 (N - ii) + D.ns (N - ii) + jj) (y (b + s.2 + jj)))) s.1,
      s.2 + D.ns (N - ii))) (x, 0)).1 k (o1 k + D.ns k + i) = T k (o1 k + D.ns k + i) := by
  have key := loop_inv (fun n (s : (ℕ → Vec K) × ℕ) => (n ≤ N → s.2 = later D.ns N (N - n)) ∧ Toward T x s.1 ∧
      ∀ k i, k ≤ N → N < k + n → i < D.ns k → s.1 k (o1 k + i) = T k (o1 k + i) ∧ s.1 k (o1 k + D.ns k + i) = T k (o1 k + D.ns k + i)) (N + 1)
    (fun ii (s : (ℕ → Vec K) × ℕ) =>
      (loop (D.ns (N - ii)) (fun jj x => upd x (N - ii)
        (upd (upd (x (N - ii)) (o1 (N - ii) + jj) (y (a + s.2 + jj))) (o1 (N - ii) + D.ns (N - ii) + jj) (y (b + s.2 + jj)))) s.1,
      s.2 + D.ns (N - ii))) (x, 0) ?_ ?_
  · exact ⟨key.2.1, fun k i hk hi => key.2.2 k i hk (by omega) hi⟩
  · refine ⟨fun _ => ?_, Toward.refl _ _, fun k i h1 h2 => by omega⟩
    show 0 = _; rw [Nat.sub_zero, later_self]
  · rintro n s hn ⟨I1, I2, I3⟩
    set k := N - n with hk
    have hs := I1 (by omega)
    have inner := loop_inv (fun jj (z : ℕ → Vec K) => Toward T s.1 z ∧ ∀ i, i < jj → z k (o1 k + i) = T k (o1 k + i) ∧ z k (o1 k + D.ns k + i) = T k (o1 k + D.ns k + i))
      (D.ns k) (fun jj x => upd x k (upd (upd (x k) (o1 k + jj) (y (a + s.2 + jj))) (o1 k + D.ns k + jj) (y (b + s.2 + jj)))) s.1
      ⟨Toward.refl _ _, fun i h => by omega⟩ ?_
    · refine ⟨fun h => ?_, I2.trans inner.1, fun k' i g1 g2 g3 => ?_⟩
      · show s.2 + D.ns k = _
        rw [hs, show N - (n + 1) = k - 1 by omega, later_pred _ (by omega) (by omega)]; omega
      · by_cases e : k' = k
        · subst e; exact inner.2 i g3
        · obtain ⟨e1, e2⟩ := I3 k' i g1 (by omega) g3
          exact ⟨inner.1.keep e1, inner.1.keep e2⟩
    · rintro jj z hjj ⟨J1, J2⟩
      obtain ⟨e1, e2⟩ := h1 k jj (by omega) hjj
      obtain ⟨t1, t2, t3⟩ := toward_put2 (T := T) (x := z) (k := k) (a := o1 k + jj) (b := o1 k + D.ns k + jj)
        (u := y (a + s.2 + jj)) (w := y (b + s.2 + jj)) (by rw [e1, hs]) (by rw [e2, hs])
      refine ⟨J1.trans t1, fun i hi => ?_⟩
      by_cases e : i = jj
      · subst e; exact ⟨t2, t3⟩
      · obtain ⟨f1, f2⟩ := J2 i (by omega)
        exact ⟨t1.keep f1, t1.keep f2⟩

/-- **multipliers and slacks are taken from the positions of their constraints** -/
theorem expIneq_val (qp : OcpQp K) (N : ℕ) (y : Vec K) (x : ℕ → Vec K) :
    (∀ k j, k ≤ N → j < nct qp.dim k → expIneq qp N (nbCond qp N) (ngCond qp N) (nsAll qp.dim N) y x k j = y (ineqPos qp N k j)) ∧
    ∀ k, N < k → expIneq qp N (nbCond qp N) (ngCond qp N) (nsAll qp.dim N) y x k = x k := by
  set T := ineqTgt qp N y x with hTdef
  have hT : ∀ k j, k ≤ N → T k j = y (ineqPos qp N k j) := fun k j hk => if_pos hk
  have I := expBoxes_inv qp N y x
  rw [← hTdef] at I
  unfold expIneq
  beta_reduce
  generalize expBoxes qp N (nbCond qp N) (ngCond qp N) y x = s at I
  have hbb : s.2.1 = later (nBox qp) N 0 := by rw [I.nbb, Nat.count_zero, add_zero]
  have hbg : s.2.2 = nbgCond qp N := by
    have h1 := later_zero_add (nGen qp) N
    have h2 := (nBox_zero qp).2
    rw [I.nbg, Nat.count_zero]; unfold nbgCond; omega
  rw [hbb, hbg]
  have hc0 : ∀ i, i < qp.dim.nb 0 → conPos qp N 0 i = later (nBox qp) N 0 + i := by
    intro i hi
    rw [conPos_box hi (Or.inl rfl)]
    congr 1
    have : ∀ n, Nat.count (StaysBox qp 0) n = n := by
      intro n
      induction n with
      | zero => rfl
      | succ n ih => rw [Nat.count_succ, ih, if_pos (show StaysBox qp 0 n from Or.inl rfl)]
    exact this i
  -- boxes of stage 0
  obtain ⟨a1, a2⟩ := toward_cp (T := T) (x := s.1) (k := 0) (n := qp.dim.nb 0) (xi := later (nBox qp) N 0) (yi := 0) (y := y) (fun i hi => by
    rw [hT _ _ (by omega), zero_add, ineqPos_lo (by omega), hc0 i hi])
  obtain ⟨b1, b2⟩ := toward_cp (T := T) (x := upd s.1 0 (veccp (qp.dim.nb 0) y (later (nBox qp) N 0) (s.1 0) 0)) (k := 0) (n := qp.dim.nb 0)
    (xi := nbCond qp N + ngCond qp N + later (nBox qp) N 0) (yi := qp.dim.nb 0 + qp.dim.ng 0) (y := y) (fun i hi => by
    rw [hT _ _ (by omega), ineqPos_up (by omega), hc0 i hi]; unfold ntCond; congr 1; omega)
  rw [upd_same s.1 0 (veccp (qp.dim.nb 0) y (later (nBox qp) N 0) (s.1 0) 0)] at b1 b2
  have hupd : ∀ (x : ℕ → Vec K) (u w : Vec K), upd (upd x 0 u) 0 w = upd x 0 w := fun x u w => by
    funext k; by_cases h : k = 0
    · rw [h, upd_same, upd_same]
    · rw [upd_ne _ _ h, upd_ne _ _ h, upd_ne _ _ h]
  rw [hupd] at b1 b2
  -- general constraints
  have G := expGens_inv qp N y T (upd s.1 0 (veccp (qp.dim.nb 0) y (nbCond qp N + ngCond qp N + later (nBox qp) N 0)
    (veccp (qp.dim.nb 0) y (later (nBox qp) N 0) (s.1 0) 0) (qp.dim.nb 0 + qp.dim.ng 0))) hT
  have goodB : ∀ k j, k ≤ N → j < qp.dim.nb k →
      upd s.1 0 (veccp (qp.dim.nb 0) y (nbCond qp N + ngCond qp N + later (nBox qp) N 0)
        (veccp (qp.dim.nb 0) y (later (nBox qp) N 0) (s.1 0) 0) (qp.dim.nb 0 + qp.dim.ng 0)) k j = T k j ∧
      upd s.1 0 (veccp (qp.dim.nb 0) y (nbCond qp N + ngCond qp N + later (nBox qp) N 0)
        (veccp (qp.dim.nb 0) y (later (nBox qp) N 0) (s.1 0) 0) (qp.dim.nb 0 + qp.dim.ng 0)) k (qp.dim.nb k + qp.dim.ng k + j)
        = T k (qp.dim.nb k + qp.dim.ng k + j) := by
    intro k j hk hj
    by_cases h0 : k = 0
    · subst h0
      have := a2 j hj
      rw [zero_add] at this
      exact ⟨b1.keep this, b2 j hj⟩
    · obtain ⟨e1, e2⟩ := I.good k j hk hj (by omega)
      exact ⟨b1.keep (a1.keep e1), b1.keep (a1.keep e2)⟩
  have towB := (I.tow.trans a1).trans b1
  generalize upd s.1 0 (veccp (qp.dim.nb 0) y (nbCond qp N + ngCond qp N + later (nBox qp) N 0)
        (veccp (qp.dim.nb 0) y (later (nBox qp) N 0) (s.1 0) 0) (qp.dim.nb 0 + qp.dim.ng 0)) = x1 at G goodB towB
  generalize expGens qp N (nbCond qp N) (ngCond qp N) (nbgCond qp N) y x1 = s2 at G
  have hgg : s2.2 = later qp.dim.ng N 0 := by rw [G.ngg, add_zero]
  rw [hgg]
  obtain ⟨c1, c2⟩ := toward_cp (T := T) (x := s2.1) (k := 0) (n := qp.dim.ng 0) (xi := nbCond qp N + nbgCond qp N + later qp.dim.ng N 0)
    (yi := qp.dim.nb 0) (y := y) (fun i hi => by
    rw [hTdef, (ineqTgt_g qp N y x (Nat.zero_le N) hi).1]; congr 1; omega)
  obtain ⟨d1, d2⟩ := toward_cp (T := T) (x := upd s2.1 0 (veccp (qp.dim.ng 0) y (nbCond qp N + nbgCond qp N + later qp.dim.ng N 0) (s2.1 0) (qp.dim.nb 0)))
    (k := 0) (n := qp.dim.ng 0)
    (xi := 2 * nbCond qp N + ngCond qp N + nbgCond qp N + later qp.dim.ng N 0) (yi := 2 * qp.dim.nb 0 + qp.dim.ng 0) (y := y) (fun i hi => by
    rw [hTdef, (ineqTgt_g qp N y x (Nat.zero_le N) hi).2]; congr 1; omega)
  rw [upd_same s2.1 0 (veccp (qp.dim.ng 0) y (nbCond qp N + nbgCond qp N + later qp.dim.ng N 0) (s2.1 0) (qp.dim.nb 0))] at d1 d2
  rw [hupd] at d1 d2
  have goodG : ∀ k j, k ≤ N → j < qp.dim.nb k + qp.dim.ng k →
      upd s2.1 0 (veccp (qp.dim.ng 0) y (2 * nbCond qp N + ngCond qp N + nbgCond qp N + later qp.dim.ng N 0)
        (veccp (qp.dim.ng 0) y (nbCond qp N + nbgCond qp N + later qp.dim.ng N 0) (s2.1 0) (qp.dim.nb 0)) (2 * qp.dim.nb 0 + qp.dim.ng 0)) k j = T k j ∧
      upd s2.1 0 (veccp (qp.dim.ng 0) y (2 * nbCond qp N + ngCond qp N + nbgCond qp N + later qp.dim.ng N 0)
        (veccp (qp.dim.ng 0) y (nbCond qp N + nbgCond qp N + later qp.dim.ng N 0) (s2.1 0) (qp.dim.nb 0)) (2 * qp.dim.nb 0 + qp.dim.ng 0)) k (qp.dim.nb k + qp.dim.ng k + j)
        = T k (qp.dim.nb k + qp.dim.ng k + j) := by
    intro k j hk hj
    by_cases hb : j < qp.dim.nb k
    · obtain ⟨e1, e2⟩ := goodB k j hk hb
      exact ⟨d1.keep (c1.keep (G.tow.keep e1)), d1.keep (c1.keep (G.tow.keep e2))⟩
    · obtain ⟨i, rfl⟩ : ∃ i, j = qp.dim.nb k + i := ⟨j - qp.dim.nb k, by omega⟩
      rw [show qp.dim.nb k + qp.dim.ng k + (qp.dim.nb k + i) = 2 * qp.dim.nb k + qp.dim.ng k + i by omega]
      by_cases h0 : k = 0
      · subst h0
        exact ⟨d1.keep (c2 i (by omega)), d2 i (by omega)⟩
      · obtain ⟨e1, e2⟩ := G.good k i hk (by omega) (by omega)
        exact ⟨d1.keep (c1.keep e1), d1.keep (c1.keep e2)⟩
  have towG := ((towB.trans G.tow).trans c1).trans d1
  generalize upd s2.1 0 (veccp (qp.dim.ng 0) y (2 * nbCond qp N + ngCond qp N + nbgCond qp N + later qp.dim.ng N 0)
        (veccp (qp.dim.ng 0) y (nbCond qp N + nbgCond qp N + later qp.dim.ng N 0) (s2.1 0) (qp.dim.nb 0)) (2 * qp.dim.nb 0 + qp.dim.ng 0)) = x2 at goodG towG
  -- slacks
  obtain ⟨S1, S2⟩ := slkLoop_inv qp.dim N y T x2 (fun k => 2 * qp.dim.nb k + 2 * qp.dim.ng k) (2 * nbCond qp N + 2 * ngCond qp N)
    (2 * nbCond qp N + 2 * ngCond qp N + nsAll qp.dim N) (fun k i hk hi => by
      rw [hT _ _ hk, hT _ _ hk]
      rw [show 2 * qp.dim.nb k + 2 * qp.dim.ng k + i = 2 * (qp.dim.nb k + qp.dim.ng k) + i by ring, ineqPos_sl hi,
        show 2 * qp.dim.nb k + 2 * qp.dim.ng k + qp.dim.ns k + i = 2 * (qp.dim.nb k + qp.dim.ng k) + (qp.dim.ns k + i) by ring, ineqPos_su]
      unfold ntCond
      exact ⟨by congr 1; omega, by congr 1; omega⟩)
  have hfin : expSlacks qp N (nbCond qp N) (ngCond qp N) (nsAll qp.dim N) y x2 = (loop (N + 1) (fun ii (s : (ℕ → Vec K) × ℕ) =>
      (loop (qp.dim.ns (N - ii)) (fun jj x => upd x (N - ii)
        (upd (upd (x (N - ii)) ((fun k => 2 * qp.dim.nb k + 2 * qp.dim.ng k) (N - ii) + jj) (y (2 * nbCond qp N + 2 * ngCond qp N + s.2 + jj)))
          ((fun k => 2 * qp.dim.nb k + 2 * qp.dim.ng k) (N - ii) + qp.dim.ns (N - ii) + jj) (y (2 * nbCond qp N + 2 * ngCond qp N + nsAll qp.dim N + s.2 + jj)))) s.1,
      s.2 + qp.dim.ns (N - ii))) (x2, 0)).1 := rfl
  rw [hfin]
  refine ⟨fun k j hk hj => ?_, fun k hk => ?_⟩
  · rw [← hT k j hk]
    rw [nct_eq] at hj
    rcases ineq_cases _ _ j hj with h | ⟨i, h, rfl⟩ | ⟨i, h, rfl⟩ | ⟨i, h, rfl⟩
    · exact S1.keep (goodG k j hk h).1
    · exact S1.keep (goodG k i hk h).2
    · have := (S2 k i hk h).1
      rwa [show (fun k => 2 * qp.dim.nb k + 2 * qp.dim.ng k) k + i = 2 * (qp.dim.nb k + qp.dim.ng k) + i by dsimp only; ring] at this
    · have := (S2 k i hk h).2
      rwa [show (fun k => 2 * qp.dim.nb k + 2 * qp.dim.ng k) k + qp.dim.ns k + i = 2 * (qp.dim.nb k + qp.dim.ng k) + (qp.dim.ns k + i) by dsimp only; ring] at this
  · funext j
    have hTk : T k j = x k j := if_neg (by omega)
    have := (towG.trans S1).keep (k := k) (j := j) hTk.symm
    rw [this, hTk]

/-! ### primal variables -/

/-- **the expanded primal solution is the trajectory of the condensed variables** -/
theorem expPrim_val (qp : OcpQp K) (N : ℕ) (v : Vec K) (ux : ℕ → Vec K) :
    (∀ k j, k ≤ N → j < nvt qp.dim k → expPrim qp N (nuAll qp.dim N) (nsAll qp.dim N) v ux k j = stageOf qp N v k j) ∧
    ∀ k, N < k → expPrim qp N (nuAll qp.dim N) (nsAll qp.dim N) v ux k = ux k := by
  set T : ℕ → Vec K := fun k j => if k ≤ N then stageOf qp N v k j else ux k j with hTdef
  have hT : ∀ k j, k ≤ N → T k j = stageOf qp N v k j := fun k j hk => if_pos hk
  have hTu : ∀ k j, k ≤ N → j < qp.dim.nu k → T k j = v (later qp.dim.nu N k + j) := fun k j hk hj => by
    rw [hT k j hk, stageOf_ux _ _ _ _ _ (by omega), uxOf_u _ _ _ _ _ hj]
  have hTx : ∀ k i, k ≤ N → i < qp.dim.nx k → T k (qp.dim.nu k + i) = roll qp N v k i := fun k i hk hi => by
    rw [hT _ _ hk, stageOf_ux _ _ _ _ _ (by omega), uxOf_x]
  -- inputs
  have hin : Toward T ux (expInputs qp N v ux) ∧ (∀ k j, k ≤ N → j < qp.dim.nu k → expInputs qp N v ux k j = T k j) ∧
      ∀ i, i < qp.dim.nx 0 → expInputs qp N v ux 0 (qp.dim.nu 0 + i) = T 0 (qp.dim.nu 0 + i) := by
    unfold expInputs
    dsimp only
    have key := loop_inv (fun n (s : (ℕ → Vec K) × ℕ) => s.2 = later qp.dim.nu N (N - n) ∧ Toward T ux s.1 ∧
        ∀ k j, k ≤ N → N < k + n → j < qp.dim.nu k → s.1 k j = T k j) N
      (fun ii (s : (ℕ → Vec K) × ℕ) =>
        (upd s.1 (N - ii) (veccp (qp.dim.nu (N - ii)) v s.2 (s.1 (N - ii)) 0), s.2 + qp.dim.nu (N - ii))) (ux, 0) ?_ ?_
    · obtain ⟨k1, k2, k3⟩ := key
      generalize loop N (fun ii (s : (ℕ → Vec K) × ℕ) =>
        (upd s.1 (N - ii) (veccp (qp.dim.nu (N - ii)) v s.2 (s.1 (N - ii)) 0), s.2 + qp.dim.nu (N - ii))) (ux, 0) = s at *
      rw [Nat.sub_self] at k1
      obtain ⟨t1, t2⟩ := toward_cp (T := T) (x := s.1) (k := 0) (n := qp.dim.nu 0 + qp.dim.nx 0) (xi := s.2) (yi := 0) (y := v) (fun i hi => by
        rw [zero_add, k1]
        by_cases hu : i < qp.dim.nu 0
        · rw [hTu 0 i (by omega) hu]
        · obtain ⟨q, rfl⟩ : ∃ q, i = qp.dim.nu 0 + q := ⟨i - qp.dim.nu 0, by omega⟩
          rw [hTx 0 q (by omega) (by omega)]
          show _ = v (nuAll qp.dim N + q)
          congr 1
          have := later_zero_add qp.dim.nu N
          unfold nuAll; omega)
      refine ⟨k2.trans t1, fun k j hk hj => ?_, fun i hi => ?_⟩
      · by_cases h0 : k = 0
        · subst h0
          have := t2 j (by omega)
          rwa [zero_add] at this
        · exact t1.keep (k3 k j hk (by omega) hj)
      · have := t2 (qp.dim.nu 0 + i) (by omega)
        rwa [zero_add] at this
    · refine ⟨?_, Toward.refl _ _, fun k j h1 h2 => by omega⟩
      show 0 = _; rw [Nat.sub_zero, later_self]
    · rintro n s hn ⟨I1, I2, I3⟩
      set k := N - n with hk
      obtain ⟨t1, t2⟩ := toward_cp (T := T) (x := s.1) (k := k) (n := qp.dim.nu k) (xi := s.2) (yi := 0) (y := v) (fun i hi => by
        rw [zero_add, I1, hTu k i (by omega) hi])
      refine ⟨?_, I2.trans t1, fun k' j g1 g2 g3 => ?_⟩
      · show s.2 + qp.dim.nu k = _
        rw [I1, show N - (n + 1) = k - 1 by omega, later_pred _ (by omega) (by omega)]; omega
      · by_cases e : k' = k
        · subst e
          have := t2 j g3
          rwa [zero_add] at this
        · exact t1.keep (I3 k' j g1 (by omega) g3)
  obtain ⟨i1, i2, i3⟩ := hin
  unfold expPrim
  generalize expInputs qp N v ux = x1 at *
  -- simulation
  have hsim : Toward T x1 (expSim qp N x1) ∧ ∀ k i, k ≤ N → i < qp.dim.nx k → expSim qp N x1 k (qp.dim.nu k + i) = T k (qp.dim.nu k + i) := by
    unfold expSim
    dsimp only
    have key := loop_inv (fun n (x : ℕ → Vec K) => Toward T x1 x ∧ ∀ k i, k ≤ N → k ≤ n → i < qp.dim.nx k → x k (qp.dim.nu k + i) = T k (qp.dim.nu k + i)) N
      (fun ii ux => upd ux (ii + 1)
        (gemv_t (qp.dim.nu ii + qp.dim.nx ii) (qp.dim.nx (ii + 1)) 1 (qp.BAbt ii) 0 0 (ux ii) 0 1 (qp.b ii) 0 (ux (ii + 1)) (qp.dim.nu (ii + 1)))) x1 ?_ ?_
    · exact ⟨key.1, fun k i hk hi => key.2 k i hk hk hi⟩
    · refine ⟨Toward.refl _ _, fun k i _ h hi => ?_⟩
      obtain rfl : k = 0 := by omega
      exact i3 i hi
    · rintro n x hn ⟨I1, I2⟩
      have hval : ∀ i, i < qp.dim.nx (n + 1) → gemv_t (qp.dim.nu n + qp.dim.nx n) (qp.dim.nx (n + 1)) 1 (qp.BAbt n) 0 0 (x n) 0 1 (qp.b n) 0 (x (n + 1)) (qp.dim.nu (n + 1)) (qp.dim.nu (n + 1) + i)
          = T (n + 1) (qp.dim.nu (n + 1) + i) := by
        intro i hi
        rw [gemv_t_in (by omega), hTx (n + 1) i (by omega) hi, ← uxOf_next, Nat.add_sub_cancel_left, one_mul, one_mul, zero_add, add_comm]
        congr 1
        refine sum_congr rfl fun j hj => ?_
        have hj := mem_range.mp hj
        try rw [zero_add]
        congr 1
        by_cases hu : j < qp.dim.nu n
        · rw [I1.keep (i2 n j (by omega) hu), hTu n j (by omega) hu, uxOf_u _ _ _ _ _ hu]
        · obtain ⟨q, rfl⟩ : ∃ q, j = qp.dim.nu n + q := ⟨j - qp.dim.nu n, by omega⟩
          rw [I2 n q (by omega) (le_refl n) (by omega), hTx n q (by omega) (by omega), uxOf_x]
      have tow : Toward T x (upd x (n + 1)
        (gemv_t (qp.dim.nu n + qp.dim.nx n) (qp.dim.nx (n + 1)) 1 (qp.BAbt n) 0 0 (x n) 0 1 (qp.b n) 0 (x (n + 1)) (qp.dim.nu (n + 1)))) := by
        intro k j
        by_cases hk : k = n + 1
        · subst hk
          rw [upd_same]
          by_cases hj : qp.dim.nu (n + 1) ≤ j ∧ j < qp.dim.nu (n + 1) + qp.dim.nx (n + 1)
          · right
            have := hval (j - qp.dim.nu (n + 1)) (by omega)
            rwa [show qp.dim.nu (n + 1) + (j - qp.dim.nu (n + 1)) = j by omega] at this
          · left; rw [gemv_t_out (by omega)]
        · rw [upd_ne _ _ hk]; exact Or.inl rfl
      refine ⟨I1.trans tow, fun k i g1 g2 g3 => ?_⟩
      by_cases hk : k = n + 1
      · subst hk; rw [upd_same]; exact hval i g3
      · exact tow.keep (I2 k i g1 (by omega) g3)
  obtain ⟨j1, j2⟩ := hsim
  have j3 : ∀ k j, k ≤ N → j < qp.dim.nu k → expSim qp N x1 k j = T k j := fun k j hk hj => j1.keep (i2 k j hk hj)
  have j4 := i1.trans j1
  generalize expSim qp N x1 = x2 at *
  obtain ⟨S1, S2⟩ := slkLoop_inv qp.dim N v T x2 (fun k => qp.dim.nu k + qp.dim.nx k) (nuAll qp.dim N + qp.dim.nx 0)
    (nuAll qp.dim N + qp.dim.nx 0 + nsAll qp.dim N) (fun k i hk hi => by
      rw [hT _ _ hk, hT _ _ hk]
      rw [stageOf_sl _ _ _ _ _ hi, stageOf_su]
      unfold nvCond
      exact ⟨by congr 1; omega, by congr 1; omega⟩)
  have hfin : expSlk qp N (nuAll qp.dim N) (nsAll qp.dim N) v x2 = (loop (N + 1) (fun ii (s : (ℕ → Vec K) × ℕ) =>
      (loop (qp.dim.ns (N - ii)) (fun jj x => upd x (N - ii)
        (upd (upd (x (N - ii)) ((fun k => qp.dim.nu k + qp.dim.nx k) (N - ii) + jj) (v (nuAll qp.dim N + qp.dim.nx 0 + s.2 + jj)))
          ((fun k => qp.dim.nu k + qp.dim.nx k) (N - ii) + qp.dim.ns (N - ii) + jj) (v (nuAll qp.dim N + qp.dim.nx 0 + nsAll qp.dim N + s.2 + jj)))) s.1,
      s.2 + qp.dim.ns (N - ii))) (x2, 0)).1 := rfl
  rw [hfin]
  refine ⟨fun k j hk hj => ?_, fun k hk => ?_⟩
  · rw [← hT k j hk]
    unfold nvt at hj
    by_cases h1 : j < qp.dim.nu k
    · exact S1.keep (j3 k j hk h1)
    · by_cases h2 : j < qp.dim.nu k + qp.dim.nx k
      · have := j2 k (j - qp.dim.nu k) hk (by omega)
        rw [show qp.dim.nu k + (j - qp.dim.nu k) = j by omega] at this
        exact S1.keep this
      · by_cases h3 : j < qp.dim.nu k + qp.dim.nx k + qp.dim.ns k
        · have := (S2 k (j - (qp.dim.nu k + qp.dim.nx k)) hk (by omega)).1
          rwa [show (fun k => qp.dim.nu k + qp.dim.nx k) k + (j - (qp.dim.nu k + qp.dim.nx k)) = j by dsimp only; omega] at this
        · have := (S2 k (j - (qp.dim.nu k + qp.dim.nx k + qp.dim.ns k)) hk (by omega)).2
          rwa [show (fun k => qp.dim.nu k + qp.dim.nx k) k + qp.dim.ns k + (j - (qp.dim.nu k + qp.dim.nx k + qp.dim.ns k)) = j by dsimp only; omega] at this
  · funext j
    have hTk : T k j = ux k j := if_neg (by omega)
    have := (j4.trans S1).keep (k := k) (j := j) hTk.symm
    rw [this, hTk]

/-! ### equality multipliers -/

/-- gradient of the Lagrangian with respect to the state of stage `k`, without the multiplier of the dynamics that
produce this state (`dyn`: the stage has an outgoing dynamics) -/
def xGrad (qp : OcpQp K) (ux pi lam : ℕ → Vec K) (dyn : Bool) (k i : ℕ) : K :=
  hmul qp k (ux k) (qp.dim.nu k + i) + qp.rqz k (qp.dim.nu k + i)
    + cvalT qp k (fun j => lam k (qp.dim.nb k + qp.dim.ng k + j) - lam k j) (qp.dim.nu k + i)
    + if dyn = true then ∑ j ∈ range (qp.dim.nx (k + 1)), qp.BAbt k (qp.dim.nu k + i) j * pi k j else 0

theorem expGrad_val (qp : OcpQp K) (ux pi lam : ℕ → Vec K) (dyn : Bool) (k : ℕ) (s : Vec K × Vec K) (i : ℕ) (hi : i < qp.dim.nx k) :
    (expGrad qp ux pi lam dyn k s).1 (qp.dim.nu k + i) = xGrad qp ux pi lam dyn k i := by
  unfold expGrad xGrad cvalT
  dsimp only
  set tb := axpy (qp.dim.nb k + qp.dim.ng k) (-1) (lam k) 0 (lam k) (qp.dim.nb k + qp.dim.ng k) s.2 0 with htb
  have hb : ∀ j, j < qp.dim.nb k + qp.dim.ng k → tb j = lam k (qp.dim.nb k + qp.dim.ng k + j) - lam k j := by
    intro j hj
    rw [htb, axpy_in (by omega)]; simp only [Nat.sub_zero, zero_add]; ring
  have s1 : ∑ j ∈ range (qp.dim.nb k), (if qp.idxb k j = qp.dim.nu k + i then tb j else 0)
      = ∑ j ∈ range (qp.dim.nb k), if qp.idxb k j = qp.dim.nu k + i then lam k (qp.dim.nb k + qp.dim.ng k + j) - lam k j else 0 :=
    sum_congr rfl fun j hj => by have := mem_range.mp hj; rw [hb j (by omega)]
  have s2 : ∑ j ∈ range (qp.dim.ng k), qp.DCt k (qp.dim.nu k + i) j * tb (qp.dim.nb k + j)
      = ∑ j ∈ range (qp.dim.ng k), qp.DCt k (qp.dim.nu k + i) j * (lam k (qp.dim.nb k + qp.dim.ng k + (qp.dim.nb k + j)) - lam k (qp.dim.nb k + j)) :=
    sum_congr rfl fun j hj => by have := mem_range.mp hj; rw [hb _ (by omega)]
  rw [gemv_n_in (by omega)]
  cases dyn
  · simp only [Bool.false_eq_true, if_false]
    rw [symv_l_in (by omega)]
    simp only [Nat.sub_zero, zero_add, one_mul, vecad_sp, Nat.add_sub_cancel_left]
    rw [s1, s2, vcp_in (by omega) (by omega), Nat.add_sub_cancel_left]
    unfold hmul
    ring
  · simp only [if_true]
    rw [gemv_n_in (by omega), symv_l_in (by omega)]
    simp only [Nat.sub_zero, zero_add, one_mul, vecad_sp, Nat.add_sub_cancel_left]
    rw [s1, s2, vcp_in (by omega) (by omega), Nat.add_sub_cancel_left]
    unfold hmul
    ring

theorem xGrad_congr (qp : OcpQp K) (ux pi pi' lam : ℕ → Vec K) (dyn : Bool) (k i : ℕ) (h : dyn = true → pi k = pi' k) :
    xGrad qp ux pi lam dyn k i = xGrad qp ux pi' lam dyn k i := by
  unfold xGrad
  cases dyn
  · rfl
  · rw [h rfl]

/-- **the expanded equality multipliers are defined by the stationarity of the eliminated states** -/
theorem expPi_val (qp : OcpQp K) (cls : Bool) (pic : Vec K) (ux lam : ℕ → Vec K) (s : (ℕ → Vec K) × Vec K × Vec K) (hN : 0 < qp.dim.N) :
    (∀ k i, k + 1 < qp.dim.N → i < qp.dim.nx (k + 1) →
      (expPi qp cls pic ux lam s).1 k i = xGrad qp ux (expPi qp cls pic ux lam s).1 lam true (k + 1) i) ∧
    (∀ i, i < qp.dim.nx qp.dim.N → (expPi qp cls pic ux lam s).1 (qp.dim.N - 1) i
      = if cls = false then pic i else xGrad qp ux (expPi qp cls pic ux lam s).1 lam false qp.dim.N i) ∧
    ∀ k, qp.dim.N ≤ k → (expPi qp cls pic ux lam s).1 k = s.1 k := by
  unfold expPi
  dsimp only
  set s0 : (ℕ → Vec K) × Vec K × Vec K := if cls = false then (upd s.1 (qp.dim.N - 1) (veccp (qp.dim.nx qp.dim.N) pic 0 (s.1 (qp.dim.N - 1)) 0), s.2)
    else (upd s.1 (qp.dim.N - 1) (veccp (qp.dim.nx qp.dim.N) (expGrad qp ux s.1 lam false qp.dim.N s.2).1 (qp.dim.nu qp.dim.N) (s.1 (qp.dim.N - 1)) 0),
      expGrad qp ux s.1 lam false qp.dim.N s.2) with hs0
  have h0 : (∀ i, i < qp.dim.nx qp.dim.N → s0.1 (qp.dim.N - 1) i = if cls = false then pic i else xGrad qp ux s.1 lam false qp.dim.N i) ∧
      ∀ k, qp.dim.N ≤ k → s0.1 k = s.1 k := by
    rw [hs0]
    by_cases hc : cls = false
    · rw [if_pos hc]
      refine ⟨fun i hi => ?_, fun k hk => ?_⟩
      · rw [if_pos hc]; dsimp only; rw [upd_same, vcp_in (by omega) (by omega)]; congr 1; omega
      · exact upd_ne _ _ (by omega)
    · rw [if_neg hc]
      refine ⟨fun i hi => ?_, fun k hk => ?_⟩
      · rw [if_neg hc]; dsimp only; rw [upd_same, vcp_in (by omega) (by omega), Nat.sub_zero]
        exact expGrad_val qp ux s.1 lam false _ s.2 i hi
      · exact upd_ne _ _ (by omega)
  obtain ⟨h1, h2⟩ := h0
  generalize s0 = s1 at h1 h2
  have key := loop_inv (fun n (z : (ℕ → Vec K) × Vec K × Vec K) =>
      (∀ k i, k + 1 < qp.dim.N → qp.dim.N ≤ k + 1 + n → i < qp.dim.nx (k + 1) → z.1 k i = xGrad qp ux z.1 lam true (k + 1) i) ∧
      z.1 (qp.dim.N - 1) = s1.1 (qp.dim.N - 1) ∧ ∀ k, qp.dim.N ≤ k → z.1 k = s.1 k) (qp.dim.N - 1)
    (fun ii (s : (ℕ → Vec K) × Vec K × Vec K) =>
      (upd s.1 (qp.dim.N - 1 - ii - 1) (veccp (qp.dim.nx (qp.dim.N - 1 - ii)) (expGrad qp ux s.1 lam true (qp.dim.N - 1 - ii) s.2).1
        (qp.dim.nu (qp.dim.N - 1 - ii)) (s.1 (qp.dim.N - 1 - ii - 1)) 0), expGrad qp ux s.1 lam true (qp.dim.N - 1 - ii) s.2)) s1 ?_ ?_
  · obtain ⟨a1, a2, a3⟩ := key
    refine ⟨fun k i hk hi => a1 k i hk (by omega) hi, fun i hi => ?_, a3⟩
    refine (congrFun a2 i).trans ((h1 i hi).trans ?_)
    by_cases hc : cls = false
    · rw [if_pos hc, if_pos hc]
    · rw [if_neg hc, if_neg hc]
      exact xGrad_congr _ _ _ _ _ _ _ _ (fun h => by simp at h)
  · exact ⟨fun k i hk h hi => by omega, rfl, h2⟩
  · rintro n z hn ⟨I1, I2, I3⟩
    set m := qp.dim.N - 1 - n with hm
    refine ⟨fun k i hk hkn hi => ?_, ?_, fun k hk => ?_⟩
    · have hne : k + 1 ≠ m - 1 := by omega
      have hx : xGrad qp ux (upd z.1 (m - 1) (veccp (qp.dim.nx m) (expGrad qp ux z.1 lam true m z.2).1 (qp.dim.nu m) (z.1 (m - 1)) 0)) lam true (k + 1) i
          = xGrad qp ux z.1 lam true (k + 1) i := xGrad_congr _ _ _ _ _ _ _ _ (fun _ => upd_ne _ _ hne)
      dsimp only
      rw [hx]
      by_cases e : k = m - 1
      · rw [e, upd_same]
        have e2 : m - 1 + 1 = m := by omega
        rw [e, e2] at hi
        rw [e2, vcp_in (by omega) (by omega), Nat.sub_zero]
        exact expGrad_val qp ux z.1 lam true m z.2 i hi
      · rw [upd_ne _ _ e]
        exact I1 k i hk (by omega) hi
    · dsimp only; rw [upd_ne _ _ (by omega)]; exact I2
    · dsimp only; rw [upd_ne _ _ (by omega)]; exact I3 k hk

/-- what EXPAND_SOL writes (all parts of the solution requested) -/
structure Expanded (qp : OcpQp K) (N : ℕ) (cls : Bool) (ds : DSol K) (sol sol' : Sol K) : Prop where
  ux : ∀ k j, k ≤ N → j < nvt qp.dim k → sol'.ux k j = stageOf qp N ds.v k j
  lam : ∀ k j, k ≤ N → j < nct qp.dim k → sol'.lam k j = ds.lam (ineqPos qp N k j)
  t : ∀ k j, k ≤ N → j < nct qp.dim k → sol'.t k j = ds.t (ineqPos qp N k j)
  pi : ∀ k i, k + 1 < qp.dim.N → i < qp.dim.nx (k + 1) → sol'.pi k i = xGrad qp sol'.ux sol'.pi sol'.lam true (k + 1) i
  last : 0 < qp.dim.N → ∀ i, i < qp.dim.nx qp.dim.N → sol'.pi (qp.dim.N - 1) i
    = if cls = false then ds.pi i else xGrad qp sol'.ux sol'.pi sol'.lam false qp.dim.N i
  kux : ∀ k, N < k → sol'.ux k = sol.ux k
  klam : ∀ k, N < k → sol'.lam k = sol.lam k
  kt : ∀ k, N < k → sol'.t k = sol.t k
  kpi : ∀ k, qp.dim.N ≤ k → sol'.pi k = sol.pi k

theorem ineqPos_one (qp : OcpQp K) (j : ℕ) (hj : j < nct qp.dim 0) : ineqPos qp 0 0 j = j := by
  have h1 := nBox_zero qp
  have ent : ntCond qp 0 = qp.dim.nb 0 + qp.dim.ng 0 := (nCond_one qp).2
  have ens : nsAll qp.dim 0 = qp.dim.ns 0 := by unfold nsAll; rw [sum_range_one]
  rw [nct_eq] at hj
  rcases ineq_cases _ _ j hj with h | ⟨i, h, rfl⟩ | ⟨i, h, rfl⟩ | ⟨i, h, rfl⟩
  · rw [ineqPos_lo h]; exact conPos_one qp j h
  · rw [ineqPos_up h, conPos_one qp i h, ent]
  · rw [ineqPos_sl h, later_self, ent]; omega
  · rw [ineqPos_su, later_self, ent, ens]; omega

theorem stageOf_one (qp : OcpQp K) (v : Vec K) (j : ℕ) : stageOf qp 0 v 0 j = v j := by
  have enu : nuAll qp.dim 0 = qp.dim.nu 0 := by unfold nuAll; rw [sum_range_one]
  have ens : nsAll qp.dim 0 = qp.dim.ns 0 := by unfold nsAll; rw [sum_range_one]
  unfold stageOf
  rw [later_self, later_self, enu, ens]
  split
  · rw [zero_add]
  · split
    · show v (nuAll qp.dim 0 + _) = _; rw [enu]; congr 1; omega
    · split
      · congr 1; omega
      · congr 1; omega

theorem expandSol_val (qp : OcpQp K) (arg : CondArg) (ws : CondWs K) (ds : DSol K) (sol : Sol K) (N : ℕ)
    (htop : condTop qp.dim.N arg = some N) (hp : arg.comp_prim_sol ≠ 0) (he : arg.comp_dual_sol_eq ≠ 0) (hi : arg.comp_dual_sol_ineq ≠ 0) :
    Expanded qp N arg.cond_last_stage ds sol (expandSol qp arg ws ds sol).2 := by
  have hcase := condTop_cases htop
  have hN : (if arg.cond_last_stage = false then qp.dim.N - 1 else qp.dim.N) = N := by
    unfold condTop at htop
    by_cases h : arg.cond_last_stage = true
    · rw [if_pos h] at htop; rw [if_neg (by rw [h]; simp)]; exact Option.some.inj htop
    · rw [if_neg h] at htop
      split at htop
      · exact absurd htop (by simp)
      · rw [if_pos (by simpa using h)]; exact Option.some.inj htop
  unfold expandSol
  dsimp only
  rw [hN]
  by_cases h0 : N = 0 ∧ arg.cond_last_stage = true
  · rw [if_pos h0]
    obtain ⟨rfl, hc⟩ := h0
    have hN0 : qp.dim.N = 0 := by
      unfold condTop at htop; rw [if_pos hc] at htop; exact Option.some.inj htop
    dsimp only
    rw [if_pos hp, if_pos hi, if_pos hi]
    refine ⟨fun k j hk hj => ?_, fun k j hk hj => ?_, fun k j hk hj => ?_, fun k i hk => by omega, fun h => by omega, fun k hk => ?_, fun k hk => ?_,
      fun k hk => ?_, fun k hk => rfl⟩
    · obtain rfl : k = 0 := by omega
      unfold nvt at hj
      dsimp only
      rw [upd_same, vcp_in (by omega) (by omega), stageOf_one]; congr 1; omega
    · obtain rfl : k = 0 := by omega
      rw [ineqPos_one qp j hj]
      unfold nct at hj
      dsimp only
      rw [upd_same, vcp_in (by omega) (by omega)]; congr 1; omega
    · obtain rfl : k = 0 := by omega
      rw [ineqPos_one qp j hj]
      unfold nct at hj
      dsimp only
      rw [upd_same, vcp_in (by omega) (by omega)]; congr 1; omega
    · exact upd_ne _ _ (by omega)
    · exact upd_ne _ _ (by omega)
    · exact upd_ne _ _ (by omega)
  · rw [if_neg h0]
    have hNp : 0 < qp.dim.N := by
      unfold condTop at htop
      by_cases h : arg.cond_last_stage = true
      · rw [if_pos h] at htop
        have := Option.some.inj htop
        by_contra hh
        exact h0 ⟨by omega, h⟩
      · rw [if_neg h] at htop
        by_contra hh
        rw [if_pos (by omega)] at htop
        exact absurd htop (by simp)
    rw [if_neg hp, if_neg hi, if_neg hi, if_neg he, nbCond_eq, nbgCond_eq, sumTo_eq, sumTo_eq, sumTo_eq]
    obtain ⟨a1, a2⟩ := expPrim_val qp N ds.v sol.ux
    obtain ⟨b1, b2⟩ := expIneq_val qp N ds.lam sol.lam
    obtain ⟨c1, c2⟩ := expIneq_val qp N ds.t sol.t
    obtain ⟨d1, d2, d3⟩ := expPi_val qp arg.cond_last_stage ds.pi (expPrim qp N (nuAll qp.dim N) (nsAll qp.dim N) ds.v sol.ux)
      (expIneq qp N (nbCond qp N) (ngCond qp N) (nsAll qp.dim N) ds.lam sol.lam) (sol.pi, ws.tmp_nuxM, ws.tmp_nbgM) hNp
    exact ⟨a1, b1, c1, d1, fun _ => d2, a2, b2, c2, d3⟩

end
end Hpipm
