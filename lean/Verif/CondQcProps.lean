/-
C101: condensing of the quadratic constraints (COND_QCQP_QC, cond/x_cond_qcqp.c:419-558).
-/
import Verif.CondQcVal

namespace Hpipm
open Finset
set_option linter.unusedSectionVars false

section
variable {K : Type*} [Field K]

/-! ### frame -/

theorem sumTo_mono (f : ℕ → ℕ) {a b : ℕ} (h : a ≤ b) : sumTo f a ≤ sumTo f b := by
  induction b with
  | zero => rw [show a = 0 by omega]
  | succ n ih =>
    rcases Nat.lt_or_ge n a with h' | h'
    · rw [show a = n + 1 by omega]
    · have := ih h'
      have := sumTo_succ f n
      omega

/-- different constraints get different positions -/
theorem qcPos_ne (nq : ℕ → ℕ) {N k k' j j' : ℕ} (hk : k ≤ N) (hk' : k' ≤ N) (hj : j < nq k) (hj' : j' < nq k') (h : ¬ (k = k' ∧ j = j')) :
    qcPos nq N k + j ≠ qcPos nq N k' + j' := by
  unfold qcPos
  have a1 := sumTo_mono nq (show k + 1 ≤ N + 1 by omega)
  have a2 := sumTo_mono nq (show k' + 1 ≤ N + 1 by omega)
  have e1 := sumTo_succ nq k
  have e2 := sumTo_succ nq k'
  rcases lt_trichotomy k k' with h1 | h1 | h1
  · have := sumTo_mono nq (show k + 1 ≤ k' by omega)
    omega
  · subst h1
    omega
  · have := sumTo_mono nq (show k' + 1 ≤ k by omega)
    omega

theorem qcPos_lt (nq : ℕ → ℕ) {N k j : ℕ} (hk : k ≤ N) (hj : j < nq k) : qcPos nq N k + j < qcNqc nq N := by
  unfold qcPos qcNqc
  have a1 := sumTo_mono nq (show k + 1 ≤ N + 1 by omega)
  have e1 := sumTo_succ nq k
  omega

/-- nothing that belongs to position `q` of the condensed problem differs -/
structure QcSame (Q : Qcqp K) (N q : ℕ) (s s' : QcSt K) : Prop where
  H : s'.Hq2 q = s.Hq2 q
  nz : s'.nz2 q = s.nz2 q
  C : ∀ i, s'.Ct2 i (qcNgc Q.base.dim N + q) = s.Ct2 i (qcNgc Q.base.dim N + q)
  lo : s'.d2 (qcNbc Q.base.dim N + qcNgc Q.base.dim N + q) = s.d2 (qcNbc Q.base.dim N + qcNgc Q.base.dim N + q)
  up : s'.d2 (2 * qcNbc Q.base.dim N + 2 * qcNgc Q.base.dim N + qcNqc Q.nq N + q) = s.d2 (2 * qcNbc Q.base.dim N + 2 * qcNgc Q.base.dim N + qcNqc Q.nq N + q)

theorem QcSame.trans {Q : Qcqp K} {N q : ℕ} {a b c : QcSt K} (h : QcSame Q N q a b) (h' : QcSame Q N q b c) : QcSame Q N q a c :=
  ⟨h'.H.trans h.H, h'.nz.trans h.nz, fun i => (h'.C i).trans (h.C i), h'.lo.trans h.lo, h'.up.trans h.up⟩

/-- the lower triangles of the caller's Hessians are kept -/
def QcLow (Q : Qcqp K) (s : QcSt K) : Prop := ∀ k j i l, l ≤ i → s.Hq k j i l = Q.Hq k j i l

theorem qcStep_frame (Q : Qcqp K) (nz : ℕ → ℕ → ℕ) (G : ℕ → Mat K) (g : ℕ → Vec K) (N q k j : ℕ) (s : QcSt K) (hk : k ≤ N) (hj : j < Q.nq k)
    (hq : q < qcNqc Q.nq N) (hne : q ≠ qcPos Q.nq N k + j) :
    QcSame Q N q s (if k = 0 then qcFirst Q nz N j s else qcLater Q nz G g N k j s) := by
  have hlt := qcPos_lt Q.nq hk hj
  split_ifs with h0
  · subst h0
    unfold qcFirst
    dsimp only
    split
    · exact ⟨rfl, rfl, fun _ => rfl, rfl, rfl⟩
    · exact ⟨upd_ne _ _ hne, upd_ne _ _ hne, fun _ => rfl, rfl, rfl⟩
  · unfold qcLater
    dsimp only
    refine ⟨upd_ne _ _ hne, upd_ne _ _ hne, fun i => ?_, ?_, ?_⟩
    · dsimp only
      unfold qcColad
      rw [if_neg (by omega)]
    · dsimp only
      rw [upd_ne _ _ (by omega), upd_ne _ _ (by omega)]
    · dsimp only
      rw [upd_ne _ _ (by omega), upd_ne _ _ (by omega)]

theorem qcStep_low (Q : Qcqp K) (nz : ℕ → ℕ → ℕ) (G : ℕ → Mat K) (g : ℕ → Vec K) (N k j : ℕ) (s : QcSt K) (h : QcLow Q s) :
    QcLow Q (if k = 0 then qcFirst Q nz N j s else qcLater Q nz G g N k j s) := by
  split_ifs with h0
  · unfold qcFirst
    dsimp only
    split
    · exact h
    · exact h
  · intro k' j' i l hl
    unfold qcLater
    dsimp only
    by_cases hk : k' = k
    · subst hk
      rw [upd_same]
      by_cases hj : j' = j
      · subst hj
        rw [upd_same]
        split_ifs
        · rw [qc_low _ _ _ _ hl]; exact h _ _ _ _ hl
        · exact h _ _ _ _ hl
      · rw [upd_ne _ _ hj]; exact h _ _ _ _ hl
    · rw [upd_ne _ _ hk]; exact h _ _ _ _ hl

/-- what is known about the position `q` of constraint `j` of stage `k>0`, relative to the state `s0` before it -/
structure QcDone (Q : Qcqp K) (nz : ℕ → ℕ → ℕ) (G : ℕ → Mat K) (g : ℕ → Vec K) (N k j : ℕ) (s0 s : QcSt K) : Prop where
  ex : ∃ M GQ : Mat K, (∀ i l, l ≤ i → M i l = Q.Hq k j i l) ∧
    (nz k j % 2 = 1 → ∀ c l, c ≤ sumTo Q.base.dim.nu k + Q.base.dim.nx 0 → l < Q.base.dim.nx k →
      GQ c l = ∑ m ∈ range (Q.base.dim.nx k), G (k - 1) c m * symL (Q.Hq k j) (Q.base.dim.nu k) (Q.base.dim.nu k) m l) ∧
    s.Hq2 (qcPos Q.nq N k + j) = qcHess (qcNvc Q.base.dim N) (sumTo Q.base.dim.nu k + Q.base.dim.nx 0) (qcOff Q.base.dim.nu N k)
      (Q.base.dim.nu k) (Q.base.dim.nx k) (nz k j) (G (k - 1)) GQ M (s0.Hq2 (qcPos Q.nq N k + j)) ∧
    (∀ i, i < qcNvc Q.base.dim N → s.Ct2 i (qcNgc Q.base.dim N + (qcPos Q.nq N k + j)) =
      if qcOff Q.base.dim.nu N k + Q.base.dim.nu k ≤ i then s.Hq2 (qcPos Q.nq N k + j) (qcNvc Q.base.dim N) i else 0) ∧
    ∃ rho : K, rho = (if nz k j % 2 = 1 then 1 / 2 * ∑ l ∈ range (Q.base.dim.nx k), GQ (sumTo Q.base.dim.nu k + Q.base.dim.nx 0) l * g (k - 1) l else 0) ∧
      s.d2 (qcNbc Q.base.dim N + qcNgc Q.base.dim N + (qcPos Q.nq N k + j))
        = s0.d2 (qcNbc Q.base.dim N + qcNgc Q.base.dim N + (qcPos Q.nq N k + j)) - rho ∧
      s.d2 (2 * qcNbc Q.base.dim N + 2 * qcNgc Q.base.dim N + qcNqc Q.nq N + (qcPos Q.nq N k + j))
        = s0.d2 (2 * qcNbc Q.base.dim N + 2 * qcNgc Q.base.dim N + qcNqc Q.nq N + (qcPos Q.nq N k + j)) + rho
  nz2 : s.nz2 (qcPos Q.nq N k + j) = (if nz k j % 2 = 1 then if Q.base.dim.nx 0 = 0 then 4 else 7 else 0) |||
    (if nz k j / 4 % 2 = 1 then 4 else 0) ||| (if nz k j / 2 % 2 = 1 then if Q.base.dim.nx 0 = 0 then 4 else 6 else 0)

theorem QcDone.same {Q : Qcqp K} {nz : ℕ → ℕ → ℕ} {G : ℕ → Mat K} {g : ℕ → Vec K} {N k j : ℕ} {s0 s s' : QcSt K}
    (h : QcDone Q nz G g N k j s0 s) (e : QcSame Q N (qcPos Q.nq N k + j) s s') : QcDone Q nz G g N k j s0 s' := by
  obtain ⟨⟨M, GQ, h1, h2, h3, h4, rho, h5, h6, h7⟩, h8⟩ := h
  refine ⟨⟨M, GQ, h1, h2, e.H.trans h3, fun i hi => ?_, rho, h5, e.lo.trans h6, e.up.trans h7⟩, e.nz.trans h8⟩
  rw [e.C, h4 i hi, e.H]

theorem qc_sizes (Q : Qcqp K) {N k : ℕ} (hk : k ≤ N) :
    qcNvc Q.base.dim N = qcOff Q.base.dim.nu N k + Q.base.dim.nu k + (sumTo Q.base.dim.nu k + Q.base.dim.nx 0) := by
  unfold qcNvc qcOff
  have a1 := sumTo_mono Q.base.dim.nu (show k + 1 ≤ N + 1 by omega)
  have e1 := sumTo_succ Q.base.dim.nu k
  omega

/-- one constraint of a later stage -/
theorem qcLater_done (Q : Qcqp K) (nz : ℕ → ℕ → ℕ) (G : ℕ → Mat K) (g : ℕ → Vec K) (N k j : ℕ) (s0 s : QcSt K) (hk : k ≤ N) (hj : j < Q.nq k)
    (hs : QcSame Q N (qcPos Q.nq N k + j) s0 s) (hl : QcLow Q s)
    (hz : ∀ i, i < qcNvc Q.base.dim N → s.Ct2 i (qcNgc Q.base.dim N + (qcPos Q.nq N k + j)) = 0) :
    QcDone Q nz G g N k j s0 (qcLater Q nz G g N k j s) := by
  have hn := qc_sizes Q hk
  have hlt := qcPos_lt Q.nq hk hj
  let M : Mat K := if nz k j % 2 = 1 then trtr_l (Q.base.dim.nu k + Q.base.dim.nx k) (s.Hq k j) 0 0 (s.Hq k j) 0 0 else s.Hq k j
  let GQ : Mat K := if nz k j % 2 = 1 then gemm_nn ((sumTo Q.base.dim.nu k + Q.base.dim.nx 0) + 1) (Q.base.dim.nx k) (Q.base.dim.nx k) 1 (G (k - 1)) 0 0 M (Q.base.dim.nu k) (Q.base.dim.nu k) 0 (s.GQ (k - 1)) 0 0 (s.GQ (k - 1)) 0 0 else s.GQ (k - 1)
  have hM : ∀ i l, l ≤ i → M i l = Q.Hq k j i l := fun i l h => by
    show (if nz k j % 2 = 1 then _ else _ : Mat K) i l = _
    split_ifs
    · rw [qc_low _ _ _ _ h]; exact hl _ _ _ _ h
    · exact hl _ _ _ _ h
  have hGQ : nz k j % 2 = 1 → ∀ c l, c ≤ (sumTo Q.base.dim.nu k + Q.base.dim.nx 0) → l < Q.base.dim.nx k → GQ c l = ∑ m ∈ range (Q.base.dim.nx k), G (k - 1) c m * symL (Q.Hq k j) (Q.base.dim.nu k) (Q.base.dim.nu k) m l := by
    intro h c l hc hl'
    show (if nz k j % 2 = 1 then _ else _ : Mat K) c l = _
    rw [if_pos h]
    unfold gemm_nn
    rw [if_pos (by omega)]
    simp only [Nat.zero_add, Nat.sub_zero, one_mul, zero_mul, add_zero, zero_add]
    refine sum_congr rfl fun m hm => ?_
    congr 1
    show (if nz k j % 2 = 1 then _ else _ : Mat K) _ _ = _
    rw [if_pos h, qc_full _ _ _ _ _ _ rfl (mem_range.mp hm) hl']
    unfold symL
    split_ifs
    · exact hl _ _ _ _ (by omega)
    · exact hl _ _ _ _ (by omega)
  refine ⟨⟨M, GQ, hM, hGQ, ?_, ?_, (if nz k j % 2 = 1 then 1 / 2 * ∑ l ∈ range (Q.base.dim.nx k), GQ (sumTo Q.base.dim.nu k + Q.base.dim.nx 0) l * g (k - 1) l else 0), rfl, ?_, ?_⟩, ?_⟩
  · show upd s.Hq2 (qcPos Q.nq N k + j) _ (qcPos Q.nq N k + j) = _
    rw [upd_same, ← hs.H]
  · intro i hi
    show qcColad (sumTo Q.base.dim.nu k + Q.base.dim.nx 0) 1 _ 0 s.Ct2 ((qcOff Q.base.dim.nu N k) + Q.base.dim.nu k) (qcNgc Q.base.dim N + (qcPos Q.nq N k + j)) i (qcNgc Q.base.dim N + (qcPos Q.nq N k + j)) = if _ then upd s.Hq2 (qcPos Q.nq N k + j) _ (qcPos Q.nq N k + j) _ _ else 0
    rw [upd_same]
    unfold qcColad
    by_cases h : (qcOff Q.base.dim.nu N k) + Q.base.dim.nu k ≤ i
    · rw [if_pos ⟨rfl, h, by omega⟩, if_pos h, hz i hi, zero_add, one_mul]
      unfold rowex
      rw [if_pos (by omega)]
      rw [one_mul]
      congr 1
      omega
    · rw [if_neg (by omega), if_neg h, hz i hi]
  · show upd (upd s.d2 _ _) _ _ _ = _
    rw [upd_ne _ _ (by omega), upd_same, hs.lo]
    congr 1
    split_ifs with h
    · congr 1
      unfold dot
      refine sum_congr rfl fun l hl => ?_
      have hl := mem_range.mp hl
      congr 1
      · unfold rowex
        rw [if_pos (by omega), one_mul]
        simp only [GQ, M, h, if_true, Nat.zero_add, Nat.sub_zero]
      · simp
    · rfl
  · show upd (upd s.d2 _ _) _ _ _ = _
    rw [upd_same, upd_ne _ _ (by omega), hs.up]
    congr 1
    split_ifs with h
    · congr 1
      unfold dot
      refine sum_congr rfl fun l hl => ?_
      have hl := mem_range.mp hl
      congr 1
      · unfold rowex
        rw [if_pos (by omega), one_mul]
        simp only [GQ, M, h, if_true, Nat.zero_add, Nat.sub_zero]
      · simp
    · rfl
  · show upd s.nz2 (qcPos Q.nq N k + j) _ (qcPos Q.nq N k + j) = _
    rw [upd_same]

/-- all constraints -/
theorem condQc_done (Q : Qcqp K) (nz : ℕ → ℕ → ℕ) (G : ℕ → Mat K) (g : ℕ → Vec K) (N k j : ℕ) (s : QcSt K) (hk0 : 0 < k) (hk : k ≤ N) (hj : j < Q.nq k)
    (hs : s.Hq = Q.Hq) : QcDone Q nz G g N k j s (condQc Q nz G g N s) ∧ QcLow Q (condQc Q nz G g N s) := by
  unfold condQc
  dsimp only
  rw [if_neg (by omega)]
  have hlt := qcPos_lt Q.nq hk hj
  set s0 : QcSt K := { s with Ct2 := gese (qcNvc Q.base.dim N) (qcNqc Q.nq N) 0 s.Ct2 0 (qcNgc Q.base.dim N) } with hs0
  set q := qcPos Q.nq N k + j with hq
  have hz0 : ∀ i, i < qcNvc Q.base.dim N → s0.Ct2 i (qcNgc Q.base.dim N + q) = 0 := fun i hi => by
    show gese _ _ _ _ _ _ _ _ = _
    unfold gese
    rw [if_pos (by omega)]
  have key : (fun n t => (n ≤ k → QcSame Q N q s0 t) ∧ (k < n → QcDone Q nz G g N k j s0 t) ∧ QcLow Q t) (N + 1) (loop (N + 1) (qcStage Q nz G g N) s0) := by
    refine loop_inv (fun n t => (n ≤ k → QcSame Q N q s0 t) ∧ (k < n → QcDone Q nz G g N k j s0 t) ∧ QcLow Q t) (N + 1) _ _ ?_ ?_
    · exact ⟨fun _ => ⟨rfl, rfl, fun _ => rfl, rfl, rfl⟩, fun h => by omega, fun a b i l _ => by show s.Hq a b i l = _; rw [hs]⟩
    · intro n t hn ⟨h1, h2, h3⟩
      unfold qcStage
      have inner := loop_inv (fun m t' => ((n < k ∨ n = k ∧ m ≤ j) → QcSame Q N q s0 t') ∧ ((k < n ∨ n = k ∧ j < m) → QcDone Q nz G g N k j s0 t') ∧ QcLow Q t')
        (Q.nq n) (fun jj s => if n = 0 then qcFirst Q nz N jj s else qcLater Q nz G g N n jj s) t
        ⟨fun h => h1 (by omega), fun h => h2 (by omega), h3⟩
        (fun m t' hm ⟨i1, i2, i3⟩ => by
          refine ⟨fun h => ?_, fun h => ?_, qcStep_low Q nz G g N n m t' i3⟩
          · exact (i1 (by omega)).trans (qcStep_frame Q nz G g N q n m t' (by omega) hm hlt (qcPos_ne Q.nq hk (by omega) hj hm (by omega)))
          · by_cases he : n = k ∧ m = j
            · obtain ⟨e1, e2⟩ := he
              subst e1 e2
              have hsm := i1 (by omega)
              rw [if_neg (by omega)]
              exact qcLater_done Q nz G g N n m s0 t' hk hj hsm i3 (fun i hi => by rw [hsm.C]; exact hz0 i hi)
            · exact (i2 (by omega)).same (qcStep_frame Q nz G g N q n m t' (by omega) hm hlt (qcPos_ne Q.nq hk (by omega) hj hm (by omega))))
      obtain ⟨j1, j2, j3⟩ := inner
      exact ⟨fun h => j1 (by omega), fun h => j2 (by
        rcases Nat.lt_or_ge k n with h' | h'
        · exact Or.inl h'
        · have : n = k := by omega
          subst this
          exact Or.inr ⟨rfl, hj⟩), j3⟩
  obtain ⟨_, h2, h3⟩ := key
  have h2 := h2 (by omega)
  exact ⟨⟨h2.ex, h2.nz2⟩, h3⟩

end
end Hpipm
