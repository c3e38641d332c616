/-
Closed forms of OCP_QP_REDUCE_EQ_DOF_SOL and OCP_QP_RESTORE_EQ_DOF(_SEED) (intermediate results;
user-level statements in RedProps.lean).
-/
import Verif.RedStage

namespace Hpipm
open Finset
set_option linter.unusedSectionVars false

section
variable {K : Type*} [Field K] [LinearOrder K]

/-- every position below the count is hit -/
theorem count_surj (p : ℕ → Prop) [DecidablePred p] (n q : ℕ) (h : q < Nat.count p n) :
    ∃ j, j < n ∧ p j ∧ Nat.count p j = q := by
  induction n with
  | zero => simp at h
  | succ n ih =>
    rw [Nat.count_succ] at h
    by_cases hp : p n
    · rw [if_pos hp] at h
      by_cases hq : q = Nat.count p n
      · exact ⟨n, by omega, hp, hq.symm⟩
      · obtain ⟨j, a, b⟩ := ih (by omega); exact ⟨j, by omega, b⟩
    · rw [if_neg hp] at h
      obtain ⟨j, a, b⟩ := ih (by omega); exact ⟨j, by omega, b⟩

/-! ### reducing a solution -/

/-- a reduced solution carries the kept entries of the original one -/
structure SolOk (qp : OcpQp K) (Dr : QpDim) (sol sr : Sol K) : Prop where
  ux : SameKept qp Dr sol.ux sr.ux
  pi : ∀ k i, k < qp.dim.N → i < qp.dim.nx (k + 1) → sr.pi k i = sol.pi k i
  lam : ∀ k, k ≤ qp.dim.N → ConOk qp Dr k (sol.lam k) (sr.lam k)
  t : ∀ k, k ≤ qp.dim.N → ConOk qp Dr k (sol.t k) (sr.t k)

/-- the three switches of the argument structure are on -/
def RedArg.All (arg : RedArg K) : Prop :=
  arg.comp_prim_sol = true ∧ arg.comp_dual_sol_eq = true ∧ arg.comp_dual_sol_ineq = true

theorem redSol_ok {qp : OcpQp K} (hq : EqOk qp) (arg : RedArg K) (ha : arg.All) (Dr : QpDim) (hd : RedDim qp.dim Dr)
    (sol sr : Sol K) (ws : RedWs K) : SolOk qp Dr sol (redSol arg qp Dr sol sr ws).1 := by
  obtain ⟨a1, a2, a3⟩ := ha
  have h := loop_inv (fun n (s : Sol K × RedWs K) =>
      (∀ k, k < n → ∀ j, j < qp.dim.nu k + qp.dim.nx k → Kept qp k j → s.1.ux k (newPos qp k j) = sol.ux k j) ∧
      (∀ k, k < n → ∀ j, j < 2 * qp.dim.ns k → s.1.ux k (Dr.nu k + Dr.nx k + j) = sol.ux k (qp.dim.nu k + qp.dim.nx k + j)) ∧
      (∀ k, k < n → k < qp.dim.N → ∀ i, i < qp.dim.nx (k + 1) → s.1.pi k i = sol.pi k i) ∧
      (∀ k, k < n → ConOk qp Dr k (sol.lam k) (s.1.lam k)) ∧ (∀ k, k < n → ConOk qp Dr k (sol.t k) (s.1.t k)))
    (qp.dim.N + 1) (redSolStage arg qp Dr sol) (sr, ws)
    ⟨fun k hk => by omega, fun k hk => by omega, fun k hk => by omega, fun k hk => by omega, fun k hk => by omega⟩ ?_
  · exact ⟨⟨fun k j hk => h.1 k (by omega) j, fun k j hk => h.2.1 k (by omega) j⟩,
      fun k i hk hi => h.2.2.1 k (by omega) hk i hi, fun k hk => h.2.2.2.1 k (by omega), fun k hk => h.2.2.2.2 k (by omega)⟩
  · rintro k ⟨s, w⟩ hk ⟨h1, h2, h3, h4, h5⟩
    have hk' : k ≤ qp.dim.N := by omega
    obtain ⟨z1, z2, z3⟩ := red_sizes qp hq Dr hd k hk'
    have hpi : ∀ l, l < k + 1 → l < qp.dim.N → ∀ i, i < qp.dim.nx (l + 1) →
        (if k < qp.dim.N then upd s.pi k (veccp (qp.dim.nx (k + 1)) (sol.pi k) 0 (s.pi k) 0) else s.pi) l i = sol.pi l i := by
      intro l hl hlN i hi
      by_cases hlk : l = k
      · subst hlk
        rw [if_pos hlN, upd_same, veccp_in (by omega)]; simp
      · have e := h3 l (by omega) hlN i hi
        split
        · rw [upd_ne _ _ hlk]; exact e
        · exact e
    simp only [redSolStage, a1, a2, a3, if_true]
    by_cases hn : neThr qp.dim k > 0
    · simp only [if_pos hn]
      obtain ⟨m1, m2⟩ := redMaskSol_val qp k w
      have hv := sqVec_val (qp.dim.nu k + qp.dim.nx k) _ (sol.ux k) (s.ux k) (Kept qp k) m1
      refine ⟨fun l hl j hj hkj => ?_, fun l hl j hj => ?_, hpi, fun l hl => ?_, fun l hl => ?_⟩
      · by_cases hlk : l = k
        · subst hlk
          have hlt : newPos qp l j < Dr.nu l + Dr.nx l := by rw [← z2]; exact count_lt_of hkj hj
          rw [upd_same, veccp_out (by omega)]
          exact hv.1 j hj hkj
        · rw [upd_ne _ _ hlk]; exact h1 l (by omega) j hj hkj
      · by_cases hlk : l = k
        · subst hlk
          rw [upd_same, veccp_in (by omega)]; congr 1; omega
        · rw [upd_ne _ _ hlk]; exact h2 l (by omega) j hj
      · by_cases hlk : l = k
        · subst hlk; rw [upd_same]; exact redCon_ok hq hd hk' _ m2 _ _
        · rw [upd_ne _ _ hlk]; exact h4 l (by omega)
      · by_cases hlk : l = k
        · subst hlk; rw [upd_same]; exact redCon_ok hq hd hk' _ m2 _ _
        · rw [upd_ne _ _ hlk]; exact h5 l (by omega)
    · simp only [if_neg hn]
      have hn0 : neThr qp.dim k = 0 := by omega
      obtain ⟨-, -, hp, hb⟩ := kept_triv qp k hn0
      rw [hp] at z2
      refine ⟨fun l hl j hj hkj => ?_, fun l hl j hj => ?_, hpi, fun l hl => ?_, fun l hl => ?_⟩
      · by_cases hlk : l = k
        · subst hlk
          rw [upd_same, hp, veccp_in (by simp only [nvt]; omega)]; simp
        · rw [upd_ne _ _ hlk]; exact h1 l (by omega) j hj hkj
      · by_cases hlk : l = k
        · subst hlk
          rw [upd_same, veccp_in (by simp only [nvt]; omega)]; congr 1; omega
        · rw [upd_ne _ _ hlk]; exact h2 l (by omega) j hj
      · by_cases hlk : l = k
        · subst hlk; rw [upd_same]; exact con_copy hq hd hk' hn0 _ _
        · rw [upd_ne _ _ hlk]; exact h4 l (by omega)
      · by_cases hlk : l = k
        · subst hlk; rw [upd_same]; exact con_copy hq hd hk' hn0 _ _
        · rw [upd_ne _ _ hlk]; exact h5 l (by omega)

/-! ### restoring a solution -/

theorem unsqVec_val (n : ℕ) (mask : ℕ → ℕ) (x y : Vec K) (p : ℕ → Prop) [DecidablePred p]
    (hp : ∀ j, j < n → (mask j = 0 ↔ p j)) :
    ∀ j, j < n → p j → unsqVec n mask x y j = x (Nat.count p j) := by
  refine sqLoop_inv n mask _ y p hp (fun m z => ∀ j, j < m → p j → z j = x (Nat.count p j)) (fun j hj => by omega) ?_ ?_
  · intro j s hj hpj h1 i hi hpi
    by_cases hij : i = j
    · subst hij; simp
    · rw [upd_ne _ _ hij]; exact h1 i (by omega) hpi
  · intro j s hj hpj h1 i hi hpi
    rcases Nat.lt_succ_iff_lt_or_eq.mp hi with h | h
    · exact h1 i h hpi
    · subst h; exact absurd hpi hpj

theorem unsqBox_val (nb off offr : ℕ) (mask : ℕ → ℕ) (c : K) (x y : Vec K) (p : ℕ → Prop) [DecidablePred p]
    (hp : ∀ j, j < nb → (mask j = 0 ↔ p j)) (ho : nb ≤ off) :
    ∀ j, j < nb → unsqBox nb off offr mask c x y j = (if p j then x (Nat.count p j) else c) ∧
      unsqBox nb off offr mask c x y (off + j) = (if p j then x (offr + Nat.count p j) else c) := by
  have h := loop_inv (fun m (q : ℕ × Vec K) => q.1 = Nat.count p m ∧
      ∀ j, j < m → q.2 j = (if p j then x (Nat.count p j) else c) ∧
      q.2 (off + j) = (if p j then x (offr + Nat.count p j) else c)) nb
    (fun jj (p : ℕ × Vec K) =>
      if mask jj = 0 then (p.1 + 1, upd (upd p.2 jj (x p.1)) (off + jj) (x (offr + p.1)))
      else (p.1, upd (upd p.2 jj c) (off + jj) c)) (0, y) ⟨by simp, fun j hj => by omega⟩ ?_
  · exact h.2
  · rintro m ⟨q, z⟩ hm ⟨h1, h2⟩
    simp only at h1 h2
    subst h1
    by_cases hk : mask m = 0
    · have hpm := (hp m hm).mp hk
      simp only [if_pos hk]
      refine ⟨by rw [Nat.count_succ, if_pos hpm], fun j hj => ?_⟩
      by_cases hjm : j = m
      · subst hjm
        rw [if_pos hpm, if_pos hpm]
        refine ⟨?_, by simp⟩
        rw [upd_ne _ _ (by omega)]; simp
      · obtain ⟨a, b⟩ := h2 j (by omega)
        rw [upd_ne _ _ (by omega), upd_ne _ _ (by omega), upd_ne _ _ (by omega), upd_ne _ _ (by omega)]
        exact ⟨a, b⟩
    · have hpm : ¬ p m := fun h => hk ((hp m hm).mpr h)
      simp only [if_neg hk]
      refine ⟨by rw [Nat.count_succ, if_neg hpm]; rfl, fun j hj => ?_⟩
      by_cases hjm : j = m
      · subst hjm
        rw [if_neg hpm, if_neg hpm]
        refine ⟨?_, by simp⟩
        rw [upd_ne _ _ (by omega)]; simp
      · obtain ⟨a, b⟩ := h2 j (by omega)
        rw [upd_ne _ _ (by omega), upd_ne _ _ (by omega), upd_ne _ _ (by omega), upd_ne _ _ (by omega)]
        exact ⟨a, b⟩

/-- a constraint vector restored with the constant `c` at removed boxes: the closed form `ConOk` plus the
constants -/
theorem unredCon_ok {qp : OcpQp K} (hq : EqOk qp) {Dr : QpDim} (hd : RedDim qp.dim Dr) {k : ℕ} (hk : k ≤ qp.dim.N)
    (mask : ℕ → ℕ) (hm : ∀ j, j < qp.dim.nb k → (mask j = 0 ↔ KeptBox qp k j)) (c : K) (x y : Vec K) :
    ConOk qp Dr k (unredCon qp.dim Dr k mask c x y) x ∧
    ∀ j, j < qp.dim.nb k → ¬ KeptBox qp k j → unredCon qp.dim Dr k mask c x y j = c ∧
      unredCon qp.dim Dr k mask c x y (qp.dim.nb k + qp.dim.ng k + j) = c := by
  have hng := hd.ng k hk
  have hv := unsqBox_val (qp.dim.nb k) (qp.dim.nb k + qp.dim.ng k) (Dr.nb k + Dr.ng k) mask c x y (KeptBox qp k) hm (by omega)
  refine ⟨⟨fun j hj hkj => ?_, fun j hj hkj => ?_, fun j hj => ?_, fun j hj => ?_, fun s hs => ?_⟩, fun j hj hkj => ⟨?_, ?_⟩⟩
  · simp only [unredCon]
    rw [veccp_out (by omega), veccp_out (by omega), (hv j hj).1, if_pos hkj]; rfl
  · simp only [unredCon]
    rw [veccp_out (by omega), veccp_out (by omega), (hv j hj).2, if_pos hkj]; rfl
  · simp only [unredCon]
    rw [veccp_out (by omega), veccp_in (by omega)]; congr 1; omega
  · simp only [unredCon]
    rw [veccp_in (by omega)]; congr 1; omega
  · simp only [unredCon]
    rw [veccp_in (by omega)]; congr 1; omega
  · simp only [unredCon]
    rw [veccp_out (by omega), veccp_out (by omega), (hv j hj).1, if_neg hkj]
  · simp only [unredCon]
    rw [veccp_out (by omega), veccp_out (by omega), (hv j hj).2, if_neg hkj]

/-- multipliers after the correction of the removed boxes -/
theorem redLamFix_val (nb off : ℕ) (mask : ℕ → ℕ) (idxb : ℕ → ℕ) (tmp lam : Vec K) (ho : nb ≤ off) :
    (∀ j, j < nb → mask j ≠ 0 →
      redLamFix nb off mask idxb tmp lam j = (if tmp (idxb j) ≥ 0 then tmp (idxb j) else lam j) ∧
      redLamFix nb off mask idxb tmp lam (off + j) = (if tmp (idxb j) ≥ 0 then lam (off + j) else - tmp (idxb j))) ∧
    (∀ i, (∀ j, j < nb → mask j ≠ 0 → i ≠ j ∧ i ≠ off + j) → redLamFix nb off mask idxb tmp lam i = lam i) := by
  unfold redLamFix
  have h := loop_inv (fun m (z : Vec K) =>
      (∀ j, j < m → mask j ≠ 0 → z j = (if tmp (idxb j) ≥ 0 then tmp (idxb j) else lam j) ∧
        z (off + j) = (if tmp (idxb j) ≥ 0 then lam (off + j) else - tmp (idxb j))) ∧
      (∀ i, (∀ j, j < m → mask j ≠ 0 → i ≠ j ∧ i ≠ off + j) → z i = lam i)) nb
    (fun jj lam => if mask jj ≠ 0 then
      if tmp (idxb jj) ≥ 0 then upd lam jj (tmp (idxb jj)) else upd lam (off + jj) (- tmp (idxb jj))
      else lam) lam ⟨fun j hj => by omega, fun i _ => rfl⟩ ?_
  · exact h
  · rintro m z hm ⟨h1, h2⟩
    by_cases hk : mask m ≠ 0
    · have hz : z m = lam m := h2 m (fun j hj _ => by omega)
      have hzo : z (off + m) = lam (off + m) := h2 (off + m) (fun j hj _ => by omega)
      simp only [if_pos hk]
      by_cases ht : tmp (idxb m) ≥ 0
      · simp only [if_pos ht]
        refine ⟨fun j hj hmj => ?_, fun i hi => ?_⟩
        · by_cases hjm : j = m
          · subst hjm
            rw [if_pos ht, if_pos ht]
            refine ⟨by simp, ?_⟩
            rw [upd_ne _ _ (by omega)]; exact hzo
          · rw [upd_ne _ _ hjm, upd_ne _ _ (by omega)]; exact h1 j (by omega) hmj
        · rw [upd_ne _ _ (hi m (by omega) hk).1]
          exact h2 i (fun j hj => hi j (by omega))
      · simp only [if_neg ht]
        refine ⟨fun j hj hmj => ?_, fun i hi => ?_⟩
        · by_cases hjm : j = m
          · subst hjm
            rw [if_neg ht, if_neg ht]
            refine ⟨?_, by simp⟩
            rw [upd_ne _ _ (by omega)]; exact hz
          · rw [upd_ne _ _ (by omega), upd_ne _ _ (by omega)]; exact h1 j (by omega) hmj
        · rw [upd_ne _ _ (hi m (by omega) hk).2]
          exact h2 i (fun j hj => hi j (by omega))
    · simp only [if_neg hk]
      refine ⟨fun j hj hmj => ?_, fun i hi => h2 i (fun j hj => hi j (by omega))⟩
      by_cases hjm : j = m
      · subst hjm; exact absurd hmj hk
      · exact h1 j (by omega) hmj

/-- gradient of the Lagrangian without the multiplier of the previous dynamics -/
theorem redGradLag_val (qp : OcpQp K) (hwf : qp.WF) (k : ℕ) (hk : k ≤ qp.dim.N) (g ux pi lam : Vec K) (ws : RedWs K) (i : ℕ)
    (hi : i < qp.dim.nu k + qp.dim.nx k) : (redGradLag qp k g ux pi lam ws).1 i =
    hmul qp k ux i + g i + cvalT qp k (fun j => lam (qp.dim.nb k + qp.dim.ng k + j) - lam j) i
      + (if k < qp.dim.N then ∑ j ∈ range (qp.dim.nx (k + 1)), qp.BAbt k i j * pi j else 0) := by
  have htg : ∀ j, j < qp.dim.nb k + qp.dim.ng k →
      axpy (qp.dim.nb k + qp.dim.ng k) (-1) lam 0 lam (qp.dim.nb k + qp.dim.ng k) ws.tmpg 0 j =
        lam (qp.dim.nb k + qp.dim.ng k + j) - lam j := by
    intro j hj
    rw [axpy_in (by omega)]; simp only [Nat.sub_zero, Nat.zero_add]; ring
  simp only [redGradLag]
  rw [gemv_n_in (by omega)]
  simp only [Nat.zero_add, Nat.sub_zero, one_mul]
  have e1 : ∑ j ∈ range (qp.dim.ng k), qp.DCt k i j *
      axpy (qp.dim.nb k + qp.dim.ng k) (-1) lam 0 lam (qp.dim.nb k + qp.dim.ng k) ws.tmpg 0 (qp.dim.nb k + j) =
      ∑ j ∈ range (qp.dim.ng k), qp.DCt k i j *
        (lam (qp.dim.nb k + qp.dim.ng k + (qp.dim.nb k + j)) - lam (qp.dim.nb k + j)) :=
    sum_congr rfl (fun j hj => by have := mem_range.mp hj; rw [htg _ (by omega)])
  have e2 : vecad_sp (qp.dim.nb k) 1
      (axpy (qp.dim.nb k + qp.dim.ng k) (-1) lam 0 lam (qp.dim.nb k + qp.dim.ng k) ws.tmpg 0) 0 (qp.idxb k)
      (veccp (qp.dim.nu k + qp.dim.nx k) g 0 ws.tmp0 0) 0 i =
      g i + ∑ j ∈ range (qp.dim.nb k), if qp.idxb k j = i then lam (qp.dim.nb k + qp.dim.ng k + j) - lam j else 0 := by
    simp only [vecad_sp]
    rw [veccp_in (by omega)]
    simp only [Nat.zero_add, Nat.sub_zero, one_mul]
    congr 1
    exact sum_congr rfl (fun j hj => by have := mem_range.mp hj; rw [htg _ (by omega)])
  simp only [cvalT]
  rw [e1]
  by_cases hN : k < qp.dim.N
  · simp only [if_pos hN]
    rw [gemv_n_in (by omega)]
    simp only [Nat.zero_add, Nat.sub_zero, one_mul]
    rw [symv_l_in (by omega)]
    simp only [Nat.zero_add, Nat.sub_zero, one_mul]
    rw [e2]
    simp only [hmul]; ring
  · simp only [if_neg hN]
    rw [symv_l_in (by omega)]
    simp only [Nat.zero_add, Nat.sub_zero, one_mul]
    rw [e2]
    simp only [hmul]; ring

/-- closed form of one restored stage -/
structure RestOk (arg : RedArg K) (qp : OcpQp K) (fix g : ℕ → Vec K) (Dr : QpDim) (sr sol : Sol K) (k : ℕ) : Prop where
  var : ∀ j, j < qp.dim.nu k + qp.dim.nx k → Kept qp k j → sol.ux k j = sr.ux k (newPos qp k j)
  fixed : ∀ e, e < neThr qp.dim k → sol.ux k (qp.idxb k (qp.idxe k e)) = fix k (qp.idxe k e)
  slack : ∀ s, s < 2 * qp.dim.ns k → sol.ux k (qp.dim.nu k + qp.dim.nx k + s) = sr.ux k (Dr.nu k + Dr.nx k + s)
  pi : k < qp.dim.N → ∀ i, i < qp.dim.nx (k + 1) → sol.pi k i = sr.pi k i
  lam : ConOk qp Dr k (sol.lam k) (sr.lam k)
  t : ConOk qp Dr k (sol.t k) (sr.t k)
  tfix : ∀ j, j < qp.dim.nb k → ¬ KeptBox qp k j → sol.t k j = arg.t_min ∧
    sol.t k (qp.dim.nb k + qp.dim.ng k + j) = arg.t_min
  lamfix : ∀ j, j < qp.dim.nb k → ¬ KeptBox qp k j →
    let r := hmul qp k (sol.ux k) (qp.idxb k j) + g k (qp.idxb k j)
      + cvalT qp k (fun i => if i < qp.dim.nb k ∧ ¬ KeptBox qp k i then 0
          else sol.lam k (qp.dim.nb k + qp.dim.ng k + i) - sol.lam k i) (qp.idxb k j)
      + (if k < qp.dim.N then ∑ i ∈ range (qp.dim.nx (k + 1)), qp.BAbt k (qp.idxb k j) i * sol.pi k i else 0)
    (0 ≤ r → sol.lam k j = r ∧ sol.lam k (qp.dim.nb k + qp.dim.ng k + j) = arg.lam_min) ∧
    (r < 0 → sol.lam k j = arg.lam_min ∧ sol.lam k (qp.dim.nb k + qp.dim.ng k + j) = - r)

theorem red_hmul_congr (qp : OcpQp K) (k : ℕ) (v w : Vec K) (i : ℕ)
    (h : ∀ j, j < qp.dim.nu k + qp.dim.nx k → v j = w j) : hmul qp k v i = hmul qp k w i := by
  unfold hmul
  exact sum_congr rfl (fun j hj => by rw [h j (mem_range.mp hj)])

theorem red_cvalT_congr (qp : OcpQp K) (k : ℕ) (v w : Vec K) (i : ℕ)
    (h : ∀ j, j < qp.dim.nb k + qp.dim.ng k → v j = w j) : cvalT qp k v i = cvalT qp k w i := by
  unfold cvalT
  congr 1
  · exact sum_congr rfl (fun j hj => by have := mem_range.mp hj; rw [h j (by omega)])
  · exact sum_congr rfl (fun j hj => by have := mem_range.mp hj; rw [h _ (by omega)])

theorem fix_loop (qp : OcpQp K) (hq : EqOk qp) (fix u : Vec K) (k : ℕ) (hk : k ≤ qp.dim.N) :
    (∀ e, e < neThr qp.dim k → loop (neThr qp.dim k) (fun jj u => upd u (qp.idxb k (qp.idxe k jj)) (fix (qp.idxe k jj))) u
      (qp.idxb k (qp.idxe k e)) = fix (qp.idxe k e)) ∧
    (∀ j, Kept qp k j → loop (neThr qp.dim k) (fun jj u => upd u (qp.idxb k (qp.idxe k jj)) (fix (qp.idxe k jj))) u j = u j) := by
  have h := loop_inv (fun m (z : Vec K) => (∀ e, e < m → z (qp.idxb k (qp.idxe k e)) = fix (qp.idxe k e)) ∧
      ∀ j, Kept qp k j → z j = u j) (neThr qp.dim k)
    (fun jj u => upd u (qp.idxb k (qp.idxe k jj)) (fix (qp.idxe k jj))) u ⟨fun e he => by omega, fun j _ => rfl⟩ ?_
  · exact h
  · rintro m z hm ⟨h1, h2⟩
    refine ⟨fun e he => ?_, fun j hj => ?_⟩
    · by_cases hem : qp.idxb k (qp.idxe k e) = qp.idxb k (qp.idxe k m)
      · have := hq.inj k e m hk (by omega) hm hem
        subst this; simp
      · beta_reduce
        rw [upd_ne _ _ hem]
        refine h1 e ?_
        rcases Nat.lt_succ_iff_lt_or_eq.mp he with h | h
        · exact h
        · subst h; exact absurd rfl hem
    · beta_reduce
      rw [upd_ne _ _ (fun h => hj m hm h.symm)]; exact h2 j hj

theorem restoreStage_ok {qp : OcpQp K} (hq : EqOk qp) (hwf : qp.WF) (arg : RedArg K) (ha : arg.All) (fix g : ℕ → Vec K)
    (Dr : QpDim) (hd : RedDim qp.dim Dr) (sr sol : Sol K) (ws : RedWs K) (k : ℕ) (hk : k ≤ qp.dim.N) :
    RestOk arg qp fix g Dr sr (restoreStage arg qp fix g Dr sr k (sol, ws)).1 k ∧
    ∀ l, l ≠ k → (restoreStage arg qp fix g Dr sr k (sol, ws)).1.ux l = sol.ux l ∧
      (restoreStage arg qp fix g Dr sr k (sol, ws)).1.pi l = sol.pi l ∧
      (restoreStage arg qp fix g Dr sr k (sol, ws)).1.lam l = sol.lam l ∧
      (restoreStage arg qp fix g Dr sr k (sol, ws)).1.t l = sol.t l := by
  obtain ⟨a1, a2, a3⟩ := ha
  obtain ⟨z1, z2, z3⟩ := red_sizes qp hq Dr hd k hk
  have hng := hd.ng k hk
  have hpi : k < qp.dim.N → ∀ i, i < qp.dim.nx (k + 1) →
      (if k < qp.dim.N then upd sol.pi k (veccp (qp.dim.nx (k + 1)) (sr.pi k) 0 (sol.pi k) 0) else sol.pi) k i = sr.pi k i := by
    intro hN i hi
    rw [if_pos hN, upd_same, veccp_in (by omega)]; simp
  have hpil : ∀ l, l ≠ k →
      (if k < qp.dim.N then upd sol.pi k (veccp (qp.dim.nx (k + 1)) (sr.pi k) 0 (sol.pi k) 0) else sol.pi) l = sol.pi l := by
    intro l hl
    split
    · rw [upd_ne _ _ hl]
    · rfl
  simp only [restoreStage, a1, a2, a3, if_true]
  by_cases hn : neThr qp.dim k > 0
  · simp only [if_pos hn]
    obtain ⟨m1, m2⟩ := redMaskSol_val qp k ws
    set w := redMaskSol qp k ws with hw
    have hu := unsqVec_val (qp.dim.nu k + qp.dim.nx k) w.imux (sr.ux k) (sol.ux k) (Kept qp k) m1
    set u0 := unsqVec (qp.dim.nu k + qp.dim.nx k) w.imux (sr.ux k) (sol.ux k) with hu0
    obtain ⟨hf1, hf2⟩ := fix_loop qp hq (fix k) u0 k hk
    set u1 := loop (neThr qp.dim k) (fun jj u => upd u (qp.idxb k (qp.idxe k jj)) (fix k (qp.idxe k jj))) u0 with hu1
    set u2 := veccp (2 * qp.dim.ns k) (sr.ux k) (Dr.nu k + Dr.nx k) u1 (qp.dim.nu k + qp.dim.nx k) with hu2
    obtain ⟨hl1, hl2⟩ := unredCon_ok hq hd hk w.imd m2 arg.lam_min (sr.lam k) (sol.lam k)
    obtain ⟨ht1, ht2⟩ := unredCon_ok hq hd hk w.imd m2 arg.t_min (sr.t k) (sol.t k)
    set l0 := unredCon qp.dim Dr k w.imd arg.lam_min (sr.lam k) (sol.lam k) with hl0
    have hg := redGradLag_val qp hwf k hk (g k) u2 (sr.pi k) l0 w
    set gl := redGradLag qp k (g k) u2 (sr.pi k) l0 w with hgl
    obtain ⟨hx1, hx2⟩ := redLamFix_val (qp.dim.nb k) (qp.dim.nb k + qp.dim.ng k) w.imd (qp.idxb k) gl.1 l0 (by omega)
    set l1 := redLamFix (qp.dim.nb k) (qp.dim.nb k + qp.dim.ng k) w.imd (qp.idxb k) gl.1 l0 with hl1'
    have hne : ∀ j, j < qp.dim.nb k → w.imd j ≠ 0 → ¬ KeptBox qp k j := fun j hj h hkj => h ((m2 j hj).mpr hkj)
    have hsame : ∀ j, j < qp.dim.nb k → KeptBox qp k j → l1 j = l0 j ∧
        l1 (qp.dim.nb k + qp.dim.ng k + j) = l0 (qp.dim.nb k + qp.dim.ng k + j) := by
      intro j hj hkj
      refine ⟨hx2 _ (fun i hi hmi => ⟨fun h => ?_, by omega⟩), hx2 _ (fun i hi hmi => ⟨by omega, fun h => ?_⟩)⟩
      · subst h; exact hne j hj hmi hkj
      · have : j = i := by omega
        subst this; exact hne j hj hmi hkj
    have hsameg : ∀ j, qp.dim.nb k ≤ j → j < qp.dim.nb k + qp.dim.ng k → l1 j = l0 j ∧
        l1 (qp.dim.nb k + qp.dim.ng k + j) = l0 (qp.dim.nb k + qp.dim.ng k + j) :=
      fun j hj hj2 => ⟨hx2 _ (fun i hi hmi => by omega), hx2 _ (fun i hi hmi => by omega)⟩
    have hsames : ∀ j, 2 * (qp.dim.nb k + qp.dim.ng k) ≤ j → l1 j = l0 j :=
      fun j hj => hx2 _ (fun i hi hmi => by omega)
    refine ⟨⟨fun j hj hkj => ?_, fun e he => ?_, fun s hs => ?_, hpi, ?_, ?_, fun j hj hkj => ?_, fun j hj hkj => ?_⟩,
      fun l hl => ⟨upd_ne _ _ hl, hpil l hl, upd_ne _ _ hl, upd_ne _ _ hl⟩⟩
    · dsimp only; rw [upd_same, hu2, veccp_out (by omega), hf2 j hkj]; exact hu j hj hkj
    · have := removed_lt qp hq k e hk he
      dsimp only; rw [upd_same, hu2, veccp_out (by omega), hf1 e he]
    · dsimp only; rw [upd_same, hu2, veccp_in (by omega)]; congr 1; omega
    · dsimp only; rw [upd_same]
      refine ⟨fun j hj hkj => ?_, fun j hj hkj => ?_, fun j hj => ?_, fun j hj => ?_, fun s hs => ?_⟩
      · rw [(hsame j hj hkj).1]; exact hl1.lo j hj hkj
      · rw [(hsame j hj hkj).2]; exact hl1.up j hj hkj
      · rw [(hsameg _ (by omega) (by omega)).1]; exact hl1.glo j hj
      · rw [(hsameg _ (by omega) (by omega)).2]; exact hl1.gup j hj
      · rw [hsames _ (by omega)]; exact hl1.sl s hs
    · dsimp only; rw [upd_same]; exact ht1
    · dsimp only; rw [upd_same]; exact ht2 j hj hkj
    · have hmj : w.imd j ≠ 0 := fun h => hkj ((m2 j hj).mp h)
      obtain ⟨x1, x2⟩ := hx1 j hj hmj
      obtain ⟨y1, y2⟩ := hl2 j hj hkj
      have hgj := hg (qp.idxb k j) (hwf.1 k j hk hj)
      have ec : cvalT qp k (fun i => l0 (qp.dim.nb k + qp.dim.ng k + i) - l0 i) (qp.idxb k j) =
          cvalT qp k (fun i => if i < qp.dim.nb k ∧ ¬ KeptBox qp k i then 0
            else l1 (qp.dim.nb k + qp.dim.ng k + i) - l1 i) (qp.idxb k j) := by
        apply red_cvalT_congr
        intro i hi
        by_cases hc : i < qp.dim.nb k ∧ ¬ KeptBox qp k i
        · simp only [if_pos hc]
          obtain ⟨p1, p2⟩ := hl2 i hc.1 hc.2
          rw [p1, p2, sub_self]
        · simp only [if_neg hc]
          by_cases hib : i < qp.dim.nb k
          · have hkk : KeptBox qp k i := by by_contra hh; exact hc ⟨hib, hh⟩
            obtain ⟨q1, q2⟩ := hsame i hib hkk
            rw [q1, q2]
          · obtain ⟨q1, q2⟩ := hsameg i (by omega) hi
            rw [q1, q2]
      have ep : (if k < qp.dim.N then ∑ i ∈ range (qp.dim.nx (k + 1)), qp.BAbt k (qp.idxb k j) i * sr.pi k i else 0) =
          (if k < qp.dim.N then ∑ i ∈ range (qp.dim.nx (k + 1)), qp.BAbt k (qp.idxb k j) i *
            (if k < qp.dim.N then upd sol.pi k (veccp (qp.dim.nx (k + 1)) (sr.pi k) 0 (sol.pi k) 0) else sol.pi) k i else 0) := by
        by_cases hN : k < qp.dim.N
        · simp only [if_pos hN]
          refine sum_congr rfl (fun i hi => ?_)
          have := hpi hN i (mem_range.mp hi)
          simp only [if_pos hN] at this
          rw [this]
        · simp only [if_neg hN]
      simp only [upd_same]
      rw [ec, ep] at hgj
      rw [← hgj]
      refine ⟨fun h => ?_, fun h => ?_⟩
      · rw [x1, x2, if_pos h, if_pos h, y2]; exact ⟨rfl, rfl⟩
      · rw [x1, x2, if_neg (not_le.mpr h), if_neg (not_le.mpr h), y1]; exact ⟨rfl, rfl⟩
  · simp only [if_neg hn]
    have hn0 : neThr qp.dim k = 0 := by omega
    obtain ⟨-, hkb, hp, hb⟩ := kept_triv qp k hn0
    rw [hp] at z2
    rw [hb] at z3
    have hcp : ∀ x y : Vec K, ConOk qp Dr k (veccp (nct qp.dim k) x 0 y 0) x := by
      intro x y
      refine ⟨fun j hj hkj => ?_, fun j hj hkj => ?_, fun j hj => ?_, fun j hj => ?_, fun s hs => ?_⟩ <;>
        (try rw [hb]) <;> rw [veccp_in (by unfold nct; omega)] <;> congr 1 <;> omega
    refine ⟨⟨fun j hj hkj => ?_, fun e he => by omega, fun s hs => ?_, hpi, ?_, ?_, fun j hj hkj => absurd (hkb j) hkj,
      fun j hj hkj => absurd (hkb j) hkj⟩, fun l hl => ⟨upd_ne _ _ hl, hpil l hl, upd_ne _ _ hl, upd_ne _ _ hl⟩⟩
    · dsimp only; rw [upd_same, hp, veccp_in (by unfold nvt; omega)]; simp
    · dsimp only; rw [upd_same, veccp_in (by unfold nvt; omega)]; congr 1; omega
    · dsimp only; rw [upd_same]; exact hcp _ _
    · dsimp only; rw [upd_same]; exact hcp _ _

theorem RestOk.congr {arg : RedArg K} {qp : OcpQp K} {fix g : ℕ → Vec K} {Dr : QpDim} {sr s s' : Sol K} {k : ℕ}
    (h : RestOk arg qp fix g Dr sr s k) (h1 : s'.ux k = s.ux k) (h2 : s'.pi k = s.pi k) (h3 : s'.lam k = s.lam k)
    (h4 : s'.t k = s.t k) : RestOk arg qp fix g Dr sr s' k := by
  refine ⟨?_, ?_, ?_, ?_, ?_, ?_, ?_, ?_⟩
  · rw [h1]; exact h.var
  · rw [h1]; exact h.fixed
  · rw [h1]; exact h.slack
  · rw [h2]; exact h.pi
  · rw [h3]; exact h.lam
  · rw [h4]; exact h.t
  · rw [h4]; exact h.tfix
  · rw [h1, h2, h3]; exact h.lamfix

theorem restore_loop {qp : OcpQp K} (hq : EqOk qp) (hwf : qp.WF) (arg : RedArg K) (ha : arg.All) (fix g : ℕ → Vec K)
    (Dr : QpDim) (hd : RedDim qp.dim Dr) (sr sol : Sol K) (ws : RedWs K) :
    ∀ k, k ≤ qp.dim.N → RestOk arg qp fix g Dr sr (loop (qp.dim.N + 1) (restoreStage arg qp fix g Dr sr) (sol, ws)).1 k := by
  have h := loop_inv (fun n (s : Sol K × RedWs K) => ∀ k, k < n → RestOk arg qp fix g Dr sr s.1 k) (qp.dim.N + 1)
    (restoreStage arg qp fix g Dr sr) (sol, ws) (fun k hk => by omega) ?_
  · exact fun k hk => h k (by omega)
  · rintro k ⟨s, w⟩ hk ih l hl
    obtain ⟨a, b⟩ := restoreStage_ok hq hwf arg ha fix g Dr hd sr s w k (by omega)
    by_cases hlk : l = k
    · subst hlk; exact a
    · obtain ⟨b1, b2, b3, b4⟩ := b l hlk
      exact (ih l (by omega)).congr b1 b2 b3 b4

end
end Hpipm
