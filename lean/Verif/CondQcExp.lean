/-
C103: expansion of the solution of a condensed QCQP, COND_QCQP_EXPAND_SOL, cond/x_cond_qcqp.c:949-1035.
-/
import Verif.CondQcEx
import Verif.CondExpand

namespace Hpipm
open Finset
set_option linter.unusedSectionVars false

section
variable {K : Type*} [Field K]

/-- linearised constraints of a stage, x_cond_qcqp.c:1007-1015; state (tmp_DCt, tmp_nuxM) -/
def condQcLin (Q : Qcqp K) (ux : ℕ → Vec K) (ii : ℕ) (s : (ℕ → Mat K) × Vec K) : (ℕ → Mat K) × Vec K :=
  let D := Q.base.dim
  let nv := D.nu ii + D.nx ii
  loop (Q.nq ii) (fun jj s =>
    let tx := symv_l nv 1 (Q.Hq ii jj) 0 0 (ux ii) 0 0 s.2 0 s.2 0
    (upd s.1 ii (qcColad nv 1 tx 0 (s.1 ii) 0 (D.ng ii + jj)), tx))
    (upd s.1 ii (gecp nv (D.ng ii + Q.nq ii) (Q.base.DCt ii) 0 0 (s.1 ii) 0 0), s.2)

/-- COND_QCQP_EXPAND_SOL, x_cond_qcqp.c:949-1035; `f % 2` is `1 & f`.  `Dt` and `tx` are the contents of the work space. -/
def condQcExp (Q : Qcqp K) (arg : CondArg) (ws : CondWs K) (Dt : ℕ → Mat K) (tx : Vec K) (ds : DSol K) (sol : Sol K) : CondWs K × Sol K :=
  let r := expandSol Q.inner { arg with comp_prim_sol := arg.comp_prim_sol % 2, comp_dual_sol_eq := 0, comp_dual_sol_ineq := arg.comp_dual_sol_ineq % 2 } ws ds sol
  let s := loop (Q.base.dim.N + 1) (condQcLin Q r.2.ux) (Dt, tx)
  expandSol { Q.inner with DCt := s.1 } { arg with comp_prim_sol := 0, comp_dual_sol_eq := arg.comp_dual_sol_eq % 2, comp_dual_sol_ineq := 0 } r.1 ds r.2

end

section
variable {K : Type*} [Field K] [LinearOrder K] [IsStrictOrderedRing K]

/-- one stage: the linear constraints, and the quadratic ones linearised; the other stages stay -/
theorem condQcLin_val (Q : Qcqp K) (ux : ℕ → Vec K) (ii : ℕ) (s : (ℕ → Mat K) × Vec K) :
    (∀ i c, i < Q.base.dim.nu ii + Q.base.dim.nx ii → c < Q.base.dim.ng ii + Q.nq ii → (condQcLin Q ux ii s).1 ii i c = (linQp Q ux).DCt ii i c) ∧
    ∀ k, k ≠ ii → (condQcLin Q ux ii s).1 k = s.1 k := by
  unfold condQcLin
  dsimp only
  set f := fun (jj : ℕ) (s : (ℕ → Mat K) × Vec K) =>
    (upd s.1 ii (qcColad (Q.base.dim.nu ii + Q.base.dim.nx ii) 1 (symv_l (Q.base.dim.nu ii + Q.base.dim.nx ii) 1 (Q.Hq ii jj) 0 0 (ux ii) 0 0 s.2 0 s.2 0) 0
      (s.1 ii) 0 (Q.base.dim.ng ii + jj)), symv_l (Q.base.dim.nu ii + Q.base.dim.nx ii) 1 (Q.Hq ii jj) 0 0 (ux ii) 0 0 s.2 0 s.2 0) with hf
  have A := loop_inv (fun n (z : (ℕ → Mat K) × Vec K) =>
      (∀ i c, i < Q.base.dim.nu ii + Q.base.dim.nx ii → c < Q.base.dim.ng ii + Q.nq ii →
        z.1 ii i c = if c < Q.base.dim.ng ii + n then (linQp Q ux).DCt ii i c else Q.base.DCt ii i c) ∧ ∀ k, k ≠ ii → z.1 k = s.1 k)
    (Q.nq ii) f (upd s.1 ii (gecp (Q.base.dim.nu ii + Q.base.dim.nx ii) (Q.base.dim.ng ii + Q.nq ii) (Q.base.DCt ii) 0 0 (s.1 ii) 0 0), s.2) ?_ ?_
  · refine ⟨fun i c hi hc => ?_, A.2⟩
    rw [A.1 i c hi hc, if_pos hc]
  · refine ⟨fun i c hi hc => ?_, fun k hk => upd_ne _ _ hk⟩
    dsimp only
    rw [upd_same]
    unfold gecp
    rw [if_pos (by omega), Nat.sub_zero, Nat.sub_zero, Nat.zero_add, Nat.zero_add]
    unfold linQp
    dsimp only
    split_ifs with h1 h2 <;> first | rfl | omega
  · rintro n z hn ⟨I1, I2⟩
    refine ⟨fun i c hi hc => ?_, fun k hk => ?_⟩
    · rw [hf]
      dsimp only
      rw [upd_same]
      unfold qcColad
      by_cases e : c = Q.base.dim.ng ii + n
      · subst e
        rw [if_pos ⟨rfl, by omega, by omega⟩, if_pos (by omega), I1 i _ hi hc, if_neg (by omega), symv_l_in (by omega)]
        unfold linQp hqMul
        dsimp only
        rw [if_neg (by omega), show Q.base.dim.ng ii + n - Q.base.dim.ng ii = n by omega]
        simp only [Nat.sub_zero, zero_add, zero_mul, one_mul]
      · rw [if_neg (fun h => e h.1), I1 i c hi hc]
        by_cases h : c < Q.base.dim.ng ii + n
        · rw [if_pos h, if_pos (by omega)]
        · rw [if_neg h, if_neg (by omega)]
    · rw [hf]
      dsimp only
      rw [upd_ne _ _ hk]
      exact I2 k hk

theorem condQcLin_all (Q : Qcqp K) (ux : ℕ → Vec K) (s : (ℕ → Mat K) × Vec K) (k i c : ℕ) (hk : k ≤ Q.base.dim.N)
    (hi : i < Q.base.dim.nu k + Q.base.dim.nx k) (hc : c < Q.base.dim.ng k + Q.nq k) :
    (loop (Q.base.dim.N + 1) (condQcLin Q ux) s).1 k i c = (linQp Q ux).DCt k i c := by
  have A := loop_inv (fun n (z : (ℕ → Mat K) × Vec K) => k < n → z.1 k i c = (linQp Q ux).DCt k i c) (Q.base.dim.N + 1) (condQcLin Q ux) s
    (fun h => by omega) (fun n z hn I h => by
      by_cases e : k = n
      · subst e; exact (condQcLin_val Q ux k z).1 i c hi hc
      · rw [(condQcLin_val Q ux n z).2 k e]; exact I (by omega))
  exact A (by omega)

/-- the two passes are one expansion with the constraints linearised at the point of the first pass -/
theorem condQcExp_eq (Q : Qcqp K) (arg : CondArg) (ws : CondWs K) (Dt : ℕ → Mat K) (tx : Vec K) (ds : DSol K) (sol : Sol K)
    (hp : arg.comp_prim_sol % 2 ≠ 0) (he : arg.comp_dual_sol_eq % 2 ≠ 0) (hi : arg.comp_dual_sol_ineq % 2 ≠ 0) :
    (condQcExp Q arg ws Dt tx ds sol).2 =
      (expandSol { Q.inner with DCt := (loop (Q.base.dim.N + 1) (condQcLin Q (condQcExp Q arg ws Dt tx ds sol).2.ux) (Dt, tx)).1 } arg ws ds sol).2 := by
  have hp' : arg.comp_prim_sol ≠ 0 := fun h => hp (by rw [h]; rfl)
  have he' : arg.comp_dual_sol_eq ≠ 0 := fun h => he (by rw [h]; rfl)
  have hi' : arg.comp_dual_sol_ineq ≠ 0 := fun h => hi (by rw [h]; rfl)
  have hu : (condQcExp Q arg ws Dt tx ds sol).2.ux =
      (expandSol Q.inner { arg with comp_prim_sol := arg.comp_prim_sol % 2, comp_dual_sol_eq := 0, comp_dual_sol_ineq := arg.comp_dual_sol_ineq % 2 } ws ds sol).2.ux := by
    unfold condQcExp expandSol
    dsimp only
    simp only [hp, he, hi, ne_eq, not_true_eq_false, not_false_eq_true, if_true, if_false]
    split_ifs <;> rfl
  rw [hu]
  unfold condQcExp expandSol
  dsimp only
  simp only [hp, he, hi, hp', he', hi', ne_eq, not_true_eq_false, not_false_eq_true, if_true, if_false]
  split_ifs <;> rfl

/-- **what the expansion writes** -/
theorem condQcExp_val (Q : Qcqp K) (arg : CondArg) (ws : CondWs K) (Dt : ℕ → Mat K) (tx : Vec K) (ds : DSol K) (sol : Sol K) (N : ℕ)
    (htop : condTop Q.base.dim.N arg = some N) (hp : arg.comp_prim_sol % 2 ≠ 0) (he : arg.comp_dual_sol_eq % 2 ≠ 0) (hi : arg.comp_dual_sol_ineq % 2 ≠ 0) :
    Expanded { Q.inner with DCt := (loop (Q.base.dim.N + 1) (condQcLin Q (condQcExp Q arg ws Dt tx ds sol).2.ux) (Dt, tx)).1 } N arg.cond_last_stage ds sol
      (condQcExp Q arg ws Dt tx ds sol).2 := by
  have e := condQcExp_eq Q arg ws Dt tx ds sol hp he hi
  generalize (condQcExp Q arg ws Dt tx ds sol).2 = r at e ⊢
  have V := expandSol_val { Q.inner with DCt := (loop (Q.base.dim.N + 1) (condQcLin Q r.ux) (Dt, tx)).1 } arg ws ds sol N htop
    (fun h => hp (by rw [h]; rfl)) (fun h => he (by rw [h]; rfl)) (fun h => hi (by rw [h]; rfl))
  rw [← e] at V
  exact V

variable (Q : Qcqp K) (arg : CondArg) (ws : CondWs K) (Dt : ℕ → Mat K) (tx : Vec K) (ds : DSol K) (sol : Sol K)

/-- **C103 (point).**  The expanded point is the trajectory of the user's dynamics for the inputs and the first state in `ds.v`, with the slacks of
`ds.v`; multipliers and slacks of the inequalities are those of the dense solution, at the positions of the condensed problem. -/
theorem condQcExp_point (hc : arg.cond_last_stage = true) (hp : arg.comp_prim_sol % 2 ≠ 0) (he : arg.comp_dual_sol_eq % 2 ≠ 0)
    (hi : arg.comp_dual_sol_ineq % 2 ≠ 0) (k j : ℕ) (hk : k ≤ Q.base.dim.N) :
    (j < nvt Q.inner.dim k → (condQcExp Q arg ws Dt tx ds sol).2.ux k j = stageOf Q.inner Q.base.dim.N ds.v k j) ∧
    (j < nct Q.inner.dim k → (condQcExp Q arg ws Dt tx ds sol).2.lam k j = ds.lam (ineqPos Q.inner Q.base.dim.N k j) ∧
      (condQcExp Q arg ws Dt tx ds sol).2.t k j = ds.t (ineqPos Q.inner Q.base.dim.N k j)) := by
  have V := condQcExp_val Q arg ws Dt tx ds sol Q.base.dim.N (by unfold condTop; rw [if_pos hc]) hp he hi
  refine ⟨fun h => ?_, fun h => ⟨?_, ?_⟩⟩
  · have a := V.ux k j hk h
    have e : ∀ (M : ℕ → Mat K), stageOf { Q.inner with DCt := M } Q.base.dim.N ds.v k j = stageOf Q.inner Q.base.dim.N ds.v k j := by
      intro M
      have r : ∀ k, roll { Q.inner with DCt := M } Q.base.dim.N ds.v k = roll Q.inner Q.base.dim.N ds.v k := by
        intro k
        induction k with
        | zero => rfl
        | succ k ih => funext i; unfold roll; rw [ih]
      unfold stageOf
      rw [r k]
    rw [a, e]
  · exact V.lam k j hk h
  · exact V.t k j hk h

/-- **C103 (dynamics).**  The expanded point satisfies the user's dynamics. -/
theorem condQcExp_dynamics (hc : arg.cond_last_stage = true) (hp : arg.comp_prim_sol % 2 ≠ 0) (he : arg.comp_dual_sol_eq % 2 ≠ 0)
    (hi : arg.comp_dual_sol_ineq % 2 ≠ 0) (k i : ℕ) (hk : k < Q.base.dim.N) (hx : i < Q.base.dim.nx (k + 1)) :
    (qview Q).base.dynDefect (ptOf Q.inner.dim (condQcExp Q arg ws Dt tx ds sol).2.ux) k i = 0 := by
  have P := fun k j hk h => (condQcExp_point Q arg ws Dt tx ds sol hc hp he hi k j hk).1 h
  generalize (condQcExp Q arg ws Dt tx ds sol).2 = r at P
  refine (dyn_packed Q.inner k r i hx).trans ?_
  unfold vB
  have ex : r.ux (k + 1) (Q.inner.dim.nu (k + 1) + i) = roll Q.inner Q.base.dim.N ds.v (k + 1) i := by
    rw [P (k + 1) (Q.inner.dim.nu (k + 1) + i) (by omega)
      (show Q.base.dim.nu (k + 1) + i < Q.base.dim.nu (k + 1) + Q.base.dim.nx (k + 1) + 2 * Q.base.dim.ns (k + 1) by omega)]
    unfold stageOf
    rw [if_neg (by omega), if_pos (show Q.inner.dim.nu (k + 1) + i < Q.inner.dim.nu (k + 1) + Q.inner.dim.nx (k + 1) from by
      show Q.base.dim.nu (k + 1) + i < Q.base.dim.nu (k + 1) + Q.base.dim.nx (k + 1); omega), Nat.add_sub_cancel_left]
  rw [ex, sum_range_add]
  have e1 : ∑ j ∈ range (Q.inner.dim.nu k), Q.inner.BAbt k j i * r.ux k j
      = ∑ j ∈ range (Q.inner.dim.nu k), Q.inner.BAbt k j i * ds.v (later Q.inner.dim.nu Q.base.dim.N k + j) := by
    refine sum_congr rfl fun j hj => ?_
    have hj : j < Q.base.dim.nu k := mem_range.mp hj
    rw [P k j (by omega) (show j < Q.base.dim.nu k + Q.base.dim.nx k + 2 * Q.base.dim.ns k by omega)]
    unfold stageOf
    rw [if_pos (show j < Q.inner.dim.nu k from hj)]
  have e2 : ∑ j ∈ range (Q.inner.dim.nx k), Q.inner.BAbt k (Q.inner.dim.nu k + j) i * r.ux k (Q.inner.dim.nu k + j)
      = ∑ j ∈ range (Q.inner.dim.nx k), Q.inner.BAbt k (Q.inner.dim.nu k + j) i * roll Q.inner Q.base.dim.N ds.v k j := by
    refine sum_congr rfl fun j hj => ?_
    have hj : j < Q.base.dim.nx k := mem_range.mp hj
    rw [P k (Q.inner.dim.nu k + j) (by omega) (show Q.base.dim.nu k + j < Q.base.dim.nu k + Q.base.dim.nx k + 2 * Q.base.dim.ns k by omega)]
    unfold stageOf
    rw [if_neg (by omega), if_pos (show Q.inner.dim.nu k + j < Q.inner.dim.nu k + Q.inner.dim.nx k from by
      show Q.base.dim.nu k + j < Q.base.dim.nu k + Q.base.dim.nx k; omega), Nat.add_sub_cancel_left]
  rw [e1, e2]
  have alg : ∀ b s t : K, b - (b + s + t) + (s + t) = 0 := by intros; ring
  exact alg _ _ _

/-- **C103 (stationarity in the states).**  When the multipliers of masked sides and of lower sides of quadratic constraints are zero, the residual of
the QCQP in every state after the first is zero: the computed equality multipliers account for the curvature of the quadratic constraints. -/
theorem condQcExp_stationary (hwf : Q.WF) (hm : Mask01 Q.inner) (hc : arg.cond_last_stage = true) (hp : arg.comp_prim_sol % 2 ≠ 0)
    (he : arg.comp_dual_sol_eq % 2 ≠ 0) (hi : arg.comp_dual_sol_ineq % 2 ≠ 0)
    (hz : ∀ k j, k ≤ Q.base.dim.N → j < nct Q.inner.dim k → Q.base.d_mask k j = 0 ∨ LoQ Q k j → ds.lam (ineqPos Q.inner Q.base.dim.N k j) = 0)
    (res : Res K) (rws : QresWs K) (hws : rws.ws.Ok Q.inner) (hcc : CacheCond Q (condQcExp Q arg ws Dt tx ds sol).2 rws)
    (k i : ℕ) (h0 : 0 < k) (hk : k ≤ Q.base.dim.N) (hx : i < Q.base.dim.nx k) :
    (qresCompute Q (condQcExp Q arg ws Dt tx ds sol).2 res rws).res_g k (Q.base.dim.nu k + i) = 0 := by
  have P := fun k j hk h => (condQcExp_point Q arg ws Dt tx ds sol hc hp he hi k j hk).2 h
  have V := condQcExp_val Q arg ws Dt tx ds sol Q.base.dim.N (by unfold condTop; rw [if_pos hc]) hp he hi
  generalize (condQcExp Q arg ws Dt tx ds sol).2 = r at P V hcc ⊢
  rw [((qresCompute_val Q hwf r res rws hws hcc).1 k hk).g _
    (show Q.base.dim.nu k + i < Q.base.dim.nu k + Q.base.dim.nx k + 2 * Q.base.dim.ns k by omega)]
  have hlam : ∀ j, j < nct Q.inner.dim k → lamM (linQp Q r.ux) r k j = r.lam k j := by
    intro j hj
    show (if LoQ Q k j then 0 else Q.base.d_mask k j) * r.lam k j = _
    split_ifs with hl
    · rw [(P k j hk hj).1, hz k j hk hj (Or.inr hl), mul_zero]
    · rcases hm k j hk hj with h | h
      · rw [(P k j hk hj).1, hz k j hk hj (Or.inl h), mul_zero]
      · rw [show Q.base.d_mask k j = 1 from h, one_mul]
  have hpi : r.pi (k - 1) i = xGrad { Q.inner with DCt := (loop (Q.base.dim.N + 1) (condQcLin Q r.ux) (Dt, tx)).1 } r.ux r.pi r.lam (decide (k < Q.base.dim.N)) k i := by
    by_cases h : k < Q.base.dim.N
    · have a := V.pi (k - 1) i (show k - 1 + 1 < Q.base.dim.N by omega) (by rw [show k - 1 + 1 = k by omega]; exact hx)
      rw [show k - 1 + 1 = k by omega] at a
      rw [a, decide_eq_true h]
    · obtain rfl : k = Q.base.dim.N := by omega
      have a := V.last h0 i hx
      rw [if_neg (by rw [hc]; simp)] at a
      rw [decide_eq_false h]
      exact a
  unfold vG
  dsimp only
  rw [if_pos (show Q.base.dim.nu k + i < (linQp Q r.ux).dim.nu k + (linQp Q r.ux).dim.nx k from by
      show Q.base.dim.nu k + i < Q.base.dim.nu k + Q.base.dim.nx k; omega),
    if_pos (show 0 < k ∧ (linQp Q r.ux).dim.nu k ≤ Q.base.dim.nu k + i from ⟨h0, Nat.le_add_right _ _⟩),
    show Q.base.dim.nu k + i - (linQp Q r.ux).dim.nu k = i from Nat.add_sub_cancel_left _ _, hpi]
  unfold xGrad
  have c : cvalT (linQp Q r.ux) k (fun j => lamM (linQp Q r.ux) r k ((linQp Q r.ux).dim.nb k + (linQp Q r.ux).dim.ng k + j) - lamM (linQp Q r.ux) r k j)
        (Q.base.dim.nu k + i)
      = cvalT { Q.inner with DCt := (loop (Q.base.dim.N + 1) (condQcLin Q r.ux) (Dt, tx)).1 } k
        (fun j => r.lam k (Q.inner.dim.nb k + Q.inner.dim.ng k + j) - r.lam k j) (Q.base.dim.nu k + i) := by
    rw [cvalT_congr (linQp Q r.ux) k _ (fun j => r.lam k (Q.inner.dim.nb k + Q.inner.dim.ng k + j) - r.lam k j) _ (fun j hj => by
      have hj : j < Q.base.dim.nb k + (Q.base.dim.ng k + Q.nq k) := hj
      rw [hlam ((linQp Q r.ux).dim.nb k + (linQp Q r.ux).dim.ng k + j) (show Q.base.dim.nb k + (Q.base.dim.ng k + Q.nq k) + j < 2 * Q.base.dim.nb k + 2 * (Q.base.dim.ng k + Q.nq k) + 2 * Q.base.dim.ns k by omega),
        hlam _ (show j < 2 * Q.base.dim.nb k + 2 * (Q.base.dim.ng k + Q.nq k) + 2 * Q.base.dim.ns k by omega)]
      rfl)]
    unfold cvalT
    refine congrArg₂ (· + ·) rfl (sum_congr rfl fun j hj => ?_)
    have hj : j < Q.base.dim.ng k + Q.nq k := mem_range.mp hj
    dsimp only
    rw [condQcLin_all Q r.ux (Dt, tx) k _ j hk (by omega) hj]
    rfl
  rw [c]
  have alg : ∀ a b c d : K, a + b - (a + b + c + d) + c + d = 0 := by intros; ring
  by_cases h : k < Q.base.dim.N
  · rw [if_pos (show k < (linQp Q r.ux).dim.N from h), if_pos (decide_eq_true h)]
    exact alg _ _ _ _
  · rw [if_neg (show ¬ k < (linQp Q r.ux).dim.N from h), if_neg (by rw [decide_eq_false h]; simp)]
    exact alg _ _ _ 0

/-- a flag with an even nonzero value counts as not set: nothing of the point is written -/
theorem condQcExp_even (h : arg.comp_prim_sol % 2 = 0) : (condQcExp Q arg ws Dt tx ds sol).2.ux = sol.ux := by
  unfold condQcExp expandSol
  dsimp only
  simp only [h, ne_eq, not_true_eq_false, if_true, if_false]
  split_ifs <;> rfl

/-- with one stage the Hessians are copied and nothing else is written: not the nonzero flags of the target -/
theorem condQc_one_stage (nz : ℕ → ℕ → ℕ) (G : ℕ → Mat K) (g : ℕ → Vec K) (s : QcSt K) :
    (∀ j i l, j < Q.nq 0 → i < Q.base.dim.nu 0 + Q.base.dim.nx 0 → l < Q.base.dim.nu 0 + Q.base.dim.nx 0 → (condQc Q nz G g 0 s).Hq2 j i l = s.Hq 0 j i l) ∧
    (∀ j, Q.nq 0 ≤ j → (condQc Q nz G g 0 s).Hq2 j = s.Hq2 j) ∧
    (condQc Q nz G g 0 s).nz2 = s.nz2 ∧ (condQc Q nz G g 0 s).Ct2 = s.Ct2 ∧ (condQc Q nz G g 0 s).d2 = s.d2 ∧ (condQc Q nz G g 0 s).Hq = s.Hq := by
  unfold condQc
  dsimp only
  rw [if_pos rfl]
  set f := fun (jj : ℕ) (H : ℕ → Mat K) => upd H jj (gecp (Q.base.dim.nu 0 + Q.base.dim.nx 0) (Q.base.dim.nu 0 + Q.base.dim.nx 0) (s.Hq 0 jj) 0 0 (H jj) 0 0) with hf
  have A := loop_inv (fun n (H : ℕ → Mat K) =>
      (∀ j i l, j < n → i < Q.base.dim.nu 0 + Q.base.dim.nx 0 → l < Q.base.dim.nu 0 + Q.base.dim.nx 0 → H j i l = s.Hq 0 j i l) ∧ ∀ j, n ≤ j → H j = s.Hq2 j)
    (Q.nq 0) f s.Hq2 ⟨fun j i l h => by omega, fun j _ => rfl⟩ (fun n H hn ⟨I1, I2⟩ => by
      refine ⟨fun j i l hj hi hl => ?_, fun j hj => ?_⟩
      · rw [hf]
        dsimp only
        by_cases e : j = n
        · subst e
          rw [upd_same]
          unfold gecp
          rw [if_pos (by omega), Nat.sub_zero, Nat.sub_zero, Nat.zero_add, Nat.zero_add]
        · rw [upd_ne _ _ e]; exact I1 j i l (by omega) hi hl
      · rw [hf]
        dsimp only
        rw [upd_ne _ _ (by omega)]
        exact I2 j (by omega))
  exact ⟨A.1, A.2, rfl, rfl, rfl, rfl⟩

/-- value of a quadratic constraint: only inputs and states of the stage matter -/
theorem qvalue_stage (k j : ℕ) (v w : ℕ → Vec K) (h : ∀ i, i < Q.base.dim.nu k + Q.base.dim.nx k → v k i = w k i) :
    (qview Q).qvalue (ptOf Q.inner.dim v) k j = (qview Q).qvalue (ptOf Q.inner.dim w) k j := by
  rw [qvalue_packed, qvalue_packed]
  have hq : ∀ i, hqMul Q k j (v k) i = hqMul Q k j (w k) i := fun i => by
    unfold hqMul
    exact sum_congr rfl fun l hl => by rw [h l (mem_range.mp hl)]
  unfold qVal qForm
  congr 1
  · congr 1
    exact sum_congr rfl fun i hi => by rw [hq i, h i (mem_range.mp hi)]
  · exact sum_congr rfl fun i hi => by rw [h i (mem_range.mp hi)]

/-- **C103 (quadratic constraints).**  Condense, take any dense point, expand it: a quadratic constraint of a stage after the first, under the
conditions of `condQcqp_exact`, is satisfied or violated at the expanded point by the amount by which the dense point satisfies or violates the
condensed one.  `ws'` is the work space at the time of the expansion. -/
theorem condQcExp_exact (sq : K → K) (nz : ℕ → ℕ → ℕ) (hsq : arg.square_root_alg ≠ 0 → ∀ x, 0 < x → sq x * sq x = x)
    (ws' : CondWs K) (tg : CondTgt K) (k j : ℕ) (s : QcSt K) (hc : arg.cond_last_stage = true) (halg : AlgOk arg Q.inner Q.base.dim.N)
    (hr : RangeOk Q.inner Q.base.dim.N) (hrev : RevFree Q.inner Q.base.dim.N tg) (hsplit : SplitBox Q.inner)
    (hk0 : 0 < k) (hk : k ≤ Q.base.dim.N) (hj : j < Q.nq k)
    (hf : QcFlags (Q.Hq k j) (Q.base.dim.nu k) (Q.base.dim.nx k) (nz k j))
    (hlr : ∀ i, i < Q.base.dim.nu k → (qview Q).rq k j i = 0) (hlq : ∀ i, i < Q.base.dim.nx k → (qview Q).qq k j i = 0)
    (hS : ∀ i, i < Q.base.dim.nu k → ∑ l ∈ range (Q.base.dim.nx k), (qview Q).Sq k j i l * roll Q.inner Q.base.dim.N (fun _ => 0) k l = 0)
    (hng : ∀ l, l < k → Q.base.dim.ng l = 0)
    (hp : arg.comp_prim_sol % 2 ≠ 0) (he : arg.comp_dual_sol_eq % 2 ≠ 0) (hi : arg.comp_dual_sol_ineq % 2 ≠ 0) :
    let t := (condQcqpCond sq Q nz arg ws tg s).2.2
    let q := later Q.nq Q.base.dim.N k + j
    (qview Q).uq k j - (qview Q).qvalue (ptOf Q.inner.dim (condQcExp Q arg ws' Dt tx ds sol).2.ux) k j
      = - t.d2 (2 * qcNbc Q.base.dim Q.base.dim.N + 2 * qcNgc Q.base.dim Q.base.dim.N + qcNqc Q.nq Q.base.dim.N + q)
        - condQcForm Q.base.dim Q.base.dim.N t q ds.v := by
  intro t q
  rw [qvalue_stage Q k j _ (stageOf Q.inner Q.base.dim.N ds.v) (fun i h =>
    (condQcExp_point Q arg ws' Dt tx ds sol hc hp he hi k i hk).1 (show i < Q.base.dim.nu k + Q.base.dim.nx k + 2 * Q.base.dim.ns k by omega))]
  exact condQcqp_exact sq Q nz arg hsq ws tg Q.base.dim.N k j s (by unfold condTop; rw [if_pos hc]) halg hr hrev hsplit hk0 hk hj hf hlr hlq hS hng ds.v

end

/-! ### instance -/

def exQeArg : CondArg := { exCfArg with cond_last_stage := true, comp_prim_sol := 1, comp_dual_sol_eq := 1, comp_dual_sol_ineq := 1 }
/-- the quadratic constraint of stage 1 has multiplier 3 on its upper side -/
def exQeDs : DSol ℚ := ⟨exCqV, fun _ => 7, fun i => if i = 1 then 3 else 0, fun _ => 7⟩
def exQeSol : Sol ℚ := ⟨fun _ _ => 7, fun _ _ => 7, fun _ _ => 7, fun _ _ => 7⟩
def exQeRun : Sol ℚ := (condQcExp (exCq 0 1 0 0 3 1) exQeArg exCfWs (fun _ _ _ => 7) (fun _ => 7) exQeDs exQeSol).2

/-- `x1 = 2 + 3 + 1 = 6`, `u1 = 1`; gradient of the constraint in `x1`: `3 u1 + 5 x1 = 33`; multiplier of the dynamics: `x1 + 3 * 33` -/
example : exQeRun.ux 1 0 = 1 ∧ exQeRun.ux 1 1 = 6 ∧ exQeRun.lam 1 1 = 3 ∧ exQeRun.lam 1 0 = 0 ∧ exQeRun.pi 0 0 = 6 + 3 * 33 := by
  refine ⟨?_, ?_, ?_, ?_, ?_⟩ <;> decide +kernel

theorem exQe_wf : (exCq 0 1 0 0 3 1).WF :=
  ⟨fun k j _ hj => absurd (show j < 0 from hj) (by omega), fun _ _ _ _ => Or.inl rfl⟩

/-- the hypothesis on the multipliers holds for this instance, and the state residual is zero with multiplier 3 on the quadratic constraint -/
example (res : Res ℚ) (rws : QresWs ℚ) (hws : rws.ws.Ok (exCq 0 1 0 0 3 1).inner) (hn : rws.use_q_fun = false) :
    (qresCompute (exCq 0 1 0 0 3 1) exQeRun res rws).res_g 1 1 = 0 :=
  condQcExp_stationary (exCq 0 1 0 0 3 1) exQeArg exCfWs _ _ exQeDs exQeSol exQe_wf (fun _ _ _ _ => Or.inr rfl) rfl (by decide) (by decide) (by decide)
    (fun k j hk hj h => by
      have hk : k ≤ 1 := hk
      rcases h with h | h
      · exact absurd (show (1 : ℚ) = 0 from h) (by decide)
      · obtain ⟨h1, h2⟩ := h
        obtain rfl | rfl : k = 0 ∨ k = 1 := by omega
        · exact absurd (show j < 0 from h2) (by omega)
        · have : j < 1 := h2
          obtain rfl : j = 0 := by omega
          decide +kernel)
    res rws hws (fun h => by rw [hn] at h; simp at h) 1 0 (by decide) (by decide) (by decide)

/-- the hypotheses of `condQcExp_exact` hold for an instance -/
example := condQcExp_exact (exCq 1 2 0 0 3 0) exQeArg exCfWs (fun _ _ _ => 7) (fun _ => 7) exQeDs exQeSol id exCqNz (fun h => absurd rfl h) exCfWs exCqTgt 1 1
    (exCqSt (exCq 1 2 0 0 3 0).Hq) rfl (Or.inl rfl)
    ⟨fun k j _ h => absurd h (Nat.not_lt_zero _), fun _ _ _ _ => Or.inl rfl⟩ (fun _ _ _ _ _ => rfl)
    (fun _ _ => ⟨rfl, fun j h => absurd h (Nat.not_lt_zero _)⟩) (by decide) (by decide) (by decide) (exCq_flags _ _ _ _ _)
    (fun _ _ => rfl) (fun _ _ => rfl) (by decide +kernel) (by decide +kernel) (by decide) (by decide) (by decide)

end Hpipm
