/-
C105: condensing of a solution block by block, PART_COND_QP_COND_SOL, cond/x_part_cond.c:703-780, against PART_COND_QP_EXPAND_SOL.
-/
import Verif.CondSol
import Verif.CondExpRun

namespace Hpipm
open Finset
set_option linter.unusedSectionVars false

section
variable {K : Type*} [Field K] [LinearOrder K] [IsStrictOrderedRing K]

/-- the dense solution aliased to stage `ii` of the partially condensed solution, x_part_cond.c:760-763 -/
def blkDSol (s : Sol K) (ii : ℕ) : DSol K := ⟨s.ux ii, s.pi ii, s.lam ii, s.t ii⟩

/-- writes through the alias -/
def putDSol (s : Sol K) (ii : ℕ) (r : DSol K) : Sol K := ⟨upd s.ux ii r.v, upd s.pi ii r.pi, upd s.lam ii r.lam, upd s.t ii r.t⟩

/-- body of the loop of PART_COND_QP_COND_SOL, x_part_cond.c:724-769; state (part_dense_qp_sol, N_tmp) -/
def partSolStep (P : OcpQp K) (sol : Sol K) (args : ℕ → CondArg) (bs : ℕ → ℕ) (ii : ℕ) (s : Sol K × ℕ) : Sol K × ℕ :=
  (putDSol s.1 ii (condSolFwd (blockQp P s.2 (bs ii)) (args ii) (shiftSol sol s.2) (blkDSol s.1 ii)), s.2 + bs ii)

/-- PART_COND_QP_COND_SOL, x_part_cond.c:703-780 -/
def partCondSol (P : OcpQp K) (N2 : ℕ) (sol sol2 : Sol K) (args : ℕ → CondArg) (bs : ℕ → ℕ) : Sol K :=
  (loop (N2 + 1) (partSolStep P sol args bs) (sol2, 0)).1

/-- stage `ii` of the result is the condensed solution of block `ii` -/
theorem partCondSol_blk (P : OcpQp K) (N2 : ℕ) (sol sol2 : Sol K) (args : ℕ → CondArg) (bs : ℕ → ℕ) (ii : ℕ) (hi : ii ≤ N2) :
    blkDSol (partCondSol P N2 sol sol2 args bs) ii
      = condSolFwd (blockQp P (stOff bs ii) (bs ii)) (args ii) (shiftSol sol (stOff bs ii)) (blkDSol sol2 ii) := by
  have A := loop_inv (fun n (s : Sol K × ℕ) => s.2 = stOff bs n ∧
      (∀ ii, ii < n → blkDSol s.1 ii = condSolFwd (blockQp P (stOff bs ii) (bs ii)) (args ii) (shiftSol sol (stOff bs ii)) (blkDSol sol2 ii)) ∧
      ∀ ii, n ≤ ii → blkDSol s.1 ii = blkDSol sol2 ii) (N2 + 1) (partSolStep P sol args bs) (sol2, 0)
    ⟨rfl, fun ii h => by omega, fun _ _ => rfl⟩ (fun n s hn ⟨I1, I2, I3⟩ => by
      have hput : ∀ r, blkDSol (putDSol s.1 n r) n = r := by
        intro r; unfold blkDSol putDSol; dsimp only; rw [upd_same, upd_same, upd_same, upd_same]
      have hoth : ∀ r k, k ≠ n → blkDSol (putDSol s.1 n r) k = blkDSol s.1 k := by
        intro r k hk; unfold blkDSol putDSol; dsimp only; rw [upd_ne _ _ hk, upd_ne _ _ hk, upd_ne _ _ hk, upd_ne _ _ hk]
      unfold partSolStep
      rw [I1]
      refine ⟨(stOff_succ bs n).symm, fun k hk => ?_, fun k hk => ?_⟩
      · by_cases e : k = n
        · subst e
          dsimp only
          rw [hput, I3 k (by omega)]
        · dsimp only
          rw [hoth _ _ e]; exact I2 k (by omega)
      · dsimp only
        rw [hoth _ _ (by omega)]; exact I3 k (by omega))
  exact A.2.1 ii (by omega)

/-- every stage belongs to a block -/
theorem blk_cover (bs : ℕ → ℕ) (n k : ℕ) (hk : k < stOff bs n) : ∃ ii l, ii < n ∧ l < bs ii ∧ k = stOff bs ii + l := by
  induction n with
  | zero => exact absurd hk (by unfold stOff; omega)
  | succ n ih =>
    by_cases h : k < stOff bs n
    · obtain ⟨ii, l, a, b, c⟩ := ih h
      exact ⟨ii, l, by omega, b, c⟩
    · rw [stOff_succ] at hk
      exact ⟨n, k - stOff bs n, by omega, by omega, by omega⟩

/-- C105: without soft constraints, condensing a solution block by block and expanding the result gives back, at every stage of the caller's problem, every
trajectory that satisfies the dynamics and the multipliers and slacks of the inequalities, and the equality multipliers between blocks -/
theorem partCondSol_round (P : OcpQp K) (N2 : ℕ) (sol sol0 sol2 : Sol K) (args : ℕ → CondArg) (ws : ℕ → CondWs K) (bs : ℕ → ℕ) (h : PeOk args bs N2)
    (hN : stOff bs (N2 + 1) = P.dim.N) (hns : ∀ k, k ≤ P.dim.N → P.dim.ns k = 0)
    (hd : ∀ k i, k < P.dim.N → i < P.dim.nx (k + 1) → dynRes P sol.ux k i = 0) :
    let out := (partCondExpand P N2 (partCondSol P N2 sol sol2 args bs) sol0 args ws bs).sol
    (∀ k, k ≤ P.dim.N →
      (∀ j, j < P.dim.nu k + P.dim.nx k → out.ux k j = sol.ux k j) ∧
      (∀ j, j < 2 * P.dim.nb k + 2 * P.dim.ng k → out.lam k j = sol.lam k j) ∧
      ∀ j, j < 2 * P.dim.nb k + 2 * P.dim.ng k → out.t k j = sol.t k j) ∧
    ∀ ii, ii < N2 → ∀ i, i < P.dim.nx (stOff bs (ii + 1)) → out.pi (stOff bs (ii + 1) - 1) i = sol.pi (stOff bs (ii + 1) - 1) i := by
  intro out
  have blk : ∀ ii, ii ≤ N2 → CsRound (blockQp P (stOff bs ii) (bs ii)) (blkLen bs N2 ii - 1) (args ii).cond_last_stage (shiftSol sol (stOff bs ii))
      (shiftSol out (stOff bs ii)) := by
    intro ii hii
    have hle : stOff bs ii + bs ii ≤ P.dim.N := by
      rw [← hN, ← stOff_succ]; exact stOff_mono bs (by omega)
    have hlen : blkLen bs N2 ii - 1 ≤ bs ii := by unfold blkLen; split <;> omega
    have htop : condTop (blockQp P (stOff bs ii) (bs ii)).dim.N (args ii) = some (blkLen bs N2 ii - 1) := by
      show condTop (bs ii) (args ii) = _
      unfold condTop blkLen
      by_cases hh : ii = N2
      · subst hh; rw [if_pos h.last, if_pos rfl]; rfl
      · have := h.pos ii (by omega)
        rw [if_neg (by rw [h.mid ii (by omega)]; simp), if_neg (by omega), if_neg hh]
    have hcls : (args ii).cond_last_stage = decide (ii = N2) := by
      by_cases hh : ii = N2
      · subst hh; rw [h.last]; simp
      · rw [h.mid ii (by omega)]; simp [hh]
    have B := partExp_inv P N2 (partCondSol P N2 sol sol2 args bs) sol0 args ws bs h ii hii
    unfold BlkExp at B
    have eb := partCondSol_blk P N2 sol sol2 args bs ii hii
    unfold blkDSol at eb
    rw [eb, ← hcls] at B
    refine condSol_round_of _ _ _ _ _ _ _ htop (h.prim ii hii) (h.eq ii hii) (h.ineq ii hii) (fun k hk => ?_) (fun k i hk hi => ?_) B
    · exact hns (stOff bs ii + k) (by omega)
    · exact hd (stOff bs ii + k) i (by omega) hi
  refine ⟨fun k hk => ?_, fun ii hii i hi => ?_⟩
  · obtain ⟨ii, l, a, b, rfl⟩ : ∃ ii l, ii ≤ N2 ∧ l ≤ blkLen bs N2 ii - 1 ∧ k = stOff bs ii + l := by
      by_cases e : k = P.dim.N
      · refine ⟨N2, bs N2, by omega, ?_, ?_⟩
        · unfold blkLen; rw [if_pos rfl]; omega
        · rw [e, ← hN, stOff_succ]
      · obtain ⟨ii, l, a, b, c⟩ := blk_cover bs (N2 + 1) k (by omega)
        refine ⟨ii, l, by omega, ?_, c⟩
        unfold blkLen; split <;> omega
    exact ⟨fun j hj => (blk ii a).ux l j b hj, fun j hj => (blk ii a).lam l j b hj, fun j hj => (blk ii a).t l j b hj⟩
  · have := h.pos ii hii
    have r := (blk ii (by omega)).last (h.mid ii hii) i (by rw [stOff_succ] at hi; exact hi)
    have e : stOff bs (ii + 1) - 1 = stOff bs ii + (bs ii - 1) := by rw [stOff_succ]; omega
    rw [e]
    exact r

end
end Hpipm
