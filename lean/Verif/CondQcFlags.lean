/-
C101: the nonzero flags of the condensed quadratic constraints are truthful.
-/
import Verif.CondQcEx

namespace Hpipm
open Finset
set_option linter.unusedSectionVars false

section
variable {K : Type*} [Field K]

theorem qcHess_entry (nvc p o nu nx z : ℕ) (G GQ M H : Mat K) (hn : nvc = o + nu + p) (i c : ℕ) (hi : i < nvc) (hc : c ≤ i) :
    (c < o + nu → (i < o + nu → z / 4 % 2 ≠ 1) → (o + nu ≤ i → z / 2 % 2 ≠ 1) → qcHess nvc p o nu nx z G GQ M H i c = 0) ∧
    (o + nu ≤ c → z % 2 ≠ 1 → qcHess nvc p o nu nx z G GQ M H i c = 0) := by
  obtain ⟨h0, hR, hS, hQ⟩ := qcHess_val nvc p o nu nx z G GQ M H hn
  refine ⟨fun h1 h2 h3 => ?_, fun h1 h2 => ?_⟩
  · by_cases hco : c < o
    · exact h0 i c hi hco
    · obtain ⟨c', rfl⟩ : ∃ c', c = o + c' := ⟨c - o, by omega⟩
      by_cases hio : i < o + nu
      · obtain ⟨i', rfl⟩ : ∃ i', i = o + i' := ⟨i - o, by omega⟩
        rw [hR i' c' (by omega) (by omega), if_neg (h2 hio)]
      · obtain ⟨i', rfl⟩ : ∃ i', i = o + nu + i' := ⟨i - (o + nu), by omega⟩
        rw [hS i' c' (by omega) (by omega), if_neg (h3 (by omega))]
  · obtain ⟨c', rfl⟩ : ∃ c', c = o + nu + c' := ⟨c - (o + nu), by omega⟩
    obtain ⟨i', rfl⟩ : ∃ i', i = o + nu + i' := ⟨i - (o + nu), by omega⟩
    rw [hQ i' c' (by omega) (by omega) (by omega), if_neg h2]

/-- after condensing, a flag that is not set means a block of zeros, for the constraints of the stages after the first, whatever was in the target
and whatever the flags of the source say -/
theorem condQc_flags_truthful (Q : Qcqp K) (nz : ℕ → ℕ → ℕ) (G : ℕ → Mat K) (g : ℕ → Vec K) (N k j : ℕ) (s : QcSt K) (hk0 : 0 < k) (hk : k ≤ N)
    (hj : j < Q.nq k) (hs : s.Hq = Q.Hq) :
    QcFlags ((condQc Q nz G g N s).Hq2 (later Q.nq N k + j)) (sumTo Q.base.dim.nu (N + 1)) (Q.base.dim.nx 0)
      ((condQc Q nz G g N s).nz2 (later Q.nq N k + j)) := by
  obtain ⟨⟨M, GQ, -, -, hH, -⟩, hz⟩ := (condQc_done Q nz G g N k j s hk0 hk hj hs).1
  have hp := qcPos_later Q.nq hk
  rw [← hp, hH, hz]
  have hn := qc_sizes Q hk
  have E := fun i c => qcHess_entry (qcNvc Q.base.dim N) (sumTo Q.base.dim.nu k + Q.base.dim.nx 0) (qcOff Q.base.dim.nu N k) (Q.base.dim.nu k)
    (Q.base.dim.nx k) (nz k j) (G (k - 1)) GQ M (s.Hq2 (qcPos Q.nq N k + j)) hn i c
  have hnv : qcNvc Q.base.dim N = sumTo Q.base.dim.nu (N + 1) + Q.base.dim.nx 0 := rfl
  refine ⟨fun h l m hm hl => ?_, fun h l i hl hi => ?_, fun h i c hc hi => ?_⟩
  · rw [if_neg (show ¬ Q.base.dim.nx 0 = 0 by omega), if_neg (show ¬ Q.base.dim.nx 0 = 0 by omega)] at h
    refine (E _ _ (by omega) (by omega)).2 (by omega) fun hq => h ?_
    rw [if_pos hq]
    split_ifs <;> decide
  · rw [if_neg (show ¬ Q.base.dim.nx 0 = 0 by omega), if_neg (show ¬ Q.base.dim.nx 0 = 0 by omega)] at h
    have hq : nz k j % 2 ≠ 1 := fun hq => h (by rw [if_pos hq]; split_ifs <;> decide)
    have hS : nz k j / 2 % 2 ≠ 1 := fun hS => h (by rw [if_pos hS]; split_ifs <;> decide)
    by_cases hc : i < qcOff Q.base.dim.nu N k + Q.base.dim.nu k
    · exact (E _ _ (by omega) (by omega)).1 hc (fun h' => by omega) (fun _ => hS)
    · exact (E _ _ (by omega) (by omega)).2 (by omega) hq
  · have hq : nz k j % 2 ≠ 1 := fun hq => h (by rw [if_pos hq]; split_ifs <;> decide)
    have hS : nz k j / 2 % 2 ≠ 1 := fun hS => h (by rw [if_pos hS]; split_ifs <;> decide)
    have hR : nz k j / 4 % 2 ≠ 1 := fun hR => h (by rw [if_pos hR]; split_ifs <;> decide)
    by_cases hc' : c < qcOff Q.base.dim.nu N k + Q.base.dim.nu k
    · exact (E _ _ (by omega) (by omega)).1 hc' (fun _ => hR) (fun _ => hS)
    · exact (E _ _ (by omega) (by omega)).2 (by omega) hq

end

/-- a constraint on the input only: only the flag of `R` is set -/
example : (condQc (exCq 0 1 0 0 3 1) (fun _ _ => 4) (fun _ _ _ => 1) (fun _ _ => 1) 1 (exCqSt (exCq 0 1 0 0 3 1).Hq)).nz2 0 = 4 := by decide +kernel
example := condQc_flags_truthful (exCq 0 1 0 0 3 1) (fun _ _ => 4) (fun _ _ _ => 1) (fun _ _ => 1) 1 1 0 (exCqSt (exCq 0 1 0 0 3 1).Hq) (by decide) (by decide)
  (by decide) rfl

/-- as `exCq 2 1`, the constraints of stage 0 are on the input only -/
def exCqR : Qcqp ℚ := { exCq 2 1 0 0 0 0 with Hq := fun k j r c => if k = 0 then (if r = 0 ∧ c = 0 then 2 else 0) else (exCq 2 1 0 0 0 0).Hq k j r c }
def exCqRNz : ℕ → ℕ → ℕ := fun k _ => if k = 0 then 4 else 7

/-- stage 0: the flags come from the constraint, the Hessian from another one: truthful flags become untruthful -/
theorem condQc_first_flags_wrong : (∀ k j, QcFlags (exCqR.Hq k j) 1 1 (exCqRNz k j)) ∧ ¬ QcFlags
    ((condQc exCqR exCqRNz (fun _ _ _ => 1) (fun _ _ => 1) 1 (exCqSt exCqR.Hq)).Hq2 1) 2 1
    ((condQc exCqR exCqRNz (fun _ _ _ => 1) (fun _ _ => 1) 1 (exCqSt exCqR.Hq)).nz2 1) := by
  refine ⟨fun k j => ?_, fun h => ?_⟩
  · by_cases hk : k = 0
    · subst hk
      refine ⟨fun _ l m _ _ => if_neg (by omega), fun _ l i _ _ => if_neg (by omega), fun h => absurd (show 4 / 4 % 2 = 1 by decide) h⟩
    · have e : exCqRNz k j = 7 := if_neg hk
      rw [e]
      exact ⟨fun h => absurd (by decide) h, fun h => absurd (by decide) h, fun h => absurd (by decide) h⟩
  · have := h.Q (by decide +kernel) 0 0 (by decide) (by decide)
    revert this
    decide +kernel

end Hpipm
