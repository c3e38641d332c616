/-
Specification vocabulary for condensing (user level, independent of the code of x_cond_aux.c): the order of the
condensed variables and constraints, and the trajectory generated by given inputs and initial state.

The variables of the condensed problem are the inputs of the last stage first, ..., the inputs of stage 0, the
state of stage 0, then the lower slacks of all stages (last stage first) and the upper slacks of all stages.
-/
import Verif.Cond
import Verif.View
import Mathlib.Data.Nat.Count
import Mathlib.Order.Interval.Finset.Nat

namespace Hpipm
open Finset

/-- sum of a size over the stages after `k`, up to the last stage `N` -/
def later (f : ℕ → ℕ) (N k : ℕ) : ℕ := ∑ l ∈ Ioc k N, f l

section
variable {K : Type*} [Field K]

/-- number of inputs of the condensed stages -/
def nuAll (D : QpDim) (N : ℕ) : ℕ := ∑ k ∈ range (N + 1), D.nu k
def nsAll (D : QpDim) (N : ℕ) : ℕ := ∑ k ∈ range (N + 1), D.ns k
def ngAll (D : QpDim) (N : ℕ) : ℕ := ∑ k ∈ range (N + 1), D.ng k

/-- the states generated by the dynamics from the condensed variables `v` -/
def roll (qp : OcpQp K) (N : ℕ) (v : Vec K) : ℕ → Vec K
  | 0 => fun i => v (nuAll qp.dim N + i)
  | k + 1 => fun i => qp.b k i + (∑ j ∈ range (qp.dim.nu k), qp.BAbt k j i * v (later qp.dim.nu N k + j))
      + ∑ j ∈ range (qp.dim.nx k), qp.BAbt k (qp.dim.nu k + j) i * roll qp N v k j

/-- inputs, states and slacks of stage `k` for the condensed variables `v` -/
def stageOf (qp : OcpQp K) (N : ℕ) (v : Vec K) (k : ℕ) : Vec K := fun j =>
  if j < qp.dim.nu k then v (later qp.dim.nu N k + j)
  else if j < qp.dim.nu k + qp.dim.nx k then roll qp N v k (j - qp.dim.nu k)
  else if j < qp.dim.nu k + qp.dim.nx k + qp.dim.ns k then
    v (nuAll qp.dim N + qp.dim.nx 0 + later qp.dim.ns N k + (j - (qp.dim.nu k + qp.dim.nx k)))
  else v (nuAll qp.dim N + qp.dim.nx 0 + nsAll qp.dim N + later qp.dim.ns N k
    + (j - (qp.dim.nu k + qp.dim.nx k + qp.dim.ns k)))

/-- a box that stays a box: on any variable of stage 0, on an input of a later stage -/
def StaysBox (qp : OcpQp K) (k j : ℕ) : Prop := k = 0 ∨ qp.idxb k j < qp.dim.nu k

instance (qp : OcpQp K) (k : ℕ) : DecidablePred (StaysBox qp k) := fun _ => inferInstanceAs (Decidable (_ ∨ _))

/-- numbers of boxes and of general constraints made from boxes -/
def nBox (qp : OcpQp K) (k : ℕ) : ℕ := Nat.count (StaysBox qp k) (qp.dim.nb k)
def nGen (qp : OcpQp K) (k : ℕ) : ℕ := Nat.count (fun j => ¬ StaysBox qp k j) (qp.dim.nb k)
def nbCond (qp : OcpQp K) (N : ℕ) : ℕ := ∑ k ∈ range (N + 1), nBox qp k
def nbgCond (qp : OcpQp K) (N : ℕ) : ℕ := ∑ k ∈ range (N + 1), nGen qp k
/-- number of general constraints of the condensed problem -/
def ngCond (qp : OcpQp K) (N : ℕ) : ℕ := nbgCond qp N + ngAll qp.dim N

/-- position in the condensed problem of constraint `j` (boxes first) of stage `k`: boxes, then general constraints
made from boxes, then the other general constraints; the last stage comes first -/
def conPos (qp : OcpQp K) (N k j : ℕ) : ℕ :=
  if j < qp.dim.nb k then
    if StaysBox qp k j then later (nBox qp) N k + Nat.count (StaysBox qp k) j
    else nbCond qp N + (later (nGen qp) N k + Nat.count (fun j => ¬ StaysBox qp k j) j)
  else nbCond qp N + nbgCond qp N + later qp.dim.ng N k + (j - qp.dim.nb k)

end

theorem later_self (f : ℕ → ℕ) (N : ℕ) : later f N N = 0 := by simp [later]

theorem later_succ (f : ℕ → ℕ) {N k : ℕ} (h : k < N) : later f N k = f (k + 1) + later f N (k + 1) := by
  unfold later
  have : Ioc k N = insert (k + 1) (Ioc (k + 1) N) := by
    ext x; simp only [mem_insert, mem_Ioc]; omega
  rw [this, sum_insert (by simp)]

theorem later_pred (f : ℕ → ℕ) {N k : ℕ} (h0 : 0 < k) (h : k ≤ N) : later f N (k - 1) = f k + later f N k := by
  have := later_succ f (N := N) (k := k - 1) (by omega)
  rwa [show k - 1 + 1 = k by omega] at this

theorem sum_later (f : ℕ → ℕ) {N k : ℕ} (h : k ≤ N) :
    (∑ l ∈ range (k + 1), f l) + later f N k = ∑ l ∈ range (N + 1), f l := by
  induction N with
  | zero => rw [show k = 0 by omega, later_self]; simp
  | succ n ih =>
    by_cases hk : k = n + 1
    · rw [hk, later_self]; simp
    · rw [sum_range_succ _ (n + 1), ← ih (by omega)]
      have : later f (n + 1) k = later f n k + f (n + 1) := by
        unfold later
        have : Ioc k (n + 1) = insert (n + 1) (Ioc k n) := by
          ext x; simp only [mem_insert, mem_Ioc]; omega
        rw [this, sum_insert (by simp)]; omega
      omega

theorem sumTo_eq (f : ℕ → ℕ) (n : ℕ) : sumTo f n = ∑ k ∈ range n, f k := by
  unfold sumTo
  induction n with
  | zero => rfl
  | succ n ih => rw [loop_succ, ih, sum_range_succ]

theorem sumTo_succ (f : ℕ → ℕ) (n : ℕ) : sumTo f (n + 1) = sumTo f n + f n := rfl

theorem later_add_sumTo (f : ℕ → ℕ) {N k : ℕ} (h : k ≤ N) : later f N k + sumTo f (k + 1) = sumTo f (N + 1) := by
  rw [sumTo_eq, sumTo_eq, add_comm, sum_later f h]

end Hpipm
