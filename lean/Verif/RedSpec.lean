/-
Specification vocabulary for the removal of fixed variables (user level, independent of the code of
x_ocp_qp_red.c): which variables and box constraints are removed, and how points of the original and
of the reduced problem correspond.
-/
import Verif.Red
import Verif.View
import Mathlib.Data.Nat.Count

namespace Hpipm
open Finset

section
variable {K : Type*} [Field K]

/-- the variable is not fixed by an equality box (the list of equalities is `idxe`) -/
def Kept (qp : OcpQp K) (k j : ℕ) : Prop := ∀ e, e < neThr qp.dim k → qp.idxb k (qp.idxe k e) ≠ j
/-- the box constraint is not a removed equality -/
def KeptBox (qp : OcpQp K) (k j : ℕ) : Prop := ∀ e, e < neThr qp.dim k → qp.idxe k e ≠ j

instance (qp : OcpQp K) (k : ℕ) : DecidablePred (Kept qp k) := fun _ => inferInstanceAs (Decidable (∀ _, _ → _))
instance (qp : OcpQp K) (k : ℕ) : DecidablePred (KeptBox qp k) := fun _ => inferInstanceAs (Decidable (∀ _, _ → _))

/-- position of a variable after the removal: the number of kept variables before it -/
def newPos (qp : OcpQp K) (k j : ℕ) : ℕ := Nat.count (Kept qp k) j
/-- position of a box constraint after the removal -/
def newBox (qp : OcpQp K) (k j : ℕ) : ℕ := Nat.count (KeptBox qp k) j

/-- sizes of the reduced problem -/
structure RedDim (D Dr : QpDim) : Prop where
  N : Dr.N = D.N
  nu : ∀ k, k ≤ D.N → Dr.nu k = D.nu k - D.nbue k
  nx0 : Dr.nx 0 = D.nx 0 - D.nbxe 0
  nx : ∀ k, k ≤ D.N → k ≠ 0 → Dr.nx k = D.nx k
  nb0 : Dr.nb 0 = (D.nbu 0 - D.nbue 0) + (D.nbx 0 - D.nbxe 0)
  nb : ∀ k, k ≤ D.N → k ≠ 0 → Dr.nb k = (D.nbu k - D.nbue k) + D.nbx k
  ng : ∀ k, k ≤ D.N → Dr.ng k = D.ng k
  ns : ∀ k, k ≤ D.N → Dr.ns k = D.ns k

/-- the list of equality boxes is meaningful: entries are boxes, on distinct variables, first those on
inputs, then (stage 0) those on states -/
structure EqOk (qp : OcpQp K) : Prop where
  dim : ∀ k, k ≤ qp.dim.N → qp.dim.nb k = qp.dim.nbu k + qp.dim.nbx k
  nbue : ∀ k, k ≤ qp.dim.N → qp.dim.nbue k ≤ qp.dim.nbu k
  nbxe : qp.dim.nbxe 0 ≤ qp.dim.nbx 0
  box : ∀ k e, k ≤ qp.dim.N → e < neThr qp.dim k → qp.idxe k e < qp.dim.nb k
  input : ∀ k e, k ≤ qp.dim.N → e < qp.dim.nbue k → qp.idxb k (qp.idxe k e) < qp.dim.nu k
  state : ∀ e, qp.dim.nbue 0 ≤ e → e < qp.dim.nbue 0 + qp.dim.nbxe 0 →
    qp.dim.nu 0 ≤ qp.idxb 0 (qp.idxe 0 e) ∧ qp.idxb 0 (qp.idxe 0 e) < qp.dim.nu 0 + qp.dim.nx 0
  injBox : ∀ k e e', k ≤ qp.dim.N → e < neThr qp.dim k → e' < neThr qp.dim k → qp.idxe k e = qp.idxe k e' → e = e'
  inj : ∀ k e e', k ≤ qp.dim.N → e < neThr qp.dim k → e' < neThr qp.dim k →
    qp.idxb k (qp.idxe k e) = qp.idxb k (qp.idxe k e') → e = e'

/-- the removed variables have their prescribed values (`fix` is `qp.d` for the QP itself) -/
def AtFixed (qp : OcpQp K) (fix v : ℕ → Vec K) : Prop :=
  ∀ k e, k ≤ qp.dim.N → e < neThr qp.dim k → v k (qp.idxb k (qp.idxe k e)) = fix k (qp.idxe k e)

/-- the reduced point `w` has the same kept variables and the same slacks as `v` -/
structure SameKept (qp : OcpQp K) (Dr : QpDim) (v w : ℕ → Vec K) : Prop where
  var : ∀ k j, k ≤ qp.dim.N → j < qp.dim.nu k + qp.dim.nx k → Kept qp k j → w k (newPos qp k j) = v k j
  slack : ∀ k s, k ≤ qp.dim.N → s < 2 * qp.dim.ns k →
    w k (Dr.nu k + Dr.nx k + s) = v k (qp.dim.nu k + qp.dim.nx k + s)

end
end Hpipm
