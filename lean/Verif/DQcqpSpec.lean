/-
Specification of the dense QP with convex quadratic constraints in the user's terms: the problem of DenseSpec.lean with `nq` further
constraints

   1/2 v'Hq_j v + gq_j'v  <=  uq_j + su_{s(j)}

These constraints have an upper bound only.  Of `Hq_j` only the lower triangle is data.
-/
import Verif.DenseSpec

namespace Hpipm
open Finset

/-- a dense QCQP as the user states it -/
structure DUserQcqp (K : Type*) where
  /-- cost, equalities, boxes, linear constraints, slacks -/
  base : DUser K
  nq : ℕ
  Hq : ℕ → ℕ → ℕ → K
  gq : ℕ → ℕ → K
  uq : ℕ → K
  uqMask : ℕ → K
  softq : ℕ → Option ℕ

namespace DUserQcqp
variable {K : Type*} [Field K] (P : DUserQcqp K)

/-- entry of the Hessian of quadratic constraint `j`: only the lower triangle is data -/
def hess (j i l : ℕ) : K := if l ≤ i then P.Hq j i l else P.Hq j l i

/-- second order part of quadratic constraint `j` -/
def form (p : DPt K) (j : ℕ) : K :=
  1 / 2 * ∑ i ∈ range P.base.nv, ∑ l ∈ range P.base.nv, P.hess j i l * p.v i * p.v l

/-- value of quadratic constraint `j` -/
def qvalue (p : DPt K) (j : ℕ) : K := P.form p j + ∑ i ∈ range P.base.nv, P.gq j i * p.v i

/-- slack added to the upper side of quadratic constraint `j` -/
def qslack (p : DPt K) (j : ℕ) : K := match P.softq j with | none => 0 | some s => p.su s

/-- the Lagrangian; the multiplier of quadratic constraint `j` follows those of the boxes and of the linear constraints in `w.up` -/
def lagrangian (p : DPt K) (w : DMult K) : K :=
  P.base.lagrangian p w
  + ∑ j ∈ range P.nq, P.uqMask j * w.up (P.base.nb + P.base.ng + j) * (P.qvalue p j - P.uq j - P.qslack p j)

/-- second order part of the quadratic constraints, weighted with their multipliers -/
def curvature (w : DMult K) (p : DPt K) : K :=
  ∑ j ∈ range P.nq, P.uqMask j * w.up (P.base.nb + P.base.ng + j) * P.form p j

end DUserQcqp

namespace DUserQcqp
variable {K : Type*} [Field K] [LinearOrder K] (P : DUserQcqp K)

/-- feasibility of a point -/
structure Feasible (p : DPt K) : Prop where
  base : P.base.Feasible p
  quad : ∀ j, j < P.nq → P.uqMask j ≠ 0 → P.qvalue p j ≤ P.uq j + P.qslack p j

/-- convexity of the objective (on the directions allowed by the equality constraints) and of the quadratic constraints that are
present -/
structure Convex : Prop where
  base : P.base.Convex
  quad : ∀ j, j < P.nq → P.uqMask j ≠ 0 → ∀ p : DPt K, 0 ≤ P.form p j

/-- global optimality -/
def IsOptimal (p : DPt K) : Prop := P.Feasible p ∧ ∀ p', P.Feasible p' → P.base.objective p ≤ P.base.objective p'

end DUserQcqp
end Hpipm
