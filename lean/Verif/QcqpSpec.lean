/-
Specification of the optimal control problem with convex quadratic constraints (QCQP), in the user's terms:
the QP of KktSpec.lean with, at every stage, `nq` further constraints

   1/2 u'Rq u + u'Sq x + 1/2 x'Qq x + qq'x + rq'u  <=  uq + su_{s(j)}

These constraints have an upper bound only.  Of `Qq` and `Rq` only the lower triangles are data.
-/
import Verif.KktSpec

namespace Hpipm
open Finset

/-- an optimal control problem with quadratic constraints as the user states it -/
structure UserQcqp (K : Type*) where
  /-- cost, dynamics, boxes, linear constraints, slacks -/
  base : UserQp K
  nq : ℕ → ℕ
  Qq : ℕ → ℕ → ℕ → ℕ → K
  Sq : ℕ → ℕ → ℕ → ℕ → K
  Rq : ℕ → ℕ → ℕ → ℕ → K
  qq : ℕ → ℕ → ℕ → K
  rq : ℕ → ℕ → ℕ → K
  uq : ℕ → ℕ → K
  uqMask : ℕ → ℕ → K
  softq : ℕ → ℕ → Option ℕ

namespace UserQcqp
variable {K : Type*} [Field K] (P : UserQcqp K)

/-- second order part of quadratic constraint `j` of stage `k` -/
def form (p : Pt K) (k j : ℕ) : K :=
  1 / 2 * (∑ i ∈ range (P.base.nu k), ∑ l ∈ range (P.base.nu k), UserQp.sym (P.Rq k j) i l * p.u k i * p.u k l)
  + (∑ i ∈ range (P.base.nu k), ∑ l ∈ range (P.base.nx k), P.Sq k j i l * p.u k i * p.x k l)
  + 1 / 2 * (∑ i ∈ range (P.base.nx k), ∑ l ∈ range (P.base.nx k), UserQp.sym (P.Qq k j) i l * p.x k i * p.x k l)

/-- value of quadratic constraint `j` of stage `k` -/
def qvalue (p : Pt K) (k j : ℕ) : K :=
  P.form p k j + (∑ i ∈ range (P.base.nx k), P.qq k j i * p.x k i) + ∑ i ∈ range (P.base.nu k), P.rq k j i * p.u k i

/-- slack added to the upper side of quadratic constraint `j` -/
def qslack (p : Pt K) (k j : ℕ) : K := match P.softq k j with | none => 0 | some s => p.su k s

/-- the Lagrangian; the multiplier of quadratic constraint `j` follows those of the boxes and of the linear
constraints in `w.up` -/
def lagrangian (p : Pt K) (w : Mult K) : K :=
  P.base.lagrangian p w
  + ∑ k ∈ range (P.base.N + 1), ∑ j ∈ range (P.nq k),
      P.uqMask k j * w.up k (P.base.nb k + P.base.ng k + j) * (P.qvalue p k j - P.uq k j - P.qslack p k j)

/-- second order part of the quadratic constraints, weighted with their multipliers -/
def curvature (w : Mult K) (p : Pt K) : K :=
  ∑ k ∈ range (P.base.N + 1), ∑ j ∈ range (P.nq k),
      P.uqMask k j * w.up k (P.base.nb k + P.base.ng k + j) * P.form p k j
end UserQcqp

namespace UserQcqp
variable {K : Type*} [Field K] [LinearOrder K] (P : UserQcqp K)

/-- feasibility of a point -/
structure Feasible (p : Pt K) : Prop where
  base : P.base.Feasible p
  quad : ∀ k j, k ≤ P.base.N → j < P.nq k → P.uqMask k j ≠ 0 → P.qvalue p k j ≤ P.uq k j + P.qslack p k j

/-- convexity of the objective and of the quadratic constraints that are present -/
structure Convex : Prop where
  base : P.base.Convex
  quad : ∀ k j, k ≤ P.base.N → j < P.nq k → P.uqMask k j ≠ 0 → ∀ p : Pt K, 0 ≤ P.form p k j

/-- global optimality -/
def IsOptimal (p : Pt K) : Prop := P.Feasible p ∧ ∀ p', P.Feasible p' → P.base.objective p ≤ P.base.objective p'

end UserQcqp
end Hpipm
