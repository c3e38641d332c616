/-
Specification of the dense QP in the user's terms (README / guide notation), independent of the data
layout and of the algorithms of the code:

  min  1/2 v'Hv + g'v + 1/2 sl'Zl sl + zl'sl + 1/2 su'Zu su + zu'su
  s.t. A v = b
       lower_j - sl_{s(j)} <= value_j <= upper_j + su_{s(j)}      (boxes and general constraints)
       lls <= sl,  lus <= su

where `value_j` is a component of `v` for a box constraint and a row of `C v` for a general one, and a
constraint is present only if its mask entry is nonzero.  Of `H` only the lower triangle is data.
-/
import Mathlib.Algebra.BigOperators.Group.Finset.Basic
import Mathlib.Algebra.Field.Defs
import Mathlib.Algebra.Order.Ring.Defs

namespace Hpipm
open Finset

/-- a dense QP as the user states it -/
structure DUser (K : Type*) where
  nv : ℕ
  ne : ℕ
  nb : ℕ
  ng : ℕ
  ns : ℕ
  H : ℕ → ℕ → K
  g : ℕ → K
  A : ℕ → ℕ → K
  b : ℕ → K
  idxb : ℕ → ℕ
  lb : ℕ → K
  ub : ℕ → K
  C : ℕ → ℕ → K
  lg : ℕ → K
  ug : ℕ → K
  soft : ℕ → Option ℕ
  Zl : ℕ → K
  Zu : ℕ → K
  zl : ℕ → K
  zu : ℕ → K
  lls : ℕ → K
  lus : ℕ → K
  lbMask : ℕ → K
  ubMask : ℕ → K
  lgMask : ℕ → K
  ugMask : ℕ → K
  llsMask : ℕ → K
  lusMask : ℕ → K

/-- variables, lower and upper slacks -/
structure DPt (K : Type*) where
  v : ℕ → K
  sl : ℕ → K
  su : ℕ → K

/-- multipliers: equalities, lower / upper sides of boxes and general constraints, slack bounds -/
structure DMult (K : Type*) where
  pi : ℕ → K
  lo : ℕ → K
  up : ℕ → K
  ls : ℕ → K
  us : ℕ → K

namespace DUser
variable {K : Type*} [Field K] (P : DUser K)

/-- entry of the Hessian: only the lower triangle of `H` is data -/
def hess (i j : ℕ) : K := if j ≤ i then P.H i j else P.H j i

/-- quadratic part of the objective -/
def quad (p : DPt K) : K :=
  1 / 2 * (∑ i ∈ range P.nv, ∑ j ∈ range P.nv, P.hess i j * p.v i * p.v j)
  + 1 / 2 * (∑ i ∈ range P.ns, P.Zl i * p.sl i * p.sl i)
  + 1 / 2 * (∑ i ∈ range P.ns, P.Zu i * p.su i * p.su i)

/-- linear part of the objective -/
def lin (p : DPt K) : K :=
  (∑ i ∈ range P.nv, P.g i * p.v i) + (∑ i ∈ range P.ns, P.zl i * p.sl i) + (∑ i ∈ range P.ns, P.zu i * p.su i)

/-- the objective -/
def objective (p : DPt K) : K := P.quad p + P.lin p

/-- `A v`, row `i` -/
def Av (v : ℕ → K) (i : ℕ) : K := ∑ j ∈ range P.nv, P.A i j * v j

/-- value of the `j`-th constraint, boxes first -/
def value (p : DPt K) (j : ℕ) : K :=
  if j < P.nb then p.v (P.idxb j) else ∑ i ∈ range P.nv, P.C (j - P.nb) i * p.v i

def lower (j : ℕ) : K := if j < P.nb then P.lb j else P.lg (j - P.nb)
def upper (j : ℕ) : K := if j < P.nb then P.ub j else P.ug (j - P.nb)
def lowerMask (j : ℕ) : K := if j < P.nb then P.lbMask j else P.lgMask (j - P.nb)
def upperMask (j : ℕ) : K := if j < P.nb then P.ubMask j else P.ugMask (j - P.nb)

/-- slack added to the lower side of constraint `j` -/
def slackLo (p : DPt K) (j : ℕ) : K := match P.soft j with | none => 0 | some s => p.sl s
/-- slack added to the upper side of constraint `j` -/
def slackUp (p : DPt K) (j : ℕ) : K := match P.soft j with | none => 0 | some s => p.su s

/-- the Lagrangian; masked-out constraints do not contribute -/
def lagrangian (p : DPt K) (w : DMult K) : K :=
  P.objective p
  + (∑ i ∈ range P.ne, w.pi i * (P.b i - P.Av p.v i))
  + ((∑ j ∈ range (P.nb + P.ng), P.lowerMask j * w.lo j * (P.lower j - P.value p j - P.slackLo p j))
    + (∑ j ∈ range (P.nb + P.ng), P.upperMask j * w.up j * (P.value p j - P.upper j - P.slackUp p j))
    + (∑ i ∈ range P.ns, P.llsMask i * w.ls i * (P.lls i - p.sl i))
    + (∑ i ∈ range P.ns, P.lusMask i * w.us i * (P.lus i - p.su i)))

end DUser

namespace DUser
variable {K : Type*} [Field K] [LinearOrder K] (P : DUser K)

/-- feasibility of a point -/
structure Feasible (p : DPt K) : Prop where
  eq : ∀ i, i < P.ne → P.Av p.v i = P.b i
  lo : ∀ j, j < P.nb + P.ng → P.lowerMask j ≠ 0 → P.lower j ≤ P.value p j + P.slackLo p j
  up : ∀ j, j < P.nb + P.ng → P.upperMask j ≠ 0 → P.value p j ≤ P.upper j + P.slackUp p j
  ls : ∀ i, i < P.ns → P.llsMask i ≠ 0 → P.lls i ≤ p.sl i
  us : ∀ i, i < P.ns → P.lusMask i ≠ 0 → P.lus i ≤ p.su i

/-- convexity of the objective on the directions allowed by the equality constraints -/
def Convex : Prop := ∀ p : DPt K, (∀ i, i < P.ne → P.Av p.v i = 0) → 0 ≤ P.quad p

/-- global optimality -/
def IsOptimal (p : DPt K) : Prop := P.Feasible p ∧ ∀ p', P.Feasible p' → P.objective p ≤ P.objective p'

end DUser
end Hpipm
