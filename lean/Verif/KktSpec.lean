/-
Specification of the optimal control QP in the user's terms (README / guide notation), independent
of the data layout and of the algorithms of the code:

  min  sum_k 1/2 u'Ru + u'Sx + 1/2 x'Qx + q'x + r'u + 1/2 sl'Zl sl + zl'sl + 1/2 su'Zu su + zu'su
  s.t. x_{k+1} = A x_k + B u_k + b
       lower_j - sl_{s(j)} <= value_j <= upper_j + su_{s(j)}      (boxes and general constraints)
       lls <= sl,  lus <= su

where `value_j` is a component of `(u,x)` for a box constraint and a row of `C x + D u` for a general
one, and a constraint is present only if its mask entry is nonzero.  Of `Q` and `R` only the lower
triangles are data.
-/
import Verif.Blas

namespace Hpipm
open Finset

/-- an optimal control QP as the user states it -/
structure UserQp (K : Type*) where
  N : ℕ
  nx : ℕ → ℕ
  nu : ℕ → ℕ
  nb : ℕ → ℕ
  ng : ℕ → ℕ
  ns : ℕ → ℕ
  A : ℕ → ℕ → ℕ → K
  B : ℕ → ℕ → ℕ → K
  b : ℕ → ℕ → K
  Q : ℕ → ℕ → ℕ → K
  S : ℕ → ℕ → ℕ → K
  R : ℕ → ℕ → ℕ → K
  q : ℕ → ℕ → K
  r : ℕ → ℕ → K
  idxb : ℕ → ℕ → ℕ
  lb : ℕ → ℕ → K
  ub : ℕ → ℕ → K
  C : ℕ → ℕ → ℕ → K
  D : ℕ → ℕ → ℕ → K
  lg : ℕ → ℕ → K
  ug : ℕ → ℕ → K
  soft : ℕ → ℕ → Option ℕ
  Zl : ℕ → ℕ → K
  Zu : ℕ → ℕ → K
  zl : ℕ → ℕ → K
  zu : ℕ → ℕ → K
  lls : ℕ → ℕ → K
  lus : ℕ → ℕ → K
  lbMask : ℕ → ℕ → K
  ubMask : ℕ → ℕ → K
  lgMask : ℕ → ℕ → K
  ugMask : ℕ → ℕ → K
  llsMask : ℕ → ℕ → K
  lusMask : ℕ → ℕ → K

/-- inputs, states, lower and upper slacks of all stages -/
structure Pt (K : Type*) where
  u : ℕ → ℕ → K
  x : ℕ → ℕ → K
  sl : ℕ → ℕ → K
  su : ℕ → ℕ → K

/-- multipliers: dynamics, lower / upper sides of boxes and general constraints, slack bounds -/
structure Mult (K : Type*) where
  pi : ℕ → ℕ → K
  lo : ℕ → ℕ → K
  up : ℕ → ℕ → K
  ls : ℕ → ℕ → K
  us : ℕ → ℕ → K

namespace UserQp
variable {K : Type*} [Field K] (P : UserQp K)

/-- symmetric matrix with the given lower triangle -/
def sym (M : ℕ → ℕ → K) (i j : ℕ) : K := if j ≤ i then M i j else M j i

/-- cost of a stage: quadratic part -/
def stageQuad (p : Pt K) (k : ℕ) : K :=
  1 / 2 * (∑ i ∈ range (P.nu k), ∑ j ∈ range (P.nu k), sym (P.R k) i j * p.u k i * p.u k j)
  + (∑ i ∈ range (P.nu k), ∑ j ∈ range (P.nx k), P.S k i j * p.u k i * p.x k j)
  + 1 / 2 * (∑ i ∈ range (P.nx k), ∑ j ∈ range (P.nx k), sym (P.Q k) i j * p.x k i * p.x k j)
  + 1 / 2 * (∑ i ∈ range (P.ns k), P.Zl k i * p.sl k i * p.sl k i)
  + 1 / 2 * (∑ i ∈ range (P.ns k), P.Zu k i * p.su k i * p.su k i)

/-- cost of a stage: linear part -/
def stageLin (p : Pt K) (k : ℕ) : K :=
  (∑ i ∈ range (P.nu k), P.r k i * p.u k i) + (∑ i ∈ range (P.nx k), P.q k i * p.x k i)
  + (∑ i ∈ range (P.ns k), P.zl k i * p.sl k i) + (∑ i ∈ range (P.ns k), P.zu k i * p.su k i)

/-- quadratic part of the objective -/
def quad (p : Pt K) : K := ∑ k ∈ range (P.N + 1), P.stageQuad p k

/-- the objective -/
def objective (p : Pt K) : K := ∑ k ∈ range (P.N + 1), (P.stageQuad p k + P.stageLin p k)

/-- right-hand side of the dynamics minus the next state -/
def dynDefect (p : Pt K) (k i : ℕ) : K :=
  (∑ j ∈ range (P.nx k), P.A k i j * p.x k j) + (∑ j ∈ range (P.nu k), P.B k i j * p.u k j) + P.b k i
    - p.x (k + 1) i

/-- value of the `j`-th constraint, boxes first -/
def value (p : Pt K) (k j : ℕ) : K :=
  if j < P.nb k then
    (if P.idxb k j < P.nu k then p.u k (P.idxb k j) else p.x k (P.idxb k j - P.nu k))
  else (∑ i ∈ range (P.nx k), P.C k (j - P.nb k) i * p.x k i) + ∑ i ∈ range (P.nu k), P.D k (j - P.nb k) i * p.u k i

def lower (k j : ℕ) : K := if j < P.nb k then P.lb k j else P.lg k (j - P.nb k)
def upper (k j : ℕ) : K := if j < P.nb k then P.ub k j else P.ug k (j - P.nb k)
def lowerMask (k j : ℕ) : K := if j < P.nb k then P.lbMask k j else P.lgMask k (j - P.nb k)
def upperMask (k j : ℕ) : K := if j < P.nb k then P.ubMask k j else P.ugMask k (j - P.nb k)

/-- slack added to the lower side of constraint `j` -/
def slackLo (p : Pt K) (k j : ℕ) : K := match P.soft k j with | none => 0 | some s => p.sl k s
/-- slack added to the upper side of constraint `j` -/
def slackUp (p : Pt K) (k j : ℕ) : K := match P.soft k j with | none => 0 | some s => p.su k s

/-- the Lagrangian; masked-out constraints do not contribute -/
def lagrangian (p : Pt K) (w : Mult K) : K :=
  P.objective p
  + (∑ k ∈ range P.N, ∑ i ∈ range (P.nx (k + 1)), w.pi k i * P.dynDefect p k i)
  + ∑ k ∈ range (P.N + 1),
     ((∑ j ∈ range (P.nb k + P.ng k), P.lowerMask k j * w.lo k j * (P.lower k j - P.value p k j - P.slackLo p k j))
    + (∑ j ∈ range (P.nb k + P.ng k), P.upperMask k j * w.up k j * (P.value p k j - P.upper k j - P.slackUp p k j))
    + (∑ i ∈ range (P.ns k), P.llsMask k i * w.ls k i * (P.lls k i - p.sl k i))
    + (∑ i ∈ range (P.ns k), P.lusMask k i * w.us k i * (P.lus k i - p.su k i)))

end UserQp

namespace UserQp
variable {K : Type*} [Field K] [LinearOrder K] (P : UserQp K)

/-- feasibility of a point -/
structure Feasible (p : Pt K) : Prop where
  dyn : ∀ k i, k < P.N → i < P.nx (k + 1) → P.dynDefect p k i = 0
  lo : ∀ k j, k ≤ P.N → j < P.nb k + P.ng k → P.lowerMask k j ≠ 0 → P.lower k j ≤ P.value p k j + P.slackLo p k j
  up : ∀ k j, k ≤ P.N → j < P.nb k + P.ng k → P.upperMask k j ≠ 0 → P.value p k j ≤ P.upper k j + P.slackUp p k j
  ls : ∀ k i, k ≤ P.N → i < P.ns k → P.llsMask k i ≠ 0 → P.lls k i ≤ p.sl k i
  us : ∀ k i, k ≤ P.N → i < P.ns k → P.lusMask k i ≠ 0 → P.lus k i ≤ p.su k i

/-- convexity of the objective -/
def Convex : Prop := ∀ p : Pt K, 0 ≤ P.quad p

/-- global optimality -/
def IsOptimal (p : Pt K) : Prop := P.Feasible p ∧ ∀ p', P.Feasible p' → P.objective p ≤ P.objective p'

end UserQp
end Hpipm
