/-
Specification: a QP on a tree, as the user states it.  No code of the library appears here.

Nodes are numbered `0..N`, the root is node `0`.  Everything that belongs to a node (cost, constraints,
slacks) is the node-indexed part of `UserQp`; edge `e` is the edge into node `e+1`, and its dynamics are
`x_{e+1} = A_e x_d + B_e u_d + b_e` where `d = dad (e+1)`.
-/
import Verif.KktSpec

namespace Hpipm
open Finset

/-- a tree-structured QP -/
structure TUser (K : Type*) extends UserQp K where
  dad : ℕ → ℕ

namespace TUser
variable {K : Type*} [Field K] (P : TUser K)

/-- right-hand side of the dynamics of edge `e` minus the state of the node it leads to -/
def edgeDefect (p : Pt K) (e i : ℕ) : K :=
  (∑ j ∈ range (P.nx (P.dad (e + 1))), P.A e i j * p.x (P.dad (e + 1)) j)
    + (∑ j ∈ range (P.nu (P.dad (e + 1))), P.B e i j * p.u (P.dad (e + 1)) j) + P.b e i - p.x (e + 1) i

/-- the objective: sum of the node costs -/
def cost (p : Pt K) : K := P.toUserQp.objective p

/-- quadratic part of the objective -/
def costQuad (p : Pt K) : K := P.toUserQp.quad p

/-- the Lagrangian; masked-out constraints do not contribute -/
def lagr (p : Pt K) (w : Mult K) : K :=
  P.cost p
  + (∑ e ∈ range P.N, ∑ i ∈ range (P.nx (e + 1)), w.pi e i * P.edgeDefect p e i)
  + ∑ k ∈ range (P.N + 1),
     ((∑ j ∈ range (P.nb k + P.ng k), P.lowerMask k j * w.lo k j * (P.lower k j - P.value p k j - P.slackLo p k j))
    + (∑ j ∈ range (P.nb k + P.ng k), P.upperMask k j * w.up k j * (P.value p k j - P.upper k j - P.slackUp p k j))
    + (∑ i ∈ range (P.ns k), P.llsMask k i * w.ls k i * (P.lls k i - p.sl k i))
    + (∑ i ∈ range (P.ns k), P.lusMask k i * w.us k i * (P.lus k i - p.su k i)))

end TUser

namespace TUser
variable {K : Type*} [Field K] [LinearOrder K] (P : TUser K)

/-- feasibility of a point -/
structure Feas (p : Pt K) : Prop where
  dyn : ∀ e i, e < P.N → i < P.nx (e + 1) → P.edgeDefect p e i = 0
  lo : ∀ k j, k ≤ P.N → j < P.nb k + P.ng k → P.lowerMask k j ≠ 0 → P.lower k j ≤ P.value p k j + P.slackLo p k j
  up : ∀ k j, k ≤ P.N → j < P.nb k + P.ng k → P.upperMask k j ≠ 0 → P.value p k j ≤ P.upper k j + P.slackUp p k j
  ls : ∀ k i, k ≤ P.N → i < P.ns k → P.llsMask k i ≠ 0 → P.lls k i ≤ p.sl k i
  us : ∀ k i, k ≤ P.N → i < P.ns k → P.lusMask k i ≠ 0 → P.lus k i ≤ p.su k i

/-- convexity of the objective -/
def Cvx : Prop := ∀ p : Pt K, 0 ≤ P.costQuad p

/-- global optimality -/
def IsOpt (p : Pt K) : Prop := P.Feas p ∧ ∀ p', P.Feas p' → P.cost p ≤ P.cost p'

end TUser
end Hpipm
