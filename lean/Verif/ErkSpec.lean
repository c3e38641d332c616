/-
Specification for the explicit Runge-Kutta integrator (C64, C65): the textbook definition of a Runge-Kutta method.
Nothing in this file refers to the code.
-/
import Mathlib.Algebra.BigOperators.Ring.Finset
import Mathlib.Algebra.BigOperators.Fin
import Mathlib.Algebra.Order.Field.Basic
import Mathlib.Algebra.Order.Floor.Ring

namespace Hpipm
open Finset

/-- a Butcher tableau with `s` stages -/
structure Tableau (K : Type*) where
  s : ℕ
  A : ℕ → ℕ → K
  b : ℕ → K
  c : ℕ → K

section
variable {K : Type*} [Field K]

/-- one step of length `h` from time `t` and state `x` for `x' = f t x` in `n` unknowns: stage derivatives `k i` with
`k i = f (t + c i h) (x + h ∑ j, A i j k j)`, result `x + h ∑ i, b i k i` -/
def RkStep (T : Tableau K) (n : ℕ) (f : K → (ℕ → K) → ℕ → K) (h t : K) (x x' : ℕ → K) : Prop :=
  ∃ k : ℕ → ℕ → K,
    (∀ i, i < T.s → ∀ a, a < n → k i a = f (t + T.c i * h) (fun e => x e + h * ∑ j ∈ range T.s, T.A i j * k j e) a) ∧
    (∀ a, a < n → x' a = x a + h * ∑ i ∈ range T.s, T.b i * k i a)

/-- `m` steps of length `h` from time `t` -/
def RkRun (T : Tableau K) (n : ℕ) (f : K → (ℕ → K) → ℕ → K) (h t : K) (m : ℕ) (x x' : ℕ → K) : Prop :=
  ∃ y : ℕ → ℕ → K, (∀ a, a < n → y 0 a = x a) ∧ (∀ a, a < n → y m a = x' a) ∧
    ∀ j, j < m → RkStep T n f h (t + j * h) (y j) (y (j + 1))

/-- the method is explicit -/
def Tableau.Explicit (T : Tableau K) : Prop := ∀ i j, i < T.s → i ≤ j → j < T.s → T.A i j = 0

/-- the tableau with the entries on and above the diagonal dropped -/
def Tableau.lower (T : Tableau K) : Tableau K := { T with A := fun i j => if j < i then T.A i j else 0 }

/-- a right-hand side that reads and writes `n` unknowns -/
def Local (n : ℕ) (f : K → (ℕ → K) → ℕ → K) : Prop := ∀ t x y, (∀ i, i < n → x i = y i) → ∀ i, i < n → f t x i = f t y i

end
end Hpipm

namespace Hpipm
open Finset

section
variable {K : Type*} [Field K]

/-- the abscissae are the row sums -/
def Tableau.RowSum (T : Tableau K) : Prop := ∀ i, i < T.s → ∑ j ∈ range T.s, T.A i j = T.c i

/-- conditions of order two of Butcher's theory -/
structure Tableau.Order2 (T : Tableau K) : Prop where
  t1 : ∑ i ∈ range T.s, T.b i = 1
  t2 : ∑ i ∈ range T.s, T.b i * T.c i = 1 / 2

/-- conditions of order four of Butcher's theory (one for each rooted tree with at most four nodes) -/
structure Tableau.Order4 (T : Tableau K) : Prop extends T.Order2 where
  t31 : ∑ i ∈ range T.s, T.b i * T.c i ^ 2 = 1 / 3
  t32 : ∑ i ∈ range T.s, T.b i * ∑ j ∈ range T.s, T.A i j * T.c j = 1 / 6
  t41 : ∑ i ∈ range T.s, T.b i * T.c i ^ 3 = 1 / 4
  t42 : ∑ i ∈ range T.s, T.b i * T.c i * ∑ j ∈ range T.s, T.A i j * T.c j = 1 / 8
  t43 : ∑ i ∈ range T.s, T.b i * ∑ j ∈ range T.s, T.A i j * T.c j ^ 2 = 1 / 12
  t44 : ∑ i ∈ range T.s, T.b i * ∑ j ∈ range T.s, T.A i j * ∑ k ∈ range T.s, T.A j k * T.c k = 1 / 24

/-- the linear right-hand side `M x` in `n` unknowns -/
def linRhs (n : ℕ) (M : ℕ → ℕ → K) (x : ℕ → K) (i : ℕ) : K := ∑ j ∈ range n, M i j * x j

end
end Hpipm
