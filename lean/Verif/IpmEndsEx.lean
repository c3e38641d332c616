/-
C53, boundary and examples: with a sufficiently negative `reg_prim` the retries never help and the routine does not
return; a nonconvex QP that needs several retries; the hypotheses of `ipm_ends` met by a nonconvex problem over the reals.
-/
import Verif.IpmEnds
import Verif.IpmEx
import Verif.KktEx

namespace Hpipm
open Finset
set_option linter.unusedSectionVars false

section
variable {K : Type*} [Field K] [LinearOrder K] [IsStrictOrderedRing K]

theorem chol_first (sq : K → K) (n : ℕ) (hn : 1 ≤ n) (C : Mat K) (hC : C 0 0 ≤ 0) : chol sq n C 0 0 = 0 := by
  obtain ⟨m, rfl⟩ : ∃ m, n = m + 1 := ⟨n - 1, by omega⟩
  clear hn
  unfold chol
  induction m with
  | zero => simp [loop_succ, loop_zero, cholStep, not_lt.mpr hC]
  | succ m ih =>
    rw [loop_succ]
    unfold cholStep at ih ⊢
    rw [if_neg (by omega)]
    exact ih

theorem singular_first (sq : K → K) (m n : ℕ) (hm : 1 ≤ m) (hn : 1 ≤ n) (C D : Mat K) (hC : C 0 0 ≤ 0) :
    singular n (potrf_l_mn sq m n C D) = true := by
  have h0 : potrf_l_mn sq m n C D 0 0 = 0 := by
    unfold potrf_l_mn
    rw [if_pos ⟨by omega, by omega, le_refl _⟩, chol_first sq n hn C hC]
  obtain ⟨k, rfl⟩ : ∃ k, n = k + 1 := ⟨n - 1, by omega⟩
  generalize potrf_l_mn sq m (k + 1) C D = L at h0
  clear hn
  unfold singular
  induction k with
  | zero => simp [loop_succ, loop_zero, h0]
  | succ k ih => rw [loop_succ, ih]; rfl

/-- **C53, boundary.**  `reg_prim <= -1e-4`: if the last stage has an unconstrained input of nonpositive curvature the
factorise-and-solve routine loops forever, for both algorithms. -/
theorem factSolve_forever (sq : K → K) (qp : OcpQp K) (hwf : qp.WF) (hN : 1 ≤ qp.dim.N) (dual sqr : Bool) (reg : K)
    (hreg : reg ≤ -(1 / 10000)) (hu : 1 ≤ qp.dim.nu qp.dim.N) (hb : qp.dim.nb qp.dim.N = 0) (hg : qp.dim.ng qp.dim.N = 0)
    (hR0 : qp.RSQrq qp.dim.N 0 0 ≤ 0) (c : Core K) (st : KktSt K) (hR : ROk qp st) (hB : BOk qp st) (fuel : ℕ) :
    factSolveKktStep sq fuel qp dual sqr reg reg c st = none := by
  have hr : reg ≤ 0 := le_trans hreg (by norm_num)
  have hk : ∀ (dr : ℕ → ℕ → K) (G : ℕ → Vec K), dr qp.dim.N 0 ≤ 0 → kH qp dr reg G qp.dim.N 0 0 ≤ 0 := by
    intro dr G h
    unfold kH
    rw [hb, hg]
    simp only [range_zero, sum_empty, add_zero, if_true, symL, le_refl, Nat.add_zero]
    exact add_nonpos hR0 h
  have hcl : ∀ (G g : ℕ → Vec K) (preg : K) (st : KktSt K), preg ≤ 0 → ROk qp st → (clBack sq qp reg preg G g st).1 = true := by
    intro G g preg st hp hR
    obtain ⟨-, -, -, C, f4, f5, -⟩ := clLast_val sq qp hwf reg preg (fun k i => if i < qp.dim.nu k then preg else reg)
      (fun i hi => rfl) G g st hR
    have hs : singular (qp.dim.nu qp.dim.N) ((clLast sq qp reg preg G g st).L qp.dim.N) = true := by
      rw [f4]
      refine singular_first sq _ _ (by omega) hu C C ?_
      rw [f5.1 0 0 (by omega) (le_refl _)]
      exact hk _ _ (by rw [if_pos (by omega)]; exact hp)
    have hl : ∀ n, (clLoop sq qp reg preg G g st n).1 = true := by
      intro n
      induction n with
      | zero => exact hs
      | succ n ih => unfold clLoop at ih ⊢; rw [loop_succ, if_pos ih]; exact ih
    have h0 := hl (qp.dim.N - 1)
    unfold clLoop at h0
    unfold clBack
    simp only
    rw [if_pos h0]; exact h0
  have hsq : ∀ (G g : ℕ → Vec K) (preg : K) (st : KktSt K), preg ≤ 0 → ROk qp st → (sqBack sq qp reg preg G g st).1 = true := by
    intro G g preg st hp hR
    obtain ⟨-, -, -, C, L0, f4, f5⟩ := sqLast_val sq qp hwf reg preg (fun _ _ => preg) (fun i hi => rfl) G g st hR
    have hs : singular (qp.dim.nu qp.dim.N + qp.dim.nx qp.dim.N) ((sqLast sq qp reg preg G g st).L qp.dim.N) = true := by
      rw [f4]
      refine singular_first sq _ _ (by omega) (by omega) C L0 ?_
      rw [f5.1 0 0 (by omega) (le_refl _)]
      exact hk _ _ hp
    unfold sqBack
    simp only
    generalize hn : qp.dim.N = n at hs ⊢
    have : ∀ m, (loop m (fun nn (s : Bool × KktSt K) =>
        if s.1 then s
        else (singular (qp.dim.nu (n - nn - 1) + qp.dim.nx (n - nn - 1)) ((sqMid sq qp reg preg G g (n - nn - 1) s.2).L (n - nn - 1)),
          sqMid sq qp reg preg G g (n - nn - 1) s.2))
        (singular (qp.dim.nu n + qp.dim.nx n) ((sqLast sq qp reg preg G g st).L n), sqLast sq qp reg preg G g st)).1 = true := by
      intro m
      induction m with
      | zero => exact hs
      | succ m ih => rw [loop_succ, if_pos ih]; exact ih
    exact this n
  have hmain : ∀ (G g : ℕ → Vec K) (fuel : ℕ) (preg : K) (init sqr : Bool) (st : KktSt K), preg ≤ 0 → ROk qp st → BOk qp st →
      kktMain sq qp reg reg G g fuel preg init sqr st = none := by
    intro G g fuel
    induction fuel with
    | zero =>
      intro preg init sqr st hp hR hB
      unfold kktMain
      cases sqr
      · simp only [Bool.false_eq_true, if_false]; rw [if_pos (hcl G g preg st hp hR)]
      · simp only [if_true]; rw [if_pos (hsq G g preg st hp hR)]
    | succ fuel ih =>
      intro preg init sqr st hp hR hB
      have hnp : nextPreg reg reg preg init ≤ 0 := by
        unfold nextPreg
        cases init
        · simp only [Bool.false_eq_true, if_false, if_true]; linarith
        · simp only [Bool.true_eq_false, if_false, if_true]; linarith
      unfold kktMain
      cases sqr
      · simp only [Bool.false_eq_true, if_false]; rw [if_pos (hcl G g preg st hp hR)]
        obtain ⟨k1, k2, _⟩ := clBack_ok sq qp hwf hN reg preg G g st hR hB
        exact ih _ _ _ _ hnp k1 k2
      · simp only [if_true]; rw [if_pos (hsq G g preg st hp hR)]
        obtain ⟨k1, k2, _⟩ := sqBack_ok sq qp hwf reg preg (fun _ _ => preg) (fun _ _ _ _ => rfl) G g st hR hB
        exact ih _ _ _ _ hnp k1 k2
  unfold factSolveKktStep
  simp only
  rw [hmain _ _ _ _ _ _ _ hr hR hB]

end

/-! ### examples -/

/-- a concave input in the last stage, no constraints -/
def exNcDim : QpDim where
  N := 1
  nx := fun _ => 0
  nu := fun k => if k = 1 then 1 else 0
  nb := fun _ => 0
  nbx := fun _ => 0
  nbu := fun _ => 0
  ng := fun _ => 0
  ns := fun _ => 0
  nbxe := fun _ => 0
  nbue := fun _ => 0
  nge := fun _ => 0

def exNcQp : OcpQp ℚ := { exIpQp with
  dim := exNcDim
  RSQrq := fun _ i j => if i = 0 ∧ j = 0 then -1 / 2 else 1 }

def exNcKkt : KktSt ℚ := { exIpIpm.kkt with
  BAbt := exNcQp.BAbt
  RSQrq := exNcQp.RSQrq }

/-- `factSolve_forever` applies -/
example (fuel : ℕ) (sqr : Bool) : factSolveKktStep (fun x => x) fuel exNcQp true sqr (-1) (-1) exIpCore exNcKkt = none := by
  refine factSolve_forever _ exNcQp ⟨?_, ?_⟩ (le_refl 1) true sqr (-1) (by norm_num) (le_refl 1) rfl rfl (by decide +kernel) _ _
    (fun _ _ _ _ _ _ => rfl) (fun _ _ _ _ _ _ => rfl) fuel
  · intro k j _ hj; exact absurd hj (Nat.not_lt_zero _)
  · intro k j _ hj; exact absurd hj (Nat.not_lt_zero _)

/-- with `reg_prim = 0` the same problem is factorised at the third retry (`preg = 1e-4, 1e-2, 1`), not before -/
example : (factSolveKktStep (fun x => x) 2 exNcQp true true 0 0 exIpCore exNcKkt).isNone = true ∧
    ((factSolveKktStep (fun x => x) 3 exNcQp true true 0 0 exIpCore exNcKkt).map fun o => (o.preg_last, o.sqr)) = some (1, false) := by
  decide +kernel

/-- the hypotheses of `ipm_ends` hold for a nonconvex problem -/
noncomputable def exNcEnv : Env ℝ where
  sq := Real.sqrt
  fuel := 0
  qp := { exKQp with RSQrq := fun _ i j => if i = 0 ∧ j = 0 then -1 else 0 }
  arg :=
    { r := fun _ => 0
      i := fun f => match f with
        | .iter_max => 5
        | _ => 0 }
  sqr := true
  lqf := 0
  statMax := 5
  lq := fun _ _ _ _ => none
  factOnly := fun _ _ st => st

example : exNcEnv.Ends where
  sq := exK_sqrt
  wf := ⟨exKQp_wf.1, exKQp_wf.2⟩
  N := le_refl 1
  reg := le_refl _
  lq := Or.inl rfl

example (sol : Sol ℝ) (s : Ipm ℝ) : ∃ n o, ∀ fuel, n ≤ fuel → ipmSolve (exNcEnv.withFuel fuel) 5 sol s = some o := by
  obtain ⟨n, o, h⟩ := ipm_ends (E := exNcEnv) ⟨exK_sqrt, ⟨exKQp_wf.1, exKQp_wf.2⟩, le_refl 1, le_refl _, Or.inl rfl⟩ sol s
  exact ⟨n, o, fun f hf => h f hf 5 (le_refl _)⟩

end Hpipm
