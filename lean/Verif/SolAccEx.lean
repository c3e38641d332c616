import Verif.SolAccDense
import Mathlib.Algebra.Field.Rat
import Mathlib.Data.Rat.Cast.Order

/-! Concrete cases for C94: a two-stage problem with bounds on a control and a state, a general constraint and a slack. -/

namespace Hpipm

/-- `N = 1`, one control, two states, one bound on the control, one on a state, one general constraint, one slack -/
def exSaDim : QpDim where
  N := 1
  nx := fun _ => 2
  nu := fun k => if k = 0 then 1 else 0
  nb := fun k => if k = 0 then 2 else 1
  nbx := fun _ => 1
  nbu := fun k => if k = 0 then 1 else 0
  ng := fun _ => 1
  ns := fun _ => 1

theorem exSaDim_ok : exSaDim.Ok := by intro k; by_cases h : k = 0 <;> simp [exSaDim, h]

/-- some solution -/
def exSaSol : Sol ℚ where
  ux := fun k i => 100 * k + i
  pi := fun k i => 1000 + 100 * k + i
  lam := fun k i => 2000 + 100 * k + i
  t := fun k i => 3000 + 100 * k + i

/-- reads the first `n` numbers of an outcome -/
def outList (o : Out (Vec ℚ)) (n : ℕ) : Option (List ℚ) := match o with
  | .ok w => some ((List.range n).map w)
  | _ => none

-- `sol_get_field`: the bound multipliers of the state at stage 0 are component 1 of the lower side; entries beyond stay
example : outList (solGet exSaDim "lam_lbx" 0 exSaSol (fun _ => 7)) 3 = some [2001, 7, 7] := by decide +kernel
example : outList (solGet exSaDim "lam_us" 1 exSaSol (fun _ => 7)) 2 = some [2105, 7] := by decide +kernel
example : SolF.lam_lbx.StageOk exSaDim 0 ∧ 0 < SolF.lam_lbx.len exSaDim 0 ∧ (SolF.lam_lbx.comp exSaDim 0 0) = .lo 0 1 := by
  refine ⟨Nat.zero_le _, ?_, ?_⟩ <;> decide
-- `sol_stage_range`: there is no `pi` at the last stage
example : ¬ SolF.pi.StageOk exSaDim 1 ∧ SolF.x.StageOk exSaDim 1 := by constructor <;> simp [SolF.StageOk, exSaDim]
-- `sol_unknown`
example : ∀ f : SolF, "lam" ≠ f.name := by intro f; cases f <;> decide

/-- three writes: both multipliers of the lower bounds, then the one of the state bound alone, then states -/
def exSaCalls : List (SolCall ℚ) :=
  [⟨.lam_lb, 0, fun i => 10 + i⟩, ⟨.lam_lbx, 0, fun _ => 5⟩, ⟨.x, 1, fun i => 60 + i⟩]

-- `sol_set_history`: its hypothesis holds and the last covering call wins
example : ∀ q ∈ exSaCalls, q.field.StageOk exSaDim q.stage := by
  intro q hq; simp only [exSaCalls, List.mem_cons, List.not_mem_nil, or_false] at hq
  rcases hq with rfl | rfl | rfl <;> simp [SolF.StageOk, exSaDim]
example : (match solSets exSaDim exSaCalls exSaSol with
    | .ok s => some (s.comp exSaDim (.lo 0 0), s.comp exSaDim (.lo 0 1), s.comp exSaDim (.x 1 1), s.comp exSaDim (.lo 0 2))
    | _ => none) = some (10, 5, 61, 2002) := by decide +kernel
example : (⟨.lam_lbx, 0, fun _ => 5⟩ : SolCall ℚ).Writes exSaDim (.lo 0 1) 0 ∧ (Comp.lo 0 1).Valid exSaDim := by
  refine ⟨⟨?_, ?_⟩, ?_, ?_⟩ <;> decide

/-- buffers of the bulk routines -/
def exSaBuf : SolBuf ℚ :=
  ⟨fun k i => 1 + 10 * k + i, fun k i => 2 + 10 * k + i, fun k i => 3 + 10 * k + i, fun k i => 4 + 10 * k + i, fun k i => 5 + 10 * k + i,
   fun k i => 6 + 10 * k + i, fun k i => 7 + 10 * k + i, fun k i => 8 + 10 * k + i, fun k i => 9 + 10 * k + i, fun k i => -1 - 10 * k - i,
   fun k i => -2 - 10 * k - i⟩

-- `sol_set_all` / `sol_get_all`
example : ((solSetAll exSaDim exSaBuf exSaSol).lam 0 2, (solSetAll exSaDim exSaBuf exSaSol).lam 0 5, (solSetAll exSaDim exSaBuf exSaSol).ux 1 2) =
  (8, 9, 13) := by decide +kernel
example : ((solGetAll exSaDim exSaSol exSaBuf).lam_ug 0 0, (solGetAll exSaDim exSaSol exSaBuf).lam_ug 0 1, (solGetAll exSaDim exSaSol exSaBuf).pi 1 0) =
  (2005, 10, 15) := by decide +kernel
-- `sol_copy_all`, `sol_set_zero`
example : (solCopyAll exSaDim exSaSol (solSetZero exSaDim exSaSol)).comp exSaDim (.us 1 0) = 2105 ∧
    (solSetZero exSaDim exSaSol).comp exSaDim (.us 1 0) = 0 := by constructor <;> decide +kernel

/-- a dense problem `1/2 v^2` without constraints -/
def exSaQp : DenseQp ℚ where
  dim := ⟨1, 0, 0, 0, 0⟩
  Hv := fun _ _ => 1
  A := fun _ _ => 0
  Ct := fun _ _ => 0
  gz := fun _ => 0
  b := fun _ => 0
  d := fun _ => 0
  d_mask := fun _ => 1
  m := fun _ => 0
  Z := fun _ => 0
  idxb := fun _ => 0
  idxs_rev := fun _ => -1

/-- its solution object at `v = 1` -/
def exSaDsol : DSolObj ℚ := ⟨⟨fun _ => 1, fun _ => 0, fun _ => 0, fun _ => 0⟩, 0, 0⟩

/-- **C94 (finding, witness).** The objective is computed at `v = 1`, then the user writes `v = 4`: the object still says the stored
objective is valid, and it is the one of `v = 1`. -/
theorem dsol_obj_stale_witness : (match dsolSet exSaQp.dim "v" (fun _ => 4) (dsolComputeObj exSaQp exSaDsol) with
    | .ok o => some (o.valid, o.obj, denseObj exSaQp o.sol.v)
    | _ => none) = some (1, 1 / 2, 8) := by decide +kernel

end Hpipm
