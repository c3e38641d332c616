import Verif.IpmItref
import Verif.IpmEx

/-!
Concrete refinement runs (C36): the hypotheses of the theorems are met and a correction is kept; in the prediction phase a
correction that increases the residual is kept (the shadowed variable `max_itref_qp_norm`, x_ocp_qp_ipm.c:2410, 2466),
in the correction phase it is not.
-/
namespace Hpipm

/-- one stage with three inputs, the third one bounded -/
def exItDim : QpDim where
  N := 1
  nx := fun _ => 0
  nu := fun k => if k = 0 then 3 else 0
  nb := fun k => if k = 0 then 1 else 0
  nbx := fun _ => 0
  nbu := fun k => if k = 0 then 1 else 0
  ng := fun _ => 0
  ns := fun _ => 0
  nbxe := fun _ => 0
  nbue := fun _ => 0
  nge := fun _ => 0

def exItHess (i j : ℕ) : ℚ :=
  if i = 0 ∧ j = 0 then 3 else if i = 1 ∧ j = 0 then -6 else if i = 1 ∧ j = 1 then 12 else if i = 2 ∧ j = 2 then 1 else 0

def exItQp : OcpQp ℚ := { exIpQp with
  dim := exItDim
  RSQrq := fun k => if k = 0 then exItHess else fun _ _ => 0
  idxb := fun _ _ => 2 }

/-- `reg_prim = 1`, all tolerances zero -/
def exItArg : IpmArg ℚ where
  r := fun f => match f with
    | .reg_prim => 1
    | _ => 0
  i := fun _ => 0

def exItEnv : Env ℚ := { exIpEnv with qp := exItQp, arg := exItArg, sq := fun x => if x = 4 then 2 else 1 }

def exItIpm : Ipm ℚ := { exIpIpm with
  core := { exIpCore with nv := 3, ne := 0, nc := 2, lam := fun _ => 1, t := fun _ => 1, res_m := fun _ => 0 }
  res := { exIpRes with res_g := fun k i => if k = 0 ∧ i = 0 then -246 / 5 else if k = 0 ∧ i = 1 then 517 / 5 else 0 }
  kkt := { exIpIpm.kkt with RSQrq := exItQp.RSQrq } }

theorem exItQp_wf : exItQp.WF := by
  refine ⟨fun k j hk hj => ?_, fun k j _ _ => Or.inl rfl⟩
  have hk : k ≤ 1 := hk
  interval_cases k
  · show (2 : ℕ) < _; decide
  · exact absurd hj (by show ¬ j < 0; omega)

theorem exItQp_mask : Mask01 exItQp := fun _ _ _ _ => Or.inr rfl

/-- the largest norm after at most `n` passes of the refinement following the factorisation -/
def exItNorm (sh : Bool) (n : ℕ) : Option (ℚ × ℕ) :=
  (factPhase exItEnv 0 exItIpm).map fun s =>
    let o := itref exItEnv 0 sh n s
    (max4 (linRes exItEnv o.s).2, o.cnt)

/-- the hypotheses of `pred_refine` are met; the residual goes down from 37/5 to 9/5 -/
example : (∃ s, factPhase exItEnv 0 exItIpm = some s) ∧ exItIpm.core.nc = stOff (nct exItEnv.qp.dim) (exItEnv.qp.dim.N + 1) ∧
    exItIpm.rws.Ok exItEnv.qp ∧ exItNorm true 0 = some (37 / 5, 0) ∧ exItNorm true 1 = some (9 / 5, 1) := by
  refine ⟨?_, by decide +kernel, fun h => absurd h (by decide), by decide +kernel, by decide +kernel⟩
  rw [← Option.isSome_iff_exists]
  decide +kernel

/-- a second pass of the prediction refinement is kept although it makes the residual larger; the correction refinement
rejects it -/
theorem pred_refine_not_monotone : exItNorm true 1 = some (9 / 5, 1) ∧ exItNorm true 2 = some (159 / 80, 2) ∧
    exItNorm false 2 = some (9 / 5, 1) ∧ (9 / 5 : ℚ) < 159 / 80 := by
  refine ⟨by decide +kernel, by decide +kernel, by decide +kernel, by norm_num⟩

end Hpipm
