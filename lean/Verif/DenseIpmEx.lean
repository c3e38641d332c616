/-
A run of the dense solver on a concrete problem, used to show that the hypotheses of the theorems on whole solves are met:
min v0^2 + v1^2/2 + v0  s.t.  v1 = 1,  -5 <= v0 <= 5, with a masked general constraint.
-/
import Verif.DenseIpmProps
import Verif.DenseIpmInit
import Verif.IpmEx

namespace Hpipm

def exDIQp : DenseQp ℚ where
  dim := ⟨2, 1, 1, 1, 0⟩
  Hv := fun i j => if i = 0 ∧ j = 0 then 2 else if i = 1 ∧ j = 1 then 1 else 0
  A := fun _ j => if j = 1 then 1 else 0
  Ct := fun i _ => if i = 0 then 1 else 0
  gz := fun i => if i = 0 then 1 else 0
  b := fun _ => 1
  d := fun _ => -5
  d_mask := fun j => if j = 1 ∨ j = 3 then 0 else 1
  m := fun _ => 0
  Z := fun _ => 1
  idxb := fun _ => 0
  idxs_rev := fun _ => -1

def exDIArg : DIpmArg ℚ where
  r := exIpArg.r
  i := exIpArg.i
  reg_dual := 0
  kkt_fact_alg := 1
  scale := false
  compute_obj := 1

def exDIEnv : DEnv ℚ where
  sq := fun x => if x = 25 then 5 else if x = 4 then 2 else 1
  fuel := 2
  lqd := fun _ _ A => (A, A)
  qp := exDIQp
  arg := exDIArg
  lqf := 0
  statMax := 5
  lq := fun _ _ st => (st, false, false)
  factOnly := fun _ _ st => st

def exDICore : Core ℚ := { coreMk 4 (fun _ => 0) (fun _ => 0) (fun _ => 0) (fun _ => 0) 1 2 with nv := 2, ne := 1, nc := 4 }

def exDIRes : DRes ℚ := ⟨fun _ => 0, fun _ => 0, fun _ => 0, fun _ => 0, 0, 0, 0, 0⟩
def exDIKkt : DKkt ℚ where
  Lv := fun _ _ => 0
  Le := fun _ _ => 0
  Ctx := fun _ _ => 0
  AL := fun _ _ => 0
  A_LQ := fun _ _ => 0
  A_Q := fun _ _ => 0
  Zt := fun _ _ => 0
  ZtH := fun _ _ => 0
  ZtHZ := fun _ _ => 0
  lv := fun _ => 0
  sv := fun _ => 0
  se := fun _ => 0
  Zs := fun _ => 0
  t0 := fun _ => 0
  t1 := fun _ => 0
  t2 := fun _ => 0
  t3 := fun _ => 0
  xy := fun _ => 0
  Yxy := fun _ => 0
  xz := fun _ => 0
  tmp_nv := fun _ => 0
  use_A_fact := false
  v := fun _ => 0
  pi := fun _ => 0
  lam := fun _ => 0
  t := fun _ => 0

def exDISol : DqSol ℚ := ⟨fun _ => 0, fun _ => 0, fun _ => 0, fun _ => 0⟩

def exDIIpm : DIpm ℚ where
  core := exDICore
  res := exDIRes
  rmax := (0, 0, 0, 0)
  rws := { tmp0 := fun _ => 0, tmp1 := fun _ => 0, tmp_lam_mask := fun _ => 0, valid_nc_mask := false, mask_constr := false, nc_mask_inv := 0 }
  resIt := exDIRes
  kkt := exDIKkt
  itr := exDISol
  preg_last := 0
  dreg_last := 0
  npd := false
  lastLq := false
  wscale := false
  mask := false
  stat := fun _ => 0
  oob := false
  Hv := fun _ _ => 0
  obj := 0
  validObj := false

theorem exDI_run : ((dipmSolve exDIEnv 5 exDISol exDIIpm).map fun o => (o.iter, o.status)) = some (1, .SUCCESS) := by decide +kernel
end Hpipm
