import Verif.IpmMat
import Verif.ResProps
namespace Hpipm

def exIpDim : QpDim where
  N := 1
  nx := fun k => if k = 1 then 1 else 0
  nu := fun k => if k = 0 then 1 else 0
  nb := fun k => if k = 0 then 1 else 0
  nbx := fun _ => 0
  nbu := fun k => if k = 0 then 1 else 0
  ng := fun _ => 0
  ns := fun _ => 0
  nbxe := fun _ => 0
  nbue := fun _ => 0
  nge := fun _ => 0

def exIpQp : OcpQp ℚ where
  dim := exIpDim
  BAbt := fun _ _ _ => 1
  RSQrq := fun _ i j => if i = 0 ∧ j = 0 then 1 else 0
  DCt := fun _ _ _ => 0
  b := fun _ _ => 1
  rqz := fun _ _ => 0
  d := fun _ _ => -5
  d_mask := fun _ _ => 1
  m := fun _ _ => 0
  Z := fun _ _ => 1
  idxb := fun _ _ => 0
  idxs_rev := fun _ _ => -1
  idxe := fun _ _ => 0
  diag_H_flag := fun _ => 0

def exIpArg : IpmArg ℚ where
  r := fun f => match f with
    | .mu0 => 25
    | .alpha_min => 1 / 1000
    | .res_g_max => 1 / 10
    | .res_b_max => 1 / 10
    | .res_d_max => 1 / 10
    | .res_m_max => 8
    | .dual_gap_max => 20
    | .lam_min => 1 / 100000
    | .t_min => 1 / 100000
    | _ => 0
  i := fun f => match f with
    | .iter_max => 5
    | .split_step => 1
    | .t_lam_min => 2
    | .comp_dual_sol_eq => 1
    | .comp_res_exit => 1
    | .pred_corr => 1
    | _ => 0

def exIpEnv : Env ℚ where
  sq := fun x => if x = 25 then 5 else if x = 4 then 2 else 1
  fuel := 2
  qp := exIpQp
  arg := exIpArg
  sqr := false
  lqf := 0
  statMax := 5
  lq := fun _ _ _ _ => none
  factOnly := fun _ _ st => st

def exIpCore : Core ℚ := { coreMk 2 (fun _ => 0) (fun _ => 0) (fun _ => 0) (fun _ => 0) 1 2 with nv := 2, ne := 1, nc := 2 }

def exIpRes : Res ℚ := ⟨fun _ _ => 0, fun _ _ => 0, fun _ _ => 0, fun _ _ => 0, 0, 0, 0, 0⟩

def exIpIpm : Ipm ℚ where
  core := exIpCore
  res := exIpRes
  rmax := (0, 0, 0, 0)
  rws := { tmp0 := fun _ => 0, tmp1 := fun _ => 0, tmp_lam_mask := fun _ => 0, valid_nc_mask := false, mask_constr := false, nc_mask_inv := 0 }
  resIt := exIpRes
  kkt := ⟨fun _ _ _ => 0, fun _ _ _ => 0, fun _ _ _ => 0, fun _ _ _ => 0, fun _ _ => 0, fun _ _ => 0, fun _ _ => 0, fun _ _ => 0, fun _ _ => 0,
    fun _ _ => 0, fun _ => 0, fun _ => 0, fun _ => 0, fun _ => 0, fun _ => 0, fun _ _ => 0, fun _ _ => 0, fun _ _ => 0, fun _ _ => 0⟩
  itr := ⟨fun _ _ => 0, fun _ _ => 0, fun _ _ => 0, fun _ _ => 0⟩
  preg_last := 0
  npd := false
  lastLq := false
  mask := false
  stat := fun _ => 0
  oob := false

def exIpSol : Sol ℚ := ⟨fun _ _ => 0, fun _ _ => 0, fun _ _ => 0, fun _ _ => 0⟩
theorem exS_run : ((ipmSolve exIpEnv 5 exIpSol exIpIpm).map fun o => (o.iter, o.status)) = some (1, .SUCCESS) := by decide +kernel
end Hpipm
