/-
Model of COND_QCQP_QC, cond/x_cond_qcqp.c:419-558: condensing of the quadratic constraints of an OCP QCQP, called by COND_QCQP_COND
(793-822) after COND_BABT, COND_RSQRQ and COND_DCTD (Cond.lean), which condense the QP with `ng+nq` general constraints.

The running counters of the loops (`nu_tmp`, `nu_tot_tmp`, `nq_tot_tmp`) are written in closed form.
-/
import Verif.QcqpProps
import Verif.CondRun

namespace Hpipm
open Finset
set_option linter.unusedSectionVars false

section
variable {K : Type*} [Field K]

/-- `COLAD(n, a, x, xi, A, ai, aj)`: `A[ai+i][aj] += a*x[xi+i]` -/
def qcColad (n : ℕ) (a : K) (x : Vec K) (xi : ℕ) (A : Mat K) (ai aj : ℕ) : Mat K :=
  fun i j => if j = aj ∧ (ai ≤ i ∧ i < ai + n) then A i j + a * x (xi + (i - ai)) else A i j

/-- the data that COND_QCQP_QC reads and writes -/
structure QcSt (K : Type*) where
  /-- the caller's Hessians; their upper triangles are overwritten -/
  Hq : ℕ → ℕ → Mat K
  Hq2 : ℕ → Mat K
  nz2 : ℕ → ℕ
  Ct2 : Mat K
  d2 : Vec K
  GQ : ℕ → Mat K
  tmp_nvc : Vec K
  tmp_nuxM : Vec K
  /-- an access outside an array happened -/
  ub : Bool

/-- the sizes of x_cond_qcqp.c:452-463 -/
def qcNvc (D : QpDim) (N : ℕ) : ℕ := sumTo D.nu (N + 1) + D.nx 0
def qcNbc (D : QpDim) (N : ℕ) : ℕ := D.nbx 0 + sumTo D.nbu (N + 1)
def qcNgc (D : QpDim) (N : ℕ) : ℕ := sumTo D.ng (N + 1) + sumTo (fun k => D.nbx (k + 1)) N
def qcNqc (nq : ℕ → ℕ) (N : ℕ) : ℕ := sumTo nq (N + 1)

/-- `nq_tot_tmp` of stage `k` -/
def qcPos (nq : ℕ → ℕ) (N k : ℕ) : ℕ := sumTo nq (N + 1) - sumTo nq (k + 1)
/-- `nu_tot_tmp` of stage `k` -/
def qcOff (nu : ℕ → ℕ) (N k : ℕ) : ℕ := sumTo nu (N + 1) - sumTo nu (k + 1)

/-- the matrix at `Hq[k]+p`: the matrices of all stages are in one array (x_ocp_qcqp.c:202-209), of which `n` stages are left;
`none`: past its end -/
def hqFlat (nq : ℕ → ℕ) (Hq : ℕ → ℕ → Mat K) : ℕ → ℕ → ℕ → Option (Mat K)
  | 0, _, _ => none
  | n + 1, k, p => if p < nq k then some (Hq k p) else hqFlat nq Hq n (k + 1) (p - nq k)

/-- a constraint of stage 0, x_cond_qcqp.c:486-502.  The Hessian is taken from `Hq[0]+nq[jj]`. -/
def qcFirst (Q : Qcqp K) (nz : ℕ → ℕ → ℕ) (N jj : ℕ) (s : QcSt K) : QcSt K :=
  let D := Q.base.dim
  let nvc := qcNvc D N
  let q := qcPos Q.nq N 0 + jj
  let o := qcOff D.nu N 0
  match (if jj ≤ D.N then hqFlat Q.nq s.Hq (D.N + 1) 0 (Q.nq jj) else none) with
  | none => { s with ub := true }
  | some M =>
    { s with
      Hq2 := upd s.Hq2 q (trcp_l (D.nu 0 + D.nx 0) M 0 0 (gese (nvc + 1) nvc 0 (s.Hq2 q) 0 0) o o)
      nz2 := upd s.nz2 q ((if 0 < D.nx 0 then nz 0 jj % 4 else 0) + 4 * (nz 0 jj / 4 % 2)) }

/-- what the Hessian of a constraint of stage `kk>0` becomes: x_cond_qcqp.c:481, 513, 524, 530; `M` the Hessian with both triangles if the flag of
`Q` is set, `G` is `Gamma[kk-1]`, `GQ` is `Gamma[kk-1]*Q`, `p = nu_tmp+nx[0]`, `o = nu_tot_tmp` -/
def qcHess (nvc p o nu nx z : ℕ) (G GQ M H : Mat K) : Mat K :=
  let H := gese (nvc + 1) nvc 0 H 0 0
  let H := if z % 2 = 1 then syrk_ln_mn (p + 1) p nx 1 G 0 0 GQ 0 0 0 H (o + nu) (o + nu) H (o + nu) (o + nu) else H
  let H := if z / 4 % 2 = 1 then gead nu nu 1 M 0 0 H o o else H
  if z / 2 % 2 = 1 then gemm_nn (p + 1) nu nx 1 G 0 0 M nu 0 1 H (o + nu) o H (o + nu) o else H

/-- a constraint of a stage `kk>0`, x_cond_qcqp.c:503-550 -/
def qcLater (Q : Qcqp K) (nz : ℕ → ℕ → ℕ) (Gamma : ℕ → Mat K) (Gammab : ℕ → Vec K) (N kk jj : ℕ) (s : QcSt K) : QcSt K :=
  let D := Q.base.dim
  let nu := D.nu kk
  let nx := D.nx kk
  let nvc := qcNvc D N
  let nbc := qcNbc D N
  let ngc := qcNgc D N
  let p := sumTo D.nu kk + D.nx 0
  let o := qcOff D.nu N kk
  let q := qcPos Q.nq N kk + jj
  let z := nz kk jj
  let M := if z % 2 = 1 then trtr_l (nu + nx) (s.Hq kk jj) 0 0 (s.Hq kk jj) 0 0 else s.Hq kk jj
  let GQ := if z % 2 = 1 then gemm_nn (p + 1) nx nx 1 (Gamma (kk - 1)) 0 0 M nu nu 0 (s.GQ (kk - 1)) 0 0 (s.GQ (kk - 1)) 0 0 else s.GQ (kk - 1)
  let tx := if z % 2 = 1 then rowex nx 1 GQ p 0 s.tmp_nuxM 0 else s.tmp_nuxM
  let rho := if z % 2 = 1 then 1 / 2 * dot nx tx 0 (Gammab (kk - 1)) 0 else 0
  let H := qcHess nvc p o nu nx z (Gamma (kk - 1)) GQ M (s.Hq2 q)
  let tv := rowex p 1 H nvc (o + nu) s.tmp_nvc 0
  let d2 := upd s.d2 (nbc + ngc + q) (s.d2 (nbc + ngc + q) - rho)
  let b7 := if D.nx 0 = 0 then 4 else 7
  let b6 := if D.nx 0 = 0 then 4 else 6
  { Hq := upd s.Hq kk (upd (s.Hq kk) jj M)
    Hq2 := upd s.Hq2 q H
    nz2 := upd s.nz2 q ((if z % 2 = 1 then b7 else 0) ||| (if z / 4 % 2 = 1 then 4 else 0) ||| (if z / 2 % 2 = 1 then b6 else 0))
    Ct2 := qcColad p 1 tv 0 s.Ct2 (o + nu) (ngc + q)
    d2 := upd d2 (2 * nbc + 2 * ngc + qcNqc Q.nq N + q) (d2 (2 * nbc + 2 * ngc + qcNqc Q.nq N + q) + rho)
    GQ := upd s.GQ (kk - 1) GQ
    tmp_nvc := tv
    tmp_nuxM := tx
    ub := s.ub }

/-- the constraints of stage `kk`, x_cond_qcqp.c:470-554 -/
def qcStage (Q : Qcqp K) (nz : ℕ → ℕ → ℕ) (Gamma : ℕ → Mat K) (Gammab : ℕ → Vec K) (N kk : ℕ) (s : QcSt K) : QcSt K :=
  loop (Q.nq kk) (fun jj s => if kk = 0 then qcFirst Q nz N jj s else qcLater Q nz Gamma Gammab N kk jj s) s

/-- COND_QCQP_QC, x_cond_qcqp.c:419-558; `N` is the last condensed stage -/
def condQc (Q : Qcqp K) (nz : ℕ → ℕ → ℕ) (Gamma : ℕ → Mat K) (Gammab : ℕ → Vec K) (N : ℕ) (s : QcSt K) : QcSt K :=
  let D := Q.base.dim
  if N = 0 then
    { s with Hq2 := loop (Q.nq 0) (fun jj H => upd H jj (gecp (D.nu 0 + D.nx 0) (D.nu 0 + D.nx 0) (s.Hq 0 jj) 0 0 (H jj) 0 0)) s.Hq2 }
  else
    loop (N + 1) (qcStage Q nz Gamma Gammab N) { s with Ct2 := gese (qcNvc D N) (qcNqc Q.nq N) 0 s.Ct2 0 (qcNgc D N) }

end

section
variable {K : Type*} [Field K] [LinearOrder K]

/-- COND_QCQP_COND, cond/x_cond_qcqp.c:793-822: the QP with `ng+nq` general constraints is condensed, then the quadratic constraints.  Simplified: the
temporary QP (797-810) is given all fields of the QCQP; the code leaves `m` and `diag_H_flag` unset. -/
def condQcqpCond (sq : K → K) (Q : Qcqp K) (nz : ℕ → ℕ → ℕ) (arg : CondArg) (ws : CondWs K) (tg : CondTgt K) (s : QcSt K) :
    CondWs K × CondTgt K × QcSt K :=
  let r := condBlock sq Q.inner arg ws tg
  match condTop Q.base.dim.N arg with
  | none => (r.2.1, r.2.2, s)
  | some N =>
    let t := condQc Q nz r.2.1.Gamma r.2.1.Gammab N { s with
      Hq := Q.Hq
      Ct2 := r.2.2.DCt2
      d2 := r.2.2.d2 }
    (r.2.1, { r.2.2 with
      DCt2 := t.Ct2
      d2 := t.d2 }, t)

end
end Hpipm
