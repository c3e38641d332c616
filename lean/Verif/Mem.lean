/-
Model of the memsize / create pairs: how the create routines carve arrays out of the user's block.

A `Carve` is a piece of a create routine: given the current pointer it returns the arrays placed
(address, size in bytes) and the new pointer.  Sizes of C types and of BLASFEO objects are the
fields of `Abi`; the only facts used about them are in `Abi.Ok`.
-/
import Verif.OcpQp

namespace Hpipm

/-- sizes in bytes of the C types involved, and of BLASFEO matrices (`SIZE_STRMAT`), vectors
(`SIZE_STRVEC`) and the LQ work space (`GELQF_WORKSIZE`).  `CREATE_STRMAT(m,n,..)->memsize` is
`SIZE_STRMAT(m,n)`, likewise for vectors. -/
structure Abi where
  int : ℕ
  ptr : ℕ
  real : ℕ
  strmat : ℕ
  strvec : ℕ
  core : ℕ
  res : ℕ
  resWs : ℕ
  sol : ℕ
  qp : ℕ
  mat : ℕ → ℕ → ℕ
  vec : ℕ → ℕ
  gelqf : ℕ → ℕ → ℕ

/-- a BLASFEO vector of `n` elements has room for `n` reals -/
def Abi.Ok (A : Abi) : Prop := ∀ n, n * A.real ≤ A.vec n

/-- an array placed in memory -/
structure Region where
  lo : ℕ
  size : ℕ
  deriving DecidableEq

abbrev Carve := ℕ → List Region × ℕ

namespace Carve
/-- nothing -/
def skip : Carve := fun p => ([], p)
/-- `q = ptr; ptr += n;` -/
def arr (n : ℕ) : Carve := fun p => ([⟨p, n⟩], p + n)
/-- `ptr = (ptr+a-1)/a*a` -/
def align (a : ℕ) : Carve := fun p => ([], (p + (a - 1)) / a * a)
/-- one after the other -/
def seq (c d : Carve) : Carve := fun p =>
  let r := c p
  let s := d r.2
  (r.1 ++ s.1, s.2)
/-- `for(i=0; i<n; i++) c(i)` -/
def forN : ℕ → (ℕ → Carve) → Carve
  | 0, _ => skip
  | n + 1, c => seq (forN n c) (c n)
/-- `tmp = ptr; ptr += total;` and then arrays carved from `tmp` -/
def within (c : Carve) (total : ℕ) : Carve := fun p => ((c p).1, p + total)
end Carve
open Carve

infixl:60 " ⨟ " => Carve.seq

/-- `(size+63)/64*64` -/
def round64 (n : ℕ) : ℕ := (n + 63) / 64 * 64

/-- sums over stages `0..n-1` -/
def sumN (n : ℕ) (f : ℕ → ℕ) : ℕ := loop n (fun i s => s + f i) 0

/-- running maximum `M = f[ii]>M ? f[ii] : M` over stages `0..n-1` -/
def maxN (n : ℕ) (f : ℕ → ℕ) : ℕ := loop n (fun i s => if f i > s then f i else s) 0

section
variable (A : Abi) (D : QpDim)

def nctk (k : ℕ) : ℕ := 2 * D.nb k + 2 * D.ng k + 2 * D.ns k
def nvk (k : ℕ) : ℕ := D.nx k + D.nu k + 2 * D.ns k
/-- `nvt`, `net`, `nct` (e.g. ocp_qp/x_ocp_qp.c:61-73) -/
def totV : ℕ := sumN (D.N + 1) (nvk D)
def totE : ℕ := sumN D.N (fun k => D.nx (k + 1))
def totC : ℕ := sumN (D.N + 1) (nctk D)

/-- OCP_QP_DIM_MEMSIZE, ocp_qp/x_ocp_qp_dim.c:45-56 -/
def dimMemsize (N : ℕ) : ℕ := (10 * (N + 1) * A.int + 8 - 1) / 8 * 8
/-- OCP_QP_DIM_CREATE, ocp_qp/x_ocp_qp_dim.c:60-112: ten arrays of `N+1` ints -/
def dimCreate (N : ℕ) : Carve := forN 10 (fun _ => arr ((N + 1) * A.int))

/-- OCP_QP_MEMSIZE, ocp_qp/x_ocp_qp.c:45-117 -/
def qpMemsize : ℕ :=
  round64 (5 * (D.N + 1) * A.int + 3 * (D.N + 1) * A.ptr + 2 * (D.N + 1) * A.strmat + 1 * D.N * A.strmat
    + 5 * (D.N + 1) * A.strvec + 1 * D.N * A.strvec
    + sumN D.N (fun k => D.nb k * A.int + (D.nb k + D.ng k) * A.int
        + (D.nbue k + D.nbxe k + D.nge k) * A.int
        + A.mat (D.nu k + D.nx k + 1) (D.nx (k + 1)) + A.mat (D.nu k + D.nx k + 1) (D.nu k + D.nx k)
        + A.mat (D.nu k + D.nx k) (D.ng k) + A.vec (2 * D.ns k))
    + (D.nb D.N * A.int + (D.nb D.N + D.ng D.N) * A.int
        + (D.nbue D.N + D.nbxe D.N + D.nge D.N) * A.int
        + A.mat (D.nu D.N + D.nx D.N + 1) (D.nu D.N + D.nx D.N)
        + A.mat (D.nu D.N + D.nx D.N) (D.ng D.N) + A.vec (2 * D.ns D.N))
    + 1 * A.vec (totV D) + 1 * A.vec (totE D) + 3 * A.vec (totC D) + (D.N + 1) * A.int) + 64

/-- pointers, descriptors and index lists of OCP_QP_CREATE, ocp_qp/x_ocp_qp.c:156-232 -/
def qpCreateHead : Carve :=
  forN 3 (fun _ => arr ((D.N + 1) * A.ptr))
  ⨟ arr (D.N * A.strmat) ⨟ forN 2 (fun _ => arr ((D.N + 1) * A.strmat))
  ⨟ arr (D.N * A.strvec) ⨟ forN 5 (fun _ => arr ((D.N + 1) * A.strvec))
  ⨟ forN (D.N + 1) (fun k => arr (D.nb k * A.int))
  ⨟ forN (D.N + 1) (fun k => arr ((D.nb k + D.ng k) * A.int))
  ⨟ forN (D.N + 1) (fun k => arr ((D.nbue k + D.nbxe k + D.nge k) * A.int))
  ⨟ arr ((D.N + 1) * A.int)

/-- stage vectors carved from one block of reals (e.g. ocp_qp/x_ocp_qp.c:266-345) -/
def stageVecs (n : ℕ) (len : ℕ → ℕ) (total : ℕ) : Carve :=
  within (forN n (fun k => arr (len k * A.real))) total

/-- matrices and vectors of OCP_QP_CREATE, ocp_qp/x_ocp_qp.c:239-346 -/
def qpCreateBody : Carve :=
  forN D.N (fun k => arr (A.mat (D.nu k + D.nx k + 1) (D.nx (k + 1))))
  ⨟ forN (D.N + 1) (fun k => arr (A.mat (D.nu k + D.nx k + 1) (D.nu k + D.nx k)))
  ⨟ forN (D.N + 1) (fun k => arr (A.mat (D.nu k + D.nx k) (D.ng k)))
  ⨟ forN (D.N + 1) (fun k => arr (A.vec (2 * D.ns k)))
  ⨟ stageVecs A (D.N + 1) (nvk D) (A.vec (totV D))
  ⨟ stageVecs A D.N (fun k => D.nx (k + 1)) (A.vec (totE D))
  ⨟ stageVecs A (D.N + 1) (nctk D) (A.vec (totC D))
  ⨟ stageVecs A (D.N + 1) (nctk D) (A.vec (totC D))
  ⨟ stageVecs A (D.N + 1) (nctk D) (A.vec (totC D))

/-- OCP_QP_CREATE, ocp_qp/x_ocp_qp.c:121-366 -/
def qpCreate : Carve := qpCreateHead A D ⨟ align 64 ⨟ qpCreateBody A D

/-- OCP_QP_SOL_MEMSIZE, ocp_qp/x_ocp_qp_sol.c:45-93; OCP_QP_RES_MEMSIZE,
ocp_qp/x_ocp_qp_res.c:38-86 has the same formula -/
def solMemsize : ℕ :=
  round64 (3 * (D.N + 1) * A.strvec + 1 * D.N * A.strvec + 1 * A.vec (totV D) + 1 * A.vec (totE D)
    + 2 * A.vec (totC D)) + 64

/-- OCP_QP_SOL_CREATE, ocp_qp/x_ocp_qp_sol.c:97-240 (ux pi lam t);
OCP_QP_RES_CREATE, ocp_qp/x_ocp_qp_res.c:90-225 carves the same sequence (res_g res_b res_d res_m) -/
def solCreate : Carve :=
  arr ((D.N + 1) * A.strvec) ⨟ arr (D.N * A.strvec) ⨟ forN 2 (fun _ => arr ((D.N + 1) * A.strvec))
  ⨟ align 64
  ⨟ stageVecs A (D.N + 1) (nvk D) (A.vec (totV D))
  ⨟ stageVecs A D.N (fun k => D.nx (k + 1)) (A.vec (totE D))
  ⨟ stageVecs A (D.N + 1) (nctk D) (A.vec (totC D))
  ⨟ stageVecs A (D.N + 1) (nctk D) (A.vec (totC D))

/-- OCP_QP_RES_WS_MEMSIZE, ocp_qp/x_ocp_qp_res.c:229-271 -/
def resWsMemsize : ℕ :=
  let nbM := maxN (D.N + 1) D.nb; let ngM := maxN (D.N + 1) D.ng; let nsM := maxN (D.N + 1) D.ns
  round64 (4 * A.strvec + 2 * A.vec (nbM + ngM) + 1 * A.vec nsM + 1 * A.vec (2 * nbM + 2 * ngM + 2 * nsM)) + 64
/-- OCP_QP_RES_WS_CREATE, ocp_qp/x_ocp_qp_res.c:275-350 -/
def resWsCreate : Carve :=
  let nbM := maxN (D.N + 1) D.nb; let ngM := maxN (D.N + 1) D.ng; let nsM := maxN (D.N + 1) D.ns
  arr (2 * A.strvec) ⨟ arr A.strvec ⨟ arr A.strvec ⨟ align 64
  ⨟ arr (A.vec (nbM + ngM)) ⨟ arr (A.vec (nbM + ngM)) ⨟ arr (A.vec nsM)
  ⨟ arr (A.vec (2 * nbM + 2 * ngM + 2 * nsM))

/-- MEMSIZE_CORE_QP_IPM, ipm_core/x_core_qp_ipm.c:36-58 -/
def coreMemsize (nv ne nc : ℕ) : ℕ :=
  round64 (3 * nv * A.real + 3 * ne * A.real + 11 * nc * A.real)
/-- CREATE_CORE_QP_IPM, ipm_core/x_core_qp_ipm.c:62-160; `cv`, `ce`, `cc` carve one vector of
`nv`, `ne`, `nc` reals (as a whole, or as the stage vectors that OCP_QP_IPM_WS_CREATE later lays over
dv dpi dlam dt res_g res_b res_d res_m Gamma gamma, ocp_qp/x_ocp_qp_ipm.c:1112-1232; the same views
are allowed here for all the arrays). -/
def coreCreate (cv ce cc : Carve) : Carve :=
  cc ⨟ cv ⨟ ce ⨟ cc ⨟ cc       -- t_inv v_bkp pi_bkp lam_bkp t_bkp
  ⨟ cv ⨟ ce ⨟ cc ⨟ cc          -- dv dpi dlam dt
  ⨟ cv ⨟ ce ⨟ cc ⨟ cc ⨟ cc     -- res_g res_b res_d res_m res_m_bkp
  ⨟ cc ⨟ cc ⨟ cc               -- Gamma gamma m

/-- OCP_QP_IPM_WS_MEMSIZE, ocp_qp/x_ocp_qp_ipm.c:689-817; `lq` is `arg->lq_fact>0`, `statMax` the
value of `arg->stat_max` after lines 692-694 (`max(stat_max, iter_max)`) -/
def wsMemsize (lq : Bool) (statMax : ℕ) : ℕ :=
  let N := D.N
  let nxM := maxN (N + 1) D.nx; let nuM := maxN (N + 1) D.nu
  let nbM := maxN (N + 1) D.nb; let ngM := maxN (N + 1) D.ng
  round64 (
    1 * A.core + 1 * coreMemsize A (totV D) (totE D) (totC D)
    + 1 * A.resWs + 1 * resWsMemsize A D
    + 2 * A.qp + 2 * A.sol + 1 * solMemsize A D + 2 * A.res + 1 * solMemsize A D
    + 10 * (N + 1) * A.strvec + 3 * N * A.strvec + 5 * A.strvec + 1 * (N + 1) * A.strvec
    + 1 * (N + 1) * A.strmat + 1 * (N + 1) * A.strmat + 3 * A.strmat
    + (if lq then 1 * (N + 1) * A.strmat else 0) + 2 * A.strmat + (if lq then 1 * A.strmat else 0)
    + 1 * A.vec (nuM + nxM) + 4 * A.vec (nbM + ngM)
    + sumN N (fun k => 1 * A.vec (D.nx (k + 1)))
    + sumN (N + 1) (fun k => 1 * A.vec (2 * D.ns k))
    + sumN (N + 1) (fun k => 1 * A.vec (D.nu k + D.nx k))
    + sumN (N + 1) (fun k => 1 * A.mat (D.nu k + D.nx k + 1) (D.nu k + D.nx k))
    + sumN (N + 1) (fun k => 1 * A.mat (D.nx k + 1) (D.nx k))
    + 2 * A.mat (nuM + nxM) (nuM + nxM) + 1 * A.mat (nxM + 1) nuM
    + (if lq then sumN (N + 1) (fun k => 1 * A.mat (D.nu k + D.nx k + 1) (D.nu k + D.nx k)) else 0)
    + 2 * A.mat (nuM + nxM + 1) (nxM + ngM)
    + (if lq then 1 * A.mat (nuM + nxM) (2 * nuM + 3 * nxM + ngM) else 0)
    + 1 * A.vec (totC D)
    + (if lq then 1 * A.gelqf (nuM + nxM) (2 * nuM + 3 * nxM + ngM) else 0)
    + 21 * (1 + statMax) * A.real + (N + 1) * A.int + 1 * 64 + 1 * 8)

/-- OCP_QP_IPM_WS_CREATE, ocp_qp/x_ocp_qp_ipm.c:821-1258 -/
def wsCreate (lq : Bool) (statMax : ℕ) : Carve :=
  let N := D.N
  let nxM := maxN (N + 1) D.nx; let nuM := maxN (N + 1) D.nu
  let nbM := maxN (N + 1) D.nb; let ngM := maxN (N + 1) D.ng
  arr A.core ⨟ forN 2 (fun _ => arr A.res) ⨟ arr A.resWs ⨟ forN 2 (fun _ => arr A.sol)
  ⨟ forN 2 (fun _ => arr A.qp)
  -- matrix descriptors: L P tmp_nuxM_nuxM Ls (Lh) AL (lq0)
  ⨟ arr ((N + 1) * A.strmat) ⨟ arr ((N + 1) * A.strmat) ⨟ arr (2 * A.strmat) ⨟ arr A.strmat
  ⨟ (if lq then arr ((N + 1) * A.strmat) else skip) ⨟ arr (2 * A.strmat)
  ⨟ (if lq then arr A.strmat else skip)
  -- vector descriptors: l, ux pi lam t, res_g res_b res_d res_m, Gamma gamma Pb Zs_inv
  ⨟ arr ((N + 1) * A.strvec) ⨟ arr ((N + 1) * A.strvec) ⨟ arr (N * A.strvec)
  ⨟ forN 3 (fun _ => arr ((N + 1) * A.strvec)) ⨟ arr (N * A.strvec)
  ⨟ forN 4 (fun _ => arr ((N + 1) * A.strvec)) ⨟ arr (N * A.strvec) ⨟ arr ((N + 1) * A.strvec)
  -- tmp_nuxM tmp_nbgM tmp_m
  ⨟ arr A.strvec ⨟ arr (4 * A.strvec) ⨟ arr ((N + 1) * A.strvec)
  ⨟ align 8 ⨟ arr (21 * (1 + statMax) * A.real) ⨟ arr ((N + 1) * A.int) ⨟ align 64
  ⨟ within (solCreate A D) (solMemsize A D)
  ⨟ within (solCreate A D) (solMemsize A D)
  ⨟ within (resWsCreate A D) (resWsMemsize A D)
  ⨟ forN (N + 1) (fun k => arr (A.mat (D.nu k + D.nx k + 1) (D.nu k + D.nx k)))
  ⨟ forN (N + 1) (fun k => arr (A.mat (D.nx k + 1) (D.nx k)))
  ⨟ forN 2 (fun _ => arr (A.mat (nuM + nxM) (nuM + nxM))) ⨟ arr (A.mat (nxM + 1) nuM)
  ⨟ (if lq then forN (N + 1) (fun k => arr (A.mat (D.nu k + D.nx k + 1) (D.nu k + D.nx k))) else skip)
  ⨟ forN 2 (fun _ => arr (A.mat (nuM + nxM + 1) (nxM + ngM)))
  ⨟ (if lq then arr (A.mat (nuM + nxM) (2 * nuM + 3 * nxM + ngM)) else skip)
  ⨟ forN (N + 1) (fun k => arr (A.vec (D.nu k + D.nx k)))
  ⨟ forN N (fun k => arr (A.vec (D.nx (k + 1))))
  ⨟ forN (N + 1) (fun k => arr (A.vec (2 * D.ns k)))
  ⨟ arr (A.vec (nuM + nxM)) ⨟ forN 4 (fun _ => arr (A.vec (nbM + ngM)))
  ⨟ forN (N + 1) (fun k => arr (nctk D k * A.real))
  ⨟ within (coreCreate
      (stageVecs A (N + 1) (nvk D) (totV D * A.real))
      (stageVecs A N (fun k => D.nx (k + 1)) (totE D * A.real))
      (stageVecs A (N + 1) (nctk D) (totC D * A.real)))
      (coreMemsize A (totV D) (totE D) (totC D))
  ⨟ (if lq then arr (A.gelqf (nuM + nxM) (2 * nuM + 3 * nxM + ngM)) else skip)

end
end Hpipm
