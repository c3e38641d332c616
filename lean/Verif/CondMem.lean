/-
C96: memory of the condensing and QCQP objects.
-/
import Verif.DenseMem

set_option linter.unusedVariables false

namespace Hpipm
open Carve

/-- sizes of the structs of the condensing and QCQP interfaces -/
structure YAbi extends XAbi where
  condArg : ℕ
  condWs : ℕ
  qpDim : ℕ
  ipmWs : ℕ
  qcResWs : ℕ
  qcRes : ℕ

section Cond
variable (A : YAbi) (D : QpDim)

/-- COND_QP_WS_MEMSIZE, cond/x_cond.c:185-277; `alg0` is `cond_arg->cond_alg==0`.  The running sum
`nu_tmp` after stage `ii` is `sumN (ii+1) nu`. -/
def condWsMemsize (alg0 : Bool) : ℕ :=
  let N := D.N
  let nxM := maxN (N + 1) D.nx; let nuM := maxN (N + 1) D.nu
  let nbM := maxN (N + 1) D.nb; let ngM := maxN (N + 1) D.ng
  round64 (1 * N * A.strmat + 1 * N * A.strvec + 2 * A.strvec
    + (if alg0 then 1 * (N + 1) * A.strmat + 2 * A.strmat + 1 * (N + 1) * A.strvec else 1 * A.strmat)
    + sumN N (fun i => A.mat (sumN (i + 1) D.nu + D.nx 0 + 1) (D.nx (i + 1)))
    + (if alg0 then sumN (N + 1) (fun i => A.mat (D.nu i + D.nx i + 1) (D.nu i + D.nx i))
        + A.mat (nxM + 1) nxM + A.mat (nuM + nxM + 1) nxM
        + sumN (N + 1) (fun i => A.vec (D.nu i + D.nx i))
       else A.mat (sumN N D.nu + nxM + 1) nxM)
    + sumN N (fun i => 1 * A.vec (D.nx (i + 1)))
    + 1 * A.vec (nbM + ngM) + 1 * A.vec (nuM + nxM) + 1 * 64 + 1 * 8)

/-- COND_QP_WS_CREATE, cond/x_cond.c:281-443 -/
def condWsCreate (alg0 : Bool) : Carve :=
  let N := D.N
  let nxM := maxN (N + 1) D.nx; let nuM := maxN (N + 1) D.nu
  let nbM := maxN (N + 1) D.nb; let ngM := maxN (N + 1) D.ng
  align 8 ⨟ arr (N * A.strmat)
  ⨟ (if alg0 then arr ((N + 1) * A.strmat) ⨟ arr A.strmat ⨟ arr A.strmat else arr A.strmat)
  ⨟ arr (N * A.strvec) ⨟ arr A.strvec ⨟ arr A.strvec
  ⨟ (if alg0 then arr ((N + 1) * A.strvec) else skip)
  ⨟ align 64
  ⨟ forN N (fun i => arr (A.mat (sumN (i + 1) D.nu + D.nx 0 + 1) (D.nx (i + 1))))
  ⨟ (if alg0 then forN (N + 1) (fun i => arr (A.mat (D.nu i + D.nx i + 1) (D.nu i + D.nx i)))
        ⨟ arr (A.mat (nxM + 1) nxM) ⨟ arr (A.mat (nuM + nxM + 1) nxM)
        ⨟ forN (N + 1) (fun i => arr (A.vec (D.nu i + D.nx i)))
     else arr (A.mat (sumN N D.nu + nxM + 1) nxM))
  ⨟ forN N (fun i => arr (A.vec (D.nx (i + 1))))
  ⨟ arr (A.vec (nbM + ngM)) ⨟ arr (A.vec (nuM + nxM))

/-- PART_COND_QP_ARG_MEMSIZE, cond/x_part_cond.c:142-160 (COND_QP_ARG_MEMSIZE is 0,
cond/x_cond.c:80-87) -/
def pcArgMemsize (N2 : ℕ) : ℕ := round64 ((N2 + 1) * A.condArg + sumN (N2 + 1) (fun _ => 0)) + 64
/-- PART_COND_QP_ARG_CREATE, cond/x_part_cond.c:164-207 -/
def pcArgCreate (N2 : ℕ) : Carve := arr ((N2 + 1) * A.condArg) ⨟ align 64 ⨟ forN (N2 + 1) (fun _ => within skip 0)

/-- `tmp_ocp_dim`: the sizes of block `ii`, i.e. the arrays of `ocp_dim` from stage
`N_tmp = bs 0 + .. + bs (ii-1)` on (cond/x_part_cond.c:326-334) -/
def blockDim (bs : ℕ → ℕ) (ii : ℕ) : QpDim where
  N := bs ii
  nx := fun k => D.nx (sumN ii bs + k)
  nu := fun k => D.nu (sumN ii bs + k)
  nb := fun k => D.nb (sumN ii bs + k)
  nbx := fun k => D.nbx (sumN ii bs + k)
  nbu := fun k => D.nbu (sumN ii bs + k)
  ng := fun k => D.ng (sumN ii bs + k)
  ns := fun k => D.ns (sumN ii bs + k)

/-- PART_COND_QP_WS_MEMSIZE, cond/x_part_cond.c:306-345; `alg0 ii` is `cond_arg[ii].cond_alg==0` -/
def pcWsMemsize (N2 : ℕ) (bs : ℕ → ℕ) (alg0 : ℕ → Bool) : ℕ :=
  round64 ((N2 + 1) * A.condWs + sumN (N2 + 1) (fun ii => condWsMemsize A (blockDim D bs ii) (alg0 ii))) + 64
/-- PART_COND_QP_WS_CREATE, cond/x_part_cond.c:349-408 -/
def pcWsCreate (N2 : ℕ) (bs : ℕ → ℕ) (alg0 : ℕ → Bool) : Carve :=
  arr ((N2 + 1) * A.condWs) ⨟ align 64
  ⨟ forN (N2 + 1) (fun ii => within (condWsCreate A (blockDim D bs ii) (alg0 ii))
      (condWsMemsize A (blockDim D bs ii) (alg0 ii)))

/-! ### QCQP -/
/-- OCP_QCQP_DIM_MEMSIZE, ocp_qp/x_ocp_qcqp_dim.c:51-66 -/
def qdimMemsize (N : ℕ) : ℕ := round64 (12 * (N + 1) * A.int + 1 * A.qpDim + 1 * dimMemsize A.toAbi N) + 64
/-- OCP_QCQP_DIM_CREATE, ocp_qp/x_ocp_qcqp_dim.c:70-143 -/
def qdimCreate (N : ℕ) : Carve :=
  arr A.qpDim ⨟ align 64 ⨟ within (dimCreate A.toAbi N) (dimMemsize A.toAbi N)
  ⨟ forN 12 (fun _ => arr ((N + 1) * A.int))

variable (nq nqe : ℕ → ℕ)

/-- the sizes of the inner QP: `ng+nq` general constraints, `nge+nqe` of them equalities
(`dim->qp_dim`, ocp_qp/x_ocp_qcqp_dim.c:268-310).  Also, the per-stage lengths
`2*nb+2*ng+2*nq+2*ns` used by the QCQP objects are those of these sizes, so OCP_QCQP_SOL_MEMSIZE /
CREATE (ocp_qp/x_ocp_qcqp_sol.c:45-215) and OCP_QCQP_RES_MEMSIZE / CREATE
(ocp_qp/x_ocp_qcqp_res.c:38-217) are `solMemsize` / `solCreate` of them. -/
def qInner : QpDim := { D with
  ng := fun k => D.ng k + nq k
  nge := fun k => D.nge k + nqe k }

/-- OCP_QCQP_MEMSIZE, ocp_qp/x_ocp_qcqp.c:45-122 -/
def qqpMemsize : ℕ :=
  let I := qInner D nq nqe
  let N := D.N
  let nqt := sumN (N + 1) nq
  round64 ((N + 1) * A.ptr + 4 * (N + 1) * A.ptr + (2 * (N + 1) + nqt) * A.strmat + 1 * N * A.strmat
    + 5 * (N + 1) * A.strvec + 1 * N * A.strvec
    + sumN N (fun k => D.nb k * A.int + (D.nb k + D.ng k + nq k) * A.int
        + (D.nbue k + D.nbxe k + D.nge k + nqe k) * A.int + nq k * A.int
        + A.mat (D.nu k + D.nx k + 1) (D.nx (k + 1)) + A.mat (D.nu k + D.nx k + 1) (D.nu k + D.nx k)
        + A.mat (D.nu k + D.nx k) (D.ng k + nq k) + A.vec (2 * D.ns k)
        + nq k * A.mat (D.nu k + D.nx k + 1) (D.nu k + D.nx k))
    + (D.nb N * A.int + nq N * A.int + (D.nb N + D.ng N + nq N) * A.int
        + (D.nbue N + D.nbxe N + D.nge N + nqe N) * A.int
        + A.mat (D.nu N + D.nx N + 1) (D.nu N + D.nx N)
        + A.mat (D.nu N + D.nx N) (D.ng N + nq N) + A.vec (2 * D.ns N)
        + nq N * A.mat (D.nu N + D.nx N + 1) (D.nu N + D.nx N))
    + 1 * A.vec (totV I) + 1 * A.vec (totE I) + 3 * A.vec (totC I)) + 64

/-- OCP_QCQP_CREATE, ocp_qp/x_ocp_qcqp.c:126-405 -/
def qqpCreate : Carve :=
  let I := qInner D nq nqe
  let N := D.N
  forN 4 (fun _ => arr ((N + 1) * A.ptr)) ⨟ arr ((N + 1) * A.ptr)
  ⨟ arr (N * A.strmat) ⨟ forN 2 (fun _ => arr ((N + 1) * A.strmat))
  ⨟ forN (N + 1) (fun k => arr (nq k * A.strmat))
  ⨟ arr (N * A.strvec) ⨟ forN 5 (fun _ => arr ((N + 1) * A.strvec))
  ⨟ forN (N + 1) (fun k => arr (D.nb k * A.int))
  ⨟ forN (N + 1) (fun k => arr ((D.nb k + D.ng k + nq k) * A.int))
  ⨟ forN (N + 1) (fun k => arr ((D.nbue k + D.nbxe k + D.nge k + nqe k) * A.int))
  ⨟ forN (N + 1) (fun k => arr (nq k * A.int))
  ⨟ align 64
  ⨟ forN N (fun k => arr (A.mat (D.nu k + D.nx k + 1) (D.nx (k + 1))))
  ⨟ forN (N + 1) (fun k => arr (A.mat (D.nu k + D.nx k + 1) (D.nu k + D.nx k)))
  ⨟ forN (N + 1) (fun k => arr (A.mat (D.nu k + D.nx k) (D.ng k + nq k)))
  ⨟ forN (N + 1) (fun k => forN (nq k) (fun _ => arr (A.mat (D.nu k + D.nx k + 1) (D.nu k + D.nx k))))
  ⨟ forN (N + 1) (fun k => arr (A.vec (2 * D.ns k)))
  ⨟ stageVecs A.toAbi (I.N + 1) (nvk I) (A.vec (totV I))
  ⨟ stageVecs A.toAbi I.N (fun k => I.nx (k + 1)) (A.vec (totE I))
  ⨟ forN 3 (fun _ => stageVecs A.toAbi (I.N + 1) (nctk I) (A.vec (totC I)))

/-- OCP_QCQP_RES_WS_MEMSIZE, ocp_qp/x_ocp_qcqp_res.c:221-272 -/
def qresWsMemsize : ℕ :=
  let N := D.N
  let nuM := maxN (N + 1) D.nu; let nxM := maxN (N + 1) D.nx; let nbM := maxN (N + 1) D.nb
  let ngM := maxN (N + 1) D.ng; let nqM := maxN (N + 1) nq; let nsM := maxN (N + 1) D.ns
  round64 ((6 + 2 * (N + 1)) * A.strvec + 2 * A.vec (nuM + nxM) + 2 * A.vec (nbM + ngM + nqM)
    + 1 * A.vec nsM + 1 * A.vec (2 * nbM + 2 * ngM + 2 * nqM + 2 * nsM)
    + sumN (N + 1) (fun k => 1 * A.vec (nq k) + 1 * A.vec (D.nu k + D.nx k))) + 64

/-- OCP_QCQP_RES_WS_CREATE, ocp_qp/x_ocp_qcqp_res.c:276-390 -/
def qresWsCreate : Carve :=
  let N := D.N
  let nuM := maxN (N + 1) D.nu; let nxM := maxN (N + 1) D.nx; let nbM := maxN (N + 1) D.nb
  let ngM := maxN (N + 1) D.ng; let nqM := maxN (N + 1) nq; let nsM := maxN (N + 1) D.ns
  arr (2 * A.strvec) ⨟ arr (2 * A.strvec) ⨟ arr A.strvec ⨟ arr A.strvec
  ⨟ forN 2 (fun _ => arr ((N + 1) * A.strvec)) ⨟ align 64
  ⨟ forN 2 (fun _ => arr (A.vec (nuM + nxM))) ⨟ forN 2 (fun _ => arr (A.vec (nbM + ngM + nqM)))
  ⨟ arr (A.vec nsM) ⨟ arr (A.vec (2 * nbM + 2 * ngM + 2 * nqM + 2 * nsM))
  ⨟ forN (N + 1) (fun k => arr (A.vec (nq k))) ⨟ forN (N + 1) (fun k => arr (A.vec (D.nu k + D.nx k)))

/-- OCP_QCQP_IPM_WS_MEMSIZE, ocp_qp/x_ocp_qcqp_ipm.c:603-650; `lq`, `statMax` are options of the inner
solver -/
def qwsMemsize (lq : Bool) (statMax : ℕ) : ℕ :=
  let I := qInner D nq nqe
  let nuM := maxN (D.N + 1) D.nu; let nxM := maxN (D.N + 1) D.nx
  round64 (1 * A.ipmWs + 1 * wsMemsize A.toAbi I lq statMax
    + 1 * A.qcResWs + 1 * qresWsMemsize A D nq + 1 * A.qcRes + 1 * solMemsize A.toAbi I
    + 1 * A.qp + 1 * qpMemsize A.toAbi I + 1 * A.sol + 1 * solMemsize A.toAbi I
    + 2 * A.strvec + 2 * A.vec (nuM + nxM)) + 64

/-- OCP_QCQP_IPM_WS_CREATE, ocp_qp/x_ocp_qcqp_ipm.c:654-745 -/
def qwsCreate (lq : Bool) (statMax : ℕ) : Carve :=
  let I := qInner D nq nqe
  let nuM := maxN (D.N + 1) D.nu; let nxM := maxN (D.N + 1) D.nx
  arr A.ipmWs ⨟ arr A.qp ⨟ arr A.sol ⨟ arr A.qcResWs ⨟ arr A.qcRes ⨟ arr (2 * A.strvec) ⨟ align 64
  ⨟ within (wsCreate A.toAbi I lq statMax) (wsMemsize A.toAbi I lq statMax)
  ⨟ within (qpCreate A.toAbi I) (qpMemsize A.toAbi I)
  ⨟ within (solCreate A.toAbi I) (solMemsize A.toAbi I)
  ⨟ within (qresWsCreate A D nq) (qresWsMemsize A D nq)
  ⨟ within (solCreate A.toAbi I) (solMemsize A.toAbi I)
  ⨟ forN 2 (fun _ => arr (A.vec (nuM + nxM)))
end Cond

theorem sumN_const (n c : ℕ) : sumN n (fun _ => c) = n * c := by
  induction n with
  | zero => simp [sumN_zero]
  | succ n ih => rw [sumN_succ, ih]; ring

section Fit
attribute [local irreducible] arr skip align seq forN within stageVecs Fits

local macro "fits" : tactic => `(tactic|
  (repeat' first
    | apply fits_seq
    | exact fits_arr _
    | exact fits_skip
    | exact fits_align _ (by norm_num)
    | assumption
    | apply fits_ite
    | (apply fits_forN; intro k hk)))

section
variable (A : YAbi) (D : QpDim)

/-- **C96** work space of full condensing, both algorithms. -/
theorem condWs_create_fits (alg0 : Bool) : Fits (condWsCreate A D alg0) (condWsMemsize A D alg0) := by
  refine fits_mono (by unfold condWsCreate; fits) ?_
  unfold condWsMemsize
  refine le_trans ?_ (le_round64 _)
  cases alg0 <;> simp only [Nat.one_mul, Bool.false_eq_true, if_false, if_true] <;> omega

/-- **C96** options of partial condensing. -/
theorem pcArg_create_fits (N2 : ℕ) : Fits (pcArgCreate A N2) (pcArgMemsize A N2) := by
  have h : Fits (within skip 0) 0 := fits_within fits_skip (le_refl _)
  refine fits_mono (by unfold pcArgCreate; fits) ?_
  unfold pcArgMemsize
  refine le_trans ?_ (Nat.add_le_add_right (le_round64 _) 64)
  omega

/-- **C96** work space of partial condensing, for any partition into blocks and any choice of the
algorithm per block. -/
theorem pcWs_create_fits (N2 : ℕ) (bs : ℕ → ℕ) (alg0 : ℕ → Bool) :
    Fits (pcWsCreate A D N2 bs alg0) (pcWsMemsize A D N2 bs alg0) := by
  have h : ∀ k, Fits (within (condWsCreate A (blockDim D bs k) (alg0 k))
      (condWsMemsize A (blockDim D bs k) (alg0 k))) (condWsMemsize A (blockDim D bs k) (alg0 k)) :=
    fun k => fits_within (condWs_create_fits A _ _) (le_refl _)
  have h2 := fits_forN (N2 + 1) _ _ (fun k _ => h k)
  refine fits_mono (by unfold pcWsCreate; fits) ?_
  unfold pcWsMemsize
  refine le_trans ?_ (Nat.add_le_add_right (le_round64 _) 64)
  omega

/-- **C96** QCQP dimension object. -/
theorem qdim_create_fits (N : ℕ) : Fits (qdimCreate A N) (qdimMemsize A N) := by
  have h := fits_within (dim_create_fits A.toAbi N) (le_refl _)
  refine fits_mono (by unfold qdimCreate; fits) ?_
  unfold qdimMemsize
  refine le_trans ?_ (Nat.add_le_add_right (le_round64 _) 64)
  simp only [sumN_const, Nat.mul_assoc]
  omega

variable (nq nqe : ℕ → ℕ)

/-- **C96** QCQP residual work space. -/
theorem qresWs_create_fits : Fits (qresWsCreate A D nq) (qresWsMemsize A D nq) := by
  refine fits_mono (by unfold qresWsCreate; fits) ?_
  unfold qresWsMemsize
  refine le_trans ?_ (Nat.add_le_add_right (le_round64 _) 64)
  simp only [sumN_const, sumN_add, Nat.one_mul, Nat.add_mul, Nat.mul_assoc]
  omega

variable (hA : A.toAbi.Ok)
include hA

/-- **C96** QCQP data. -/
theorem qqp_create_fits : Fits (qqpCreate A D nq nqe) (qqpMemsize A D nq nqe) := by
  have hv := fits_v A.toAbi hA (qInner D nq nqe)
  have he := fits_e A.toAbi hA (qInner D nq nqe)
  have hc := fits_c A.toAbi hA (qInner D nq nqe)
  refine fits_mono (by unfold qqpCreate; fits) ?_
  unfold qqpMemsize
  refine le_trans ?_ (Nat.add_le_add_right (le_round64 _) 64)
  simp only [sumN_const, sumN_mul, sumN_add, sumN_succ, Nat.mul_assoc, Nat.add_mul]
  omega

/-- **C96** QCQP solver work space. -/
theorem qws_create_fits (lq : Bool) (statMax : ℕ) :
    Fits (qwsCreate A D nq nqe lq statMax) (qwsMemsize A D nq nqe lq statMax) := by
  have h1 := fits_within (ws_create_fits A.toAbi hA (qInner D nq nqe) lq statMax) (le_refl _)
  have h2 := fits_within (qp_create_fits A.toAbi hA (qInner D nq nqe)) (le_refl _)
  have h3 := fits_within (sol_create_fits A.toAbi hA (qInner D nq nqe)) (le_refl _)
  have h4 := fits_within (qresWs_create_fits A D nq) (le_refl _)
  refine fits_mono (by unfold qwsCreate; fits) ?_
  unfold qwsMemsize
  refine le_trans ?_ (Nat.add_le_add_right (le_round64 _) 64)
  simp only [sumN_const]
  omega

/-- **C96**, spelled out for the QCQP solver's work space. -/
theorem qws_create_inside (lq : Bool) (statMax mem : ℕ) :
    (∀ r ∈ (qwsCreate A D nq nqe lq statMax mem).1,
      mem ≤ r.lo ∧ r.lo + r.size ≤ mem + qwsMemsize A D nq nqe lq statMax) ∧
    (qwsCreate A D nq nqe lq statMax mem).1.Pairwise
      (fun r s => r.lo + r.size ≤ s.lo ∨ s.lo + s.size ≤ r.lo) := by
  have hf := qws_create_fits A D nq nqe hA lq statMax
  unfold Fits at hf
  obtain ⟨_, h2, h3, h4⟩ := hf mem
  exact ⟨fun r hr => ⟨(h3 r hr).1, le_trans (h3 r hr).2 h2⟩, h4⟩

omit hA in
/-- **C96**, spelled out for the work space of partial condensing. -/
theorem pcWs_create_inside (N2 : ℕ) (bs : ℕ → ℕ) (alg0 : ℕ → Bool) (mem : ℕ) :
    (∀ r ∈ (pcWsCreate A D N2 bs alg0 mem).1,
      mem ≤ r.lo ∧ r.lo + r.size ≤ mem + pcWsMemsize A D N2 bs alg0) ∧
    (pcWsCreate A D N2 bs alg0 mem).1.Pairwise
      (fun r s => r.lo + r.size ≤ s.lo ∨ s.lo + s.size ≤ r.lo) := by
  have hf := pcWs_create_fits A D N2 bs alg0
  unfold Fits at hf
  obtain ⟨_, h2, h3, h4⟩ := hf mem
  exact ⟨fun r hr => ⟨(h3 r hr).1, le_trans (h3 r hr).2 h2⟩, h4⟩
end
end Fit

/-! ### Concrete cases -/
def exYAbi : YAbi where
  toXAbi := exXAbi
  condArg := 40
  condWs := 88
  qpDim := 96
  ipmWs := 400
  qcResWs := 64
  qcRes := 104
example : exYAbi.toAbi.Ok := exAbi_ok
example : (pcWsCreate exYAbi exMemDim 1 (fun i => if i = 0 then 1 else 0) (fun i => i = 0) 1000003).1.length = 27 := by decide +kernel
example : (qwsCreate exYAbi exMemDim (fun _ => 2) (fun _ => 0) true 20 1000003).1.length = 199 := by decide +kernel
example : (qqpCreate exYAbi exMemDim (fun _ => 2) (fun _ => 0) 1000003).1.length = 44 := by decide +kernel
end Hpipm
