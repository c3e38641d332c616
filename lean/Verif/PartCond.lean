/-
Model of the dimension computations of condensing:
cond/x_part_cond.c:36-134 (block sizes and dimensions of partial condensing),
cond/x_cond.c:36-77 (dimensions of full condensing),
ocp_qp/x_ocp_qp_red.c:38-71 (dimensions after removal of fixed variables).
Simplification: C `int` as `ℕ`, `N/N2` with `N2 = 0 < N` (a division by zero in C) is `none`.
-/
import Verif.Dim

namespace Hpipm

/-- the C loop `for(ii=a; ii<b; ii++)` -/
def loopFrom {S : Type*} (a b : ℕ) (body : ℕ → S → S) (s : S) : S :=
  loop (b - a) (fun k s => body (a + k) s) s

/-- PART_COND_QP_COMPUTE_BLOCK_SIZE, cond/x_part_cond.c:36-60. `none`: division by zero. -/
def computeBlockSize (N N2 : ℕ) (bs : ℕ → ℕ) : Option (ℕ → ℕ) :=
  if N2 = 0 ∧ N = 0 then some (upd bs 0 0)
  else if N2 = 0 then none
  else
    let bs0 := N / N2
    let bs := loopFrom 0 (N - N2 * bs0) (fun ii bs => upd bs ii (bs0 + 1)) bs
    let bs := loopFrom (N - N2 * bs0) N2 (fun ii bs => upd bs ii bs0) bs
    some (upd bs N2 0)

/-- one stage of PART_COND_QP_COMPUTE_DIM: the first stage `o` of the block is taken as it is, then
stages `o+1 .. o+len-1` are condensed into it, cond/x_part_cond.c:94-131. -/
def pcStage (d : Dims) (o len ii : ℕ) (p : Dims) : Dims :=
  let p := { p with nx := upd p.nx ii (d.nx o), nu := upd p.nu ii (d.nu o),
                    nbx := upd p.nbx ii (d.nbx o), nbu := upd p.nbu ii (d.nbu o),
                    nb := upd p.nb ii (d.nb o), ng := upd p.ng ii (d.ng o), ns := upd p.ns ii (d.ns o) }
  loopFrom 1 len (fun jj p => { p with
      nu := upd p.nu ii (p.nu ii + d.nu (o + jj)),
      nbu := upd p.nbu ii (p.nbu ii + d.nbu (o + jj)),
      nb := upd p.nb ii (p.nb ii + d.nbu (o + jj)),
      ng := upd p.ng ii (p.ng ii + (d.ng (o + jj) + d.nbx (o + jj))),
      ns := upd p.ns ii (p.ns ii + d.ns (o + jj)) }) p

/-- PART_COND_QP_COMPUTE_DIM, cond/x_part_cond.c:64-134; the state carries `N_tmp`. -/
def partCondDim (d : Dims) (bs : ℕ → ℕ) (p : Dims) : Dims :=
  let N2 := p.N
  let r := loop N2 (fun ii (s : ℕ × Dims) => (s.1 + bs ii, pcStage d s.1 (bs ii) ii s.2)) (0, p)
  pcStage d r.1 (bs N2 + 1) N2 r.2

/-- `struct DENSE_QP_DIM` (include/hpipm_d_dense_qp_dim.h) as set by condensing -/
structure DenseDims where
  nv : ℕ
  ne : ℕ
  nb : ℕ
  ng : ℕ
  ns : ℕ

/-- COND_QP_COMPUTE_DIM, cond/x_cond.c:36-77. -/
def condDim (d : Dims) : DenseDims :=
  loopFrom 1 (d.N + 1) (fun ii c => { c with
      nv := c.nv + d.nu ii, nb := c.nb + d.nbu ii, ng := c.ng + (d.nbx ii + d.ng ii),
      ns := c.ns + d.ns ii })
    ⟨d.nx 0 + d.nu 0, 0, d.nbx 0 + d.nbu 0, d.ng 0, d.ns 0⟩

/-- OCP_QP_DIM_REDUCE_EQ_DOF, ocp_qp/x_ocp_qp_red.c:38-71 (`r` is the destination object; its
horizon member is not written). -/
def dimReduce (d r : Dims) : Dims :=
  let r := { r with
    nu := upd r.nu 0 (d.nu 0 - d.nbue 0), nx := upd r.nx 0 (d.nx 0 - d.nbxe 0),
    nbu := upd r.nbu 0 (d.nbu 0 - d.nbue 0), nbx := upd r.nbx 0 (d.nbx 0 - d.nbxe 0),
    nb := upd r.nb 0 ((d.nbu 0 - d.nbue 0) + (d.nbx 0 - d.nbxe 0)),
    ng := upd r.ng 0 (d.ng 0), ns := upd r.ns 0 (d.ns 0),
    nbue := upd r.nbue 0 0, nbxe := upd r.nbxe 0 0, nge := upd r.nge 0 (d.nge 0) }
  loopFrom 1 (d.N + 1) (fun ii r => { r with
    nu := upd r.nu ii (d.nu ii - d.nbue ii), nx := upd r.nx ii (d.nx ii),
    nbu := upd r.nbu ii (d.nbu ii - d.nbue ii), nbx := upd r.nbx ii (d.nbx ii),
    nb := upd r.nb ii ((d.nbu ii - d.nbue ii) + d.nbx ii),
    ng := upd r.ng ii (d.ng ii), ns := upd r.ns ii (d.ns ii),
    nbue := upd r.nbue ii 0, nbxe := upd r.nbxe ii (d.nbxe ii), nge := upd r.nge ii (d.nge ii) }) r

end Hpipm
