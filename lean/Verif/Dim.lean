/-
Model of the OCP QP dimension object, ocp_qp/x_ocp_qp_dim.c.

The ten integer arrays live in one flat block of memory, as carved by OCP_QP_DIM_CREATE; a write to
an array at a stage past its end therefore lands in the next array, as in C.
Simplification: C `int` values are naturals (negative sizes are meaningless), no overflow.
-/
import Verif.Blas

namespace Hpipm

/-- the integer arrays in the order in which OCP_QP_DIM_CREATE carves them
(ocp_qp/x_ocp_qp_dim.c:72-100) -/
inductive DimField
  | nx | nu | nb | nbx | nbu | ng | ns | nbxe | nbue | nge
  deriving DecidableEq, Repr

namespace DimField
/-- position of an array in the block (ocp_qp/x_ocp_qp_dim.c:72-100) -/
def pos : DimField → ℕ
  | nx => 0 | nu => 1 | nb => 2 | nbx => 3 | nbu => 4
  | ng => 5 | ns => 6 | nbxe => 7 | nbue => 8 | nge => 9
/-- all arrays, in order -/
def all : List DimField := [nx, nu, nb, nbx, nbu, ng, ns, nbxe, nbue, nge]
end DimField

/-- `struct OCP_QP_DIM` (include/hpipm_d_ocp_qp_dim.h) with the block it points into.
`cap` is the horizon given to create: it fixes the pointers `nx, nu, ...` (stride `cap+1`);
`N` is the mutable member `dim->N`; `mem` the block of ints. -/
structure DimObj where
  cap : ℕ
  N : ℕ
  mem : ℕ → ℕ

namespace DimObj

/-- address (in ints) of `dim->f[k]`, ocp_qp/x_ocp_qp_dim.c:72-100 -/
def addr (d : DimObj) (f : DimField) (k : ℕ) : ℕ := f.pos * (d.cap + 1) + k

/-- `dim->f[k]` -/
def rd (d : DimObj) (f : DimField) (k : ℕ) : ℕ := d.mem (d.addr f k)

/-- `dim->f[k] = v` -/
def wr (d : DimObj) (f : DimField) (k v : ℕ) : DimObj := { d with mem := upd d.mem (d.addr f k) v }

/-- OCP_QP_DIM_CREATE, ocp_qp/x_ocp_qp_dim.c:60-112: zeroed block, N stored. -/
def create (N : ℕ) : DimObj := ⟨N, N, fun _ => 0⟩

/-- OCP_QP_DIM_SET_NX .. _NGE, ocp_qp/x_ocp_qp_dim.c:245-317 (for `nb` there is no setter: it is
updated by the setters of `nbx` and `nbu`, lines 261-277). -/
def setField (d : DimObj) (f : DimField) (k v : ℕ) : DimObj :=
  match f with
  | .nbx =>
    let d1 := d.wr .nbx k v
    d1.wr .nb k (d1.rd .nbx k + d1.rd .nbu k)
  | .nbu =>
    let d1 := d.wr .nbu k v
    d1.wr .nb k (d1.rd .nbx k + d1.rd .nbu k)
  | f => d.wr f k v

/-- name dispatch of OCP_QP_DIM_SET / OCP_QP_DIM_GET, ocp_qp/x_ocp_qp_dim.c:195-241 and 350-396.
There is no name for `nb`. -/
def fieldOf (s : String) : Option DimField :=
  if s = "nx" then some .nx
  else if s = "nu" then some .nu
  else if s = "nbx" then some .nbx
  else if s = "nbu" then some .nbu
  else if s = "ng" then some .ng
  else if s = "ns" then some .ns
  else if s = "nbxe" then some .nbxe
  else if s = "nbue" then some .nbue
  else if s = "nge" then some .nge
  else none

/-- OCP_QP_DIM_SET, ocp_qp/x_ocp_qp_dim.c:195-241; `none` is `exit(1)`. -/
def set (d : DimObj) (name : String) (k v : ℕ) : Option DimObj :=
  (fieldOf name).map fun f => d.setField f k v

/-- OCP_QP_DIM_GET, ocp_qp/x_ocp_qp_dim.c:350-396; `none` is `exit(1)`. -/
def get (d : DimObj) (name : String) (k : ℕ) : Option ℕ :=
  (fieldOf name).map fun f => d.rd f k

/-- one copy loop `for(ii=0; ii<=N; ii++) d->f[ii] = src[ii];` -/
def fill (d : DimObj) (f : DimField) (N : ℕ) (src : ℕ → ℕ) : DimObj :=
  loop (N + 1) (fun ii d => d.wr f ii (src ii)) d

/-- the ten copy loops shared by COPY_ALL (lines 134-158) and DEEPCOPY (lines 324-343). -/
def copyLoops (s : DimObj) (N : ℕ) (d : DimObj) : DimObj :=
  DimField.all.foldl (fun d f => d.fill f N (fun k => s.rd f k)) d

/-- OCP_QP_DIM_COPY_ALL, ocp_qp/x_ocp_qp_dim.c:116-162 (RUNTIME_CHECKS off). -/
def copyAll (s d : DimObj) : DimObj := copyLoops s s.N d

/-- OCP_QP_DIM_DEEPCOPY, ocp_qp/x_ocp_qp_dim.c:319-346. -/
def deepcopy (s d : DimObj) : DimObj := copyLoops s s.N { d with N := s.N }

/-- OCP_QP_DIM_SET_ALL, ocp_qp/x_ocp_qp_dim.c:164-191. -/
def setAll (nx nu nbx nbu ng ns : ℕ → ℕ) (d : DimObj) : DimObj :=
  let N := d.N
  let d := d.fill .nx N nx
  let d := d.fill .nu N nu
  let d := d.fill .nb N (fun ii => nbx ii + nbu ii)
  let d := d.fill .nbx N nbx
  let d := d.fill .nbu N nbu
  let d := d.fill .ng N ng
  d.fill .ns N ns

end DimObj

/-- Plain view of the dimensions, used by the other modules. -/
structure Dims where
  N : ℕ
  nx : ℕ → ℕ
  nu : ℕ → ℕ
  nb : ℕ → ℕ
  nbx : ℕ → ℕ
  nbu : ℕ → ℕ
  ng : ℕ → ℕ
  ns : ℕ → ℕ
  nbxe : ℕ → ℕ := fun _ => 0
  nbue : ℕ → ℕ := fun _ => 0
  nge : ℕ → ℕ := fun _ => 0

/-- the members of `struct OCP_QP_DIM` as seen by the other routines
(e.g. ocp_qp/x_ocp_qp_res.c:300-306) -/
def DimObj.view (d : DimObj) : Dims :=
  ⟨d.N, d.rd .nx, d.rd .nu, d.rd .nb, d.rd .nbx, d.rd .nbu, d.rd .ng, d.rd .ns, d.rd .nbxe,
    d.rd .nbue, d.rd .nge⟩

end Hpipm
