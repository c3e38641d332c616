/-
C97: the dimension object of QCQPs and the dimensions of the inner QP it keeps beside them,
ocp_qp/x_ocp_qcqp_dim.c.

Simplification: the arrays of the outer object are separate functions of the stage; only accesses with a
stage inside the horizon are covered by the theorems (an access outside is undefined behaviour in C).  The
inner object is the model of Dim.lean.
-/
import Verif.DimProps

namespace Hpipm

/-- the integer arrays of `struct OCP_QCQP_DIM` (include/hpipm_d_ocp_qcqp_dim.h) -/
inductive QDF
  | nx | nu | nb | nbx | nbu | ng | nq | ns | nbxe | nbue | nge | nqe
  deriving DecidableEq, Repr

/-- `struct OCP_QCQP_DIM`; `qp` is `*dim->qp_dim` -/
structure QDimObj where
  N : ℕ
  a : QDF → ℕ → ℕ
  qp : DimObj

namespace QDimObj

/-- OCP_QCQP_DIM_CREATE, ocp_qp/x_ocp_qcqp_dim.c:70-143 -/
def create (N : ℕ) : QDimObj := ⟨N, fun _ _ => 0, DimObj.create N⟩

/-- `dim->f[k] = v` -/
def wr (d : QDimObj) (f : QDF) (k v : ℕ) : QDimObj := { d with a := fun g l => if g = f ∧ l = k then v else d.a g l }

/-- `OCP_QP_DIM_SET_F(k, v, dim->qp_dim)` -/
def inner (d : QDimObj) (f : DimField) (k v : ℕ) : QDimObj := { d with qp := d.qp.setField f k v }

/-- OCP_QCQP_DIM_SET_NX .. _NQE, ocp_qp/x_ocp_qcqp_dim.c:251-348 (no setter for `nb`) -/
def setF (d : QDimObj) (f : QDF) (k v : ℕ) : QDimObj :=
  match f with
  | .nx => let d := d.wr .nx k v; d.inner .nx k (d.a .nx k)
  | .nu => let d := d.wr .nu k v; d.inner .nu k (d.a .nu k)
  | .nbx =>
    let d := d.wr .nbx k v
    let d := d.wr .nb k (d.a .nbx k + d.a .nbu k)
    d.inner .nbx k (d.a .nbx k)
  | .nbu =>
    let d := d.wr .nbu k v
    let d := d.wr .nb k (d.a .nbx k + d.a .nbu k)
    d.inner .nbu k (d.a .nbu k)
  | .ng => let d := d.wr .ng k v; d.inner .ng k (d.a .ng k + d.a .nq k)
  | .nq => let d := d.wr .nq k v; d.inner .ng k (d.a .ng k + d.a .nq k)
  | .ns => let d := d.wr .ns k v; d.inner .ns k (d.a .ns k)
  | .nbxe => let d := d.wr .nbxe k v; d.inner .nbxe k (d.a .nbxe k)
  | .nbue => let d := d.wr .nbue k v; d.inner .nbue k (d.a .nbue k)
  | .nge => let d := d.wr .nge k v; d.inner .nge k (d.a .nge k + d.a .nqe k)
  | .nqe => let d := d.wr .nqe k v; d.inner .nge k (d.a .nge k + d.a .nqe k)
  | .nb => d

/-- name dispatch of OCP_QCQP_DIM_SET, ocp_qp/x_ocp_qcqp_dim.c:193-248 -/
def fieldOf (s : String) : Option QDF :=
  if s = "nx" then some .nx
  else if s = "nu" then some .nu
  else if s = "nbx" then some .nbx
  else if s = "nbu" then some .nbu
  else if s = "ng" then some .ng
  else if s = "nq" then some .nq
  else if s = "ns" then some .ns
  else if s = "nbxe" then some .nbxe
  else if s = "nbue" then some .nbue
  else if s = "nge" then some .nge
  else if s = "nqe" then some .nqe
  else none

/-- OCP_QCQP_DIM_SET; `none` is `exit(1)` -/
def set (d : QDimObj) (name : String) (k v : ℕ) : Option QDimObj := (fieldOf name).map fun f => d.setF f k v

/-- OCP_QCQP_DIM_GET, ocp_qp/x_ocp_qcqp_dim.c:352-370: only `nx` and `nu` -/
def get (d : QDimObj) (name : String) (k : ℕ) : Option ℕ :=
  if name = "nx" then some (d.a .nx k) else if name = "nu" then some (d.a .nu k) else none

/-- one loop `for(ii=0; ii<=N; ii++) OCP_QCQP_DIM_SET_F(ii, dim_orig->f[ii], dim_dest)` -/
def copyF (s : QDimObj) (f : QDF) (d : QDimObj) : QDimObj := loop (s.N + 1) (fun ii d => d.setF f ii (s.a f ii)) d

/-- the arrays copied by OCP_QCQP_DIM_COPY_ALL, in order (ocp_qp/x_ocp_qcqp_dim.c:166-185): `ns` is not
among them -/
def copied : List QDF := [.nx, .nu, .nbx, .nbu, .nq, .ng, .nbxe, .nbue, .nge, .nqe]

/-- OCP_QCQP_DIM_COPY_ALL, ocp_qp/x_ocp_qcqp_dim.c:147-189 (RUNTIME_CHECKS off) -/
def copyAll (s d : QDimObj) : QDimObj := copied.foldl (fun d f => copyF s f d) d

/-! ### Specification -/

/-- The inner QP has the sizes of the QCQP, with the quadratic constraints counted as general ones. -/
structure Consistent (d : QDimObj) : Prop where
  N : d.qp.N = d.N
  nx : ∀ k, k ≤ d.N → d.qp.rd .nx k = d.a .nx k
  nu : ∀ k, k ≤ d.N → d.qp.rd .nu k = d.a .nu k
  nbx : ∀ k, k ≤ d.N → d.qp.rd .nbx k = d.a .nbx k
  nbu : ∀ k, k ≤ d.N → d.qp.rd .nbu k = d.a .nbu k
  nb : ∀ k, k ≤ d.N → d.qp.rd .nb k = d.a .nb k ∧ d.a .nb k = d.a .nbx k + d.a .nbu k
  ng : ∀ k, k ≤ d.N → d.qp.rd .ng k = d.a .ng k + d.a .nq k
  ns : ∀ k, k ≤ d.N → d.qp.rd .ns k = d.a .ns k
  nbxe : ∀ k, k ≤ d.N → d.qp.rd .nbxe k = d.a .nbxe k
  nbue : ∀ k, k ≤ d.N → d.qp.rd .nbue k = d.a .nbue k
  nge : ∀ k, k ≤ d.N → d.qp.rd .nge k = d.a .nge k + d.a .nqe k

/-- Objects a user can obtain: created, then modified by any sequence of settings inside the horizon and
copies from objects with the same horizon. -/
inductive Reachable : QDimObj → Prop
  | create (N : ℕ) : Reachable (create N)
  | set {d d' : QDimObj} (name : String) (k v : ℕ) :
      Reachable d → k ≤ d.N → d.set name k v = some d' → Reachable d'
  | copyAll {s d : QDimObj} : Reachable s → Reachable d → s.N = d.N → Reachable (copyAll s d)

/-! ### Proofs -/

theorem setF_N (d : QDimObj) (f : QDF) (k v : ℕ) : (d.setF f k v).N = d.N := by
  cases f <;> rfl
theorem setF_cap (d : QDimObj) (f : QDF) (k v : ℕ) : (d.setF f k v).qp.cap = d.qp.cap := by
  cases f <;> simp [setF, inner, DimObj.setField_cap, wr]

/-- the outer array after a setter -/
theorem setF_a (d : QDimObj) (f g : QDF) (k v l : ℕ) (hf : f ≠ .nb) (hg : g ≠ .nb) :
    (d.setF f k v).a g l = if g = f ∧ l = k then v else d.a g l := by
  cases f <;> first | exact absurd rfl hf | (simp only [setF, inner, wr] <;> cases g <;> simp_all)

set_option maxHeartbeats 2000000 in
theorem Consistent.setF {d : QDimObj} (h : Consistent d) (hc : d.qp.cap = d.N) (f : QDF) {k v : ℕ}
    (hk : k ≤ d.N) : Consistent (d.setF f k v) := by
  have hkc : k ≤ d.qp.cap := by omega
  have key : ∀ (g : DimField) (l w : ℕ) (fd : DimField), l ≤ d.N → g ≠ .nb →
      (d.qp.setField fd k w).rd g l = if g = fd ∧ l = k then w else d.qp.rd g l :=
    fun g l w fd hl hg => DimObj.rd_setField hkc (by omega) hg
  have keyb : ∀ (l w : ℕ) (fd : DimField), l ≤ d.N → fd ≠ .nbx → fd ≠ .nbu → fd ≠ .nb →
      (d.qp.setField fd k w).rd .nb l = d.qp.rd .nb l := by
    intro l w fd hl h1 h2 h3
    have hl' : l ≤ d.qp.cap := by omega
    cases fd <;> first | exact absurd rfl h1 | exact absurd rfl h2 | exact absurd rfl h3 |
      (simp only [DimObj.setField]; rw [DimObj.rd_wr hkc hl']; simp)
  have kbx : ∀ (l w : ℕ), l ≤ d.N →
      (d.qp.setField .nbx k w).rd .nb l = if l = k then w + d.qp.rd .nbu k else d.qp.rd .nb l := by
    intro l w hl
    have hl' : l ≤ d.qp.cap := by omega
    simp only [DimObj.setField]
    simp (discharger := (first | assumption | (simp only [DimObj.wr_cap]; assumption))) only [DimObj.rd_wr]
    simp
  have kbu : ∀ (l w : ℕ), l ≤ d.N →
      (d.qp.setField .nbu k w).rd .nb l = if l = k then d.qp.rd .nbx k + w else d.qp.rd .nb l := by
    intro l w hl
    have hl' : l ≤ d.qp.cap := by omega
    simp only [DimObj.setField]
    simp (discharger := (first | assumption | (simp only [DimObj.wr_cap]; assumption))) only [DimObj.rd_wr]
    simp
  have hx := h.nbx k hk
  have hu := h.nbu k hk
  cases f <;> first
    | exact h
    | (refine ⟨?_, ?_, ?_, ?_, ?_, ?_, ?_, ?_, ?_, ?_, ?_⟩
       · simp only [QDimObj.setF, inner, wr, DimObj.setField_N]; exact h.N
       all_goals
         intro l hl
         rw [setF_N] at hl
         have h1 := h.nx l hl; have h2 := h.nu l hl; have h3 := h.nbx l hl; have h4 := h.nbu l hl
         have h5 := h.nb l hl; have h6 := h.ng l hl; have h7 := h.ns l hl; have h8 := h.nbxe l hl
         have h9 := h.nbue l hl; have h10 := h.nge l hl
         simp only [QDimObj.setF, inner, wr]
         simp (discharger := first | assumption | decide) only [key, keyb, kbx, kbu]
         clear key keyb kbx kbu hkc
         by_cases hlk : l = k
         · subst hlk; simp [h1, h2, h3, h4, h5.1, ← h5.2, h6, h7, h8, h9, h10]
         · simp [hlk, h1, h2, h3, h4, h5.1, ← h5.2, h6, h7, h8, h9, h10])

theorem copyF_inv {s d : QDimObj} (f : QDF) (hf : f ≠ .nb) (h : Consistent d) (hc : d.qp.cap = d.N) (hN : s.N = d.N) :
    Consistent (copyF s f d) ∧ (copyF s f d).qp.cap = d.N ∧ (copyF s f d).N = d.N ∧
    ∀ g, g ≠ .nb → ∀ l, l ≤ d.N → (copyF s f d).a g l = if g = f then s.a f l else d.a g l := by
  unfold copyF
  have := loop_inv (S := QDimObj)
    (fun i e => Consistent e ∧ e.qp.cap = d.N ∧ e.N = d.N ∧
      ∀ g, g ≠ .nb → ∀ l, l ≤ d.N → e.a g l = if g = f ∧ l < i then s.a f l else d.a g l)
    (s.N + 1) (fun ii d => d.setF f ii (s.a f ii)) d
    ⟨h, hc, rfl, fun g _ l _ => by simp⟩
    (fun i e hi he => by
      obtain ⟨h1, h2, h3, h4⟩ := he
      refine ⟨h1.setF (by omega) f (by omega), by rw [setF_cap]; exact h2, by rw [setF_N]; exact h3, ?_⟩
      intro g hg l hl
      rw [setF_a _ _ _ _ _ _ hf hg, h4 g hg l hl]
      by_cases hgf : g = f
      · subst hgf
        by_cases e1 : l = i
        · subst e1; simp
        · by_cases e2 : l < i
          · simp [e1, e2, show l < i + 1 by omega]
          · simp [e1, e2, show ¬ l < i + 1 by omega]
      · simp [hgf])
  refine ⟨this.1, this.2.1, this.2.2.1, ?_⟩
  intro g hg l hl
  rw [this.2.2.2 g hg l hl]
  simp [show l < s.N + 1 by omega]

theorem foldCopy {s : QDimObj} (L : List QDF) (hL : .nb ∉ L) : ∀ (d : QDimObj), Consistent d → d.qp.cap = d.N → s.N = d.N →
    Consistent (L.foldl (fun d f => copyF s f d) d) ∧ (L.foldl (fun d f => copyF s f d) d).qp.cap = d.N ∧
    (L.foldl (fun d f => copyF s f d) d).N = d.N ∧
    ∀ g, g ≠ .nb → ∀ l, l ≤ d.N → (L.foldl (fun d f => copyF s f d) d).a g l = if g ∈ L then s.a g l else d.a g l := by
  induction L with
  | nil => intro d h hc hN; exact ⟨h, hc, rfl, fun g _ l _ => by simp⟩
  | cons f L ih =>
    intro d h hc hN
    have hf : f ≠ .nb := fun e => hL (by simp [e])
    obtain ⟨a1, a2, a3, a4⟩ := copyF_inv f hf h hc hN
    obtain ⟨b1, b2, b3, b4⟩ := ih (fun e => hL (by simp [e])) (copyF s f d) a1 (by rw [a2, a3]) (by rw [a3]; exact hN)
    refine ⟨b1, by rw [List.foldl_cons, b2, a3], by rw [List.foldl_cons, b3, a3], ?_⟩
    intro g hg l hl
    rw [List.foldl_cons, b4 g hg l (by omega), a4 g hg l hl]
    by_cases e1 : g ∈ L
    · simp [e1]
    · by_cases e2 : g = f
      · subst e2; simp
      · simp [e1, e2]

theorem Reachable.inv {d : QDimObj} (h : Reachable d) : Consistent d ∧ d.qp.cap = d.N := by
  induction h with
  | create N =>
    refine ⟨⟨rfl, ?_, ?_, ?_, ?_, ?_, ?_, ?_, ?_, ?_, ?_⟩, rfl⟩ <;> intro k hk <;>
      simp [QDimObj.create, DimObj.create, DimObj.rd]
  | set name k v _ hk hs ih =>
    unfold QDimObj.set at hs
    cases hf : fieldOf name with
    | none => simp [hf] at hs
    | some f =>
      simp [hf] at hs
      rw [← hs]
      exact ⟨ih.1.setF ih.2 f hk, by rw [setF_cap, setF_N]; exact ih.2⟩
  | copyAll _ _ hN _ ihd =>
    have := foldCopy copied (by decide) _ ihd.1 ihd.2 hN
    exact ⟨this.1, by show _ = _; exact this.2.1.trans this.2.2.1.symm⟩

end QDimObj

/-- **C97** in every object a user can obtain the inner QP has the sizes of the QCQP, with `ng+nq` general
constraints. -/
theorem qdim_consistent {d : QDimObj} (h : d.Reachable) : d.Consistent := h.inv.1

/-- the documented name of each array -/
def QDF.name : QDF → String
  | .nx => "nx" | .nu => "nu" | .nb => "nb" | .nbx => "nbx" | .nbu => "nbu" | .ng => "ng" | .nq => "nq"
  | .ns => "ns" | .nbxe => "nbxe" | .nbue => "nbue" | .nge => "nge" | .nqe => "nqe"

theorem qdf_fieldOf_name (f : QDF) (hf : f ≠ .nb) : QDimObj.fieldOf f.name = some f := by
  cases f <;> first | exact absurd rfl hf | decide

/-- **C97** setting a size changes that size at that stage and no other size (`nb`, which is the sum of
`nbx` and `nbu`, apart). -/
theorem qdim_set {d d' : QDimObj} {f g : QDF} (hf : f ≠ .nb) (hg : g ≠ .nb) {k l v : ℕ}
    (hs : d.set f.name k v = some d') :
    d'.a g l = if g = f ∧ l = k then v else d.a g l := by
  unfold QDimObj.set at hs
  rw [qdf_fieldOf_name f hf] at hs
  simp at hs
  rw [← hs]
  exact QDimObj.setF_a d f g k v l hf hg

/-- **C97** the accepted names. -/
theorem qdim_set_names (d : QDimObj) (name : String) (k v : ℕ) :
    (d.set name k v).isSome ↔
      name ∈ ["nx", "nu", "nbx", "nbu", "ng", "nq", "ns", "nbxe", "nbue", "nge", "nqe"] := by
  unfold QDimObj.set QDimObj.fieldOf
  split_ifs <;> simp_all

/-- **C97** `get` returns the sizes set under the names `nx` and `nu`, and every other name ends the
program. -/
theorem qdim_get (d : QDimObj) (name : String) (k : ℕ) :
    d.get "nx" k = some (d.a .nx k) ∧ d.get "nu" k = some (d.a .nu k) ∧
    (name ≠ "nx" → name ≠ "nu" → d.get name k = none) := by
  refine ⟨rfl, rfl, fun h1 h2 => by simp [QDimObj.get, h1, h2]⟩

/-- **C97** after copying, every size of the destination other than `ns` is that of the source; `ns` is
what it was in the destination. -/
theorem qdim_copyAll {s d : QDimObj} (hs : s.Reachable) (hd : d.Reachable) (hN : s.N = d.N) (k : ℕ) (hk : k ≤ d.N) :
    (∀ f : QDF, f ≠ .ns → (QDimObj.copyAll s d).a f k = s.a f k) ∧ (QDimObj.copyAll s d).a .ns k = d.a .ns k := by
  obtain ⟨h1, h2⟩ := hd.inv
  have hc := QDimObj.foldCopy (s := s) QDimObj.copied (by decide) d h1 h2 hN
  have hin : ∀ f : QDF, f ≠ .nb → f ≠ .ns → (QDimObj.copyAll s d).a f k = s.a f k := by
    intro f hb hn
    have := hc.2.2.2 f hb k hk
    rw [show (QDimObj.copyAll s d).a f k = _ from this, if_pos (by cases f <;> simp_all [QDimObj.copied])]
  refine ⟨fun f hn => ?_, ?_⟩
  · by_cases hb : f = .nb
    · subst hb
      have a1 := (hc.1.nb k (by rw [hc.2.2.1]; exact hk)).2
      have a2 := (hs.inv.1.nb k (by omega)).2
      rw [a2, ← hin .nbx (by decide) (by decide), ← hin .nbu (by decide) (by decide)]
      exact a1
    · exact hin f hb hn
  · have := hc.2.2.2 .ns (by decide) k hk
    rw [show (QDimObj.copyAll s d).a .ns k = _ from this, if_neg (by decide)]

/-- the source of the witness: one stage with two softened constraints -/
def exQDimS : QDimObj := ((QDimObj.create 1).setF .ns 0 2).setF .nbx 0 3
/-- **C97** (disagreement) copying all the sizes of a QCQP with soft constraints into a newly created object
loses the soft constraints. -/
theorem qdim_copyAll_loses_ns :
    ∃ s d : QDimObj, s.Reachable ∧ d.Reachable ∧ s.N = d.N ∧ s.a .ns 0 = 2 ∧
      (QDimObj.copyAll s d).a .ns 0 = 0 ∧ (QDimObj.copyAll s d).qp.rd .ns 0 = 0 ∧ (QDimObj.copyAll s d).a .nbx 0 = 3 := by
  refine ⟨exQDimS, QDimObj.create 1, ?_, .create 1, rfl, by decide, by decide, by decide, by decide⟩
  exact .set "nbx" 0 3 (.set "ns" 0 2 (.create 1) (by decide) rfl) (by decide) rfl

/-- a concrete history: sizes set in an order in which `ng` and `nq` are changed twice -/
example : ∃ d : QDimObj, d.Reachable ∧ d.a .ng 1 = 5 ∧ d.a .nq 1 = 2 ∧ d.qp.rd .ng 1 = 7 := by
  refine ⟨((((QDimObj.create 2).setF .ng 1 3).setF .nq 1 4).setF .ng 1 5).setF .nq 1 2, ?_, by decide, by decide, by decide⟩
  exact .set "nq" 1 2 (.set "ng" 1 5 (.set "nq" 1 4 (.set "ng" 1 3 (.create 2) (by decide) rfl) (by decide) rfl) (by decide) rfl) (by decide) rfl

end Hpipm
