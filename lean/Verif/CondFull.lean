/-
Full condensing: COND_QP_COND (cond/x_cond.c:445-457) and COND_QP_EXPAND_SOL (534-541) between an OCP QP and a dense QP.
-/
import Verif.PartCondUser
import Verif.DenseIpmUser

namespace Hpipm
open Finset
set_option linter.unusedSectionVars false

section
variable {K : Type*} [Field K] [LinearOrder K] [IsStrictOrderedRing K]

/-- the vectors and matrices of the dense QP passed to COND_RSQRQ and COND_DCTD, cond/x_cond.c:450-452 (`BAbt2`, `b2` are
`NULL`; they are only used when the last stage is not condensed) -/
def denseTgt (dq : DenseQp K) : CondTgt K :=
  ⟨fun _ _ => 0, fun _ => 0, dq.Hv, dq.gz, dq.Ct, dq.d, dq.d_mask, dq.m, dq.Z, dq.idxb, dq.idxs_rev⟩

/-- the dense QP with the written vectors and matrices -/
def putDense (dq : DenseQp K) (t : CondTgt K) : DenseQp K :=
  { dq with
    Hv := t.RSQrq2
    gz := t.rqz2
    Ct := t.DCt2
    d := t.d2
    d_mask := t.d_mask2
    m := t.m2
    Z := t.Z2
    idxb := t.idxb2
    idxs_rev := t.idxs_rev2 }

/-- COND_QP_COND, cond/x_cond.c:445-457; `none` (dereference of `NULL`) without condensing the last stage.  Returns the caller's
problem (its upper triangles are work space of the second algorithm), the work space and the dense QP. -/
def condQpCond (sq : K → K) (P : OcpQp K) (dq : DenseQp K) (arg : CondArg) (ws : CondWs K) : Option (OcpQp K × CondWs K × DenseQp K) :=
  if arg.cond_last_stage = true then
    let r := condBlock sq P arg ws (denseTgt dq)
    some (r.1, r.2.1, putDense dq r.2.2)
  else none

/-- COND_QP_EXPAND_SOL, cond/x_cond.c:534-541 -/
def condQpExpand (P : OcpQp K) (arg : CondArg) (ws : CondWs K) (ds : DqSol K) (sol : Sol K) : CondWs K × Sol K :=
  expandSol P arg ws ⟨ds.v, ds.pi, ds.lam, ds.t⟩ sol

/-- sizes of a dense QP written by COND_QP_COMPUTE_DIM, cond/x_cond.c:36-77 -/
def condDDim (d : Dims) : DDim := ⟨(condDim d).nv, (condDim d).ne, (condDim d).nb, (condDim d).ng, (condDim d).ns⟩

/-- a call sequence allowed by the interface: sizes computed by COND_QP_COMPUTE_DIM, index lists in range with the input bounds
first, the last stage is condensed (default), the second algorithm only where it applies, and the soft-constraint list of the dense
QP is as created (or as left by an earlier condensing of the same soft constraints) -/
structure CondCall (P : OcpQp K) (dq : DenseQp K) (arg : CondArg) : Prop where
  wf : P.WF
  dims : dq.dim = condDDim P.dim.dims
  split : SplitBox P
  cls : arg.cond_last_stage = true
  alg : AlgOk arg P P.dim.N
  fresh : ∀ k j, k ≤ P.dim.N → j < P.dim.nb k + P.dim.ng k → P.idxs_rev k j = -1 → dq.idxs_rev (conPos P P.dim.N k j) = -1

/-- the square root is exact where it is used (only by the square-root variant of the Hessian recursion) -/
def CondSqOk (sq : K → K) (arg : CondArg) : Prop := arg.square_root_alg ≠ 0 → ∀ x, 0 < x → sq x * sq x = x

/-! ### proof device: a dense QP as a one-stage OCP QP with `n` states -/

/-- sizes -/
def cdim (D : DDim) (n : ℕ) : QpDim where
  N := 0
  nx := fun _ => n
  nu := fun _ => D.nv - n
  nb := fun _ => D.nb
  nbx := fun _ => 0
  nbu := fun _ => D.nb
  ng := fun _ => D.ng
  ns := fun _ => D.ns
  nbxe := fun _ => 0
  nbue := fun _ => 0
  nge := fun _ => 0

/-- the one-stage OCP QP -/
def cview (dq : DenseQp K) (n : ℕ) : OcpQp K := { ov dq with dim := cdim dq.dim n }

theorem shift_zero (P : OcpQp K) : shiftQp P 0 = P := by
  unfold shiftQp
  simp only [Nat.zero_add, Nat.sub_zero]

theorem block_zero (P : OcpQp K) : blockQp P 0 P.dim.N = P := by
  unfold blockQp
  rw [shift_zero]

variable {sq : K → K} {P : OcpQp K} {dq : DenseQp K} {arg : CondArg} {ws : CondWs K}

theorem cond_top (h : CondCall P dq arg) : condTop P.dim.N arg = some P.dim.N := by
  unfold condTop
  rw [if_pos h.cls]

theorem cond_sizes (h : CondCall P dq arg) : dq.dim.nv = nvCond P P.dim.N ∧ dq.dim.ne = 0 ∧ dq.dim.nb = nbCond P P.dim.N ∧
    dq.dim.ng = ngCond P P.dim.N ∧ dq.dim.ns = nsAll P.dim P.dim.N := by
  have hb : ∀ k, k ≤ P.dim.dims.N → P.dim.dims.nb k = P.dim.dims.nbx k + P.dim.dims.nbu k := fun k hk => (h.split k hk).1
  obtain ⟨a1, a2, a3, a4, a5⟩ := condDim_conserves P.dim.dims hb
  have hd := h.dims
  have e1 : dq.dim.nv = (condDim P.dim.dims).nv := by rw [hd]; rfl
  have e2 : dq.dim.ne = (condDim P.dim.dims).ne := by rw [hd]; rfl
  have e3 : dq.dim.nb = (condDim P.dim.dims).nb := by rw [hd]; rfl
  have e4 : dq.dim.ng = (condDim P.dim.dims).ng := by rw [hd]; rfl
  have e5 : dq.dim.ns = (condDim P.dim.dims).ns := by rw [hd]; rfl
  have hbox : ∀ k, k < P.dim.N → nBox P (k + 1) = P.dim.nbu (k + 1) ∧ nGen P (k + 1) = P.dim.nbx (k + 1) := by
    intro k hk
    have := nBox_split h.split 0 k (by omega)
    rw [shift_zero, Nat.zero_add] at this
    exact this
  have hnb : nbCond P P.dim.N = P.dim.nbx 0 + ∑ k ∈ range (P.dim.N + 1), P.dim.nbu k := by
    unfold nbCond
    rw [sum_range_succ', (nBox_zero P).1, sum_range_succ' (fun k => P.dim.nbu k), (h.split 0 (by omega)).1]
    have : ∑ k ∈ range P.dim.N, nBox P (k + 1) = ∑ k ∈ range P.dim.N, P.dim.nbu (k + 1) :=
      sum_congr rfl fun k hk => (hbox k (mem_range.mp hk)).1
    rw [this]; omega
  have hng : ngCond P P.dim.N = (∑ k ∈ range P.dim.N, P.dim.nbx (k + 1)) + ∑ k ∈ range (P.dim.N + 1), P.dim.ng k := by
    unfold ngCond nbgCond ngAll
    rw [sum_range_succ', (nBox_zero P).2]
    have : ∑ k ∈ range P.dim.N, nGen P (k + 1) = ∑ k ∈ range P.dim.N, P.dim.nbx (k + 1) :=
      sum_congr rfl fun k hk => (hbox k (mem_range.mp hk)).2
    rw [this]; omega
  have htot : (condDim P.dim.dims).nb + (condDim P.dim.dims).ng = nbCond P P.dim.N + ngCond P P.dim.N := by
    rw [a4, hnb, hng, sum_add_distrib]
    have : ∑ k ∈ range (P.dim.N + 1), P.dim.nb k = ∑ k ∈ range (P.dim.N + 1), (P.dim.nbx k + P.dim.nbu k) :=
      sum_congr rfl fun k hk => (h.split k (by have := mem_range.mp hk; omega)).1
    have e : ∑ k ∈ range (P.dim.dims.N + 1), P.dim.dims.nb k = ∑ k ∈ range (P.dim.N + 1), P.dim.nb k := rfl
    have e' : ∑ k ∈ range (P.dim.dims.N + 1), P.dim.dims.ng k = ∑ k ∈ range (P.dim.N + 1), P.dim.ng k := rfl
    rw [e, e', this, sum_add_distrib, sum_range_succ' (fun k => P.dim.nbx k)]
    omega
  have hnb' : (condDim P.dim.dims).nb = nbCond P P.dim.N := by rw [a3, hnb]; rfl
  refine ⟨?_, by rw [e2, a2], by rw [e3, hnb'], by rw [e4]; omega, by rw [e5, a5]; rfl⟩
  rw [e1, a1]
  unfold nvCond nuAll
  show P.dim.nx 0 + ∑ k ∈ range (P.dim.N + 1), P.dim.nu k = _
  omega

theorem cond_range (h : CondCall P dq arg) : RangeOk P P.dim.N :=
  ⟨fun k j hk hj => h.wf.1 k j hk hj, fun k j hk hj => h.wf.2 k j hk hj⟩

theorem cond_tgt (hsq : CondSqOk sq arg) (h : CondCall P dq arg) :
    TgtOk P P.dim.N (condBlock sq P arg ws (denseTgt dq)).2.2 ∧
    LowKept P (condBlock sq P arg ws (denseTgt dq)).1.BAbt (condBlock sq P arg ws (denseTgt dq)).1.RSQrq := by
  have alg : AlgOk arg P P.dim.N := h.alg
  obtain ⟨a, b, -, -⟩ := condBlock_ok sq P arg hsq ws (denseTgt dq) P.dim.N (cond_top h) alg (cond_range h)
    (fun k j hk hj hr => h.fresh k j hk hj hr)
  exact ⟨a, b⟩

/-- the dense QP written by condensing -/
def condDense (sq : K → K) (P : OcpQp K) (dq : DenseQp K) (arg : CondArg) (ws : CondWs K) : DenseQp K :=
  putDense dq (condBlock sq P arg ws (denseTgt dq)).2.2

/-- the caller's problem and work space after condensing -/
def condSrc (sq : K → K) (P : OcpQp K) (dq : DenseQp K) (arg : CondArg) (ws : CondWs K) : OcpQp K := (condBlock sq P arg ws (denseTgt dq)).1
def condWs (sq : K → K) (P : OcpQp K) (dq : DenseQp K) (arg : CondArg) (ws : CondWs K) : CondWs K := (condBlock sq P arg ws (denseTgt dq)).2.1

theorem condQpCond_eq (h : CondCall P dq arg) :
    condQpCond sq P dq arg ws = some (condSrc sq P dq arg ws, condWs sq P dq arg ws, condDense sq P dq arg ws) := by
  unfold condQpCond
  rw [if_pos h.cls]
  rfl

theorem full_condensed (hsq : CondSqOk sq arg) (h : CondCall P dq arg) :
    CondensedBy P (cview (condDense sq P dq arg ws) (P.dim.nx 0)) (fun _ => P.dim.N + 1) := by
  obtain ⟨T, -⟩ := cond_tgt (ws := ws) hsq h
  obtain ⟨s1, s2, s3, s4, s5⟩ := cond_sizes h
  refine ⟨fun _ _ => by omega, ?_, ?_, fun ii hi => absurd hi (Nat.not_lt_zero _)⟩
  · show stOff (fun _ => P.dim.N + 1) (0 + 1) = _
    rw [stOff_succ]
    show 0 + (P.dim.N + 1) = _
    omega
  · intro ii hi
    have h0 : ii = 0 := Nat.le_zero.mp hi
    subst h0
    show BlockOf (cview (condDense sq P dq arg ws) (P.dim.nx 0)) 0 (shiftQp P 0) (P.dim.N + 1 - 1)
    rw [shift_zero, Nat.add_sub_cancel]
    have enu : dq.dim.nv - P.dim.nx 0 = nuAll P.dim P.dim.N := by rw [s1]; unfold nvCond; omega
    refine ⟨enu, rfl, s3, s4, s5, ?_, fun k j hk hj => ?_, T.rev, fun k i hk hi => ?_⟩
    · obtain ⟨c, hc⟩ := T.cost
      refine ⟨c, fun v => ?_⟩
      rw [hc v]
      congr 1
      have e : (cview (condDense sq P dq arg ws) (P.dim.nx 0)).dim.nu 0 + (cview (condDense sq P dq arg ws) (P.dim.nx 0)).dim.nx 0
          = nvCond P P.dim.N := by
        show dq.dim.nv - P.dim.nx 0 + P.dim.nx 0 = _
        rw [enu]; rfl
      unfold stageCost
      rw [e]
      rfl
    · obtain ⟨t0, f⟩ := T.con k j hk hj
      exact ⟨t0, ⟨f.lo, f.up, f.ml, f.mu, f.tl, f.tu, f.rev, f.ix⟩⟩
    · have f := T.slack k i hk hi
      exact ⟨f.1, f.2, f.3, f.4, f.5, f.6, f.7, f.8, f.9, f.10⟩

/-- a dense solution as a solution of the one-stage QP -/
def csol (ds : DqSol K) : Sol K := ⟨fun _ => ds.v, fun _ => ds.pi, fun _ => ds.lam, fun _ => ds.t⟩

theorem condSrc_eq (sq : K → K) (P : OcpQp K) (dq : DenseQp K) (arg : CondArg) (ws : CondWs K) :
    condSrc sq P dq arg ws = { P with BAbt := (condSrc sq P dq arg ws).BAbt, RSQrq := (condSrc sq P dq arg ws).RSQrq } := by
  unfold condSrc condBlock
  dsimp only
  unfold condRsqrq
  rcases condTop P.dim.N arg with _ | N
  · rfl
  · dsimp only
    by_cases h : N = 0
    · rw [if_pos h]
    · rw [if_neg h]
      by_cases h2 : arg.cond_alg = 0
      · rw [if_pos h2]
      · rw [if_neg h2]

/-- which parts of the solution are expanded (all by default, COND_QP_ARG_SET_DEFAULT) -/
structure ExpandAll (arg : CondArg) : Prop where
  prim : arg.comp_prim_sol ≠ 0
  eq : arg.comp_dual_sol_eq ≠ 0
  ineq : arg.comp_dual_sol_ineq ≠ 0

/-- the solution expanded with the objects left by condensing -/
def condSol (sq : K → K) (P : OcpQp K) (dq : DenseQp K) (arg : CondArg) (ws : CondWs K) (ds : DqSol K) (sol : Sol K) : Sol K :=
  (condQpExpand (condSrc sq P dq arg ws) arg (condWs sq P dq arg ws) ds sol).2

theorem full_expands (hsq : CondSqOk sq arg) (h : CondCall P dq arg) (ha : ExpandAll arg) (ds : DqSol K) (sol : Sol K) :
    SolExpands P (cview (condDense sq P dq arg ws) (P.dim.nx 0)) (fun _ => P.dim.N + 1) (csol ds) (condSol sq P dq arg ws ds sol) := by
  obtain ⟨-, hk⟩ := cond_tgt (ws := ws) hsq h
  have e := condSrc_eq sq P dq arg ws
  have hN : (condSrc sq P dq arg ws).dim = P.dim := by rw [e]
  have hs : condSrc sq P dq arg ws = (condBlock sq P arg ws (denseTgt dq)).1 := rfl
  rw [← hs] at hk
  have htop : condTop (condSrc sq P dq arg ws).dim.N arg = some P.dim.N := by rw [hN]; exact cond_top h
  have V := expandSol_val (condSrc sq P dq arg ws) arg (condWs sq P dq arg ws) ⟨ds.v, ds.pi, ds.lam, ds.t⟩ sol _ htop ha.prim ha.eq ha.ineq
  have V' : Expanded (condSrc sq P dq arg ws) P.dim.N arg.cond_last_stage ⟨ds.v, ds.pi, ds.lam, ds.t⟩ sol (condSol sq P dq arg ws ds sol) := V
  rw [h.cls] at V'
  generalize condSol sq P dq arg ws ds sol = s at V'
  have W := V'.self (by rw [hN]; omega) (fun _ => by rw [hN]) (fun _ _ => rfl) (fun _ _ => rfl) (fun _ _ => rfl) (fun _ _ => rfl)
  have B : ∀ ii, ii ≤ (cview (condDense sq P dq arg ws) (P.dim.nx 0)).dim.N →
      BlkExp (condSrc sq P dq arg ws) (csol ds) (fun _ => P.dim.N) (cview (condDense sq P dq arg ws) (P.dim.nx 0)).dim.N s ii := by
    intro ii hi
    have h0 : ii = 0 := Nat.le_zero.mp hi
    subst h0
    have eb : blockQp (condSrc sq P dq arg ws) 0 P.dim.N = condSrc sq P dq arg ws := by
      have := block_zero (condSrc sq P dq arg ws)
      rw [hN] at this
      exact this
    have esol : shiftSol s 0 = s := by unfold shiftSol; simp only [Nat.zero_add]
    show Expanded (blockQp (condSrc sq P dq arg ws) 0 P.dim.N) (blkLen (fun _ => P.dim.N) 0 0 - 1) true ⟨ds.v, ds.pi, ds.lam, ds.t⟩
      (shiftSol s 0) (shiftSol s 0)
    rw [eb, esol]
    have el : blkLen (fun _ => P.dim.N) 0 0 - 1 = P.dim.N := by unfold blkLen; rw [if_pos rfl]; exact Nat.add_sub_cancel _ _
    rw [el]
    exact W
  have S := solExpands_of_blocks (P := condSrc sq P dq arg ws) (P2 := cview (condDense sq P dq arg ws) (P.dim.nx 0)) (bs := fun _ => P.dim.N)
    (sol2 := csol ds) (sol := s) (by
      show stOff (fun _ => P.dim.N) (0 + 1) = _
      rw [stOff_succ, hN]
      show 0 + P.dim.N = _
      omega) (fun ii hi => absurd hi (Nat.not_lt_zero _)) B
  refine solExpands_kept _ _ hk ?_
  rw [← e]
  have el : ∀ ii, ii ≤ 0 → blkLen (fun _ => P.dim.N) 0 ii = P.dim.N + 1 := by
    intro ii hi
    have h0 : ii = 0 := Nat.le_zero.mp hi
    subst h0
    unfold blkLen
    rw [if_pos rfl]
  have S' : SolExpands (condSrc sq P dq arg ws) (cview (condDense sq P dq arg ws) (P.dim.nx 0)) (blkLen (fun _ => P.dim.N) 0) (csol ds) s := S
  refine ⟨fun ii l j hi => ?_, fun ii l j hi => ?_, fun ii l j hi => ?_, fun ii l i hi => ?_, fun ii i hi => absurd hi (Nat.not_lt_zero _)⟩
  all_goals
    have h0 : ii = 0 := Nat.le_zero.mp hi
    subst h0
  · have := S'.ux 0 l j (le_refl _); rw [el 0 (le_refl _)] at this; exact this
  · have := S'.lam 0 l j (le_refl _); rw [el 0 (le_refl _)] at this; exact this
  · have := S'.t 0 l j (le_refl _); rw [el 0 (le_refl _)] at this; exact this
  · have := S'.inn 0 l i (le_refl _); rw [el 0 (le_refl _)] at this; exact this

end
end Hpipm
