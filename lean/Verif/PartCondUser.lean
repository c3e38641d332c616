/-
Partial condensing, from the user's side: what PART_COND_QP_COND (cond/x_part_cond.c:487-560) writes, and what
PART_COND_QP_EXPAND_SOL (784-862) returns, against the problem given by the user.
-/
import Verif.CondProps

namespace Hpipm
open Finset
set_option linter.unusedSectionVars false

section
variable {K : Type*} [Field K] [LinearOrder K] [IsStrictOrderedRing K]

/-- a call sequence allowed by the interface: the block sizes are positive and add up to the horizon, the condensed problem has the
sizes computed by PART_COND_QP_COMPUTE_DIM and has just been created (no soft constraints yet), index lists are in range with the
input bounds first, only the last block condenses its terminal stage, and the whole solution is expanded -/
structure PcCall (P P2 : OcpQp K) (args : ℕ → CondArg) (bs : ℕ → ℕ) : Prop where
  ok : PcOk P args bs P2.dim.N
  dims : ∃ p0 : Dims, p0.N = P2.dim.N ∧ P2.dim.dims = partCondDim P.dim.dims bs p0
  split : SplitBox P
  fresh : ∀ ii j, P2.idxs_rev ii j = -1
  prim : ∀ ii, ii ≤ P2.dim.N → (args ii).comp_prim_sol ≠ 0
  eq : ∀ ii, ii ≤ P2.dim.N → (args ii).comp_dual_sol_eq ≠ 0
  ineq : ∀ ii, ii ≤ P2.dim.N → (args ii).comp_dual_sol_ineq ≠ 0

/-- the condensed problem -/
def pcQp (sq : K → K) (P P2 : OcpQp K) (args : ℕ → CondArg) (ws : ℕ → CondWs K) (bs : ℕ → ℕ) : OcpQp K :=
  (partCondCond sq P P2 args ws bs).P2

/-- the expanded solution, computed with the objects left by condensing -/
def pcSol (sq : K → K) (P P2 : OcpQp K) (args : ℕ → CondArg) (ws : ℕ → CondWs K) (bs : ℕ → ℕ) (sol2 sol : Sol K) : Sol K :=
  (partCondExpand (partCondCond sq P P2 args ws bs).P P2.dim.N sol2 sol args (partCondCond sq P P2 args ws bs).ws bs).sol

variable {sq : K → K} {P P2 : OcpQp K} {args : ℕ → CondArg} {ws : ℕ → CondWs K} {bs : ℕ → ℕ}

theorem pc_fresh (h : PcCall P P2 args bs) :
    ∀ ii, ii ≤ P2.dim.N → RevFree (shiftQp P (stOff bs ii)) (blkLen bs P2.dim.N ii - 1) (tgtOf P2 ii) :=
  fun ii _ _ _ _ _ _ => h.fresh ii _

theorem pc_dimsOk (h : PcCall P P2 args bs) : PcDims P P2 bs := by
  obtain ⟨p0, h1, h2⟩ := h.dims
  exact partCond_dims p0 h1 h2 h.split h.ok.pos h.ok.sum

theorem pc_dim (hsq : ∀ x, 0 < x → sq x * sq x = x) (h : PcCall P P2 args bs) : (pcQp sq P P2 args ws bs).dim = P2.dim :=
  (partCond_inv sq hsq h.ok ws (pc_fresh h)).dim

theorem pc_condensed (hsq : ∀ x, 0 < x → sq x * sq x = x) (h : PcCall P P2 args bs) :
    CondensedBy P (pcQp sq P P2 args ws bs) (blkLen bs P2.dim.N) :=
  partCond_condensed sq hsq h.ok (pc_dimsOk h) ws (pc_fresh h)

theorem pc_expands (hsq : ∀ x, 0 < x → sq x * sq x = x) (h : PcCall P P2 args bs) (sol2 sol : Sol K) :
    SolExpands P (pcQp sq P P2 args ws bs) (blkLen bs P2.dim.N) sol2 (pcSol sq P P2 args ws bs sol2 sol) := by
  have I := partCond_inv sq hsq h.ok ws (pc_fresh h)
  have hd : (pcQp sq P P2 args ws bs).dim = P2.dim := I.dim
  unfold pcSol
  have e : PeOk args bs P2.dim.N := ⟨h.ok.pos, h.ok.mid, h.ok.last, h.prim, h.eq, h.ineq⟩
  have B := partExp_inv (partCondCond sq P P2 args ws bs).P P2.dim.N sol2 sol args (partCondCond sq P P2 args ws bs).ws bs e
  generalize (partCondExpand (partCondCond sq P P2 args ws bs).P P2.dim.N sol2 sol args (partCondCond sq P P2 args ws bs).ws bs).sol = s at B
  have S := solExpands_of_blocks (P := (partCondCond sq P P2 args ws bs).P) (P2 := pcQp sq P P2 args ws bs) (bs := bs) (sol2 := sol2) (sol := s)
    (by rw [hd, I.same]; exact h.ok.sum) (by rw [hd]; exact h.ok.pos) (by rw [hd]; exact B)
  rw [hd] at S
  refine solExpands_kept _ _ I.kept ?_
  rw [← I.same]
  exact S

/-- **Condensed dynamics reproduce the simulation** (C43).  Simulate the user's problem from `x0` with the inputs `u`, and the condensed
problem from `x0` with the inputs stacked block by block, the later stages of a block first: the states of the condensed problem are
those at the beginning of the blocks. -/
theorem partCond_simulation (hsq : ∀ x, 0 < x → sq x * sq x = x) (h : PcCall P P2 args bs) (u u2 : ℕ → ℕ → K) (x0 : ℕ → K)
    (hu : ∀ ii l j, ii ≤ P2.dim.N → l < blkLen bs P2.dim.N ii → j < P.dim.nu (stOff bs ii + l) →
      u2 ii ((∑ t ∈ Ioc l (blkLen bs P2.dim.N ii - 1), P.dim.nu (stOff bs ii + t)) + j) = u (stOff bs ii + l) j)
    (ii i : ℕ) (hi : ii ≤ P2.dim.N) (hx : i < P.dim.nx (stOff bs ii)) :
    simX (view (pcQp sq P P2 args ws bs)) u2 x0 ii i = simX (view P) u x0 (stOff bs ii) i := by
  have C := pc_condensed (ws := ws) hsq h
  have hd := pc_dim (ws := ws) hsq h
  have := cb_simulation C u u2 x0 (fun ii l j hi hl hj => by
    rw [hd] at hi
    rw [stOff_blkLen bs _ ii hi] at hj ⊢
    exact hu ii l j hi hl hj) ii i (by rw [hd]; exact hi) (by rw [hd, (pc_dimsOk h).nx ii hi]; exact hx)
  rw [stOff_blkLen bs _ ii hi] at this
  exact this

/-- **Condensed cost** (C44): along every expanded point the objective of the user's problem is the objective of the condensed problem
plus a constant. -/
theorem partCond_objective (hsq : ∀ x, 0 < x → sq x * sq x = x) (h : PcCall P P2 args bs) : ∃ c : K, ∀ sol2 sol : Sol K,
    (view P).objective (ptOf P.dim (pcSol sq P P2 args ws bs sol2 sol).ux)
      = (view (pcQp sq P P2 args ws bs)).objective (ptOf P2.dim sol2.ux) + c := by
  obtain ⟨c, hc⟩ := ex_objective (pc_condensed (ws := ws) hsq h)
  refine ⟨c, fun sol2 sol => ?_⟩
  rw [hc _ _ (pc_expands hsq h sol2 sol).ux, pc_dim hsq h]

/-- **Feasibility** (C46): an expanded point satisfies the dynamics and constraints of the user's problem exactly when the condensed
point satisfies those of the condensed problem. -/
theorem partCond_feasible (hsq : ∀ x, 0 < x → sq x * sq x = x) (h : PcCall P P2 args bs) (sol2 sol : Sol K) :
    (view P).Feasible (ptOf P.dim (pcSol sq P P2 args ws bs sol2 sol).ux)
      ↔ (view (pcQp sq P P2 args ws bs)).Feasible (ptOf P2.dim sol2.ux) := by
  have := ex_feasible (pc_condensed (ws := ws) hsq h) (pc_expands hsq h sol2 sol).ux h.ok.wf
  rw [pc_dim hsq h] at this
  exact this

/-- nothing is lost: every point that satisfies the dynamics is the expansion of a point of the condensed problem -/
theorem partCond_complete (hsq : ∀ x, 0 < x → sq x * sq x = x) (h : PcCall P P2 args bs) (w : ℕ → Vec K)
    (hd : ∀ k i, k < P.dim.N → i < P.dim.nx (k + 1) → (view P).dynDefect (ptOf P.dim w) k i = 0) :
    ∃ v : ℕ → Vec K, ∀ pi lam t sol, ∀ k j, k ≤ P.dim.N → j < nvt P.dim k →
      (pcSol sq P P2 args ws bs ⟨v, pi, lam, t⟩ sol).ux k j = w k j := by
  have C := pc_condensed (ws := ws) hsq h
  have E := ex_of_dyn C w (fun k i hk hi => by rw [dynRes_view P w k i hi]; exact hd k i hk hi)
  refine ⟨fun ii => condVec (shiftQp P (stOff (blkLen bs P2.dim.N) ii)) (blkLen bs P2.dim.N ii - 1) (fun l => w (stOff (blkLen bs P2.dim.N) ii + l)),
    fun pi lam t sol k j hk hj => ?_⟩
  obtain ⟨ii, l, hi, hl, rfl⟩ := cb_find C hk
  rw [E ii l j hi hl hj]
  exact (pc_expands hsq h ⟨_, pi, lam, t⟩ sol).ux ii l j hi hl hj

/-- **Optimality** (C44, C46, C47): the expanded point is a solution of the user's problem exactly when the condensed point is a
solution of the condensed problem. -/
theorem partCond_optimal (hsq : ∀ x, 0 < x → sq x * sq x = x) (h : PcCall P P2 args bs) (sol2 sol : Sol K) :
    (view P).IsOptimal (ptOf P.dim (pcSol sq P P2 args ws bs sol2 sol).ux)
      ↔ (view (pcQp sq P P2 args ws bs)).IsOptimal (ptOf P2.dim sol2.ux) := by
  have := ex_optimal (pc_condensed (ws := ws) hsq h) (pc_expands hsq h sol2 sol).ux h.ok.wf
  rw [pc_dim hsq h] at this
  exact this

/-- **Residuals of an expanded solution** (C47): if multipliers of masked constraints are zero, the residuals reported for the user's
problem at the expanded solution respect any bounds that the residuals reported for the condensed problem at its solution respect, and
conversely; inside a block the dynamics and the stationarity with respect to the eliminated states hold exactly. -/
theorem partCond_residuals (hsq : ∀ x, 0 < x → sq x * sq x = x) (h : PcCall P P2 args bs) (sol2 sol : Sol K)
    (hm : LamMasked (pcQp sq P P2 args ws bs) sol2.lam) (res res2 : Res K) (rw1 rw2 : ResWs K)
    (h1 : rw1.Ok P) (h2 : rw2.Ok (pcQp sq P P2 args ws bs)) (eg eb ed em : K) (hg : 0 ≤ eg) (hb : 0 ≤ eb) :
    ResWithin P.dim (resCompute P (pcSol sq P P2 args ws bs sol2 sol) res rw1) eg eb ed em
      ↔ ResWithin P2.dim (resCompute (pcQp sq P P2 args ws bs) sol2 res2 rw2) eg eb ed em := by
  have := se_residuals (pc_condensed (ws := ws) hsq h) h.ok.wf (pc_expands hsq h sol2 sol) hm res res2 rw1 rw2 h1 h2 eg eb ed em hg hb
  rw [pc_dim hsq h] at this
  exact this

/-- inside a block: dynamics and stationarity with respect to the eliminated states hold exactly, whatever the condensed solution -/
theorem partCond_inner (hsq : ∀ x, 0 < x → sq x * sq x = x) (h : PcCall P P2 args bs) (sol2 sol : Sol K)
    (hm : LamMasked (pcQp sq P P2 args ws bs) sol2.lam) (res : Res K) (rw1 : ResWs K) (h1 : rw1.Ok P)
    (ii l i : ℕ) (hi : ii ≤ P2.dim.N) (hl : l + 1 < blkLen bs P2.dim.N ii) (hx : i < P.dim.nx (stOff bs ii + (l + 1))) :
    (resCompute P (pcSol sq P P2 args ws bs sol2 sol) res rw1).res_b (stOff bs ii + l) i = 0 ∧
    (resCompute P (pcSol sq P P2 args ws bs sol2 sol) res rw1).res_g (stOff bs ii + (l + 1)) (P.dim.nu (stOff bs ii + (l + 1)) + i) = 0 := by
  have C := pc_condensed (ws := ws) hsq h
  have hd := pc_dim (ws := ws) hsq h
  have E := pc_expands (ws := ws) hsq h sol2 sol
  have V := (resCompute_val P h.ok.wf (pcSol sq P P2 args ws bs sol2 sol) res rw1 h1).1
  have e := stOff_blkLen bs _ ii hi
  have hk := cb_stage C (ii := ii) (by rw [hd]; exact hi) hl
  rw [e] at hk
  constructor
  · rw [(V (stOff bs ii + l) (by omega)).1.b (by omega) i hx, vB_lin]
    have := ex_dyn_in C E.ux (i := i) (by rw [hd]; exact hi) hl (by rw [e]; exact hx)
    rw [e] at this
    exact this
  · rw [(V _ hk).1.g _ (by unfold nvt; omega)]
    have := se_states C h.ok.wf E hm (i := i) (by rw [hd]; exact hi) hl (by rw [e]; exact hx)
    rw [e] at this
    exact this

/-- multipliers and slacks of the inequalities are only moved: signs carry over -/
theorem partCond_signs (hsq : ∀ x, 0 < x → sq x * sq x = x) (h : PcCall P P2 args bs) (sol2 sol : Sol K)
    (hp : ∀ ii p, ii ≤ P2.dim.N → p < nct P2.dim ii → 0 ≤ sol2.lam ii p ∧ 0 ≤ sol2.t ii p) :
    ∀ k j, k ≤ P.dim.N → j < nct P.dim k →
      0 ≤ (pcSol sq P P2 args ws bs sol2 sol).lam k j ∧ 0 ≤ (pcSol sq P P2 args ws bs sol2 sol).t k j := by
  intro k j hk hj
  have C := pc_condensed (ws := ws) hsq h
  have hd := pc_dim (ws := ws) hsq h
  have E := pc_expands (ws := ws) hsq h sol2 sol
  obtain ⟨ii, l, hi, hl, rfl⟩ := cb_find C hk
  have a := (ex_ineq C E.ux h.ok.wf hi hl hj).2.2.2
  rw [hd] at a hi
  rw [E.lam ii l j (by rw [hd]; exact hi) hl hj, E.t ii l j (by rw [hd]; exact hi) hl hj]
  exact hp ii _ hi a

/-- the user's data survive condensing: `A, B, b` and the lower triangles the solver reads -/
theorem partCond_keeps (hsq : ∀ x, 0 < x → sq x * sq x = x) (h : PcCall P P2 args bs) :
    LowKept P (partCondCond sq P P2 args ws bs).P.BAbt (partCondCond sq P P2 args ws bs).P.RSQrq ∧
    (partCondCond sq P P2 args ws bs).P = { P with BAbt := (partCondCond sq P P2 args ws bs).P.BAbt, RSQrq := (partCondCond sq P P2 args ws bs).P.RSQrq } :=
  ⟨(partCond_inv sq hsq h.ok ws (pc_fresh h)).kept, (partCond_inv sq hsq h.ok ws (pc_fresh h)).same⟩

/-! ### the hypotheses are met

Four stages condensed into two blocks of two stages: one input (none at the last stage), one state, boxes on both, a soft state bound. -/

/-- sizes -/
def exPcDim : QpDim where
  N := 3
  nx := fun _ => 1
  nu := fun k => if k < 3 then 1 else 0
  nb := fun k => if k < 3 then 2 else 1
  nbx := fun _ => 1
  nbu := fun k => if k < 3 then 1 else 0
  ng := fun k => if k = 1 then 1 else 0
  ns := fun k => if k = 0 then 0 else 1

/-- data -/
def exPcQp : OcpQp K where
  dim := exPcDim
  BAbt := fun k r c => if r = 0 ∧ k < 3 then 2 else (k : K) + c + 1
  RSQrq := fun k r c => if r = c then (k : K) + 1 else 0
  DCt := fun _ r _ => (r : K) + 1
  b := fun k _ => k
  rqz := fun k j => (k : K) - j
  d := fun _ j => -(j : K) - 1
  d_mask := fun _ _ => 1
  m := fun _ _ => 0
  Z := fun _ _ => 3
  idxb := fun _ j => j
  idxs_rev := fun k j => if k = 0 then -1 else if k = 3 then (if j = 0 then 0 else -1) else (if j = 1 then 0 else -1)
  idxe := fun _ _ => 0
  diag_H_flag := fun _ => 0

/-- block sizes -/
def exPcBs : ℕ → ℕ := fun ii => if ii = 0 then 2 else 1

/-- sizes of the condensed problem, as the library computes them -/
def exPcDims2 : Dims := partCondDim exPcDim.dims exPcBs ⟨1, fun _ => 0, fun _ => 0, fun _ => 0, fun _ => 0, fun _ => 0, fun _ => 0, fun _ => 0, fun _ => 0, fun _ => 0, fun _ => 0⟩

/-- the condensed problem as created -/
def exPcQp2 : OcpQp K where
  dim := ⟨exPcDims2.N, exPcDims2.nx, exPcDims2.nu, exPcDims2.nb, exPcDims2.nbx, exPcDims2.nbu, exPcDims2.ng, exPcDims2.ns, exPcDims2.nbxe, exPcDims2.nbue, exPcDims2.nge⟩
  BAbt := fun _ _ _ => 0
  RSQrq := fun _ _ _ => 0
  DCt := fun _ _ _ => 0
  b := fun _ _ => 0
  rqz := fun _ _ => 0
  d := fun _ _ => 0
  d_mask := fun _ _ => 1
  m := fun _ _ => 0
  Z := fun _ _ => 0
  idxb := fun _ _ => 0
  idxs_rev := fun _ _ => -1
  idxe := fun _ _ => 0
  diag_H_flag := fun _ => 0

theorem exPc_wf : (exPcQp : OcpQp K).WF := by
  constructor
  · intro k j hk hj
    have hk : k ≤ 3 := hk
    show j < exPcDim.nu k + exPcDim.nx k
    have hj : j < exPcDim.nb k := hj
    unfold exPcDim at *
    dsimp only at *
    split_ifs at * <;> omega
  · intro k j hk hj
    have hk : k ≤ 3 := hk
    simp only [exPcQp]
    unfold exPcDim
    dsimp only
    split_ifs <;> simp

theorem exPc_call : PcCall (K := K) exPcQp exPcQp2 (partCondArgDefault 1) exPcBs := by
  have hN : (exPcQp2 : OcpQp K).dim.N = 1 := rfl
  refine ⟨⟨exPc_wf, fun ii _ => ?_, rfl, fun ii hi => ?_, rfl, fun ii _ => Or.inl rfl⟩, ⟨⟨1, fun _ => 0, fun _ => 0, fun _ => 0, fun _ => 0, fun _ => 0, fun _ => 0, fun _ => 0, fun _ => 0, fun _ => 0, fun _ => 0⟩, rfl, rfl⟩, fun k hk => ?_, fun _ _ => rfl,
    fun ii _ => by show (1 : ℤ) ≠ 0; omega, fun ii _ => by show (1 : ℤ) ≠ 0; omega, fun ii _ => by show (1 : ℤ) ≠ 0; omega⟩
  · unfold exPcBs; split <;> omega
  · rw [hN] at hi
    show decide (ii = 1) = false
    simp; omega
  · have hk : k ≤ 3 := hk
    refine ⟨?_, fun j hj => ?_⟩
    · show (if k < 3 then 2 else 1) = 1 + (if k < 3 then 1 else 0)
      split <;> rfl
    · show j < (if k < 3 then 1 else 0) ↔ j < (if k < 3 then 1 else 0)
      exact Iff.rfl

/-- a square root for which all theorems above apply -/
theorem exPc_sqrt : ∀ x : ℝ, 0 < x → Real.sqrt x * Real.sqrt x = x := fun _ h => Real.mul_self_sqrt h.le

example (ws : ℕ → CondWs ℝ) (sol2 sol : Sol ℝ) :
    (view exPcQp).IsOptimal (ptOf exPcDim (pcSol Real.sqrt exPcQp exPcQp2 (partCondArgDefault 1) ws exPcBs sol2 sol).ux)
      ↔ (view (pcQp Real.sqrt exPcQp exPcQp2 (partCondArgDefault 1) ws exPcBs)).IsOptimal (ptOf (exPcQp2 (K := ℝ)).dim sol2.ux) :=
  partCond_optimal exPc_sqrt exPc_call sol2 sol

/-- the condensed problem is not trivial: sizes of the two stages -/
example : (fun ii => exPcDims2.nu ii) 0 = 2 ∧ exPcDims2.nu 1 = 1 ∧ exPcDims2.nb 0 = 3 ∧ exPcDims2.ng 0 = 2 ∧ exPcDims2.ns 0 = 1 ∧ exPcDims2.ng 1 = 1 := by
  decide

/-- stacked inputs satisfying the hypothesis of `partCond_simulation`: block 0 holds the inputs of stage 1, then stage 0 -/
example (x0 : ℕ → ℝ) (ws : ℕ → CondWs ℝ) (u : ℕ → ℕ → ℝ) (i : ℕ) (hi : i < 1) :
    simX (view (pcQp Real.sqrt exPcQp exPcQp2 (partCondArgDefault 1) ws exPcBs))
      (fun ii p => if ii = 0 then (if p = 0 then u 1 0 else u 0 0) else u 2 0) x0 1 i
      = simX (view exPcQp) u x0 2 i := by
  refine partCond_simulation exPc_sqrt exPc_call u _ x0 (fun ii l j h1 h2 h3 => ?_) 1 i (le_refl 1) hi
  have hN : (exPcQp2 : OcpQp ℝ).dim.N = 1 := rfl
  rw [hN] at h1 h2 ⊢
  have e : ∀ k, (exPcQp : OcpQp ℝ).dim.nu k = if k < 3 then 1 else 0 := fun _ => rfl
  simp only [e] at h3 ⊢
  interval_cases ii
  · have h2 : l < 2 := h2
    have : stOff exPcBs 0 = 0 := rfl
    have hb : blkLen exPcBs 1 0 = 2 := rfl
    rw [this] at h3 ⊢
    rw [hb]
    interval_cases l
    · have : j = 0 := by simpa using h3
      subst this
      have : Ioc 0 (2 - 1) = {1} := by decide
      rw [this]; simp
    · have : j = 0 := by simpa using h3
      subst this
      have : Ioc 1 (2 - 1) = ∅ := by decide
      rw [this]; simp
  · have h2 : l < 2 := h2
    have : stOff exPcBs 1 = 2 := rfl
    have hb : blkLen exPcBs 1 1 = 2 := rfl
    rw [this] at h3 ⊢
    rw [hb]
    interval_cases l
    · have : j = 0 := by simpa using h3
      subst this
      simp
    · simp at h3


/-! ### masks -/

/-- the condensed problem has the user's masks: if no constraint is masked, every multiplier vector is admissible in `partCond_residuals` -/
theorem pc_unmasked (hsq : ∀ x, 0 < x → sq x * sq x = x) (h : PcCall P P2 args bs) (hm : ∀ k j, k ≤ P.dim.N → j < nct P.dim k → P.d_mask k j = 1)
    (lam : ℕ → Vec K) : LamMasked (pcQp sq P P2 args ws bs) lam := by
  have C := pc_condensed (ws := ws) hsq h
  have E := expandPt_expands C (fun _ _ => 0)
  intro ii p hi hp
  obtain ⟨l, j, hl, hj, rfl⟩ := ineqPos_surj (C.blk ii hi) p hp
  have hpos := C.pos ii hi
  have hl : l < blkLen bs P2.dim.N ii := by omega
  rw [(ex_ineq C E h.ok.wf hi hl hj).2.1, hm _ j (cb_stage C hi hl) hj, one_mul]

example (ws : ℕ → CondWs ℝ) (sol2 sol : Sol ℝ) (res res2 : Res ℝ) (rw1 rw2 : ResWs ℝ) (h1 : rw1.valid_nc_mask = false) (h2 : rw2.valid_nc_mask = false) :
    ResWithin exPcDim (resCompute exPcQp (pcSol Real.sqrt exPcQp exPcQp2 (partCondArgDefault 1) ws exPcBs sol2 sol) res rw1) 1 2 3 4
      ↔ ResWithin (exPcQp2 (K := ℝ)).dim (resCompute (pcQp Real.sqrt exPcQp exPcQp2 (partCondArgDefault 1) ws exPcBs) sol2 res2 rw2) 1 2 3 4 :=
  partCond_residuals exPc_sqrt exPc_call sol2 sol (pc_unmasked exPc_sqrt exPc_call (fun _ _ _ _ => rfl) _) res res2 rw1 rw2
    (fun h => by rw [h1] at h; cases h) (fun h => by rw [h2] at h; cases h) 1 2 3 4 (by norm_num) (by norm_num)

end

/-! ### the second condensing algorithm

The cubic variant (`cond_alg = 1`) writes a shifted gradient when the last condensed stage has inputs (x_cond_aux.c:412): the
equivalence of the objectives fails. -/

/-- two stages with inputs -/
def exA1Dim : QpDim where
  N := 1
  nx := fun _ => 1
  nu := fun _ => 1
  nb := fun _ => 0
  nbx := fun _ => 0
  nbu := fun _ => 0
  ng := fun _ => 0
  ns := fun _ => 0

/-- the gradient of the input is 5 at stage 0 and 7 at stage 1 -/
def exA1Qp : OcpQp ℚ where
  dim := exA1Dim
  BAbt := fun _ _ _ => 1
  RSQrq := fun _ r c => if r = c then 1 else 0
  DCt := fun _ _ _ => 0
  b := fun _ _ => 0
  rqz := fun k j => if j = 0 then (if k = 0 then 5 else 7) else 0
  d := fun _ _ => 0
  d_mask := fun _ _ => 1
  m := fun _ _ => 0
  Z := fun _ _ => 0
  idxb := fun _ _ => 0
  idxs_rev := fun _ _ => -1
  idxe := fun _ _ => 0
  diag_H_flag := fun _ => 0

/-- the condensed problem as created: one stage, two inputs, one state -/
def exA1Qp2 : OcpQp ℚ where
  dim := { exA1Dim with N := 0, nu := fun _ => 2 }
  BAbt := fun _ _ _ => 0
  RSQrq := fun _ _ _ => 0
  DCt := fun _ _ _ => 0
  b := fun _ _ => 0
  rqz := fun _ _ => 0
  d := fun _ _ => 0
  d_mask := fun _ _ => 1
  m := fun _ _ => 0
  Z := fun _ _ => 0
  idxb := fun _ _ => 0
  idxs_rev := fun _ _ => -1
  idxe := fun _ _ => 0
  diag_H_flag := fun _ => 0

/-- default options with `cond_alg = 1` -/
def exA1Arg : ℕ → CondArg := fun ii => { partCondArgDefault 0 ii with cond_alg := 1 }
/-- work space -/
def exA1Ws : ℕ → CondWs ℚ := fun _ => ⟨fun _ _ _ => 0, fun _ _ => 0, fun _ _ _ => 0, fun _ _ => 0, fun _ _ => 0, fun _ _ => 0, fun _ _ => 0, fun _ => 0, fun _ => 0⟩
/-- a condensed point with the given input of the last stage -/
def exA1Sol (a : ℚ) : Sol ℚ := ⟨fun _ j => if j = 0 then a else 0, fun _ _ => 0, fun _ _ => 0, fun _ _ => 0⟩

/-- **the gradient of the second algorithm is shifted** (C45): no constant relates the two objectives -/
theorem condAlg1_gradient_shifted : ¬ ∃ c : ℚ, ∀ sol2 sol : Sol ℚ,
    (view exA1Qp).objective (ptOf exA1Dim (pcSol (fun x => x) exA1Qp exA1Qp2 exA1Arg exA1Ws (fun _ => 1) sol2 sol).ux)
      = (view (pcQp (fun x => x) exA1Qp exA1Qp2 exA1Arg exA1Ws (fun _ => 1))).objective (ptOf exA1Qp2.dim sol2.ux) + c := by
  rintro ⟨c, h⟩
  have h1 := h (exA1Sol 1) (exA1Sol 0)
  have h2 := h (exA1Sol (-1)) (exA1Sol 0)
  have a1 : (view exA1Qp).objective (ptOf exA1Dim (pcSol (fun x => x) exA1Qp exA1Qp2 exA1Arg exA1Ws (fun _ => 1) (exA1Sol 1) (exA1Sol 0)).ux) = 15 / 2 := by
    decide +kernel
  have a2 : (view exA1Qp).objective (ptOf exA1Dim (pcSol (fun x => x) exA1Qp exA1Qp2 exA1Arg exA1Ws (fun _ => 1) (exA1Sol (-1)) (exA1Sol 0)).ux) = -13 / 2 := by
    decide +kernel
  have b1 : (view (pcQp (fun x => x) exA1Qp exA1Qp2 exA1Arg exA1Ws (fun _ => 1))).objective (ptOf exA1Qp2.dim (exA1Sol 1).ux) = 11 / 2 := by
    decide +kernel
  have b2 : (view (pcQp (fun x => x) exA1Qp exA1Qp2 exA1Arg exA1Ws (fun _ => 1))).objective (ptOf exA1Qp2.dim (exA1Sol (-1)).ux) = -9 / 2 := by
    decide +kernel
  rw [a1, b1] at h1
  rw [a2, b2] at h2
  linarith

/-- all other requirements of `partCond_objective` hold -/
theorem condAlg1_other : PcOk exA1Qp (partCondArgDefault 0) (fun _ => 1) 0 ∧ SplitBox exA1Qp ∧
    ∃ p0 : Dims, p0.N = exA1Qp2.dim.N ∧ exA1Qp2.dim.dims.nu 0 = (partCondDim exA1Qp.dim.dims (fun _ => 1) p0).nu 0
      ∧ exA1Qp2.dim.dims.nx 0 = (partCondDim exA1Qp.dim.dims (fun _ => 1) p0).nx 0 := by
  refine ⟨⟨⟨fun k j _ hj => ?_, fun _ _ _ _ => Or.inl rfl⟩, fun ii h => by omega, rfl, fun ii h => by omega, rfl, fun _ _ => Or.inl rfl⟩,
    fun k _ => ⟨rfl, fun j hj => ?_⟩, ⟨0, fun _ => 0, fun _ => 0, fun _ => 0, fun _ => 0, fun _ => 0, fun _ => 0, fun _ => 0, fun _ => 0, fun _ => 0, fun _ => 0⟩, rfl, rfl, rfl⟩
  · exact absurd hj (Nat.not_lt_zero j)
  · exact absurd hj (Nat.not_lt_zero j)

end Hpipm
