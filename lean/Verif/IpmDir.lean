/-
The search direction of an interior point iteration always points to the linearised constraints (C67, first part): in
both formulations, after masking, refinement and correction, whatever the quality of the factorisation.
-/
import Verif.KktPrim
import Verif.IpmPos
import Verif.Move
import Verif.CondEquiv

namespace Hpipm
open Finset
set_option linter.unusedSectionVars false

section
variable {K : Type*} [Field K] [LinearOrder K] [IsStrictOrderedRing K]
variable (E : Env K)

/-- the dynamics matrices of the shared memory are the caller's -/
def Rows (s : Ipm K) : Prop := ∀ k i j, i < E.qp.dim.nu k + E.qp.dim.nx k → s.kkt.BAbt k i j = E.qp.BAbt k i j

theorem Rows.mk' {s s' : Ipm K} (h : Rows E s) (hm : MK E s s') : Rows E s' := fun k i j hi => (hm.B k i j hi).trans (h k i j hi)

theorem linB_rows (q : OcpQp K) (B R : ℕ → Mat K) (hB : ∀ k i j, i < q.dim.nu k + q.dim.nx k → B k i j = q.BAbt k i j) (u : ℕ → Vec K) (k i : ℕ) :
    linB { q with BAbt := B, RSQrq := R } u k i = linB q u k i := by
  unfold linB
  congr 1
  exact sum_congr rfl fun j hj => by dsimp only; rw [hB k j i (mem_range.mp hj)]

theorem qpStep_linB {s : Ipm K} (h : Rows E s) (u : ℕ → Vec K) (k i : ℕ) : linB (qpStep E s) u k i = linB E.qp u k i := by
  have e := linB_rows E.qp s.kkt.BAbt s.kkt.RSQrq h u k i
  rw [← e]
  unfold qpStep
  split <;> rfl

theorem qpStep_linD (s : Ipm K) (u : ℕ → Vec K) (k j : ℕ) : linD (qpStep E s) u k j = linD E.qp u k j := by
  unfold qpStep
  split <;> rfl

/-- the primal part of the step of a state solves the linearised constraints of the step problem -/
def StepDir (s : Ipm K) : Prop := PrimStep E.qp (qpStep E s).b (qpStep E s).d s.kkt.ux s.kkt.t

theorem qpStep_bd {s s' : Ipm K} (h : s'.res = s.res) : (qpStep E s').b = (qpStep E s).b ∧ (qpStep E s').d = (qpStep E s).d := by
  unfold qpStep
  split
  · exact ⟨rfl, rfl⟩
  · rw [h]; exact ⟨rfl, rfl⟩

theorem PrimStep.congr {qp : OcpQp K} (hwf : qp.WF) {b d ux t ux' t' : ℕ → Vec K} (h : PrimStep qp b d ux t)
    (hu : ∀ k i, k ≤ qp.dim.N → i < nvt qp.dim k → ux' k i = ux k i)
    (ht : ∀ k j, k ≤ qp.dim.N → j < nct qp.dim k → qp.d_mask k j * t' k j = qp.d_mask k j * t k j) : PrimStep qp b d ux' t' := by
  refine ⟨fun k i hk hi => ?_, fun k j hk hj => ?_⟩
  · rw [linB_congr qp ux' ux k i hk hi hu]; exact h.dyn k i hk hi
  · rw [linD_congr (N := qp.dim.N) ⟨hwf.1, hwf.2⟩ hk (fun i hi => hu k i hk hi) j hj]
    linear_combination h.con k j hk hj + ht k j hk hj

theorem StepDir.same (hwf : E.qp.WF) {s s' : Ipm K} (h : StepDir E s) (hs : SameLin E s s') : StepDir E s' := by
  obtain ⟨e1, e2⟩ := qpStep_bd E hs.keep.res
  unfold StepDir
  rw [e1, e2]
  exact PrimStep.congr hwf h hs.ux hs.t

/-- equality of the relevant problem data -/
theorem PrimStep.ofStep {s : Ipm K} (hr : Rows E s) {b d ux t : ℕ → Vec K} (h : PrimStep (qpStep E s) b d ux t) : PrimStep E.qp b d ux t := by
  have hd := qpStep_dim E s
  refine ⟨fun k i hk hi => ?_, fun k j hk hj => ?_⟩
  · rw [← qpStep_linB E hr]; exact h.dyn k i (by rw [hd]; exact hk) (by rw [hd]; exact hi)
  · rw [← qpStep_linD E s, ← qpStep_mask E s]; exact h.con k j (by rw [hd]; exact hk) (by rw [hd]; exact hj)

theorem qpStep_rows {s : Ipm K} : ∀ k i j, i < (qpStep E s).dim.nu k + (qpStep E s).dim.nx k → s.kkt.BAbt k i j = (qpStep E s).BAbt k i j := by
  intro k i j _
  unfold qpStep
  split <;> rfl

/-- what the factorisation assumed for `lq_fact > 0` (not modelled) is taken to do: its forward sweep, like the modelled
ones, computes the states from the dynamics and the slacks from the constraints (x_ocp_qp_kkt.c:2183-2296) -/
def LqPrim : Prop := ∀ q pl c st o, q.dim = E.qp.dim → (∀ k i j, i < q.dim.nu k + q.dim.nx k → st.BAbt k i j = q.BAbt k i j) →
  E.lq q pl c st = some o → PrimStep q q.b q.d o.1.ux o.1.t

theorem factStep_dir (hwf : E.qp.WF) (hN : 1 ≤ E.qp.dim.N) {s s' : Ipm K} (hnc : s.core.nc = stOff (nct E.qp.dim) (E.qp.dim.N + 1))
    (hr : Rows E s) (h : factStep E s = some s') : StepDir E s' := by
  obtain ⟨e1, e2⟩ := qpStep_bd E (factStep_keep E s s' h).res
  unfold factStep at h
  obtain ⟨o, ho, rfl⟩ := Option.map_eq_some_iff.mp h
  unfold StepDir
  rw [e1, e2]
  have hd := qpStep_dim E s
  exact PrimStep.ofStep E hr (factSolve_prim E.sq E.fuel (qpStep E s) (qpStep_wf E hwf s) (by rw [hd]; exact hN) _ _ _ _ s.core
    (by rw [hd]; exact hnc) s.kkt (qpStep_rows E) o ho)

theorem lqStep_dir (hlq : LqPrim E) {s s' : Ipm K} (hr : Rows E s) (h : lqStep E s = some s') : StepDir E s' := by
  obtain ⟨e1, e2⟩ := qpStep_bd E (lqStep_keep E s s' h).res
  unfold lqStep at h
  obtain ⟨o, ho, rfl⟩ := Option.map_eq_some_iff.mp h
  unfold StepDir
  rw [e1, e2]
  exact PrimStep.ofStep E hr (hlq (qpStep E s) _ _ _ o (qpStep_dim E s) (qpStep_rows E) ho)

theorem solveStep_dir (hwf : E.qp.WF) (hN : 1 ≤ E.qp.dim.N) {s : Ipm K} (hnc : s.core.nc = stOff (nct E.qp.dim) (E.qp.dim.N + 1))
    (hr : Rows E s) : StepDir E (solveStep E s) := by
  obtain ⟨e1, e2⟩ := qpStep_bd E (solveStep_keep E s).res
  unfold StepDir
  rw [e1, e2]
  have hd := qpStep_dim E s
  exact PrimStep.ofStep E hr (solve_prim (qpStep E s) (qpStep_wf E hwf s) (by rw [hd]; exact hN) _ _ _ s.core
    (by rw [hd]; exact hnc) s.kkt (qpStep_rows E))

/-! ### iterative refinement -/

/-- the Newton residual held for the refinement has no constraint part -/
structure ItZero (s : Ipm K) : Prop where
  b : ∀ k i, k < E.qp.dim.N → i < E.qp.dim.nx (k + 1) → s.resIt.res_b k i = 0
  d : ∀ k j, k ≤ E.qp.dim.N → j < nct E.qp.dim k → s.resIt.res_d k j = 0

theorem linRes_zero (hwf : E.qp.WF) {s : Ipm K} (hws : s.rws.Ok E.qp) (hr : Rows E s) (h : StepDir E s) : ItZero E (linRes E s).1 := by
  have hd := qpStep_dim E s
  have v := resComputeLin_val (qpStep E s) (qpStep_wf E hwf s) (solOf E.qp.dim s.core) (stepOf s.kkt) s.resIt s.rws (qpStep_ok E s _ hws)
  refine ⟨fun k i hk hi => ?_, fun k j hk hj => ?_⟩
  · have e := (v k (by rw [hd]; omega)).1.b (by rw [hd]; exact hk) i (by rw [hd]; exact hi)
    refine e.trans ?_
    rw [vB_lin, qpStep_linB E hr]
    exact h.dyn k i hk hi
  · have e := (v k (by rw [hd]; omega)).1.d j (by rw [hd]; exact hj)
    refine e.trans ?_
    rw [vD_lin, qpStep_linD, qpStep_mask]
    exact h.con k j hk hj

/-- what the refinement loop keeps -/
structure ItDir (s : Ipm K) : Prop where
  ok : ItOk E s
  rows : Rows E s
  dir : StepDir E s

theorem ItDir.same (hwf : E.qp.WF) {s s' : Ipm K} (h : ItDir E s) (hs : SameLin E s s') (hy : Sync E s') : ItDir E s' :=
  ⟨h.ok.keep E hs.keep hy, h.rows.mk' E hs.mat, h.dir.same E hwf hs⟩

theorem solveItref_hom (hwf : E.qp.WF) (hN : 1 ≤ E.qp.dim.N) {s : Ipm K} (hnc : s.core.nc = stOff (nct E.qp.dim) (E.qp.dim.N + 1))
    (hr : Rows E s) (hz : ItZero E s) : PrimStep E.qp (fun _ _ => 0) (fun _ _ => 0) (solveItref E s).itr.ux (solveItref E s).itr.t := by
  have h := solve_prim (qpItref E s) hwf hN (dualF E) E.sqr false s.core hnc
    { s.kkt with
      ux := s.itr.ux
      pi := s.itr.pi
      lam := s.itr.lam
      t := s.itr.t } (fun _ _ _ _ => rfl)
  refine ⟨fun k i hk hi => ?_, fun k j hk hj => ?_⟩
  · have e := h.dyn k i hk hi
    have e2 : (qpItref E s).b k i = 0 := hz.b k i hk hi
    rw [e2] at e
    have e3 := linB_rows E.qp s.kkt.BAbt s.kkt.RSQrq hr (solveItref E s).itr.ux k i
    refine Eq.trans ?_ e
    rw [← e3]
    rfl
  · have e := h.con k j hk hj
    have e2 : (qpItref E s).d k j = 0 := hz.d k j hk hj
    rw [e2] at e
    exact e

theorem addItref_dir (hwf : E.qp.WF) (a : K) {s : Ipm K} (h : StepDir E s)
    (hh : PrimStep E.qp (fun _ _ => 0) (fun _ _ => 0) s.itr.ux s.itr.t) : StepDir E (addItref E a s) := by
  obtain ⟨a1, -, -, a4⟩ := addItref_val E a s
  obtain ⟨e1, e2⟩ := qpStep_bd E (addItref_keep E a s).res
  unfold StepDir
  rw [e1, e2]
  refine PrimStep.congr hwf (ux := fun k i => s.kkt.ux k i + a * s.itr.ux k i) (t := fun k i => s.kkt.t k i + a * s.itr.t k i) ?_ a1
    (fun k j hk hj => by rw [a4 k j hk hj])
  refine ⟨fun k i hk hi => ?_, fun k j hk hj => ?_⟩
  · rw [linB_add, linB_smul]
    linear_combination h.dyn k i hk hi + a * hh.dyn k i hk hi
  · rw [linD_add, linD_smul]
    linear_combination h.con k j hk hj + a * hh.con k j hk hj

theorem maskStep_itr (s : Ipm K) : (maskStep E s).itr = s.itr := by unfold maskStep; split <;> rfl

theorem tested_dir (hwf : E.qp.WF) (hm : Mask01 E.qp) (hN : 1 ≤ E.qp.dim.N) (kk : ℕ) {s : Ipm K} (h : ItDir E s) (hz : ItZero E s) :
    ItDir E (tested E kk s) ∧ ItZero E (tested E kk s) := by
  have h1 := solveItref_same E s
  have h2 := mask_same E hm (solveItref_sync E h.ok.sync) (h1.keep.core.nc.trans h.ok.nc)
  have hd : StepDir E (maskStep E (solveItref E s)) := h.dir.same E hwf (h1.trans E h2)
  have hd2 : StepDir E (refined E s) := addItref_dir E hwf 1 hd (by rw [maskStep_itr]; exact solveItref_hom E hwf hN h.ok.nc h.rows hz)
  have hm2 : MK E s (refined E s) := (h1.mat.trans h2.mat).trans (addItref_mk E 1 _)
  have hr : Rows E (refined E s) := h.rows.mk' E hm2
  have hk2 : Keep s (refined E s) := (h1.keep.trans h2.keep).trans (addItref_keep E 1 _)
  have ht := tested_same E kk s
  refine ⟨⟨tested_ok E kk h.ok, hr.mk' E ht.mat, hd2.same E hwf ht⟩, ?_⟩
  have hz2 := linRes_zero E hwf (s := refined E s) (by rw [hk2.rws]; exact h.ok.ws) hr hd2
  have e : (tested E kk s).resIt = (linRes E (refined E s)).1.resIt := by unfold tested; rw [putG4_resIt]
  exact ⟨by rw [e]; exact hz2.b, by rw [e]; exact hz2.d⟩

theorem itrefLoop_dir (hwf : E.qp.WF) (hm : Mask01 E.qp) (hN : 1 ≤ E.qp.dim.N) (kk : ℕ) (sh : Bool) :
    ∀ (n cnt : ℕ) (did : Bool) (x : K × K × K × K) (mx : K) (s : Ipm K), ItDir E s → ItZero E s →
      ItDir E (itrefLoop E kk sh n cnt did x mx s).s := by
  intro n
  induction n with
  | zero => intro cnt did x mx s h _; exact h
  | succ n ih =>
    intro cnt did x mx s h hz
    rw [itrefLoop_succ]
    split
    · exact h
    · split
      · exact h.same E hwf (rejected_same E hm kk x h.ok) (sync_putG4 E kk 16 _ (sync_step E _))
      · obtain ⟨h1, h2⟩ := tested_dir E hwf hm hN kk h hz
        exact ih _ _ _ _ _ h1 h2

theorem itref_dir (hwf : E.qp.WF) (hm : Mask01 E.qp) (hN : 1 ≤ E.qp.dim.N) (kk : ℕ) (sh : Bool) (mx : ℤ) {s : Ipm K} (h : ItDir E s) :
    ItDir E (itref E kk sh mx s).s := by
  unfold itref
  dsimp only
  have hs := (linRes_same E s).trans E (putG4_same E kk 16 (by omega) (linRes E s).2 (linRes E s).1)
  refine itrefLoop_dir E hwf hm hN kk sh _ _ _ _ _ _ (h.same E hwf hs (sync_putG4 E kk 16 _ (h.ok.sync.of_eq E rfl rfl rfl rfl rfl rfl rfl rfl))) ?_
  have hz := linRes_zero E hwf h.ok.ws h.rows h.dir
  exact ⟨by rw [putG4_resIt]; exact hz.b, by rw [putG4_resIt]; exact hz.d⟩

/-! ### one iteration of the relative formulation -/

theorem ItDir.put {s : Ipm K} (hwf : E.qp.WF) (kk col : ℕ) (hc : col < 21) (x : K) (h : ItDir E s) : ItDir E (putG E kk col x s) :=
  h.same E hwf (putG_same E kk col hc x s) (sync_putG E kk col x h.ok.sync)

theorem ItDir.put4 {s : Ipm K} (hwf : E.qp.WF) (kk col : ℕ) (hc : col + 3 < 21) (x : K × K × K × K) (h : ItDir E s) : ItDir E (putG4 E kk col x s) :=
  h.same E hwf (putG4_same E kk col hc x s) (sync_putG4 E kk col x h.ok.sync)

theorem ItDir.alpha {s : Ipm K} (hwf : E.qp.WF) (kk col : ℕ) (hc : col + 1 < 21) (h : ItDir E s) : ItDir E (alphaStep E kk col s) :=
  h.same E hwf (alphaStep_same E kk col hc s) (sync_alpha E kk col h.ok.sync)

theorem ItDir.mask {s : Ipm K} (hwf : E.qp.WF) (hm : Mask01 E.qp) (h : ItDir E s) : ItDir E (maskStep E s) :=
  h.same E hwf (mask_same E hm h.ok.sync h.ok.nc) (sync_mask E h.ok.sync)

/-- what the search direction computations need -/
structure Pre (s : Ipm K) : Prop where
  nc : s.core.nc = stOff (nct E.qp.dim) (E.qp.dim.N + 1)
  ws : s.rws.Ok E.qp
  rows : Rows E s

theorem Pre.keep {s s' : Ipm K} (h : Pre E s) (hk : Keep s s') (hm : MK E s s') : Pre E s' :=
  ⟨hk.core.nc.trans h.nc, by rw [hk.rws]; exact h.ws, h.rows.mk' E hm⟩

theorem ItDir.pre {s : Ipm K} (h : ItDir E s) : Pre E s := ⟨h.ok.nc, h.ok.ws, h.rows⟩

theorem factStep_it (hwf : E.qp.WF) (hN : 1 ≤ E.qp.dim.N) {s s' : Ipm K} (hp : Pre E s) (h : factStep E s = some s') : ItDir E s' :=
  have hp' := hp.keep E (factStep_keep E s s' h) (factStep_mk E s s' h)
  ⟨⟨factStep_sync E h, hp'.nc, hp'.ws⟩, hp'.rows, factStep_dir E hwf hN hp.nc hp.rows h⟩

theorem lqStep_it (hE : E.Keeps) (hlq : LqPrim E) {s s' : Ipm K} (hp : Pre E s) (h : lqStep E s = some s') : ItDir E s' :=
  have hp' := hp.keep E (lqStep_keep E s s' h) (lqStep_mk E hE s s' h)
  ⟨⟨lqStep_sync E h, hp'.nc, hp'.ws⟩, hp'.rows, lqStep_dir E hlq hp.rows h⟩

theorem solveStep_it (hwf : E.qp.WF) (hN : 1 ≤ E.qp.dim.N) {s : Ipm K} (hp : Pre E s) : ItDir E (solveStep E s) :=
  have hp' := hp.keep E (solveStep_keep E s) (solveStep_mk E s)
  ⟨⟨sync_step E _, hp'.nc, hp'.ws⟩, hp'.rows, solveStep_dir E hwf hN hp.nc hp.rows⟩

theorem factPhase_it (hwf : E.qp.WF) (hm : Mask01 E.qp) (hN : 1 ≤ E.qp.dim.N) (hE : E.Keeps) (hlq : E.lqf = 0 ∨ LqPrim E) {kk : ℕ} {s s' : Ipm K}
    (hp : Pre E s) (h : factPhase E kk s = some s') : ItDir E s' := by
  unfold factPhase at h
  split at h
  · obtain ⟨o, ho, rfl⟩ := Option.map_eq_some_iff.mp h
    exact ((factStep_it E hwf hN hp ho).mask E hwf hm).put E hwf _ _ (by omega) _
  · rename_i h0
    have hlq := hlq.resolve_left h0
    split at h
    · obtain ⟨o, ho, h⟩ := Option.bind_eq_some_iff.mp h
      have h1 := (factStep_it E hwf hN hp ho).mask E hwf hm
      have h2 : ItDir E (linRes E (maskStep E o)).1 := h1.same E hwf (linRes_same E _) (h1.ok.sync.of_eq E rfl rfl rfl rfl rfl rfl rfl rfl)
      have h3 := h2.put E hwf kk 13 (by omega) (if (linRes E (maskStep E o)).1.lastLq then 1 else 0)
      dsimp only at h
      split at h
      · obtain ⟨o', ho', rfl⟩ := Option.map_eq_some_iff.mp h
        exact ((lqStep_it E hE hlq h3.pre ho').mask E hwf hm).put E hwf _ _ (by omega) _
      · obtain rfl := Option.some.inj h
        exact h3
    · obtain ⟨o, ho, rfl⟩ := Option.map_eq_some_iff.mp h
      exact ((lqStep_it E hE hlq hp ho).mask E hwf hm).put E hwf _ _ (by omega) _

/-- the step length belongs to the step -/
def AlphaFor (s : Ipm K) : Prop := ∃ c : Core K, c.nc = s.core.nc ∧ c.t = s.core.t ∧ c.lam = s.core.lam ∧ c.dt = s.core.dt ∧ c.dlam = s.core.dlam ∧
  c.m_zero = s.core.m_zero ∧ c.split_step = s.core.split_step ∧ s.core.alpha_prim = (computeAlpha E.sq c).alpha_prim ∧
  s.core.alpha_dual = (computeAlpha E.sq c).alpha_dual

theorem alphaFor_step (kk col : ℕ) (s : Ipm K) : AlphaFor E (alphaStep E kk col s) := by
  obtain ⟨-, h1, h2, h3, h4⟩ := computeAlpha_frame E.sq s.core
  have hk := computeAlpha_keep E.sq s.core
  refine ⟨s.core, ?_, ?_, ?_, ?_, ?_, ?_, ?_, ?_, ?_⟩ <;> simp only [alphaStep, putG_core]
  exacts [hk.nc.symm, hk.t.symm, hk.lam.symm, h4.symm, h3.symm, hk.m_zero.symm, hk.split_step.symm]

theorem AlphaFor.core {s s' : Ipm K} (h : AlphaFor E s) (e : s'.core = s.core) : AlphaFor E s' := by
  unfold AlphaFor; rw [e]; exact h

theorem AlphaFor.muAff {s : Ipm K} (h : AlphaFor E s) : AlphaFor E { s with core := computeMuAff s.core } := h

/-- what is known when the iterate is updated -/
structure PassEnd (s : Ipm K) : Prop where
  dir : ItDir E s
  al : AlphaFor E s

theorem predPhase_it (hwf : E.qp.WF) (hm : Mask01 E.qp) (hN : 1 ≤ E.qp.dim.N) (kk : ℕ) {s : Ipm K} (h : ItDir E s) : PassEnd E (predPhase E kk s) := by
  unfold predPhase
  extract_lets o
  refine ⟨((ItDir.put E hwf kk 14 (by omega) _ ?_).put E hwf kk 20 (by omega) _).alpha E hwf kk 0 (by omega), alphaFor_step E _ _ _⟩
  show ItDir E o.s
  by_cases h0 : E.arg.i .itref_pred_max = 0
  · simp only [o, if_pos h0]; exact h.put4 E hwf kk 16 (by omega) _
  · simp only [o, if_neg h0]; exact itref_dir E hwf hm hN kk true _ h

theorem corrPhase_it (hwf : E.qp.WF) (hm : Mask01 E.qp) (hN : 1 ≤ E.qp.dim.N) (kk : ℕ) {s : Ipm K} (h : Pre E s) : PassEnd E (corrPhase E kk s) := by
  unfold corrPhase
  extract_lets s1 s2 s3 m0 s4 s5
  have p1 : Pre E s1 := h.keep E (sigmaStep_keep E kk s) (sigmaStep_mk E kk s)
  have p2 : Pre E s2 := p1.keep E ((Keep.ofCore (computeCenteringCorrection_keep s1.core)).trans (maskResM_keep E _))
    (maskResM_mk E { s1 with core := computeCenteringCorrection s1.core })
  have d3 : ItDir E s3 := ((solveStep_it E hwf hN p2).mask E hwf hm).alpha E hwf kk 4 (by omega)
  have a3 : AlphaFor E s3 := alphaFor_step E kk 4 _
  split
  · have d4 : ItDir E s4 := ⟨⟨d3.ok.sync.of_eq E rfl rfl rfl rfl rfl rfl rfl rfl, d3.ok.nc, d3.ok.ws⟩, d3.rows, d3.dir⟩
    split
    · refine ⟨((solveStep_it E hwf hN ?_).mask E hwf hm).alpha E hwf kk 4 (by omega), alphaFor_step E kk 4 _⟩
      exact d4.pre.keep E ((Keep.ofCore (computeCentering_keep s4.core)).trans (maskResM_keep E _))
        (maskResM_mk E { s4 with core := computeCentering s4.core })
    · exact ⟨d4, a3.muAff E⟩
  · exact ⟨d3, a3⟩

theorem itrefLoop_did (kk : ℕ) (sh : Bool) : ∀ (n cnt : ℕ) (did : Bool) (x : K × K × K × K) (mx : K) (s : Ipm K),
    (itrefLoop E kk sh n cnt did x mx s).did = false → did = false ∧ (itrefLoop E kk sh n cnt did x mx s).s = s := by
  intro n
  induction n with
  | zero => intro cnt did x mx s h; exact ⟨h, rfl⟩
  | succ n ih =>
    intro cnt did x mx s
    rw [itrefLoop_succ]
    split
    · intro h; exact ⟨h, rfl⟩
    · split
      · intro h; cases h
      · intro h; exact absurd (ih _ _ _ _ _ h).1 (by decide)

theorem corrItref_it (hwf : E.qp.WF) (hm : Mask01 E.qp) (hN : 1 ≤ E.qp.dim.N) (kk : ℕ) {s : Ipm K} (h : PassEnd E s) :
    PassEnd E (corrItref E kk s).s := by
  unfold corrItref
  split
  · extract_lets o
    have hd : ItDir E o.s := itref_dir E hwf hm hN kk false _ h.dir
    split
    · exact ⟨hd.alpha E hwf kk 4 (by omega), alphaFor_step E kk 4 _⟩
    · rename_i hn
      refine ⟨hd, h.al.core E ?_⟩
      have hn : o.did = false := by simpa using hn
      have e : o.s = putG4 E kk 16 (linRes E s).2 (linRes E s).1 := (itrefLoop_did E kk false _ _ _ _ _ _ hn).2
      rw [e, putG4_core]; rfl
  · exact h

theorem deltaStep_end (hwf : E.qp.WF) (hm : Mask01 E.qp) (hN : 1 ≤ E.qp.dim.N) (hE : E.Keeps) (hlq : E.lqf = 0 ∨ LqPrim E) (kk : ℕ) {s s' : Ipm K}
    (hp : Pre E s) (h : deltaStep E kk s = some s') : ∃ s1, Keep s s1 ∧ s' = updStep E s1 ∧ PassEnd E s1 := by
  unfold deltaStep at h
  obtain ⟨s0, h0, rfl⟩ := Option.map_eq_some_iff.mp h
  have k0 := (affineRhs_keep E s).trans (factPhase_keep E kk _ _ h0)
  have d0 : ItDir E s0 := factPhase_it E hwf hm hN hE hlq (hp.keep E (affineRhs_keep E s) (affineRhs_mk E s)) h0
  have e1 : PassEnd E (predPhase E kk s0) := predPhase_it E hwf hm hN kk d0
  have k1 := k0.trans (predPhase_keep E kk s0)
  dsimp only
  set o : ItOut K := if E.arg.i .pred_corr = 1 then corrItref E kk (corrPhase E kk (predPhase E kk s0)) else ⟨predPhase E kk s0, 0, false⟩ with ho
  have ke : Keep s o.s ∧ PassEnd E o.s := by
    rw [ho]
    split
    · exact ⟨(k1.trans (corrPhase_keep E kk _)).trans (corrItref_keep E kk _), corrItref_it E hwf hm hN kk (corrPhase_it E hwf hm hN kk e1.dir.pre)⟩
    · exact ⟨k1, e1⟩
  obtain ⟨k2, e2⟩ := ke
  refine ⟨_, ?_, rfl, ?_⟩
  · refine Keep.trans ?_ (putG_keep E _ _ (by omega) _ _)
    split
    · exact k2.trans (putG4_keep E _ _ (by omega) _ _)
    · exact k2
  · split
    · exact ⟨(e2.dir.put4 E hwf kk 16 (by omega) _).put E hwf kk 15 (by omega) _, e2.al.core E (by rw [putG_core, putG4_core])⟩
    · exact ⟨e2.dir.put E hwf kk 15 (by omega) _, e2.al.core E (by rw [putG_core])⟩

end
end Hpipm
