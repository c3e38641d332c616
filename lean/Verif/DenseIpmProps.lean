/-
C73: the dense solver as a whole.  Number of iterations and termination, statistics inside their table, and what a reported
success means for the caller's problem.
-/
import Verif.DenseIpmFrame
import Verif.DenseResProps
import Verif.IpmProps

namespace Hpipm
open Finset
set_option linter.unusedSectionVars false

section
variable {K : Type*} [Field K] [LinearOrder K] [IsStrictOrderedRing K] (E : DEnv K)

theorem dputG_oob (kk col : ℕ) (hc : col < 21) (x : K) (s : DIpm K) : (dputG E kk col x s).oob = s.oob :=
  (dputG_keep E kk col hc x s).oob

theorem dputG4_oob (kk col : ℕ) (hc : col + 3 < 21) (x : K × K × K × K) (s : DIpm K) : (dputG4 E kk col x s).oob = s.oob :=
  (dputG4_keep E kk col hc x s).oob

theorem dmaskLam_oob (s : DIpm K) : (dmaskLam E s).oob = s.oob := by unfold dmaskLam; split <;> rfl

theorem dmaskResM_oob (s : DIpm K) : (dmaskResM E s).oob = s.oob := by unfold dmaskResM; split <;> rfl

theorem dupdStep_oob (s : DIpm K) : (dupdStep E s).oob = s.oob := dmaskLam_oob E _

theorem drelBody_oob (kk : ℕ) (s s' : DIpm K) (h : drelBody E kk s = some s') : s'.oob = s.oob := by
  unfold drelBody at h
  obtain ⟨s0, h0, rfl⟩ := Option.map_eq_some_iff.mp h
  obtain ⟨s1, hk, rfl⟩ := ddeltaStep_upd E kk s s0 h0
  simp only [dputG_oob E kk 12 (by omega), dputG_oob E kk 11 (by omega), dputG_oob E kk 6 (by omega), dputG4_oob E kk 7 (by omega)]
  show (dupdStep E s1).oob = s.oob
  rw [dupdStep_oob, hk.oob]

theorem dabsMu_oob (s : DIpm K) : (dabsMu E s).oob = s.oob := dmaskResM_oob E _

theorem dabsBody_oob (kk : ℕ) (s s' : DIpm K) (h : dabsBody E kk s = some s') : s'.oob = s.oob := by
  unfold dabsBody at h
  obtain ⟨s0, h0, rfl⟩ := Option.map_eq_some_iff.mp h
  obtain ⟨s1, hk, rfl⟩ := dabsStep_upd E kk s s0 h0
  simp only [dputG_oob E kk 6 (by omega)]
  rw [dabsMu_oob, dupdStep_oob, hk.oob]

theorem dputRes_oob (row : ℕ) (h : (row : ℤ) < E.statMax) (s : DIpm K) : (dputRes E row s).oob = s.oob := by
  unfold dputRes
  rw [dput_oob E _ _ _ (show ((21 * row + 12 : ℕ) : ℤ) < 21 * (1 + E.statMax) by push_cast; omega),
    dput_oob E _ _ _ (show ((21 * row + 11 : ℕ) : ℤ) < 21 * (1 + E.statMax) by push_cast; omega),
    dput_oob E _ _ _ (show ((21 * row + 10 : ℕ) : ℤ) < 21 * (1 + E.statMax) by push_cast; omega),
    dput_oob E _ _ _ (show ((21 * row + 9 : ℕ) : ℤ) < 21 * (1 + E.statMax) by push_cast; omega),
    dput_oob E _ _ _ (show ((21 * row + 8 : ℕ) : ℤ) < 21 * (1 + E.statMax) by push_cast; omega),
    dput_oob E _ _ _ (show ((21 * row + 7 : ℕ) : ℤ) < 21 * (1 + E.statMax) by push_cast; omega)]

theorem drelStart_oob (s : DIpm K) : (drelStart E s).oob = s.oob := by
  unfold drelStart
  extract_lets s1 s2
  split
  · rename_i h
    rw [dputRes_oob E 0 (by simpa using h)]
    rfl
  · rfl

theorem dabsEnd_oob (kk : ℕ) (s : DIpm K) : (dabsEnd E kk s).oob = s.oob := by
  unfold dabsEnd
  split
  · extract_lets s1
    split
    · rename_i h
      rw [dputRes_oob E kk h]
      rfl
    · rfl
  · rfl

theorem dsolveUnc_oob (s : DIpm K) : (dsolveUnc E s).s.oob = s.oob := by
  unfold dsolveUnc
  simp only
  split
  · split
    · rename_i h
      simp only [dput_oob E _ _ _ (show ((10 : ℕ) : ℤ) < 21 * (1 + E.statMax) by push_cast; omega),
        dput_oob E _ _ _ (show ((9 : ℕ) : ℤ) < 21 * (1 + E.statMax) by push_cast; omega),
        dput_oob E _ _ _ (show ((8 : ℕ) : ℤ) < 21 * (1 + E.statMax) by push_cast; omega),
        dput_oob E _ _ _ (show ((7 : ℕ) : ℤ) < 21 * (1 + E.statMax) by push_cast; omega),
        dput_oob E _ _ _ (show ((6 : ℕ) : ℤ) < 21 * (1 + E.statMax) by push_cast; omega)]
      rfl
    · rfl
  · rfl

theorem depilogue_oob (r : ℕ × DIpm K) : (depilogue E r).s.oob = r.2.oob := by
  unfold depilogue
  simp only
  split <;> rfl

theorem dipmInit_oob (s : DIpm K) : (dipmInit E s).oob = s.oob := by
  unfold dipmInit
  exact dmaskLam_oob E _

theorem dobjStep_oob (o : DSolveOut K) : (dobjStep E o).s.oob = o.s.oob := by unfold dobjStep; split <;> rfl
theorem dobjStep_iter (o : DSolveOut K) : (dobjStep E o).iter = o.iter := by unfold dobjStep; split <;> rfl
theorem dobjStep_status (o : DSolveOut K) : (dobjStep E o).status = o.status := by unfold dobjStep; split <;> rfl
theorem dobjStep_core (o : DSolveOut K) : (dobjStep E o).s.core = o.s.core := by unfold dobjStep; split <;> rfl
theorem dobjStep_res (o : DSolveOut K) : (dobjStep E o).s.res = o.s.res ∧ (dobjStep E o).s.rmax = o.s.rmax := by
  unfold dobjStep; split <;> exact ⟨rfl, rfl⟩

/-! ### iterations, statistics -/

/-- **C73** The number of iterations reported by the dense solver is at most `iter_max` (zero for a negative limit). -/
theorem dipm_iter_le (lf : ℕ) (sol : DqSol K) (s : DIpm K) (o : DSolveOut K) (h : dipmSolve E lf sol s = some o) :
    (o.iter : ℤ) ≤ max (E.arg.i .iter_max) 0 := by
  unfold dipmSolve at h
  simp only at h
  obtain ⟨o', ho, rfl⟩ := Option.map_eq_some_iff.mp h
  clear h; rename' ho => h
  rw [dobjStep_iter]
  split at h
  · cases h; exact le_max_right _ _
  · split at h
    · obtain ⟨r, hr, rfl⟩ := Option.map_eq_some_iff.mp h
      exact ipmLoop_iter_le _ _ _ _ _ _ hr
    · obtain ⟨r, hr, rfl⟩ := Option.map_eq_some_iff.mp h
      exact ipmLoop_iter_le _ _ _ _ _ _ hr

/-- **C73** The dense solver returns: the loop is left after at most `iter_max` passes, as long as each pass returns. -/
theorem dipm_terminates (sol : DqSol K) (s : DIpm K) (lf : ℕ) (hlf : E.arg.i .iter_max ≤ lf)
    (hf : ∀ kk s', ∃ s'', ddeltaStep E kk s' = some s'') (ha : ∀ kk s', ∃ s'', dabsStep E kk s' = some s'') :
    ∃ o, dipmSolve E lf sol s = some o := by
  unfold dipmSolve
  simp only
  split
  · exact ⟨_, rfl⟩
  · split
    · obtain ⟨r, hr, -⟩ := ipmLoop_terminates (fun s => contAbs E.arg.toIpmArg (dobs E s)) (dabsBody E) (E.arg.i .iter_max) (fun _ => True)
        (fun kk s' _ _ _ => by
          obtain ⟨s'', e⟩ := ha kk s'
          exact ⟨_, by unfold dabsBody; rw [e]; rfl, trivial⟩) lf 0
        (dabsMu E (dipmInit E (dprologue E sol s))) trivial (by push_cast; omega)
      rw [hr]; exact ⟨_, rfl⟩
    · obtain ⟨r, hr, -⟩ := ipmLoop_terminates (fun s => contRel E.arg.toIpmArg (dobs E s)) (drelBody E) (E.arg.i .iter_max) (fun _ => True)
        (fun kk s' _ _ _ => by
          obtain ⟨s'', e⟩ := hf kk s'
          exact ⟨_, by unfold drelBody; rw [e]; rfl, trivial⟩) lf 0
        (drelStart E (dipmInit E (dprologue E sol s))) trivial (by push_cast; omega)
      rw [hr]; exact ⟨_, rfl⟩

/-- **C73** No write of the dense solver to the statistics leaves the table, whatever the iteration limit, the size of the
table and the formulation. -/
theorem dipm_stat_inside (lf : ℕ) (sol : DqSol K) (s : DIpm K) (hs : s.oob = false) (o : DSolveOut K)
    (h : dipmSolve E lf sol s = some o) : o.s.oob = false := by
  unfold dipmSolve at h
  simp only at h
  have hp : (dprologue E sol s).oob = false := hs
  obtain ⟨o', ho, rfl⟩ := Option.map_eq_some_iff.mp h
  clear h; rename' ho => h
  rw [dobjStep_oob]
  split at h
  · cases h
    rw [dsolveUnc_oob]; exact hp
  · split at h
    · obtain ⟨r, hr, rfl⟩ := Option.map_eq_some_iff.mp h
      rw [depilogue_oob, dabsEnd_oob]
      refine ipmLoop_inv _ _ _ (fun x => x.oob = false) (fun kk a b ha hb => (dabsBody_oob E kk a b hb).trans ha) lf _ r ?_ hr
      rw [dabsMu_oob, dipmInit_oob]; exact hp
    · obtain ⟨r, hr, rfl⟩ := Option.map_eq_some_iff.mp h
      rw [depilogue_oob]
      refine ipmLoop_inv _ _ _ (fun x => x.oob = false) (fun kk a b ha hb => (drelBody_oob E kk a b hb).trans ha) lf _ r ?_ hr
      rw [drelStart_oob, dipmInit_oob]; exact hp

/-! ### residuals in force at the exit -/

/-- the residual object belongs to the current iterate -/
structure DFresh (s : DIpm K) : Prop where
  res : ∃ r0, s.res = dresCompute (dqpNow E s) (dsolOf s.core) r0 s.rws
  rmax : s.rmax = dresInfNorm E.qp.dim s.res
  rm : s.core.res_m = s.res.res_m
  mask : s.rws.mask_constr = s.mask

theorem dresStep_fresh (s : DIpm K) (h : s.rws.mask_constr = s.mask) : DFresh E (dresStep E s) :=
  ⟨⟨s.res, rfl⟩, rfl, rfl, h⟩

/-- a change of `mu` -/
theorem DFresh.mu {s : DIpm K} (h : DFresh E s) (x : K) : DFresh E { s with core := { s.core with mu := x } } :=
  ⟨h.res, h.rmax, h.rm, h.mask⟩

theorem DFresh.dput {s : DIpm K} (h : DFresh E s) (i : ℕ) (x : K) : DFresh E (dput E i x s) := ⟨h.res, h.rmax, h.rm, h.mask⟩

theorem DFresh.dputG {s : DIpm K} (h : DFresh E s) (kk col : ℕ) (x : K) : DFresh E (dputG E kk col x s) := by
  unfold Hpipm.dputG
  split
  · exact h.dput E _ _
  · exact h

theorem DFresh.dputG4 {s : DIpm K} (h : DFresh E s) (kk col : ℕ) (x : K × K × K × K) : DFresh E (dputG4 E kk col x s) := by
  unfold Hpipm.dputG4
  exact (((h.dputG E _ _ _).dputG E _ _ _).dputG E _ _ _).dputG E _ _ _

theorem DFresh.dputRes {s : DIpm K} (h : DFresh E s) (row : ℕ) : DFresh E (dputRes E row s) := by
  unfold Hpipm.dputRes
  exact (((((h.dput E _ _).dput E _ _).dput E _ _).dput E _ _).dput E _ _).dput E _ _

theorem dupdStep_rws (s : DIpm K) : (dupdStep E s).rws = s.rws ∧ (dupdStep E s).mask = s.mask ∧ (dupdStep E s).Hv = s.Hv := by
  unfold dupdStep dmaskLam; split <;> exact ⟨rfl, rfl, rfl⟩

theorem drelBody_fresh (kk : ℕ) (s s' : DIpm K) (hf : s.rws.mask_constr = s.mask) (h : drelBody E kk s = some s') : DFresh E s' := by
  unfold drelBody at h
  obtain ⟨s0, h0, rfl⟩ := Option.map_eq_some_iff.mp h
  obtain ⟨s1, hk, rfl⟩ := ddeltaStep_upd E kk s s0 h0
  have hm : (dupdStep E s1).rws.mask_constr = (dupdStep E s1).mask := by
    obtain ⟨e1, e2, -⟩ := dupdStep_rws E s1
    rw [e1, e2, hk.rws, hk.mask, hf]
  exact (((((dresStep_fresh E _ hm).mu E _).dputG E _ _ _).dputG4 E _ _ _).dputG E _ _ _).dputG E _ _ _

theorem drelStart_fresh (s : DIpm K) (hf : s.rws.mask_constr = s.mask) : DFresh E (drelStart E s) := by
  unfold drelStart
  extract_lets s1 c2 s2
  have h2 : DFresh E s2 := (dresStep_fresh E s hf).mu E _
  split
  · exact h2.dputRes E 0
  · exact h2

theorem dmaskLam_rest (s : DIpm K) : (dmaskLam E s).rws = s.rws ∧ (dmaskLam E s).mask = s.mask ∧ (dmaskLam E s).Hv = s.Hv := by
  unfold dmaskLam; split <;> exact ⟨rfl, rfl, rfl⟩

theorem dipmInit_rws (s : DIpm K) : (dipmInit E s).rws = s.rws ∧ (dipmInit E s).mask = s.mask ∧ (dipmInit E s).Hv = s.Hv := by
  unfold dipmInit
  exact dmaskLam_rest E _

theorem dseen_obs (s s' : DIpm K) (h : seen s'.core = seen s.core) (h1 : s'.res = s.res) (h2 : s'.rmax = s.rmax) :
    dobs E s' = dobs E s ∧ dsolOf s'.core = dsolOf s.core := by
  simp only [seen, Prod.mk.injEq] at h
  obtain ⟨a1, a2, a3, a4, a5, a6, a7, a8, a9⟩ := h
  unfold dobs dresMTau dsolOf
  simp only [a1, a2, a3, a4, a5, a6, a7, a8, a9, h1, h2, and_self]

/-- the factorisation at exit does not touch the iterate or the residuals -/
theorem depilogue_obs (r : ℕ × DIpm K) : dsolOf (depilogue E r).s.core = dsolOf r.2.core ∧
    (depilogue E r).s.res = r.2.res ∧ (depilogue E r).s.rmax = r.2.rmax ∧
    (depilogue E r).status = statusOf E.arg.toIpmArg r.1 (dobs E r.2) ∧ (depilogue E r).s.Hv = r.2.Hv := by
  unfold depilogue
  simp only
  split
  · have hs : seen (backupVar (computeGGamma r.2.core)) = seen r.2.core := by rw [backupVar_seen, computeGGamma_seen]
    obtain ⟨h1, h2⟩ := dseen_obs E r.2 { r.2 with
      core := backupVar (computeGGamma r.2.core)
      kkt := E.factOnly (dqpNow E r.2) (computeGGamma r.2.core) r.2.kkt
      rws := { r.2.rws with valid_nc_mask := false } } hs rfl rfl
    exact ⟨h2, rfl, rfl, by rw [h1], rfl⟩
  · obtain ⟨h1, h2⟩ := dseen_obs E r.2 { r.2 with
      rws := { r.2.rws with valid_nc_mask := false } } rfl rfl rfl
    exact ⟨h2, rfl, rfl, by rw [h1], rfl⟩

theorem dmaskLam_pars (s : DIpm K) : pars (dmaskLam E s).core = pars s.core := by unfold dmaskLam; split <;> rfl

theorem dupdStep_pars (s : DIpm K) : pars (dupdStep E s).core = pars s.core := by
  unfold dupdStep
  rw [dmaskLam_pars]; exact updateVar_pars _

theorem dputG_Hv (kk col : ℕ) (x : K) (s : DIpm K) : (dputG E kk col x s).Hv = s.Hv := by
  unfold dputG; split <;> rfl
theorem dputG4_mask (kk col : ℕ) (x : K × K × K × K) (s : DIpm K) : (dputG4 E kk col x s).mask = s.mask := by
  unfold dputG4; simp only [dputG_mask]
theorem dputG4_Hv (kk col : ℕ) (x : K × K × K × K) (s : DIpm K) : (dputG4 E kk col x s).Hv = s.Hv := by
  unfold dputG4; simp only [dputG_Hv]

/-- what the loops never change: sizes, parameters, the mask flag and the Hessian -/
structure DStay (s s' : DIpm K) : Prop where
  pars : pars s'.core = pars s.core
  mask : s'.mask = s.mask
  Hv : s'.Hv = s.Hv

theorem DStay.trans {a b c : DIpm K} (h : DStay a b) (h' : DStay b c) : DStay a c :=
  ⟨h'.pars.trans h.pars, h'.mask.trans h.mask, h'.Hv.trans h.Hv⟩

theorem DStay.nc {a b : DIpm K} (h : DStay a b) : b.core.nc = a.core.nc := by
  have := h.pars
  simp only [Hpipm.pars, Prod.mk.injEq] at this
  exact this.2.2.1

theorem drelBody_same (kk : ℕ) (s s' : DIpm K) (h : drelBody E kk s = some s') : DStay s s' := by
  unfold drelBody at h
  obtain ⟨s0, h0, rfl⟩ := Option.map_eq_some_iff.mp h
  obtain ⟨s1, hk, rfl⟩ := ddeltaStep_upd E kk s s0 h0
  obtain ⟨-, e2, e3⟩ := dupdStep_rws E s1
  refine ⟨?_, ?_, ?_⟩
  · simp only [dputG_core, dputG4_core]
    show pars (dupdStep E s1).core = _
    rw [dupdStep_pars, hk.core.pars]
  · simp only [dputG_mask, dputG4_mask]
    show (dupdStep E s1).mask = _
    rw [e2, hk.mask]
  · simp only [dputG_Hv, dputG4_Hv]
    show (dupdStep E s1).Hv = _
    rw [e3, hk.Hv]

theorem dabsMu_same (s : DIpm K) : DStay s (dabsMu E s) := by
  unfold dabsMu dmaskResM
  dsimp only
  split <;> exact ⟨rfl, rfl, rfl⟩

theorem dabsBody_same (kk : ℕ) (s s' : DIpm K) (h : dabsBody E kk s = some s') : DStay s s' := by
  unfold dabsBody at h
  obtain ⟨s0, h0, rfl⟩ := Option.map_eq_some_iff.mp h
  obtain ⟨s1, hk, rfl⟩ := dabsStep_upd E kk s s0 h0
  obtain ⟨-, e2, e3⟩ := dupdStep_rws E s1
  have h1 : DStay s (dupdStep E s1) := ⟨by rw [dupdStep_pars, hk.core.pars], by rw [e2, hk.mask], by rw [e3, hk.Hv]⟩
  refine (h1.trans (dabsMu_same E _)).trans ⟨?_, ?_, ?_⟩
  · rw [dputG_core]
  · rw [dputG_mask]
  · rw [dputG_Hv]

theorem drelStart_same (s : DIpm K) : DStay s (drelStart E s) := by
  unfold drelStart
  extract_lets s1 c2 s2
  split <;> exact ⟨rfl, rfl, rfl⟩

theorem dipmInit_nc (s : DIpm K) : (dipmInit E s).core.nc = s.core.nc := by
  unfold dipmInit dmaskLam
  simp only
  split <;> rfl

/-- with all masks counted, the flag `mask_constr` is set or every constraint is present -/
theorem dncMask_ok (qp : DenseQp K) (hm : DMask01 qp) (nc : ℕ) (hnc : nc = qp.dim.nct) :
    decide (dncMask qp nc < nc) = true ∨ ∀ j, j < qp.dim.nct → qp.d_mask j = 1 := by
  have key : ∀ n, dncMask qp n ≤ n ∧ (dncMask qp n = n → ∀ i, i < n → qp.d_mask i ≠ 0) := by
    intro n
    refine loop_inv (S := ℕ) (fun n x => x ≤ n ∧ (x = n → ∀ i, i < n → qp.d_mask i ≠ 0)) n _ 0 ⟨le_refl _, fun _ i hi => by omega⟩ ?_
    intro i x _ ⟨h1, h2⟩
    by_cases hx : qp.d_mask i ≠ 0
    · simp only [if_pos hx]
      refine ⟨by omega, fun e j hj => ?_⟩
      by_cases hji : j = i
      · rw [hji]; exact hx
      · exact h2 (by omega) j (by omega)
    · simp only [if_neg hx]
      exact ⟨by omega, fun e => by omega⟩
  by_cases hl : dncMask qp nc < nc
  · left; rw [decide_eq_true_eq]; exact hl
  · right
    intro j hj
    obtain ⟨h1, h2⟩ := key nc
    have h3 := h2 (by omega) j (by omega)
    rcases hm j hj with h | h
    · exact absurd h h3
    · exact h

/-- two residual objects agree on all entries that belong to the problem -/
structure DSameRes (D : DDim) (r r' : DRes K) : Prop where
  g : ∀ i, i < D.nv + 2 * D.ns → r'.res_g i = r.res_g i
  b : ∀ i, i < D.ne → r'.res_b i = r.res_b i
  d : ∀ i, i < D.nct → r'.res_d i = r.res_d i
  m : ∀ i, i < D.nct → r'.res_m i = r.res_m i
  obj : r'.obj = r.obj
  gap : r'.dual_gap = r.dual_gap

/-- the residual does not depend on the residual object and the workspace it is computed in -/
theorem dres_any (q : DenseQp K) (hwf : q.WF) (sol : DqSol K) (r0 r1 : DRes K) (w0 w1 : ResWs K) (h0 : DWsOk w0 q) (h1 : DWsOk w1 q) :
    DSameRes q.dim (dresCompute q sol r0 w0) (dresCompute q sol r1 w1) := by
  have a := dresCompute_val q hwf sol r0 w0 h0
  have b := dresCompute_val q hwf sol r1 w1 h1
  exact ⟨fun i hi => by rw [a.g i hi, b.g i hi], fun i hi => by rw [a.b i hi, b.b i hi], fun i hi => by rw [a.d i hi, b.d i hi],
    fun i hi => by rw [a.m i hi, b.m i hi], by rw [a.obj, b.obj], by rw [a.gap, b.gap]⟩

/-- **C73** What success of the relative formulation means, in terms of the residual routine: run on the caller's QP and the
returned solution, with any residual object and workspace, stationarity, equality and inequality residuals are within their
tolerances, complementarity is within its tolerance of `tau_min` (of zero for masked constraints), the duality gap is at most
its tolerance, and fewer than `iter_max` iterations were made. -/
theorem dipm_success (hwf : E.qp.WF) (hm : DMask01 E.qp) (lf : ℕ) (sol : DqSol K) (s : DIpm K) (o : DSolveOut K)
    (hnc : s.core.nc = E.qp.dim.nct) (hc : dncMask E.qp s.core.nc ≠ 0)
    (ha : E.arg.i .abs_form = 0) (hit : 0 ≤ E.arg.i .iter_max)
    (h : dipmSolve E lf sol s = some o) (hs : o.status = .SUCCESS) (res0 : DRes K) (ws0 : ResWs K) (hws0 : DWsOk ws0 E.qp) :
    let D := E.qp.dim
    let r := dresCompute E.qp (dsolOf o.s.core) res0 ws0
    (∀ i, i < D.nv + 2 * D.ns → |r.res_g i| ≤ E.arg.r .res_g_max) ∧
    (∀ i, i < D.ne → |r.res_b i| ≤ E.arg.r .res_b_max) ∧
    (∀ i, i < D.nct → |r.res_d i| ≤ E.arg.r .res_d_max) ∧
    (∀ i, i < D.nct → |r.res_m i - E.arg.r .tau_min * E.qp.d_mask i| ≤ E.arg.r .res_m_max) ∧
    r.dual_gap ≤ E.arg.r .dual_gap_max ∧ (o.iter : ℤ) < E.arg.i .iter_max := by
  intro D r
  unfold dipmSolve at h
  simp only at h
  obtain ⟨o', ho, rfl⟩ := Option.map_eq_some_iff.mp h
  clear h; rename' ho => h
  rw [dobjStep_status] at hs
  rw [dobjStep_iter]
  have er : r = dresCompute E.qp (dsolOf o'.s.core) res0 ws0 := by simp only [r, dobjStep_core]
  rw [er]
  clear_value r
  clear er r
  have hnc0 : s.core.nc ≠ 0 := by
    intro e
    apply hc
    rw [e]; rfl
  rw [if_neg (by rintro (h1 | h1); exacts [hnc0 h1, hc h1]), if_neg (by rw [ha]; simp)] at h
  obtain ⟨l, hl, rfl⟩ := Option.map_eq_some_iff.mp h
  obtain ⟨eo1, eo2, eo3, eo4, -⟩ := depilogue_obs E l
  rw [eo4] at hs
  rw [eo1]
  -- the state at the end of the loop
  have hi0 := dipmInit_rws E (dprologue E sol s)
  obtain ⟨hF, hp⟩ := ipmLoop_inv _ _ _ (fun x => DFresh E x ∧ DStay (dipmInit E (dprologue E sol s)) x)
    (fun kk a b ha hb => ⟨drelBody_fresh E kk a b ha.1.mask hb, ha.2.trans (drelBody_same E kk a b hb)⟩) lf _ l
    ⟨drelStart_fresh E _ (by rw [hi0.1, hi0.2.1]; rfl), drelStart_same E _⟩ hl
  obtain ⟨-, hstop⟩ := ipmLoop_run _ _ _ _ _ _ hl
  have hle := ipmLoop_iter_le _ _ _ _ _ _ hl
  obtain ⟨n0, -, -, n1, n2, n3, n4, n5⟩ := (status_success_iff E.arg.toIpmArg hit l.1 _ _ _ _ _ _ _ _ hstop hle).mp hs
  -- the residuals in force are those of the caller's problem
  obtain ⟨r0, hr0⟩ := hF.res
  have hH : l.2.Hv = E.qp.Hv := by rw [hp.Hv, hi0.2.2]; rfl
  have hq : dqpNow E l.2 = E.qp := by unfold dqpNow; rw [hH]
  have hok : DWsOk l.2.rws E.qp := by
    intro _
    rw [hF.mask, hp.mask, hi0.2.1]
    exact dncMask_ok E.qp hm s.core.nc hnc
  have hncl : l.2.core.nc = E.qp.dim.nct := by
    rw [hp.nc, dipmInit_nc]; exact hnc
  have hsame : DSameRes E.qp.dim (dresCompute E.qp (dsolOf l.2.core) res0 ws0) l.2.res := by
    rw [hr0, hq]
    exact dres_any E.qp hwf _ _ _ _ _ hws0 hok
  have hnm := dres_norms E.qp.dim l.2.res
  simp only at hnm
  rw [hF.rmax] at n1 n2 n3
  refine ⟨?_, ?_, ?_, ?_, ?_, n0⟩
  · intro i hi
    rw [← hsame.g i hi]; exact (hnm.1.1 i hi).trans n1
  · intro i hi
    rw [← hsame.b i hi]; exact (hnm.2.1.1 i hi).trans n2
  · intro i hi
    rw [← hsame.d i hi]; exact (hnm.2.2.1.1 i hi).trans n3
  · intro i hi
    rw [← hsame.m i hi]
    refine le_trans ?_ n4
    have hi' : i < l.2.core.nc := by rw [hncl]; exact hi
    unfold dresMTau
    refine le_trans (le_of_eq ?_) ((vecnrmInf_spec l.2.core.nc _ 0).1 i hi')
    congr 1
    unfold axpy
    rw [if_pos (by omega), hF.rm, Nat.sub_zero, Nat.zero_add, Nat.zero_add]
    ring
  · rw [← hsame.gap]; exact n5

end
end Hpipm
