/-
C86: four further defects of the QCQP solver, each proved of the model on the user's terms.

1. `t0_init` 0 or 1: the slacks and multipliers of the last `2*nq` rows of every stage keep what the solution object held.
2. Without inequalities the solver reports success at a point which is not optimal, because OCP_QCQP_APPROX_QP copies the linear
   cost of every stage into stage 0.
3. In the absolute formulation the residuals reported on exit are not those of the returned point, because
   OCP_QCQP_UPDATE_QP_ABS_STEP leaves a wrong constraint value in the cache of the residual routine.
4. The lower slack of a softened quadratic constraint loses its bound: the solver reports success with a negative slack.
-/
import Verif.QcqpIpmEx

namespace Hpipm
open Finset
set_option linter.unusedSectionVars false

/-- a solution object with zero slacks -/
def exRes0 : Sol ℚ where
  ux := fun _ _ => 0
  pi := fun _ _ => 0
  lam := fun _ _ => 1
  t := fun _ _ => 0

section
variable {K : Type*} [Field K] [LinearOrder K] [IsStrictOrderedRing K]

/-- **C86, negative** With `t0_init` 0 or 1 (and no warm start of the multipliers) the start of the last `2*nq` rows of a
stage, those of the slack bounds if there are slacks, is whatever the solution object held. -/
theorem qinitVar_stale (sq : K → K) (Q : Qcqp K) (a : IpmArg K) (sol : Sol K) (hw : a.i .warm_start < 2)
    (h0 : a.i .t0_init = 0 ∨ a.i .t0_init = 1) :
    ∃ s, qinitVar sq Q a sol = some s ∧ ∀ k j, 2 * Q.base.dim.nb k + 2 * Q.base.dim.ng k + 2 * Q.base.dim.ns k ≤ j →
      s.lam k j = sol.lam k j ∧ s.t k j = sol.t k j := by
  have key : ∀ (l0 t0 : K) (k j : ℕ) (sol' : Sol K), sol'.lam = sol.lam → sol'.t = sol.t →
      2 * Q.base.dim.nb k + 2 * Q.base.dim.ng k + 2 * Q.base.dim.ns k ≤ j →
      (iniStages Q.base.dim.N (fun k s => iniConst (2 * Q.base.dim.nb k + 2 * Q.base.dim.ng k + 2 * Q.base.dim.ns k) l0 t0 s) sol').lam k j =
        sol.lam k j ∧
      (iniStages Q.base.dim.N (fun k s => iniConst (2 * Q.base.dim.nb k + 2 * Q.base.dim.ng k + 2 * Q.base.dim.ns k) l0 t0 s) sol').t k j =
        sol.t k j := by
    intro l0 t0 k j sol' e1 e2 hj
    rw [← e1, ← e2]
    have hc : ∀ (n : ℕ) (s : IniSt K), n ≤ j → (iniConst n l0 t0 s).lam j = s.lam j ∧ (iniConst n l0 t0 s).t j = s.t j := by
      intro n s hn
      unfold iniConst
      refine loop_inv (S := IniSt K) (fun m s' => m ≤ n → s'.lam j = s.lam j ∧ s'.t j = s.t j) n _ s (fun _ => ⟨rfl, rfl⟩) ?_ le_rfl
      intro m s' _ ih hm
      obtain ⟨i1, i2⟩ := ih (by omega)
      dsimp only
      rw [upd_ne _ _ (by omega), upd_ne _ _ (by omega)]
      exact ⟨i1, i2⟩
    by_cases hk : k ≤ Q.base.dim.N
    · obtain ⟨-, f1, f2⟩ := (iniStages_val Q.base.dim.N (fun k s => iniConst (2 * Q.base.dim.nb k + 2 * Q.base.dim.ng k + 2 * Q.base.dim.ns k) l0 t0 s) sol').1 k hk
      rw [f1, f2]
      exact hc _ _ hj
    · unfold iniStages
      refine loop_inv (S := Sol K) (fun m s' => m ≤ Q.base.dim.N + 1 → s'.lam k j = sol'.lam k j ∧ s'.t k j = sol'.t k j) _ _ _
        (fun _ => ⟨rfl, rfl⟩) ?_ le_rfl
      intro m s' _ ih hm
      obtain ⟨i1, i2⟩ := ih (by omega)
      dsimp only
      rw [upd_ne _ _ (by omega), upd_ne _ _ (by omega)]
      exact ⟨i1, i2⟩
  have hpi : ∀ (n : ℕ) (f : ℕ → Vec K → Vec K) (s : Sol K),
      (loop n (fun k (s : Sol K) => { s with pi := upd s.pi k (f k (s.pi k)) }) s).lam = s.lam ∧
      (loop n (fun k (s : Sol K) => { s with pi := upd s.pi k (f k (s.pi k)) }) s).t = s.t := by
    intro n f s
    exact loop_inv (S := Sol K) (fun _ s' => s'.lam = s.lam ∧ s'.t = s.t) n _ s ⟨rfl, rfl⟩ (fun _ _ _ ih => ih)
  have hux : ∀ (n : ℕ) (f : ℕ → Vec K → Vec K) (s : Sol K),
      (loop n (fun k (s : Sol K) => { s with ux := upd s.ux k (f k (s.ux k)) }) s).lam = s.lam ∧
      (loop n (fun k (s : Sol K) => { s with ux := upd s.ux k (f k (s.ux k)) }) s).t = s.t := by
    intro n f s
    exact loop_inv (S := Sol K) (fun _ s' => s'.lam = s.lam ∧ s'.t = s.t) n _ s ⟨rfl, rfl⟩ (fun _ _ _ ih => ih)
  unfold qinitVar
  extract_lets D N mu0 sol1 sol2 sol3 sol4 r
  have h1 : sol1.lam = sol.lam ∧ sol1.t = sol.t := by
    simp only [sol1]
    split_ifs
    · exact hux (N + 1) (fun k v => vecse (nvt D k) 0 v 0) sol
    · exact ⟨rfl, rfl⟩
  have h2 : sol2.lam = sol.lam ∧ sol2.t = sol.t := by
    have := hpi N (fun k v => vecse (D.nx (k + 1)) 0 v 0) sol1
    exact ⟨this.1.trans h1.1, this.2.trans h1.2⟩
  rw [if_neg (by omega), if_neg (by omega)]
  rcases h0 with h0 | h0
  · rw [if_pos h0]
    exact ⟨_, rfl, fun k j hj => key _ _ k j sol2 h2.1 h2.2 hj⟩
  · rw [if_neg (by omega), if_pos h0]
    exact ⟨_, rfl, fun k j hj => key _ _ k j sol2 h2.1 h2.2 hj⟩

/-- so the start need not be in the interior: here a slack of a present constraint starts at zero -/
example : ∃ s, qinitVar exQSq exQcqp { exQArg with i := fun f => if f = .t0_init then 1 else 0 } exRes0 = some s ∧
    exQcqp.base.d_mask 0 3 = 1 ∧ s.t 0 3 = 0 := by
  obtain ⟨s, h1, h2⟩ := qinitVar_stale exQSq exQcqp { exQArg with i := fun f => if f = .t0_init then 1 else 0 } exRes0
    (by decide) (by decide)
  exact ⟨s, h1, by decide +kernel, (h2 0 3 (by decide)).2⟩

variable {T : QEnv K} {lf : ℕ} {sol : Sol K} {s : QIpm K} {o : QSolveOut K}

/-- **C86, negative** The bound of a lower slack that softens quadratic constraints only is not enforced: whenever its linear
cost exceeds the stationarity tolerance, *every* reported success has a negative slack, whatever lower bound was asked for. -/
theorem qipm_slack_negative (h : QSolved T lf sol s o) (k i : ℕ) (hk : k ≤ T.Q.base.dim.N) (hi : i < T.Q.base.dim.ns k)
    (hq : (qview T.Q).SoftensQuad k i)
    (ho : ∀ j, j < T.Q.base.dim.nb k + T.Q.base.dim.ng k → (qview T.Q).base.soft k j ≠ some i)
    (hZ : 0 ≤ (qview T.Q).base.Zl k i) (hz : T.arg.r .res_g_max < (qview T.Q).base.zl k i) :
    (ptOf T.Q.inner.dim o.s.sol.ux).sl k i < 0 := by
  have hQ := qipm_data h.ran
  obtain ⟨hg, -⟩ := qipm_success T h.wf h.mask lf sol s o h.nc h.act h.rel h.iter h.ran h.ok freshRes freshQWs
    (freshWs_ok _) (Or.inl rfl)
  rw [hQ] at hg
  have hcc : CacheCond (maskLower T.Q) o.s.sol freshQWs := fun h => by cases h
  have hv := ((qresCompute_val (maskLower T.Q) (maskLower_wf h.wf) o.s.sol freshRes freshQWs (freshWs_ok _) hcc).1 k hk).g
    (T.Q.base.dim.nu k + T.Q.base.dim.nx k + i) (by
      show _ < T.Q.base.dim.nu k + T.Q.base.dim.nx k + 2 * T.Q.base.dim.ns k
      omega)
  have hgi := hg k (T.Q.base.dim.nu k + T.Q.base.dim.nx k + i) hk (by omega)
  rw [hv] at hgi
  have hlm : ∀ j, Cut T.Q k j → lamM (linQp (maskLower T.Q) o.s.sol.ux) o.s.sol k j = 0 := by
    intro j hc
    have e : lamM (linQp (maskLower T.Q) o.s.sol.ux) o.s.sol k j =
      (if LoQ (maskLower T.Q) k j then 0 else (maskLower T.Q).base.d_mask k j) * o.s.sol.lam k j := rfl
    rw [e, (maskLower_mask T.Q k j hk).1 hc]
    simp
  have hs : slkT (linQp (maskLower T.Q) o.s.sol.ux) k (lamM (linQp (maskLower T.Q) o.s.sol.ux) o.s.sol k) i = 0 := by
    unfold slkT
    refine sum_eq_zero fun j hj => ?_
    split_ifs with hc
    · by_cases hj' : j < T.Q.base.dim.nb k + T.Q.base.dim.ng k
      · have h1 := ho j hj'
        have e : (qview T.Q).base.soft k j = if T.Q.base.idxs_rev k j = -1 then none else some (T.Q.base.idxs_rev k j).toNat := rfl
        have hc : T.Q.base.idxs_rev k j ≠ -1 ∧ i = (T.Q.base.idxs_rev k j).toNat := hc
        rw [e, if_neg hc.1] at h1
        exact absurd (congrArg some hc.2.symm) h1
      · refine hlm j (Or.inl ⟨by omega, ?_⟩)
        exact mem_range.mp hj
    · rfl
  have e : vG (linQp (maskLower T.Q) o.s.sol.ux) o.s.sol (lamM (linQp (maskLower T.Q) o.s.sol.ux) o.s.sol k) k
      (T.Q.base.dim.nu k + T.Q.base.dim.nx k + i) =
      (qview T.Q).base.Zl k i * (ptOf T.Q.inner.dim o.s.sol.ux).sl k i + (qview T.Q).base.zl k i := by
    have e0 : vG (linQp (maskLower T.Q) o.s.sol.ux) o.s.sol (lamM (linQp (maskLower T.Q) o.s.sol.ux) o.s.sol k) k
      (T.Q.base.dim.nu k + T.Q.base.dim.nx k + i) = T.Q.base.Z k i * o.s.sol.ux k (T.Q.base.dim.nu k + T.Q.base.dim.nx k + i) +
        T.Q.base.rqz k (T.Q.base.dim.nu k + T.Q.base.dim.nx k + i) := by
      unfold vG
      simp only
      have d1 : (linQp (maskLower T.Q) o.s.sol.ux).dim.nu k + (linQp (maskLower T.Q) o.s.sol.ux).dim.nx k =
        T.Q.base.dim.nu k + T.Q.base.dim.nx k := rfl
      have d2 : (linQp (maskLower T.Q) o.s.sol.ux).dim.ns k = T.Q.base.dim.ns k := rfl
      have d3 : (linQp (maskLower T.Q) o.s.sol.ux).dim.nb k + (linQp (maskLower T.Q) o.s.sol.ux).dim.ng k =
        T.Q.base.dim.nb k + (T.Q.base.dim.ng k + T.Q.nq k) := rfl
      rw [d1, d2, d3, if_neg (by omega), Nat.add_sub_cancel_left, if_pos hi, hs]
      have hc : lamM (linQp (maskLower T.Q) o.s.sol.ux) o.s.sol k (2 * (T.Q.base.dim.nb k + (T.Q.base.dim.ng k + T.Q.nq k)) + i) = 0 := by
        have := cut_of_softens T.Q k i hq
        rw [show 2 * (T.Q.base.dim.nb k + (T.Q.base.dim.ng k + T.Q.nq k)) + i =
          2 * T.Q.base.dim.nb k + 2 * T.Q.base.dim.ng k + 2 * T.Q.nq k + i by ring]
        exact hlm _ this
      rw [hc, sub_zero, sub_zero]
      rfl
    rw [e0, show (qview T.Q).base.Zl k i = T.Q.base.Z k i from view_Zl T.Q.inner k i hi,
      show (qview T.Q).base.zl k i = T.Q.base.rqz k (T.Q.base.dim.nu k + T.Q.base.dim.nx k + i) from view_zl T.Q.inner k i hi]
    rfl
  rw [e] at hgi
  have := (abs_le.mp hgi).2
  by_contra hneg
  have := mul_nonneg hZ (not_lt.mp hneg)
  linarith

end

/-! ### no inequalities -/

def exBDim : QpDim where
  N := 1
  nx := fun k => if k = 1 then 1 else 0
  nu := fun k => if k = 0 then 1 else 0
  nb := fun _ => 0
  nbx := fun _ => 0
  nbu := fun _ => 0
  ng := fun _ => 0
  ns := fun _ => 0
  nbxe := fun _ => 0
  nbue := fun _ => 0
  nge := fun _ => 0

/-- minimise `u²/2 - 4u + x²/2` with `x = u`, no inequalities: the minimum is at `u = x = 2` -/
def exBQcqp : Qcqp ℚ where
  base :=
    { dim := exBDim
      BAbt := fun _ i _ => if i = 0 then 1 else 0
      RSQrq := fun _ i j => if i = 0 ∧ j = 0 then 1 else 0
      DCt := fun _ _ _ => 0
      b := fun _ _ => 0
      rqz := fun k i => if k = 0 ∧ i = 0 then -4 else 0
      d := fun _ _ => 0
      d_mask := fun _ _ => 1
      m := fun _ _ => 0
      Z := fun _ _ => 0
      idxb := fun _ _ => 0
      idxs_rev := fun _ _ => -1
      idxe := fun _ _ => 0
      diag_H_flag := fun _ => 0 }
  nq := fun _ => 0
  Hq := fun _ _ _ _ => 0

def exBEnv : QEnv ℚ := { exQEnv with Q := exBQcqp }

/-- the workspace as created, with a zero QP -/
def exBIpm : QIpm ℚ := { exQIpm with
  ip := { exQIpm.ip with core := { exIpCore with nv := 2, ne := 1, nc := 0 } }
  qp := { exIpQp with rqz := fun _ _ => 0 } }

def exBSol : Sol ℚ where
  ux := fun _ _ => 0
  pi := fun _ _ => 0
  lam := fun _ _ => 0
  t := fun _ _ => 0

/-- the minimiser -/
def exBPt : Pt ℚ where
  u := fun _ _ => 2
  x := fun _ _ => 2
  sl := fun _ _ => 0
  su := fun _ _ => 0

/-- the point the solver returns, its status and the stationarity residual it reports -/
theorem exB_run : ((qipmSolve exBEnv 5 exBSol exBIpm).toOption.map fun o =>
    (o.s.sol.ux 0 0, o.s.sol.ux 1 0, o.status, o.s.rmax.1)) = some (0, 0, .SUCCESS, 4) := by decide +kernel

theorem exB_feasible : (qview exBQcqp).Feasible exBPt := by
  refine ⟨⟨fun k i hk hi => ?_, fun k j _ hj => absurd hj (Nat.not_lt_zero j), fun k j _ hj => absurd hj (Nat.not_lt_zero j),
    fun k j _ hj => absurd hj (Nat.not_lt_zero j), fun k j _ hj => absurd hj (Nat.not_lt_zero j)⟩,
    fun k j _ hj => absurd hj (Nat.not_lt_zero j)⟩
  have h0 : k = 0 := by have : k < 1 := hk; omega
  subst h0
  have h1 : i = 0 := by have : i < 1 := hi; omega
  subst h1
  decide +kernel

/-- **C86, negative** Without inequalities the solver reports success, after zero iterations, at a point that is feasible but
not optimal, and whose stationarity residual it even computes and finds to be 4, on a strictly convex problem with one stage
transition. -/
theorem qipm_unconstrained_wrong : ∃ o, qipmSolve exBEnv 5 exBSol exBIpm = .ok o ∧ o.status = .SUCCESS ∧
    exBEnv.arg.r .res_g_max < o.s.rmax.1 ∧ ¬ (qview exBQcqp).IsOptimal (ptOf exBQcqp.inner.dim o.s.sol.ux) := by
  have h := exB_run
  cases hq : qipmSolve exBEnv 5 exBSol exBIpm with
  | error e => rw [hq] at h; cases h
  | ok o =>
    rw [hq] at h
    have h' : (o.s.sol.ux 0 0, o.s.sol.ux 1 0, o.status, o.s.rmax.1) = (0, 0, Status.SUCCESS, 4) := Option.some.inj h
    simp only [Prod.mk.injEq] at h'
    obtain ⟨u0, x1, hst, hr⟩ := h'
    refine ⟨o, rfl, hst, ?_, fun hopt => ?_⟩
    · rw [hr]; decide +kernel
    · have h1 := hopt.2 exBPt exB_feasible
      have h2 : (qview exBQcqp).base.objective exBPt = -4 := by decide +kernel
      have h3 : (qview exBQcqp).base.objective (ptOf exBQcqp.inner.dim o.s.sol.ux) = 0 := by
        have gen : ∀ ux : ℕ → Vec ℚ, ux 0 0 = 0 → ux 1 0 = 0 → (qview exBQcqp).base.objective (ptOf exBQcqp.inner.dim ux) = 0 := by
          intro ux a b
          have n0 : (qview exBQcqp).base.N = 1 := rfl
          have n1 : (qview exBQcqp).base.nu 0 = 1 := rfl
          have n2 : (qview exBQcqp).base.nu 1 = 0 := rfl
          have n3 : (qview exBQcqp).base.nx 0 = 0 := rfl
          have n4 : (qview exBQcqp).base.nx 1 = 1 := rfl
          have n5 : ∀ k, (qview exBQcqp).base.ns k = 0 := fun _ => rfl
          have p1 : (ptOf exBQcqp.inner.dim ux).u 0 0 = 0 := a
          have p2 : (ptOf exBQcqp.inner.dim ux).x 1 0 = 0 := b
          simp [UserQp.objective, UserQp.stageQuad, UserQp.stageLin, sum_range_succ, n0, n1, n2, n3, n4, n5, p1, p2]
        exact gen _ u0 x1
      rw [h2, h3] at h1
      exact absurd h1 (by norm_num)

/-! ### residuals of the absolute formulation -/

/-- the reported inequality residual of the quadratic constraint of stage 0, and the one recomputed without cache -/
theorem exQA_res : ((qipmSolve exQAbsEnv 5 exQSol0 exQIpm).toOption.map fun o =>
    (decide (o.s.res.res_d 0 3 < -(1 / 4)), decide (1 / 20 < (qresCompute o.Q o.s.sol freshRes freshQWs).res_d 0 3))) =
      some (true, true) := by decide +kernel

/-- **C86, negative** Absolute formulation with residuals on exit: the residuals in the workspace after a success are not the
residuals of the returned solution, which the residual routine computes when it is called on it (C82). -/
theorem qipm_abs_residual_wrong : ∃ o, qipmSolve exQAbsEnv 5 exQSol0 exQIpm = .ok o ∧ o.status = .SUCCESS ∧
    o.s.res.res_d 0 3 < (qresCompute o.Q o.s.sol freshRes freshQWs).res_d 0 3 - 1 / 4 := by
  have h := exQA_run
  have h2 := exQA_res
  cases hq : qipmSolve exQAbsEnv 5 exQSol0 exQIpm with
  | error e => rw [hq] at h; cases h
  | ok o =>
    rw [hq] at h h2
    have h' : (o.iter, o.status) = (1, Status.SUCCESS) := Option.some.inj h
    have h2' : (decide (o.s.res.res_d 0 3 < -(1 / 4)), decide (1 / 20 < (qresCompute o.Q o.s.sol freshRes freshQWs).res_d 0 3)) =
      (true, true) := Option.some.inj h2
    simp only [Prod.mk.injEq, decide_eq_true_eq] at h' h2'
    refine ⟨o, rfl, h'.2, ?_⟩
    linarith [h2'.1, h2'.2]

/-! ### a softened quadratic constraint -/

/-- the problem of `exQcqp` with the linear cost `sl` -/
def exFQcqp : Qcqp ℚ := { exQcqp with base := { exQcqp.base with
  rqz := fun k i => if k = 0 ∧ i = 0 then -7 else if k = 1 ∧ i = 1 then 1 else 0 } }

def exFEnv : QEnv ℚ := { exQEnv with Q := exFQcqp }

theorem exF_run : ((qipmSolve exFEnv 5 exQSol0 exQIpm).toOption.map QSolveOut.seenBy) = some (1, .SUCCESS) := by decide +kernel

/-- a run that meets the hypotheses of `qipm_slack_negative`; the caller asked for `sl ≥ 0` -/
theorem exF_negative : ∃ o, qipmSolve exFEnv 5 exQSol0 exQIpm = .ok o ∧ o.status = .SUCCESS ∧
    (qview exFQcqp).base.llsMask 1 0 = 1 ∧ (qview exFQcqp).base.lls 1 0 = 0 ∧
    (ptOf exFQcqp.inner.dim o.s.sol.ux).sl 1 0 < 0 := by
  have h := exF_run
  cases hq : qipmSolve exFEnv 5 exQSol0 exQIpm with
  | error e => rw [hq] at h; cases h
  | ok o =>
    rw [hq] at h
    have h' : (o.iter, o.status) = (1, Status.SUCCESS) := Option.some.inj h
    simp only [Prod.mk.injEq] at h'
    have hs : QSolved exFEnv 5 exQSol0 exQIpm o := ⟨exQ_wf, exQ_mask, by decide, ⟨0, 0, Nat.zero_le _, by decide, by decide +kernel⟩, rfl,
      by decide, Or.inr (Or.inl rfl), rfl, by decide +kernel, by decide +kernel, hq, h'.2⟩
    refine ⟨o, rfl, h'.2, by decide +kernel, by decide +kernel, ?_⟩
    exact qipm_slack_negative hs 1 0 (by decide) (by decide) ⟨0, by decide, by decide⟩ (fun j hj => absurd hj (Nat.not_lt_zero j))
      (by decide +kernel) (by decide +kernel)

end Hpipm
