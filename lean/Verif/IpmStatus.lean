/-
C30: what every reported status means to the caller, in both formulations and in the unconstrained branch.
-/
import Verif.IpmPos

namespace Hpipm
open Finset
set_option linter.unusedSectionVars false

section
variable {K : Type*} [Field K] [LinearOrder K] [IsStrictOrderedRing K] (E : Env K)

/-- a sum over the flat constraint index is the sum over stages and constraints -/
theorem flat_sum (len : ℕ → ℕ) (n : ℕ) (f : ℕ → K) (g : ℕ → ℕ → K)
    (h : ∀ k j, k < n → j < len k → f (stOff len k + j) = g k j) :
    ∑ i ∈ range (stOff len n), f i = ∑ k ∈ range n, ∑ j ∈ range (len k), g k j := by
  induction n with
  | zero => rfl
  | succ n ih =>
    have e : stOff len (n + 1) = stOff len n + len n := by simp only [stOff, sum_range_succ]
    rw [e, sum_range_add, sum_range_succ, ih (fun k j hk hj => h k j (by omega) hj)]
    congr 1
    exact sum_congr rfl fun j hj => h n j (by omega) (mem_range.mp hj)

/-- total masked complementarity of a solution, `sum |lam*t - m|` over the constraints that are not masked out -/
def compSum (qp : OcpQp K) (sol : Sol K) : K :=
  ∑ k ∈ range (qp.dim.N + 1), ∑ j ∈ range (2 * qp.dim.nb k + 2 * qp.dim.ng k + 2 * qp.dim.ns k),
    if qp.d_mask k j = 1 then |sol.lam k j * sol.t k j - qp.m k j| else 0

/-- number of constraints that are not masked out -/
def compCount (qp : OcpQp K) : ℕ :=
  ∑ k ∈ range (qp.dim.N + 1), ∑ j ∈ range (2 * qp.dim.nb k + 2 * qp.dim.ng k + 2 * qp.dim.ns k),
    if qp.d_mask k j = 1 then 1 else 0

theorem ncMask_sum (qp : OcpQp K) (n : ℕ) : ncMask qp n = ∑ i ∈ range n, if fmask qp i ≠ 0 then 1 else 0 := by
  refine loop_inv (S := ℕ) (fun m x => x = ∑ i ∈ range m, if fmask qp i ≠ 0 then 1 else 0) n _ 0 rfl ?_
  intro i x _ hx
  rw [sum_range_succ, ← hx]
  split <;> rfl

theorem flat_sum_nat (len : ℕ → ℕ) (n : ℕ) (f : ℕ → ℕ) (g : ℕ → ℕ → ℕ)
    (h : ∀ k j, k < n → j < len k → f (stOff len k + j) = g k j) :
    ∑ i ∈ range (stOff len n), f i = ∑ k ∈ range n, ∑ j ∈ range (len k), g k j := by
  induction n with
  | zero => rfl
  | succ n ih =>
    have e : stOff len (n + 1) = stOff len n + len n := by simp only [stOff, sum_range_succ]
    rw [e, sum_range_add, sum_range_succ, ih (fun k j hk hj => h k j (by omega) hj)]
    congr 1
    exact sum_congr rfl fun j hj => h n j (by omega) (mem_range.mp hj)

/-- the counter of the solver counts the constraints that are not masked out -/
theorem ncMask_count (qp : OcpQp K) (hm : Mask01 qp) : ncMask qp (stOff (nct qp.dim) (qp.dim.N + 1)) = compCount qp := by
  rw [ncMask_sum]
  refine flat_sum_nat _ _ _ _ ?_
  intro k j hk hj
  unfold fmask
  rw [stFlat_at _ _ _ _ _ hk hj]
  rcases hm k j (by omega) hj with h | h <;> simp [h]

theorem vecmul_at0 (n : ℕ) (a b c : Vec K) (i : ℕ) (hi : i < n) : vecmul n a 0 b 0 c 0 i = a i * b i := by
  unfold vecmul
  simp only [Nat.zero_add, Nat.sub_zero, Nat.zero_le, true_and, if_pos hi]

/-- `mu` of the absolute formulation is the mean complementarity of the iterate -/
theorem absMu_mu (hm : Mask01 E.qp) {s : Ipm K} (h : Ready E s) :
    (absMu E s).core.mu = compSum E.qp (solOf E.qp.dim s.core) * s.core.nc_mask_inv := by
  have hv : ∀ i, i < s.core.nc → (maskResM E { s with core := { s.core with
      res_m := axpy s.core.nc (-1) (fm E.qp) 0 (vecmul s.core.nc s.core.lam 0 s.core.t 0 s.core.res_m 0) 0
        (vecmul s.core.nc s.core.lam 0 s.core.t 0 s.core.res_m 0) 0 } }).core.res_m i =
      fmask E.qp i * (s.core.lam i * s.core.t i - fm E.qp i) := by
    intro i hi
    have hbase : axpy s.core.nc (-1) (fm E.qp) 0 (vecmul s.core.nc s.core.lam 0 s.core.t 0 s.core.res_m 0) 0
        (vecmul s.core.nc s.core.lam 0 s.core.t 0 s.core.res_m 0) 0 i = s.core.lam i * s.core.t i - fm E.qp i := by
      unfold axpy vecmul
      simp only [Nat.zero_add, Nat.sub_zero, Nat.zero_le, true_and, if_pos hi]
      ring
    unfold maskResM
    split
    · refine Eq.trans (vecmul_at0 s.core.nc _ _ _ i hi) ?_
      exact congrArg (fmask E.qp i * ·) hbase
    · rename_i hb
      have hnc := h.nc
      obtain ⟨k, j, hk, hj, rfl⟩ := stFlat_inv (nct E.qp.dim) (E.qp.dim.N + 1) i (by rw [← hnc]; exact hi)
      have e1 : fmask E.qp (stOff (nct E.qp.dim) k + j) = 1 := by
        unfold fmask
        rw [stFlat_at _ _ _ _ _ hk hj]
        exact h.mask (by simpa using hb) k j (by omega) hj
      rw [e1, one_mul]
      exact hbase
  unfold absMu
  simp only
  have hpars : ∀ x : Ipm K, (maskResM E x).core.nc = x.core.nc ∧ (maskResM E x).core.nc_mask_inv = x.core.nc_mask_inv := by
    intro x; unfold maskResM; split <;> exact ⟨rfl, rfl⟩
  rw [(hpars _).1, (hpars _).2]
  congr 1
  unfold vecnrm1
  simp only [Nat.zero_add]
  rw [sum_congr rfl (g := fun i => |fmask E.qp i * (s.core.lam i * s.core.t i - fm E.qp i)|)
    (fun i hi => by rw [hv i (mem_range.mp hi)])]
  show ∑ i ∈ range s.core.nc, _ = _
  rw [h.nc]
  refine flat_sum _ _ _ _ ?_
  intro k j hk hj
  unfold fmask fm
  rw [stFlat_at _ _ _ _ _ hk hj, stFlat_at _ _ _ _ _ hk hj]
  rcases hm k j (by omega) hj with h' | h'
  · simp [h']
  · simp only [h', if_true, one_mul]; rfl

theorem ipmInit_mask_inv (s : Ipm K) : (ipmInit E s).core.nc_mask_inv = s.core.nc_mask_inv := by
  unfold ipmInit maskLam
  simp only
  split <;> rfl

/-- mean complementarity is what `mu` holds after every pass of the absolute loop -/
theorem abs_mu_inv (hm : Mask01 E.qp) (lf : ℕ) (sol : Sol K) (s : Ipm K) (r : ℕ × Ipm K)
    (hnc : s.core.nc = stOff (nct E.qp.dim) (E.qp.dim.N + 1)) (hc : ncMask E.qp s.core.nc ≠ 0)
    (hr : ipmLoop (fun s => contAbs E.arg (obsRel E s)) (absBody E) (E.arg.i .iter_max) lf 0
      (absMu E (ipmInit E (prologue E sol s))) = some r) :
    r.2.core.mu = compSum E.qp (solOf E.qp.dim r.2.core) / (compCount E.qp : K) := by
  have hinv0 : (prologue E sol s).core.nc_mask_inv = 1 / (compCount E.qp : K) := by
    have : (prologue E sol s).core.nc_mask_inv = if ncMask E.qp s.core.nc = 0 then 0 else 1 / (ncMask E.qp s.core.nc : K) := rfl
    rw [this, if_neg hc, hnc, ncMask_count E.qp hm]
  have hp := ipmInit_ready E (prologue_ready E hm sol s hnc)
  have same : ∀ x y : Ipm K, solOf E.qp.dim (absMu E y).core = solOf E.qp.dim y.core := by
    intro x y
    unfold absMu
    simp only
    unfold maskResM
    split <;> rfl
  have key := ipmLoop_inv _ _ _ (fun x => Ready E x ∧ x.core.nc_mask_inv = 1 / (compCount E.qp : K) ∧
      x.core.mu = compSum E.qp (solOf E.qp.dim x.core) / (compCount E.qp : K))
    (fun kk a b ha hb => by
      obtain ⟨h1, h2, -⟩ := ha
      obtain ⟨s1, hk, he, hpp, hmk⟩ := absBody_upd E kk a b hb
      refine ⟨h1.of E hpp hmk, ?_, ?_⟩
      · simp only [pars, Prod.mk.injEq] at hpp
        rw [hpp.2.2.2.2.2.2.2.2.2, h2]
      · unfold absBody at hb
        obtain ⟨s0, h0, rfl⟩ := Option.map_eq_some_iff.mp hb
        obtain ⟨s2, hk2, rfl⟩ := absStep_upd E kk a s0 h0
        simp only [putG_core]
        have hr2 : Ready E (updStep E s2) := (h1.keep E hk2).of E (updStep_pars E s2) (updStep_mask E s2)
        have hi2 : (updStep E s2).core.nc_mask_inv = 1 / (compCount E.qp : K) := by
          have := updStep_pars E s2
          simp only [pars, Prod.mk.injEq] at this
          rw [this.2.2.2.2.2.2.2.2.2]
          have := hk2.core.pars
          simp only [pars, Prod.mk.injEq] at this
          rw [this.2.2.2.2.2.2.2.2.2, h2]
        rw [absMu_mu E hm hr2, same (updStep E s2), hi2, mul_one_div]) lf _ r
    ⟨hp.of E (absMu_it E _).2.1 (absMu_it E _).2.2, by
        have := (absMu_it E (ipmInit E (prologue E sol s))).2.1
        simp only [pars, Prod.mk.injEq] at this
        rw [this.2.2.2.2.2.2.2.2.2, ipmInit_mask_inv, hinv0],
      by rw [absMu_mu E hm hp, same (ipmInit E (prologue E sol s)), ipmInit_mask_inv, hinv0, mul_one_div]⟩ hr
  exact key.2.2

/-- **C30** Without active constraints the solver reports success after zero iterations. -/
theorem ipm_unconstrained (lf : ℕ) (sol : Sol K) (s : Ipm K)
    (hc : ncMask E.qp s.core.nc = 0) : ∃ o, ipmSolve E lf sol s = some o ∧ o.iter = 0 ∧ o.status = .SUCCESS := by
  unfold ipmSolve
  simp only
  rw [if_pos (Or.inr hc)]
  exact ⟨_, rfl, rfl, rfl⟩

/-- **C30** The reported status, for a nonnegative iteration limit and a problem with active constraints: `MAX_ITER` exactly
when the iteration limit was used up, `MIN_STEP` exactly when it was not and the last step was too short, `SUCCESS`
otherwise (no NaN in exact arithmetic).  In the absolute formulation `SUCCESS` means that the mean complementarity is
within tolerance of `tau_min`; for the relative formulation see `ipm_success`. -/
theorem ipm_status (hm : Mask01 E.qp) (lf : ℕ) (sol : Sol K) (s : Ipm K) (o : SolveOut K)
    (hnc : s.core.nc = stOff (nct E.qp.dim) (E.qp.dim.N + 1)) (hc : ncMask E.qp s.core.nc ≠ 0)
    (h : ipmSolve E lf sol s = some o) :
    (o.status = .MAX_ITER ↔ (o.iter : ℤ) = E.arg.i .iter_max) ∧
    (o.status = .MIN_STEP ↔ (o.iter : ℤ) ≠ E.arg.i .iter_max ∧
      (o.s.core.alpha_prim ≤ E.arg.r .alpha_min ∨ o.s.core.alpha_dual ≤ E.arg.r .alpha_min)) ∧
    (o.status = .MAX_ITER ∨ o.status = .MIN_STEP ∨ o.status = .SUCCESS) ∧
    (E.arg.i .abs_form ≠ 0 → 0 ≤ E.arg.i .iter_max → o.status = .SUCCESS →
      |compSum E.qp (solOf E.qp.dim o.s.core) / (compCount E.qp : K) - E.arg.r .tau_min| ≤ E.arg.r .res_m_max) := by
  unfold ipmSolve at h
  simp only at h
  have hnc0 : s.core.nc ≠ 0 := by
    intro e
    apply hc
    rw [e]; rfl
  rw [if_neg (by rintro (h1 | h1); exacts [hnc0 h1, hc h1])] at h
  have halpha : ∀ r : ℕ × Ipm K, (epilogue E (obsRel E) r).s.core.alpha_prim = r.2.core.alpha_prim ∧
      (epilogue E (obsRel E) r).s.core.alpha_dual = r.2.core.alpha_dual := by
    intro r
    unfold epilogue
    simp only
    split
    · have hs : seen (backupVar (computeGGamma r.2.core)) = seen r.2.core := by rw [backupVar_seen, computeGGamma_seen]
      simp only [seen, Prod.mk.injEq] at hs
      simp only [hs, and_self]
    · exact ⟨rfl, rfl⟩
  have hst : ∀ r : ℕ × Ipm K,
      ((epilogue E (obsRel E) r).status = .MAX_ITER ↔ (r.1 : ℤ) = E.arg.i .iter_max) ∧
      ((epilogue E (obsRel E) r).status = .MIN_STEP ↔ (r.1 : ℤ) ≠ E.arg.i .iter_max ∧
        ((epilogue E (obsRel E) r).s.core.alpha_prim ≤ E.arg.r .alpha_min ∨
          (epilogue E (obsRel E) r).s.core.alpha_dual ≤ E.arg.r .alpha_min)) ∧
      ((epilogue E (obsRel E) r).status = .MAX_ITER ∨ (epilogue E (obsRel E) r).status = .MIN_STEP ∨
        (epilogue E (obsRel E) r).status = .SUCCESS) := by
    intro r
    rw [(epilogue_obs E r).2.2.2, (halpha r).1, (halpha r).2]
    unfold statusOf obsRel Fl.le
    by_cases h1 : (r.1 : ℤ) = E.arg.i .iter_max
    · simp [h1]
    · by_cases h2 : r.2.core.alpha_prim ≤ E.arg.r .alpha_min ∨ r.2.core.alpha_dual ≤ E.arg.r .alpha_min
      · simp [h1, h2]
      · simp [h1, h2]
  by_cases ha : E.arg.i .abs_form ≠ 0
  · rw [if_pos ha] at h
    obtain ⟨r, hr, rfl⟩ := Option.map_eq_some_iff.mp h
    obtain ⟨p1, p2, p3⟩ := hst (r.1, absEnd E r.1 r.2)
    refine ⟨p1, p2, p3, fun _ hit hs => ?_⟩
    have hmu := abs_mu_inv E hm lf sol s r hnc hc hr
    obtain ⟨-, hstop⟩ := ipmLoop_run _ _ _ _ _ _ hr
    have hle := ipmLoop_iter_le _ _ _ _ _ _ hr
    have hend : solOf E.qp.dim (absEnd E r.1 r.2).core = solOf E.qp.dim r.2.core ∧
        (absEnd E r.1 r.2).core.alpha_prim = r.2.core.alpha_prim ∧ (absEnd E r.1 r.2).core.alpha_dual = r.2.core.alpha_dual := by
      unfold absEnd
      split
      · extract_lets s1
        split <;> exact ⟨rfl, rfl, rfl⟩
      · exact ⟨rfl, rfl, rfl⟩
    rw [(epilogue_obs E _).1, hend.1, ← hmu]
    rw [hs] at p1 p2
    have n1 : ¬ (r.1 : ℤ) = E.arg.i .iter_max := fun e => by have := p1.mpr e; cases this
    have n2 : ¬ (r.2.core.alpha_prim ≤ E.arg.r .alpha_min ∨ r.2.core.alpha_dual ≤ E.arg.r .alpha_min) := by
      intro e
      have := p2.mpr ⟨n1, by rw [(halpha _).1, (halpha _).2, hend.2.1, hend.2.2]; exact e⟩
      cases this
    push Not at n2
    rcases hstop with hstop | hstop
    · exfalso
      rw [max_eq_left hit] at hle
      omega
    · unfold contAbs obsRel at hstop
      simp only [Fl.gt, Option.map_some, gt_iff_lt, n2, decide_true, Bool.true_and, decide_eq_false_iff_not, not_lt] at hstop
      exact hstop
  · rw [if_neg ha] at h
    obtain ⟨r, hr, rfl⟩ := Option.map_eq_some_iff.mp h
    obtain ⟨p1, p2, p3⟩ := hst r
    exact ⟨p1, p2, p3, fun h => absurd h ha⟩

end

/-- the run `exS_run` in the absolute formulation -/
def exIpAbs : Env ℚ := { exIpEnv with arg := { exIpArg with i := fun f => if f = .abs_form then 1 else exIpArg.i f } }

theorem exIpAbs_run : ((ipmSolve exIpAbs 5 exIpSol exIpIpm).map fun o => (o.iter, o.status)) = some (1, .SUCCESS) := by decide +kernel

/-- C30 for the absolute formulation on the run -/
example : ∃ o, ipmSolve exIpAbs 5 exIpSol exIpIpm = some o ∧
    |compSum exIpQp (solOf exIpDim o.s.core) / (compCount exIpQp : ℚ) - 0| ≤ 8 := by
  obtain ⟨o, h, he⟩ := Option.map_eq_some_iff.mp exIpAbs_run
  simp only [Prod.mk.injEq] at he
  exact ⟨o, h, (ipm_status exIpAbs exIpQp_mask 5 exIpSol exIpIpm o (by decide +kernel) (by decide +kernel) h).2.2.2
    (by decide) (by decide) he.2⟩

/-- C30, limit of one iteration: the status is `MAX_ITER` -/
example : ((ipmSolve { exIpEnv with arg := { exIpArg with i := fun f => if f = .iter_max then 1 else exIpArg.i f } } 5
    exIpSol exIpIpm).map fun o => (o.iter, o.status)) = some (1, .MAX_ITER) := by decide +kernel
end Hpipm
