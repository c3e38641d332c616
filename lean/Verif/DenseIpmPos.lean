/-
C73, C75: the run of the dense solver.  Every iterate stays in the interior; meaning of each status; what success means in
terms of the caller's problem; the reported objective.
-/
import Verif.DenseIpmEx
import Verif.IpmStatus

namespace Hpipm
open Finset
set_option linter.unusedSectionVars false

section
variable {K : Type*} [Field K] [LinearOrder K] [IsStrictOrderedRing K] (E : DEnv K)

/-- all slacks positive, multipliers of active constraints positive, of masked ones zero -/
def DInside (qp : DenseQp K) (sol : DqSol K) : Prop :=
  ∀ j, j < qp.dim.nct → 0 < sol.t j ∧ (qp.d_mask j = 1 → 0 < sol.lam j) ∧ (qp.d_mask j = 0 → sol.lam j = 0)

/-- the same with the lower limits of the arguments -/
def DClipped (s : DIpm K) : Prop :=
  ∀ j, j < E.qp.dim.nct → E.arg.r .t_min ≤ s.core.t j ∧ (E.qp.d_mask j = 1 → E.arg.r .lam_min ≤ s.core.lam j) ∧
    (E.qp.d_mask j = 0 → s.core.lam j = 0)

/-- what the flags and parameters of the state must be; set by the prologue and kept -/
structure DReady (s : DIpm K) : Prop where
  nc : s.core.nc = E.qp.dim.nct
  mask : s.mask = false → ∀ j, j < E.qp.dim.nct → E.qp.d_mask j = 1
  lam_min : s.core.lam_min = E.arg.r .lam_min
  t_min : s.core.t_min = E.arg.r .t_min
  clip : s.core.t_lam_min = (E.arg.i .t_lam_min).toNat
  split : s.core.split_step = if E.arg.i .split_step = 1 then 1 else 0

theorem DReady.of {s s' : DIpm K} (h : DReady E s) (hp : pars s'.core = pars s.core) (hm : s'.mask = s.mask) : DReady E s' := by
  simp only [pars, Prod.mk.injEq] at hp
  obtain ⟨-, -, h3, h4, h5, -, h7, h8, -, -⟩ := hp
  exact ⟨h3.trans h.nc, by rw [hm]; exact h.mask, h4.trans h.lam_min, h5.trans h.t_min, h7.trans h.clip, h8.trans h.split⟩

theorem DReady.stay {s s' : DIpm K} (h : DReady E s) (hk : DStay s s') : DReady E s' := h.of E hk.pars hk.mask

theorem dprologue_ready (hm : DMask01 E.qp) (sol : DqSol K) (s : DIpm K) (hnc : s.core.nc = E.qp.dim.nct) :
    DReady E (dprologue E sol s) := by
  refine ⟨hnc, ?_, rfl, rfl, rfl, rfl⟩
  intro h
  have h' : decide (dncMask E.qp s.core.nc < s.core.nc) = false := h
  rcases dncMask_ok E.qp hm s.core.nc hnc with h2 | h2
  · rw [h'] at h2; cases h2
  · exact h2

theorem dipmInit_pars (s : DIpm K) : (dipmInit E s).core.nc = s.core.nc ∧ (dipmInit E s).core.lam_min = s.core.lam_min ∧
    (dipmInit E s).core.t_min = s.core.t_min ∧ (dipmInit E s).core.t_lam_min = s.core.t_lam_min ∧
    (dipmInit E s).core.split_step = s.core.split_step := by
  unfold dipmInit dmaskLam
  simp only
  split <;> exact ⟨rfl, rfl, rfl, rfl, rfl⟩

theorem dipmInit_ready {s : DIpm K} (h : DReady E s) : DReady E (dipmInit E s) := by
  obtain ⟨h1, h2, h3, h4, h5⟩ := dipmInit_pars E s
  refine ⟨h1.trans h.nc, ?_, h2.trans h.lam_min, h3.trans h.t_min, h4.trans h.clip, h5.trans h.split⟩
  rw [(dipmInit_rws E s).2.1]
  exact h.mask

/-- masking of the multipliers -/
theorem dmaskLam_val {s : DIpm K} (h : DReady E s) (j : ℕ) (hj : j < E.qp.dim.nct) :
    (dmaskLam E s).core.lam j = E.qp.d_mask j * s.core.lam j ∧ (dmaskLam E s).core.t j = s.core.t j := by
  unfold dmaskLam
  split
  · exact ⟨vecmul_at0 _ _ _ _ j (by rw [h.nc]; exact hj), rfl⟩
  · rename_i hb
    rw [h.mask (by simpa using hb) j hj, one_mul]
    exact ⟨rfl, rfl⟩

/-- an update of the iterate with clipping lands above the limits, whatever the step -/
theorem dupdStep_clipped {s : DIpm K} (h : DReady E s) (hc : E.arg.i .t_lam_min = 2) : DClipped E (dupdStep E s) := by
  intro j hj
  have hr : DReady E { s with core := updateVar s.core } := h.of E (updateVar_pars s.core) rfl
  obtain ⟨e1, e2⟩ := dmaskLam_val E hr j hj
  have hv := updateVar_val s.core
  simp only at hv
  have hlt : j < s.core.nc := by rw [h.nc]; exact hj
  have hcl : s.core.t_lam_min = 2 := by rw [h.clip, hc]; rfl
  unfold dupdStep
  rw [e1, e2, hv.2.2.1, hv.2.2.2.1, if_pos hlt, if_pos hlt]
  simp only [hcl, true_and, h.lam_min, h.t_min]
  refine ⟨?_, fun h1 => ?_, fun h0 => by rw [h0, zero_mul]⟩
  · split
    · exact le_refl _
    · rename_i hn; exact (not_le.mp hn).le
  · rw [h1, one_mul]
    split
    · exact le_refl _
    · rename_i hn; exact (not_le.mp hn).le

theorem DClipped.inside (hl : 0 < E.arg.r .lam_min) (ht : 0 < E.arg.r .t_min) {s : DIpm K} (h : DClipped E s) :
    DInside E.qp (dsolOf s.core) :=
  fun j hj => ⟨ht.trans_le (h j hj).1, fun h1 => hl.trans_le ((h j hj).2.1 h1), (h j hj).2.2⟩

/-- settings under which the initialisation is interior -/
def DInitOk : Prop :=
  (E.arg.i .warm_start < 2 ∧ 0 < E.arg.r .mu0 ∧ 0 < E.sq (E.arg.r .mu0) ∧ E.sq (E.arg.r .mu0) * E.sq (E.arg.r .mu0) = E.arg.r .mu0) ∨
  E.arg.i .warm_start = 2 ∨ (3 ≤ E.arg.i .warm_start ∧ 0 < E.arg.r .t0_min ∧ 0 < E.arg.r .lam0_min)

theorem dinitVar_pos (hi : DInitOk E) (sol : DqSol K) (j : ℕ) (hj : j < E.qp.dim.nct) :
    0 < (dinitVar E.sq E.qp E.arg sol).t j ∧ 0 < (dinitVar E.sq E.qp E.arg sol).lam j := by
  rcases hi with ⟨h1, h2, h3, h4⟩ | h | ⟨h1, h2, h3⟩
  · obtain ⟨a, b, -⟩ := dinitVar_interior E.sq E.qp E.arg sol h1 h2 h3 h4 j hj
    exact ⟨a, b⟩
  · obtain ⟨a, b⟩ := (dinitVar_warm E.sq E.qp E.arg sol (by omega)).2.2 j hj
    rw [a, b, h]
    simp only [if_true]
    exact ⟨lt_max_of_lt_left (by norm_num), lt_max_of_lt_left (by norm_num)⟩
  · obtain ⟨a, b⟩ := (dinitVar_warm E.sq E.qp E.arg sol (by omega)).2.2 j hj
    rw [a, b]
    rw [if_neg (by omega), if_neg (by omega)]
    exact ⟨lt_max_of_lt_left h2, lt_max_of_lt_left h3⟩

theorem dipmInit_inside (hi : DInitOk E) {s : DIpm K} (h : DReady E s) : DInside E.qp (dsolOf (dipmInit E s).core) := by
  have hr : DReady E { s with core := dputSol (dinitVar E.sq E.qp E.arg (dsolOf s.core)) s.core } :=
    ⟨h.nc, h.mask, h.lam_min, h.t_min, h.clip, h.split⟩
  intro j hj
  obtain ⟨e1, e2⟩ := dmaskLam_val E hr j hj
  obtain ⟨p1, p2⟩ := dinitVar_pos E hi (dsolOf s.core) j hj
  show 0 < (dmaskLam E { s with core := dputSol (dinitVar E.sq E.qp E.arg (dsolOf s.core)) s.core }).core.t j ∧
    (E.qp.d_mask j = 1 → 0 < (dmaskLam E { s with core := dputSol (dinitVar E.sq E.qp E.arg (dsolOf s.core)) s.core }).core.lam j) ∧
    (E.qp.d_mask j = 0 → (dmaskLam E { s with core := dputSol (dinitVar E.sq E.qp E.arg (dsolOf s.core)) s.core }).core.lam j = 0)
  rw [e1, e2]
  exact ⟨p1, fun h1 => by rw [h1, one_mul]; exact p2, fun h0 => by rw [h0, zero_mul]⟩

theorem dabsMu_it (s : DIpm K) : dsolOf (dabsMu E s).core = dsolOf s.core := by
  unfold dabsMu dmaskResM
  dsimp only
  split <;> rfl

theorem drelStart_it (s : DIpm K) : dsolOf (drelStart E s).core = dsolOf s.core := by
  unfold drelStart
  extract_lets s1 c2 s2
  split <;> rfl

/-- the state in which the iteration loop starts -/
def dstartState (sol : DqSol K) (s : DIpm K) : DIpm K :=
  if E.arg.i .abs_form ≠ 0 then dabsMu E (dipmInit E (dprologue E sol s)) else drelStart E (dipmInit E (dprologue E sol s))

/-- one pass of the loop of the selected formulation -/
def dpassOf (kk : ℕ) (s : DIpm K) : Option (DIpm K) := if E.arg.i .abs_form ≠ 0 then dabsBody E kk s else drelBody E kk s

/-- the loop guard of the selected formulation -/
def dguardOf (s : DIpm K) : Bool :=
  if E.arg.i .abs_form ≠ 0 then contAbs E.arg.toIpmArg (dobs E s) else contRel E.arg.toIpmArg (dobs E s)

theorem dpass_upd (kk : ℕ) (s s' : DIpm K) (h : dpassOf E kk s = some s') :
    ∃ s1, DKeep s s1 ∧ dsolOf s'.core = dsolOf (dupdStep E s1).core ∧ DStay s s' := by
  unfold dpassOf at h
  split at h
  · refine (dabsStep_upd E kk s _ (Option.map_eq_some_iff.mp h).choose_spec.1).elim fun s1 hs => ⟨s1, hs.1, ?_, dabsBody_same E kk s s' h⟩
    have e := (Option.map_eq_some_iff.mp h).choose_spec.2
    rw [← e]
    simp only [dputG_core]
    rw [dabsMu_it, hs.2]
  · refine (ddeltaStep_upd E kk s _ (Option.map_eq_some_iff.mp h).choose_spec.1).elim fun s1 hs => ⟨s1, hs.1, ?_, drelBody_same E kk s s' h⟩
    have e := (Option.map_eq_some_iff.mp h).choose_spec.2
    rw [← e]
    simp only [dputG_core, dputG4_core]
    rw [← hs.2]
    rfl

theorem DReady.keep {s s' : DIpm K} (h : DReady E s) (hk : DKeep s s') : DReady E s' := h.of E hk.core.pars hk.mask

theorem dstart_stay (sol : DqSol K) (s : DIpm K) : DStay (dipmInit E (dprologue E sol s)) (dstartState E sol s) ∧
    dsolOf (dstartState E sol s).core = dsolOf (dipmInit E (dprologue E sol s)).core := by
  unfold dstartState
  split
  · exact ⟨dabsMu_same E _, dabsMu_it E _⟩
  · exact ⟨drelStart_same E _, drelStart_it E _⟩

/-- **C75** Every iterate of the dense solver, from the initial one on, has positive slacks, positive multipliers of active
constraints and zero multipliers of masked constraints: in both formulations, for every problem (convex or not), every search
direction and step length, as long as clipping is on (`t_lam_min = 2`). -/
theorem dipm_iterates_inside (hm : DMask01 E.qp) (hi : DInitOk E) (hc : E.arg.i .t_lam_min = 2) (hl : 0 < E.arg.r .lam_min)
    (ht : 0 < E.arg.r .t_min) (sol : DqSol K) (s : DIpm K) (hnc : s.core.nc = E.qp.dim.nct)
    (n : ℕ) (f : ℕ → DIpm K) (h0 : f 0 = dstartState E sol s) (hrun : Run (dguardOf E) (dpassOf E) (E.arg.i .iter_max) n f) :
    ∀ i, i ≤ n → DInside E.qp (dsolOf (f i).core) ∧ (0 < i → DClipped E (f i)) := by
  have key : ∀ i, i ≤ n → DReady E (f i) ∧ DInside E.qp (dsolOf (f i).core) ∧ (0 < i → DClipped E (f i)) := by
    intro i
    induction i with
    | zero =>
      intro _
      obtain ⟨k1, k2⟩ := dstart_stay E sol s
      rw [h0, k2]
      exact ⟨(dipmInit_ready E (dprologue_ready E hm sol s hnc)).stay E k1, dipmInit_inside E hi (dprologue_ready E hm sol s hnc),
        fun h => absurd h (lt_irrefl _)⟩
    | succ i ih =>
      intro hin
      obtain ⟨r1, -, -⟩ := ih (by omega)
      obtain ⟨s1, hk, he, hp⟩ := dpass_upd E i _ _ (hrun i (by omega)).2.2
      have hcl : DClipped E (f (i + 1)) := by
        have h1 := dupdStep_clipped E (r1.keep E hk) hc
        intro j hj
        have et : (f (i + 1)).core.t = (dupdStep E s1).core.t := congrArg DqSol.t he
        have el : (f (i + 1)).core.lam = (dupdStep E s1).core.lam := congrArg DqSol.lam he
        rw [et, el]
        exact h1 j hj
      exact ⟨r1.stay E hp, hcl.inside E hl ht, fun _ => hcl⟩
  exact fun i hin => (key i hin).2

/-- the returned solution is the last iterate of the run -/
theorem dipm_run (lf : ℕ) (sol : DqSol K) (s : DIpm K) (o : DSolveOut K) (hc : dncMask E.qp s.core.nc ≠ 0)
    (h : dipmSolve E lf sol s = some o) : ∃ f : ℕ → DIpm K, f 0 = dstartState E sol s ∧
      Run (dguardOf E) (dpassOf E) (E.arg.i .iter_max) o.iter f ∧
      dsolOf o.s.core = dsolOf (f o.iter).core := by
  unfold dipmSolve at h
  simp only at h
  obtain ⟨o', ho, rfl⟩ := Option.map_eq_some_iff.mp h
  clear h; rename' ho => h
  have hnc0 : s.core.nc ≠ 0 := by
    intro e
    apply hc
    rw [e]; rfl
  rw [if_neg (by rintro (h1 | h1); exacts [hnc0 h1, hc h1])] at h
  have hend : ∀ kk x, dsolOf (dabsEnd E kk x).core = dsolOf x.core := by
    intro kk x
    unfold dabsEnd
    split
    · extract_lets s1
      split <;> rfl
    · rfl
  rw [dobjStep_iter, dobjStep_core]
  by_cases ha : E.arg.i .abs_form ≠ 0
  · rw [if_pos ha] at h
    obtain ⟨r, hr, rfl⟩ := Option.map_eq_some_iff.mp h
    obtain ⟨⟨f, f0, fr, hrun⟩, -⟩ := ipmLoop_run _ _ _ _ _ _ hr
    refine ⟨f, ?_, ?_, ?_⟩
    · rw [f0]; unfold dstartState; rw [if_pos ha]
    · intro i hi
      obtain ⟨a, b, c⟩ := hrun i hi
      exact ⟨a, by unfold dguardOf; rw [if_pos ha]; exact b, by unfold dpassOf; rw [if_pos ha]; exact c⟩
    · show _ = dsolOf (f r.1).core
      rw [fr, (depilogue_obs E (r.1, dabsEnd E r.1 r.2)).1, hend]
  · rw [if_neg ha] at h
    obtain ⟨r, hr, rfl⟩ := Option.map_eq_some_iff.mp h
    obtain ⟨⟨f, f0, fr, hrun⟩, -⟩ := ipmLoop_run _ _ _ _ _ _ hr
    refine ⟨f, ?_, ?_, ?_⟩
    · rw [f0]; unfold dstartState; rw [if_neg ha]
    · intro i hi
      obtain ⟨a, b, c⟩ := hrun i hi
      exact ⟨a, by unfold dguardOf; rw [if_neg ha]; exact b, by unfold dpassOf; rw [if_neg ha]; exact c⟩
    · show _ = dsolOf (f r.1).core
      rw [fr, (depilogue_obs E r).1]

/-- **C75** The returned solution: positive slacks and multipliers, zero multipliers of masked constraints, whatever the
exit status. -/
theorem dipm_solution_inside (hm : DMask01 E.qp) (hi : DInitOk E) (hcl : E.arg.i .t_lam_min = 2) (hl : 0 < E.arg.r .lam_min)
    (ht : 0 < E.arg.r .t_min) (lf : ℕ) (sol : DqSol K) (s : DIpm K) (o : DSolveOut K)
    (hnc : s.core.nc = E.qp.dim.nct) (hc : dncMask E.qp s.core.nc ≠ 0)
    (h : dipmSolve E lf sol s = some o) : DInside E.qp (dsolOf o.s.core) := by
  obtain ⟨f, f0, hrun, he⟩ := dipm_run E lf sol s o hc h
  rw [he]
  exact (dipm_iterates_inside E hm hi hcl hl ht sol s hnc o.iter f f0 hrun o.iter (le_refl _)).1

/-! ### status -/

/-- total masked complementarity of a solution, `sum |lam*t - m|` over the constraints that are not masked out -/
def dcompSum (qp : DenseQp K) (sol : DqSol K) : K :=
  ∑ j ∈ range qp.dim.nct, if qp.d_mask j = 1 then |sol.lam j * sol.t j - qp.m j| else 0

/-- number of constraints that are not masked out -/
def dcompCount (qp : DenseQp K) : ℕ := ∑ j ∈ range qp.dim.nct, if qp.d_mask j = 1 then 1 else 0

theorem dncMask_sum (qp : DenseQp K) (n : ℕ) : dncMask qp n = ∑ i ∈ range n, if qp.d_mask i ≠ 0 then 1 else 0 := by
  refine loop_inv (S := ℕ) (fun m x => x = ∑ i ∈ range m, if qp.d_mask i ≠ 0 then 1 else 0) n _ 0 rfl ?_
  intro i x _ hx
  rw [sum_range_succ, ← hx]
  split <;> rfl

/-- the counter of the solver counts the constraints that are not masked out -/
theorem dncMask_count (qp : DenseQp K) (hm : DMask01 qp) : dncMask qp qp.dim.nct = dcompCount qp := by
  rw [dncMask_sum]
  refine sum_congr rfl fun j hj => ?_
  rcases hm j (mem_range.mp hj) with h | h <;> simp [h]

/-- `mu` of the absolute formulation is the mean complementarity of the iterate -/
theorem dabsMu_mu (hm : DMask01 E.qp) {s : DIpm K} (h : DReady E s) :
    (dabsMu E s).core.mu = dcompSum E.qp (dsolOf s.core) * s.core.nc_mask_inv := by
  have hv : ∀ i, i < s.core.nc → (dmaskResM E { s with core := { s.core with
      res_m := axpy s.core.nc (-1) E.qp.m 0 (vecmul s.core.nc s.core.lam 0 s.core.t 0 s.core.res_m 0) 0
        (vecmul s.core.nc s.core.lam 0 s.core.t 0 s.core.res_m 0) 0 } }).core.res_m i =
      E.qp.d_mask i * (s.core.lam i * s.core.t i - E.qp.m i) := by
    intro i hi
    have hbase : axpy s.core.nc (-1) E.qp.m 0 (vecmul s.core.nc s.core.lam 0 s.core.t 0 s.core.res_m 0) 0
        (vecmul s.core.nc s.core.lam 0 s.core.t 0 s.core.res_m 0) 0 i = s.core.lam i * s.core.t i - E.qp.m i := by
      unfold axpy vecmul
      simp only [Nat.zero_add, Nat.sub_zero, Nat.zero_le, true_and, if_pos hi]
      ring
    unfold dmaskResM
    split
    · refine Eq.trans (vecmul_at0 s.core.nc _ _ _ i hi) ?_
      exact congrArg (E.qp.d_mask i * ·) hbase
    · rename_i hb
      rw [h.mask (by simpa using hb) i (by rw [← h.nc]; exact hi), one_mul]
      exact hbase
  unfold dabsMu
  simp only
  have hpars : ∀ x : DIpm K, (dmaskResM E x).core.nc = x.core.nc ∧ (dmaskResM E x).core.nc_mask_inv = x.core.nc_mask_inv := by
    intro x; unfold dmaskResM; split <;> exact ⟨rfl, rfl⟩
  rw [(hpars _).1, (hpars _).2]
  congr 1
  unfold vecnrm1
  simp only [Nat.zero_add]
  rw [sum_congr rfl (g := fun i => |E.qp.d_mask i * (s.core.lam i * s.core.t i - E.qp.m i)|)
    (fun i hi => by rw [hv i (mem_range.mp hi)])]
  show ∑ i ∈ range s.core.nc, _ = _
  rw [h.nc]
  refine sum_congr rfl fun j hj => ?_
  rcases hm j (mem_range.mp hj) with h' | h'
  · simp [h']
  · simp only [h', if_true, one_mul]; rfl

theorem dipmInit_mask_inv (s : DIpm K) : (dipmInit E s).core.nc_mask_inv = s.core.nc_mask_inv := by
  unfold dipmInit dmaskLam
  simp only
  split <;> rfl

theorem DStay.inv {a b : DIpm K} (h : DStay a b) : b.core.nc_mask_inv = a.core.nc_mask_inv := by
  have := h.pars
  simp only [Hpipm.pars, Prod.mk.injEq] at this
  exact this.2.2.2.2.2.2.2.2.2

/-- mean complementarity is what `mu` holds after every pass of the absolute loop -/
theorem dabs_mu_inv (hm : DMask01 E.qp) (lf : ℕ) (sol : DqSol K) (s : DIpm K) (r : ℕ × DIpm K)
    (hnc : s.core.nc = E.qp.dim.nct) (hc : dncMask E.qp s.core.nc ≠ 0)
    (hr : ipmLoop (fun s => contAbs E.arg.toIpmArg (dobs E s)) (dabsBody E) (E.arg.i .iter_max) lf 0
      (dabsMu E (dipmInit E (dprologue E sol s))) = some r) :
    r.2.core.mu = dcompSum E.qp (dsolOf r.2.core) / (dcompCount E.qp : K) := by
  have hinv0 : (dprologue E sol s).core.nc_mask_inv = 1 / (dcompCount E.qp : K) := by
    have : (dprologue E sol s).core.nc_mask_inv = if dncMask E.qp s.core.nc = 0 then 0 else 1 / (dncMask E.qp s.core.nc : K) := rfl
    rw [this, if_neg hc, hnc, dncMask_count E.qp hm]
  have hp := dipmInit_ready E (dprologue_ready E hm sol s hnc)
  have key := ipmLoop_inv _ _ _ (fun x => DReady E x ∧ x.core.nc_mask_inv = 1 / (dcompCount E.qp : K) ∧
      x.core.mu = dcompSum E.qp (dsolOf x.core) / (dcompCount E.qp : K))
    (fun kk a b ha hb => by
      obtain ⟨h1, h2, -⟩ := ha
      have hst := dabsBody_same E kk a b hb
      refine ⟨h1.stay E hst, by rw [hst.inv, h2], ?_⟩
      unfold dabsBody at hb
      obtain ⟨s0, h0, rfl⟩ := Option.map_eq_some_iff.mp hb
      obtain ⟨s2, hk2, rfl⟩ := dabsStep_upd E kk a s0 h0
      simp only [dputG_core]
      have hr2 : DReady E (dupdStep E s2) := (h1.keep E hk2).of E (dupdStep_pars E s2) (dupdStep_rws E s2).2.1
      have hi2 : (dupdStep E s2).core.nc_mask_inv = 1 / (dcompCount E.qp : K) := by
        have := dupdStep_pars E s2
        simp only [pars, Prod.mk.injEq] at this
        rw [this.2.2.2.2.2.2.2.2.2]
        have := hk2.core.pars
        simp only [pars, Prod.mk.injEq] at this
        rw [this.2.2.2.2.2.2.2.2.2, h2]
      rw [dabsMu_mu E hm hr2, dabsMu_it, hi2, mul_one_div]) lf _ r
    ⟨hp.stay E (dabsMu_same E _), by rw [(dabsMu_same E _).inv, dipmInit_mask_inv, hinv0],
      by rw [dabsMu_mu E hm hp, dabsMu_it, dipmInit_mask_inv, hinv0, mul_one_div]⟩ hr
  exact key.2.2

/-- **C73** Without active constraints the dense solver reports success after zero iterations. -/
theorem dipm_unconstrained (lf : ℕ) (sol : DqSol K) (s : DIpm K)
    (hc : dncMask E.qp s.core.nc = 0) : ∃ o, dipmSolve E lf sol s = some o ∧ o.iter = 0 ∧ o.status = .SUCCESS := by
  unfold dipmSolve
  simp only
  rw [if_pos (Or.inr hc)]
  exact ⟨_, rfl, by rw [dobjStep_iter]; rfl, by rw [dobjStep_status]; rfl⟩

/-- **C73** The reported status, for a problem with active constraints: `MAX_ITER` exactly when the iteration limit was used
up, `MIN_STEP` exactly when it was not and the last step was too short, `SUCCESS` otherwise (no NaN in exact arithmetic).  In
the absolute formulation `SUCCESS` means that the mean complementarity is within tolerance of `tau_min`; for the relative
formulation see `dipm_success`. -/
theorem dipm_status (hm : DMask01 E.qp) (lf : ℕ) (sol : DqSol K) (s : DIpm K) (o : DSolveOut K)
    (hnc : s.core.nc = E.qp.dim.nct) (hc : dncMask E.qp s.core.nc ≠ 0)
    (h : dipmSolve E lf sol s = some o) :
    (o.status = .MAX_ITER ↔ (o.iter : ℤ) = E.arg.i .iter_max) ∧
    (o.status = .MIN_STEP ↔ (o.iter : ℤ) ≠ E.arg.i .iter_max ∧
      (o.s.core.alpha_prim ≤ E.arg.r .alpha_min ∨ o.s.core.alpha_dual ≤ E.arg.r .alpha_min)) ∧
    (o.status = .MAX_ITER ∨ o.status = .MIN_STEP ∨ o.status = .SUCCESS) ∧
    (E.arg.i .abs_form ≠ 0 → 0 ≤ E.arg.i .iter_max → o.status = .SUCCESS →
      |dcompSum E.qp (dsolOf o.s.core) / (dcompCount E.qp : K) - E.arg.r .tau_min| ≤ E.arg.r .res_m_max) := by
  unfold dipmSolve at h
  simp only at h
  obtain ⟨o', ho, rfl⟩ := Option.map_eq_some_iff.mp h
  clear h; rename' ho => h
  rw [dobjStep_status, dobjStep_iter, dobjStep_core]
  have hnc0 : s.core.nc ≠ 0 := by
    intro e
    apply hc
    rw [e]; rfl
  rw [if_neg (by rintro (h1 | h1); exacts [hnc0 h1, hc h1])] at h
  have halpha : ∀ r : ℕ × DIpm K, (depilogue E r).s.core.alpha_prim = r.2.core.alpha_prim ∧
      (depilogue E r).s.core.alpha_dual = r.2.core.alpha_dual := by
    intro r
    unfold depilogue
    simp only
    split
    · have hs : seen (backupVar (computeGGamma r.2.core)) = seen r.2.core := by rw [backupVar_seen, computeGGamma_seen]
      simp only [seen, Prod.mk.injEq] at hs
      simp only [hs, and_self]
    · exact ⟨rfl, rfl⟩
  have hst : ∀ r : ℕ × DIpm K,
      ((depilogue E r).status = .MAX_ITER ↔ (r.1 : ℤ) = E.arg.i .iter_max) ∧
      ((depilogue E r).status = .MIN_STEP ↔ (r.1 : ℤ) ≠ E.arg.i .iter_max ∧
        ((depilogue E r).s.core.alpha_prim ≤ E.arg.r .alpha_min ∨
          (depilogue E r).s.core.alpha_dual ≤ E.arg.r .alpha_min)) ∧
      ((depilogue E r).status = .MAX_ITER ∨ (depilogue E r).status = .MIN_STEP ∨
        (depilogue E r).status = .SUCCESS) := by
    intro r
    rw [(depilogue_obs E r).2.2.2.1, (halpha r).1, (halpha r).2]
    unfold statusOf dobs Fl.le
    by_cases h1 : (r.1 : ℤ) = E.arg.i .iter_max
    · simp [h1]
    · by_cases h2 : r.2.core.alpha_prim ≤ E.arg.r .alpha_min ∨ r.2.core.alpha_dual ≤ E.arg.r .alpha_min
      · simp [h1, h2]
      · simp [h1, h2]
  by_cases ha : E.arg.i .abs_form ≠ 0
  · rw [if_pos ha] at h
    obtain ⟨r, hr, rfl⟩ := Option.map_eq_some_iff.mp h
    obtain ⟨p1, p2, p3⟩ := hst (r.1, dabsEnd E r.1 r.2)
    refine ⟨p1, p2, p3, fun _ hit hs => ?_⟩
    have hmu := dabs_mu_inv E hm lf sol s r hnc hc hr
    obtain ⟨-, hstop⟩ := ipmLoop_run _ _ _ _ _ _ hr
    have hle := ipmLoop_iter_le _ _ _ _ _ _ hr
    have hend : dsolOf (dabsEnd E r.1 r.2).core = dsolOf r.2.core ∧
        (dabsEnd E r.1 r.2).core.alpha_prim = r.2.core.alpha_prim ∧ (dabsEnd E r.1 r.2).core.alpha_dual = r.2.core.alpha_dual := by
      unfold dabsEnd
      split
      · extract_lets s1
        split <;> exact ⟨rfl, rfl, rfl⟩
      · exact ⟨rfl, rfl, rfl⟩
    rw [(depilogue_obs E _).1, hend.1, ← hmu]
    rw [hs] at p1 p2
    have n1 : ¬ (r.1 : ℤ) = E.arg.i .iter_max := fun e => by have := p1.mpr e; cases this
    have n2 : ¬ (r.2.core.alpha_prim ≤ E.arg.r .alpha_min ∨ r.2.core.alpha_dual ≤ E.arg.r .alpha_min) := by
      intro e
      have := p2.mpr ⟨n1, by rw [(halpha _).1, (halpha _).2, hend.2.1, hend.2.2]; exact e⟩
      cases this
    push Not at n2
    rcases hstop with hstop | hstop
    · exfalso
      rw [max_eq_left hit] at hle
      omega
    · unfold contAbs dobs at hstop
      simp only [Fl.gt, Option.map_some, gt_iff_lt, n2, decide_true, Bool.true_and, decide_eq_false_iff_not, not_lt] at hstop
      exact hstop
  · rw [if_neg ha] at h
    obtain ⟨r, hr, rfl⟩ := Option.map_eq_some_iff.mp h
    obtain ⟨p1, p2, p3⟩ := hst r
    exact ⟨p1, p2, p3, fun h => absurd h ha⟩

end
end Hpipm
