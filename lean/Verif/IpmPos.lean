/-
C31: every iterate of the solver stays in the interior.
-/
import Verif.IpmProps
import Verif.IpmInitProps
import Verif.IpmEx

namespace Hpipm
open Finset
set_option linter.unusedSectionVars false

section
variable {K : Type*} [Field K] [LinearOrder K] [IsStrictOrderedRing K] (E : Env K)

/-- number of nonzero masks: all of them iff the count is `n` -/
theorem ncMask_key (qp : OcpQp K) (n : ℕ) : ncMask qp n ≤ n ∧ (ncMask qp n = n → ∀ i, i < n → fmask qp i ≠ 0) := by
  refine loop_inv (S := ℕ) (fun n x => x ≤ n ∧ (x = n → ∀ i, i < n → fmask qp i ≠ 0)) n _ 0 ⟨le_refl _, fun _ i hi => by omega⟩ ?_
  intro i x _ ⟨h1, h2⟩
  by_cases hx : fmask qp i ≠ 0
  · simp only [if_pos hx]
    refine ⟨by omega, fun e j hj => ?_⟩
    by_cases hji : j = i
    · rw [hji]; exact hx
    · exact h2 (by omega) j (by omega)
  · simp only [if_neg hx]
    exact ⟨by omega, fun e => by omega⟩

/-- all slacks positive, multipliers of active constraints positive, of masked ones zero (stage-wise, as the caller reads
them from the solution object) -/
def Inside (s : Ipm K) : Prop :=
  ∀ k j, k ≤ E.qp.dim.N → j < 2 * E.qp.dim.nb k + 2 * E.qp.dim.ng k + 2 * E.qp.dim.ns k →
    0 < (solOf E.qp.dim s.core).t k j ∧ (E.qp.d_mask k j = 1 → 0 < (solOf E.qp.dim s.core).lam k j) ∧
      (E.qp.d_mask k j = 0 → (solOf E.qp.dim s.core).lam k j = 0)

/-- the same with the lower limits of the arguments -/
def Clipped (s : Ipm K) : Prop :=
  ∀ k j, k ≤ E.qp.dim.N → j < 2 * E.qp.dim.nb k + 2 * E.qp.dim.ng k + 2 * E.qp.dim.ns k →
    E.arg.r .t_min ≤ (solOf E.qp.dim s.core).t k j ∧
      (E.qp.d_mask k j = 1 → E.arg.r .lam_min ≤ (solOf E.qp.dim s.core).lam k j) ∧
      (E.qp.d_mask k j = 0 → (solOf E.qp.dim s.core).lam k j = 0)

/-- what the flags and parameters of the state must be; set by the prologue and kept -/
structure Ready (s : Ipm K) : Prop where
  nc : s.core.nc = stOff (nct E.qp.dim) (E.qp.dim.N + 1)
  mask : s.mask = false → ∀ k j, k ≤ E.qp.dim.N → j < nct E.qp.dim k → E.qp.d_mask k j = 1
  lam_min : s.core.lam_min = E.arg.r .lam_min
  t_min : s.core.t_min = E.arg.r .t_min
  clip : s.core.t_lam_min = (E.arg.i .t_lam_min).toNat
  split : s.core.split_step = if E.arg.i .split_step = 1 then 1 else 0

theorem Ready.of {s s' : Ipm K} (h : Ready E s) (hp : pars s'.core = pars s.core) (hm : s'.mask = s.mask) : Ready E s' := by
  simp only [pars, Prod.mk.injEq] at hp
  obtain ⟨-, -, h3, h4, h5, -, h7, h8, -, -⟩ := hp
  exact ⟨h3.trans h.nc, by rw [hm]; exact h.mask, h4.trans h.lam_min, h5.trans h.t_min, h7.trans h.clip, h8.trans h.split⟩

theorem Ready.keep {s s' : Ipm K} (h : Ready E s) (hk : Keep s s') : Ready E s' := h.of E hk.core.pars hk.mask

theorem prologue_ready (hm : Mask01 E.qp) (sol : Sol K) (s : Ipm K) (hnc : s.core.nc = stOff (nct E.qp.dim) (E.qp.dim.N + 1)) :
    Ready E (prologue E sol s) := by
  refine ⟨hnc, ?_, rfl, rfl, rfl, rfl⟩
  intro h
  have h1 : ¬ ncMask E.qp s.core.nc < s.core.nc := by
    have : (prologue E sol s).mask = decide (ncMask E.qp s.core.nc < s.core.nc) := rfl
    rw [this, decide_eq_false_iff_not] at h
    exact h
  have := ncMask_ok E.qp hm
  rw [← hnc] at this
  rcases this with h2 | h2
  · rw [decide_eq_true_eq] at h2; exact absurd h2 h1
  · exact h2

theorem ipmInit_pars (s : Ipm K) : (ipmInit E s).core.nc = s.core.nc ∧ (ipmInit E s).core.lam_min = s.core.lam_min ∧
    (ipmInit E s).core.t_min = s.core.t_min ∧ (ipmInit E s).core.t_lam_min = s.core.t_lam_min ∧
    (ipmInit E s).core.split_step = s.core.split_step := by
  unfold ipmInit maskLam
  simp only
  split <;> exact ⟨rfl, rfl, rfl, rfl, rfl⟩

theorem ipmInit_ready {s : Ipm K} (h : Ready E s) : Ready E (ipmInit E s) := by
  obtain ⟨h1, h2, h3, h4, h5⟩ := ipmInit_pars E s
  refine ⟨h1.trans h.nc, ?_, h2.trans h.lam_min, h3.trans h.t_min, h4.trans h.clip, h5.trans h.split⟩
  rw [(ipmInit_rws E s).2]
  exact h.mask

/-- masking of the multipliers, stage-wise -/
theorem maskLam_val {s : Ipm K} (h : Ready E s) (k j : ℕ) (hk : k ≤ E.qp.dim.N) (hj : j < nct E.qp.dim k) :
    (solOf E.qp.dim (maskLam E s).core).lam k j = E.qp.d_mask k j * (solOf E.qp.dim s.core).lam k j ∧
    (solOf E.qp.dim (maskLam E s).core).t k j = (solOf E.qp.dim s.core).t k j := by
  unfold maskLam
  split
  · refine ⟨?_, rfl⟩
    show vecmul s.core.nc (fmask E.qp) 0 s.core.lam 0 s.core.lam 0 (stOff (nct E.qp.dim) k + j) = _
    unfold vecmul
    have hlt := stOff_lt (len := nct E.qp.dim) (N := E.qp.dim.N) hk hj
    rw [← h.nc] at hlt
    rw [if_pos (by omega), Nat.sub_zero]; simp only [Nat.zero_add]
    unfold fmask
    rw [stFlat_at _ _ _ _ _ (show k < E.qp.dim.N + 1 by omega) hj]
    rfl
  · rename_i hb
    rw [h.mask (by simpa using hb) k j hk hj, one_mul]
    exact ⟨rfl, rfl⟩

/-- an update of the iterate with clipping lands above the limits, whatever the step -/
theorem updStep_clipped {s : Ipm K} (h : Ready E s) (hc : E.arg.i .t_lam_min = 2) : Clipped E (updStep E s) := by
  intro k j hk hj
  have hr : Ready E { s with core := updateVar s.core } := h.of E (updateVar_pars s.core) rfl
  obtain ⟨e1, e2⟩ := maskLam_val E hr k j hk hj
  have hv := updateVar_val s.core
  simp only at hv
  have hlt := stOff_lt (len := nct E.qp.dim) (N := E.qp.dim.N) hk hj
  rw [← h.nc] at hlt
  have hcl : s.core.t_lam_min = 2 := by rw [h.clip, hc]; rfl
  have el : (solOf E.qp.dim (updateVar s.core)).lam k j = (updateVar s.core).lam (stOff (nct E.qp.dim) k + j) := rfl
  have et : (solOf E.qp.dim (updateVar s.core)).t k j = (updateVar s.core).t (stOff (nct E.qp.dim) k + j) := rfl
  unfold updStep
  rw [e1, e2, el, et, hv.2.2.1, hv.2.2.2.1, if_pos hlt, if_pos hlt]
  simp only [hcl, true_and, h.lam_min, h.t_min]
  refine ⟨?_, fun h1 => ?_, fun h0 => by rw [h0, zero_mul]⟩
  · split
    · exact le_refl _
    · rename_i hn; exact (not_le.mp hn).le
  · rw [h1, one_mul]
    split
    · exact le_refl _
    · rename_i hn; exact (not_le.mp hn).le

theorem Clipped.inside (hl : 0 < E.arg.r .lam_min) (ht : 0 < E.arg.r .t_min) {s : Ipm K} (h : Clipped E s) : Inside E s :=
  fun k j hk hj => ⟨ht.trans_le (h k j hk hj).1, fun h1 => hl.trans_le ((h k j hk hj).2.1 h1), (h k j hk hj).2.2⟩

/-- the iterate of a state does not change -/
def SameIt (s s' : Ipm K) : Prop := s'.core.t = s.core.t ∧ s'.core.lam = s.core.lam

theorem Clipped.same {s s' : Ipm K} (h : Clipped E s) (e : SameIt s s') : Clipped E s' := by
  intro k j hk hj
  have e1 : (solOf E.qp.dim s'.core).t = (solOf E.qp.dim s.core).t := by unfold solOf; rw [e.1]
  have e2 : (solOf E.qp.dim s'.core).lam = (solOf E.qp.dim s.core).lam := by unfold solOf; rw [e.2]
  rw [e1, e2]; exact h k j hk hj

theorem Inside.same {s s' : Ipm K} (h : Inside E s) (e : SameIt s s') : Inside E s' := by
  intro k j hk hj
  have e1 : (solOf E.qp.dim s'.core).t = (solOf E.qp.dim s.core).t := by unfold solOf; rw [e.1]
  have e2 : (solOf E.qp.dim s'.core).lam = (solOf E.qp.dim s.core).lam := by unfold solOf; rw [e.2]
  rw [e1, e2]; exact h k j hk hj

/-- settings under which the initialisation is interior -/
def InitOk : Prop :=
  (E.arg.i .warm_start < 2 ∧ 0 < E.arg.r .mu0 ∧ 0 < E.sq (E.arg.r .mu0) ∧ E.sq (E.arg.r .mu0) * E.sq (E.arg.r .mu0) = E.arg.r .mu0) ∨
  E.arg.i .warm_start = 2 ∨ (3 ≤ E.arg.i .warm_start ∧ 0 < E.arg.r .t0_min ∧ 0 < E.arg.r .lam0_min)

theorem initVar_pos (hi : InitOk E) (sol : Sol K) (k j : ℕ) (hk : k ≤ E.qp.dim.N) (hj : j < nct E.qp.dim k) :
    0 < (initVar E.sq E.qp E.arg sol).t k j ∧ 0 < (initVar E.sq E.qp E.arg sol).lam k j := by
  rcases hi with ⟨h1, h2, h3, h4⟩ | h | ⟨h1, h2, h3⟩
  · obtain ⟨a, b, -⟩ := initVar_interior E.sq E.qp E.arg sol h1 h2 h3 h4 k j hk hj
    exact ⟨a, b⟩
  · obtain ⟨a, b⟩ := initVar_warm E.sq E.qp E.arg sol (by omega) k j hk hj
    rw [a, b, h]
    simp only [if_true]
    exact ⟨lt_max_of_lt_left (by norm_num), lt_max_of_lt_left (by norm_num)⟩
  · obtain ⟨a, b⟩ := initVar_warm E.sq E.qp E.arg sol (by omega) k j hk hj
    rw [a, b]
    rw [if_neg (by omega), if_neg (by omega)]
    exact ⟨lt_max_of_lt_left h2, lt_max_of_lt_left h3⟩

theorem ipmInit_inside (hm : Mask01 E.qp) (hi : InitOk E) {s : Ipm K} (h : Ready E s) : Inside E (ipmInit E s) := by
  have hr : Ready E { s with core := putSol E.qp.dim (initVar E.sq E.qp E.arg (solOf E.qp.dim s.core)) s.core } :=
    ⟨h.nc, h.mask, h.lam_min, h.t_min, h.clip, h.split⟩
  intro k j hk hj
  obtain ⟨e1, e2⟩ := maskLam_val E hr k j hk hj
  obtain ⟨p1, p2⟩ := initVar_pos E hi (solOf E.qp.dim s.core) k j hk hj
  have el : (solOf E.qp.dim (putSol E.qp.dim (initVar E.sq E.qp E.arg (solOf E.qp.dim s.core)) s.core)).lam k j =
      (initVar E.sq E.qp E.arg (solOf E.qp.dim s.core)).lam k j := stFlat_at _ _ _ _ _ (by omega) hj
  have et : (solOf E.qp.dim (putSol E.qp.dim (initVar E.sq E.qp E.arg (solOf E.qp.dim s.core)) s.core)).t k j =
      (initVar E.sq E.qp E.arg (solOf E.qp.dim s.core)).t k j := stFlat_at _ _ _ _ _ (by omega) hj
  rw [el] at e1
  rw [et] at e2
  show 0 < (solOf E.qp.dim (maskLam E { s with core := putSol E.qp.dim (initVar E.sq E.qp E.arg (solOf E.qp.dim s.core)) s.core }).core).t k j ∧
    (E.qp.d_mask k j = 1 → 0 < (solOf E.qp.dim (maskLam E { s with core := putSol E.qp.dim (initVar E.sq E.qp E.arg (solOf E.qp.dim s.core)) s.core }).core).lam k j) ∧
    (E.qp.d_mask k j = 0 → (solOf E.qp.dim (maskLam E { s with core := putSol E.qp.dim (initVar E.sq E.qp E.arg (solOf E.qp.dim s.core)) s.core }).core).lam k j = 0)
  rw [e1, e2]
  exact ⟨p1, fun h1 => by rw [h1, one_mul]; exact p2, fun h0 => by rw [h0, zero_mul]⟩

theorem relBody_upd (kk : ℕ) (s s' : Ipm K) (h : relBody E kk s = some s') : ∃ s1, Keep s s1 ∧ SameIt (updStep E s1) s' := by
  unfold relBody at h
  obtain ⟨s0, h0, rfl⟩ := Option.map_eq_some_iff.mp h
  obtain ⟨s1, hk, rfl⟩ := deltaStep_upd E kk s s0 h0
  refine ⟨s1, hk, ?_⟩
  unfold SameIt
  simp only [putG_core, putG4_core]
  exact ⟨rfl, rfl⟩

theorem maskResM_it (s : Ipm K) : SameIt s (maskResM E s) ∧ pars (maskResM E s).core = pars s.core ∧ (maskResM E s).mask = s.mask := by
  unfold maskResM
  split <;> exact ⟨⟨rfl, rfl⟩, rfl, rfl⟩

theorem absMu_it (s : Ipm K) : SameIt s (absMu E s) ∧ pars (absMu E s).core = pars s.core ∧ (absMu E s).mask = s.mask := by
  unfold absMu
  extract_lets c rm rm' s1
  have h : SameIt s s1 ∧ pars s1.core = pars s.core ∧ s1.mask = s.mask := maskResM_it E _
  exact h

theorem absBody_upd (kk : ℕ) (s s' : Ipm K) (h : absBody E kk s = some s') :
    ∃ s1, Keep s s1 ∧ SameIt (updStep E s1) s' ∧ pars s'.core = pars s.core ∧ s'.mask = s.mask := by
  unfold absBody at h
  obtain ⟨s0, h0, rfl⟩ := Option.map_eq_some_iff.mp h
  obtain ⟨s1, hk, rfl⟩ := absStep_upd E kk s s0 h0
  refine ⟨s1, hk, ?_, ?_, ?_⟩
  · unfold SameIt
    simp only [putG_core]
    exact (absMu_it E _).1
  · simp only [putG_core]
    rw [(absMu_it E _).2.1, updStep_pars, hk.core.pars]
  · rw [putG_mask, (absMu_it E _).2.2, updStep_mask, hk.mask]

theorem relStart_it (s : Ipm K) : SameIt s (relStart E s) := by
  unfold relStart
  extract_lets s1 c2 s2
  split <;> exact ⟨rfl, rfl⟩

/-- the state in which the iteration loop starts -/
def startState (sol : Sol K) (s : Ipm K) : Ipm K :=
  if E.arg.i .abs_form ≠ 0 then absMu E (ipmInit E (prologue E sol s)) else relStart E (ipmInit E (prologue E sol s))

/-- one pass of the loop of the selected formulation -/
def passOf (kk : ℕ) (s : Ipm K) : Option (Ipm K) := if E.arg.i .abs_form ≠ 0 then absBody E kk s else relBody E kk s

/-- the loop guard of the selected formulation -/
def guardOf (s : Ipm K) : Bool := if E.arg.i .abs_form ≠ 0 then contAbs E.arg (obsRel E s) else contRel E.arg (obsRel E s)

theorem pass_upd (kk : ℕ) (s s' : Ipm K) (h : passOf E kk s = some s') :
    ∃ s1, Keep s s1 ∧ SameIt (updStep E s1) s' ∧ pars s'.core = pars s.core ∧ s'.mask = s.mask := by
  unfold passOf at h
  split at h
  · exact absBody_upd E kk s s' h
  · obtain ⟨s1, h1, h2⟩ := relBody_upd E kk s s' h
    obtain ⟨h3, h4⟩ := relBody_pars E kk s s' h
    exact ⟨s1, h1, h2, h3, h4⟩

theorem start_ready (hm : Mask01 E.qp) (sol : Sol K) (s : Ipm K) (hnc : s.core.nc = stOff (nct E.qp.dim) (E.qp.dim.N + 1)) :
    Ready E (startState E sol s) := by
  have h := ipmInit_ready E (prologue_ready E hm sol s hnc)
  unfold startState
  split
  · exact h.of E (absMu_it E _).2.1 (absMu_it E _).2.2
  · exact h.of E (relStart_pars E _).1 (relStart_pars E _).2

theorem start_inside (hm : Mask01 E.qp) (hi : InitOk E) (sol : Sol K) (s : Ipm K)
    (hnc : s.core.nc = stOff (nct E.qp.dim) (E.qp.dim.N + 1)) : Inside E (startState E sol s) := by
  have h := ipmInit_inside E hm hi (prologue_ready E hm sol s hnc)
  unfold startState
  split
  · exact h.same E (absMu_it E _).1
  · exact h.same E (relStart_it E _)

/-- **C31** Every iterate, from the initial one on, has positive slacks, positive multipliers of active constraints and
zero multipliers of masked constraints: in both formulations, for every problem (convex or not), every search direction
and step length, as long as clipping is on (`t_lam_min = 2`, the setting of all modes but the fastest). -/
theorem ipm_iterates_inside (hm : Mask01 E.qp) (hi : InitOk E) (hc : E.arg.i .t_lam_min = 2) (hl : 0 < E.arg.r .lam_min)
    (ht : 0 < E.arg.r .t_min) (sol : Sol K) (s : Ipm K) (hnc : s.core.nc = stOff (nct E.qp.dim) (E.qp.dim.N + 1))
    (n : ℕ) (f : ℕ → Ipm K) (h0 : f 0 = startState E sol s) (hrun : Run (guardOf E) (passOf E) (E.arg.i .iter_max) n f) :
    ∀ i, i ≤ n → Inside E (f i) ∧ (0 < i → Clipped E (f i)) := by
  have key : ∀ i, i ≤ n → Ready E (f i) ∧ Inside E (f i) ∧ (0 < i → Clipped E (f i)) := by
    intro i
    induction i with
    | zero => intro _; rw [h0]; exact ⟨start_ready E hm sol s hnc, start_inside E hm hi sol s hnc, fun h => absurd h (lt_irrefl _)⟩
    | succ i ih =>
      intro hin
      obtain ⟨r1, -, -⟩ := ih (by omega)
      obtain ⟨s1, hk, he, hp, hmk⟩ := pass_upd E i _ _ (hrun i (by omega)).2.2
      have hcl : Clipped E (f (i + 1)) := (updStep_clipped E (r1.keep E hk) hc).same E he
      exact ⟨r1.of E hp hmk, hcl.inside E hl ht, fun _ => hcl⟩
  exact fun i hin => (key i hin).2

/-- the returned solution is the last iterate of the run -/
theorem ipm_run (lf : ℕ) (sol : Sol K) (s : Ipm K) (o : SolveOut K) (hc : ncMask E.qp s.core.nc ≠ 0)
    (h : ipmSolve E lf sol s = some o) : ∃ f : ℕ → Ipm K, f 0 = startState E sol s ∧
      Run (guardOf E) (passOf E) (E.arg.i .iter_max) o.iter f ∧ SameIt (f o.iter) o.s ∧
      solOf E.qp.dim o.s.core = solOf E.qp.dim (f o.iter).core := by
  unfold ipmSolve at h
  simp only at h
  have hnc0 : s.core.nc ≠ 0 := by
    intro e
    apply hc
    rw [e]; rfl
  rw [if_neg (by rintro (h1 | h1); exacts [hnc0 h1, hc h1])] at h
  have hep : ∀ r : ℕ × Ipm K, SameIt r.2 (epilogue E (obsRel E) r).s ∧ solOf E.qp.dim (epilogue E (obsRel E) r).s.core = solOf E.qp.dim r.2.core := by
    intro r
    refine ⟨?_, (epilogue_obs E r).1⟩
    unfold epilogue
    simp only
    split
    · have hs : seen (backupVar (computeGGamma r.2.core)) = seen r.2.core := by rw [backupVar_seen, computeGGamma_seen]
      simp only [seen, Prod.mk.injEq] at hs
      exact ⟨hs.2.2.2.2.1, hs.2.2.2.1⟩
    · exact ⟨rfl, rfl⟩
  have hend : ∀ kk x, SameIt x (absEnd E kk x) ∧ solOf E.qp.dim (absEnd E kk x).core = solOf E.qp.dim x.core := by
    intro kk x
    unfold absEnd
    split
    · extract_lets s1
      split <;> exact ⟨⟨rfl, rfl⟩, rfl⟩
    · exact ⟨⟨rfl, rfl⟩, rfl⟩
  by_cases ha : E.arg.i .abs_form ≠ 0
  · rw [if_pos ha] at h
    obtain ⟨r, hr, rfl⟩ := Option.map_eq_some_iff.mp h
    obtain ⟨⟨f, f0, fr, hrun⟩, -⟩ := ipmLoop_run _ _ _ _ _ _ hr
    refine ⟨f, ?_, ?_, ?_, ?_⟩
    · rw [f0]; unfold startState; rw [if_pos ha]
    · intro i hi
      obtain ⟨a, b, c⟩ := hrun i hi
      exact ⟨a, by unfold guardOf; rw [if_pos ha]; exact b, by unfold passOf; rw [if_pos ha]; exact c⟩
    · show SameIt (f r.1) _
      rw [fr]
      exact ⟨(hep (r.1, absEnd E r.1 r.2)).1.1.trans (hend r.1 r.2).1.1, (hep (r.1, absEnd E r.1 r.2)).1.2.trans (hend r.1 r.2).1.2⟩
    · show _ = solOf E.qp.dim (f r.1).core
      rw [fr, (hep (r.1, absEnd E r.1 r.2)).2, (hend r.1 r.2).2]
  · rw [if_neg ha] at h
    obtain ⟨r, hr, rfl⟩ := Option.map_eq_some_iff.mp h
    obtain ⟨⟨f, f0, fr, hrun⟩, -⟩ := ipmLoop_run _ _ _ _ _ _ hr
    refine ⟨f, ?_, ?_, ?_, ?_⟩
    · rw [f0]; unfold startState; rw [if_neg ha]
    · intro i hi
      obtain ⟨a, b, c⟩ := hrun i hi
      exact ⟨a, by unfold guardOf; rw [if_neg ha]; exact b, by unfold passOf; rw [if_neg ha]; exact c⟩
    · show SameIt (f r.1) _
      rw [fr]; exact (hep r).1
    · show _ = solOf E.qp.dim (f r.1).core
      rw [fr, (hep r).2]

/-- **C31** The returned solution: positive slacks and multipliers, zero multipliers of masked constraints, whatever the
exit status. -/
theorem ipm_solution_inside (hm : Mask01 E.qp) (hi : InitOk E) (hcl : E.arg.i .t_lam_min = 2) (hl : 0 < E.arg.r .lam_min)
    (ht : 0 < E.arg.r .t_min) (lf : ℕ) (sol : Sol K) (s : Ipm K) (o : SolveOut K)
    (hnc : s.core.nc = stOff (nct E.qp.dim) (E.qp.dim.N + 1)) (hc : ncMask E.qp s.core.nc ≠ 0)
    (h : ipmSolve E lf sol s = some o) : Inside E o.s := by
  obtain ⟨f, f0, hrun, he, -⟩ := ipm_run E lf sol s o hc h
  exact ((ipm_iterates_inside E hm hi hcl hl ht sol s hnc o.iter f f0 hrun o.iter (le_refl _)).1).same E he

end

/-! The hypotheses of the theorems on whole solves are met by the run `exS_run` -/

theorem exIpEnv_keeps : exIpEnv.Keeps := by
  refine ⟨?_, ?_⟩
  · intro a b c d st h; cases h
  · intro a b st; exact MKeep.refl _ _

theorem exS_out : ∃ o, ipmSolve exIpEnv 5 exIpSol exIpIpm = some o ∧ o.iter = 1 ∧ o.status = .SUCCESS := by
  obtain ⟨o, ho, he⟩ := Option.map_eq_some_iff.mp exS_run
  simp only [Prod.mk.injEq] at he
  exact ⟨o, ho, he.1, he.2⟩

theorem exIpQp_wf : exIpQp.WF := by
  constructor
  · intro k j hk hj
    have : k = 0 ∨ k = 1 := by have : exIpQp.dim.N = 1 := rfl; omega
    rcases this with rfl | rfl
    · exact (by decide : 0 < 1 + 0)
    · simp [exIpQp, exIpDim] at hj
  · intro k j hk hj
    left; rfl

theorem exIpQp_mask : Mask01 exIpQp := fun _ _ _ _ => Or.inr rfl

/-- C29: the run makes at most `iter_max = 5` iterations -/
example : ∃ o, ipmSolve exIpEnv 5 exIpSol exIpIpm = some o ∧ (o.iter : ℤ) ≤ 5 := by
  obtain ⟨o, h, -, -⟩ := exS_out
  have := ipm_iter_le exIpEnv 5 exIpSol exIpIpm o h
  have e : exIpEnv.arg.i IArg.iter_max = 5 := rfl
  rw [e] at this
  exact ⟨o, h, by omega⟩

/-- C33 on the run -/
example : ∃ o, ipmSolve exIpEnv 5 exIpSol exIpIpm = some o ∧ o.s.oob = false := by
  obtain ⟨o, h, -, -⟩ := exS_out
  exact ⟨o, h, ipm_stat_inside exIpEnv 5 exIpSol exIpIpm rfl o h⟩

/-- C52 on the run: the Hessian block read back after the solve -/
example : ∃ o, ipmSolve exIpEnv 5 exIpSol exIpIpm = some o ∧
    OcpQp.getR .R 0 (qpAfter exIpEnv o) (fun _ => 0) 0 = OcpQp.getR .R 0 exIpQp (fun _ => 0) 0 := by
  obtain ⟨o, h, -, -⟩ := exS_out
  exact ⟨o, h, by rw [solve_getters exIpEnv exIpEnv_keeps 5 exIpSol exIpIpm o h]; rfl⟩

/-- C30 on the run: the dynamics residual of the returned solution is below its tolerance -/
example : ∃ o, ipmSolve exIpEnv 5 exIpSol exIpIpm = some o ∧
    |(resCompute exIpQp (solOf exIpDim o.s.core) exRes exWs).res_b 0 0| ≤ 1 / 10 := by
  obtain ⟨o, h, -, hs⟩ := exS_out
  refine ⟨o, h, ?_⟩
  exact (ipm_success exIpEnv exIpEnv_keeps exIpQp_wf exIpQp_mask 5 exIpSol exIpIpm o (by decide +kernel) (by decide +kernel) rfl
    (by decide) h hs exRes exWs (by intro h; cases h)).2.1 0 0 (by decide) (by decide)

/-- C31 on the run -/
example : ∃ o, ipmSolve exIpEnv 5 exIpSol exIpIpm = some o ∧ Inside exIpEnv o.s := by
  obtain ⟨o, h, -, -⟩ := exS_out
  refine ⟨o, h, ?_⟩
  refine ipm_solution_inside exIpEnv exIpQp_mask ?_ rfl (by decide +kernel) (by decide +kernel) 5 exIpSol exIpIpm o
    (by decide +kernel) (by decide +kernel) h
  exact Or.inl ⟨by decide, by decide +kernel, by decide +kernel, by decide +kernel⟩
end Hpipm
