/-
C67 on whole runs: the constraint violation of the iterates of a solve and of the returned solution.
-/
import Verif.IpmContract

namespace Hpipm
open Finset
set_option linter.unusedSectionVars false

section
variable {K : Type*} [Field K] [LinearOrder K] [IsStrictOrderedRing K]
variable (E : Env K)

/-- what every iterate of a run satisfies -/
structure PassInv (s : Ipm K) : Prop where
  pre : Pre E s
  nv : s.core.nv = stOff (nvt E.qp.dim) (E.qp.dim.N + 1)
  tmin : s.core.t_min = E.arg.r .t_min
  flag : s.rws.mask_constr = s.mask
  fresh : E.arg.i .abs_form = 0 → Fresh E s

theorem updStep_rws (s : Ipm K) : (updStep E s).rws = s.rws := by unfold updStep maskLam; split <;> rfl

theorem absMu_frame (s : Ipm K) : (absMu E s).rws = s.rws ∧ (absMu E s).core.v = s.core.v ∧ (absMu E s).core.pi = s.core.pi ∧
    (absMu E s).core.alpha_prim = s.core.alpha_prim ∧ (absMu E s).core.alpha_dual = s.core.alpha_dual := by
  unfold absMu
  extract_lets c rm rm' s1
  have h : s1.rws = s.rws ∧ s1.core.v = s.core.v ∧ s1.core.pi = s.core.pi ∧
      s1.core.alpha_prim = s.core.alpha_prim ∧ s1.core.alpha_dual = s.core.alpha_dual := by
    simp only [s1]
    unfold maskResM
    split <;> exact ⟨rfl, rfl, rfl, rfl, rfl⟩
  exact h

/-- slacks and multipliers are nonnegative and there are no complementarity targets -/
def NonNeg (s : Ipm K) : Prop := s.core.m_zero = true ∧ ∀ k j, k ≤ E.qp.dim.N → j < nct E.qp.dim k →
  0 ≤ (solOf E.qp.dim s.core).lam k j ∧ 0 ≤ (solOf E.qp.dim s.core).t k j

/-- a flat index belongs to a stage -/
theorem flat_split (len : ℕ → ℕ) : ∀ n i, i < stOff len n → ∃ k j, k < n ∧ j < len k ∧ i = stOff len k + j := by
  intro n
  induction n with
  | zero => intro i hi; simp [stOff] at hi
  | succ n ih =>
    intro i hi
    rw [stOff_succ] at hi
    by_cases h : i < stOff len n
    · obtain ⟨k, j, h1, h2, h3⟩ := ih i h
      exact ⟨k, j, by omega, h2, h3⟩
    · exact ⟨n, i - stOff len n, by omega, by omega, by omega⟩

/-- one pass of either loop -/
theorem pass_contracts (hwf : E.qp.WF) (hm : Mask01 E.qp) (hN : 1 ≤ E.qp.dim.N) (hE : E.Keeps) (hlq : E.lqf = 0 ∨ LqPrim E) (kk : ℕ) {s s' : Ipm K}
    (hi : PassInv E s) (h : passOf E kk s = some s') : PassInv E s' ∧ ∃ dt,
      Contracts E.qp (solOf E.qp.dim s.core) (solOf E.qp.dim s'.core) (shortStep s'.core).1 (E.arg.r .t_min) dt ∧
      (NonNeg E s → 0 ≤ (shortStep s'.core).1 ∧ (shortStep s'.core).1 ≤ 1 ∧ ∀ k j, k ≤ E.qp.dim.N → j < nct E.qp.dim k →
        0 ≤ (solOf E.qp.dim s.core).t k j + (shortStep s'.core).1 * dt k j) := by
  obtain ⟨-, -, -, hpars, hmask⟩ := pass_upd E kk s s' h
  -- the state in which the update is made
  obtain ⟨s1, hk, hl, hv, ht, hap, had, hrws, hkkt, hfr⟩ : ∃ s1, Keep s s1 ∧ Landing E s1 ∧ s'.core.v = (updStep E s1).core.v ∧
      s'.core.t = (updStep E s1).core.t ∧ s'.core.alpha_prim = (updStep E s1).core.alpha_prim ∧
      s'.core.alpha_dual = (updStep E s1).core.alpha_dual ∧ s'.rws = s.rws ∧ MK E s s' ∧ (E.arg.i .abs_form = 0 → Fresh E s') := by
    unfold passOf at h
    split at h
    · rename_i ha
      have hmk := absBody_mk E kk s s' h
      unfold absBody at h
      obtain ⟨s0, h0, rfl⟩ := Option.map_eq_some_iff.mp h
      obtain ⟨s1, k1, rfl, l1⟩ := absStep_end E hwf hm hN ha kk hi.pre hi.nv h0
      obtain ⟨f1, f2, f3, f4, f5⟩ := absMu_frame E (updStep E s1)
      refine ⟨s1, k1, l1, ?_, ?_, ?_, ?_, ?_, hmk, fun e => absurd e ha⟩
      · rw [putG_core]; exact f2
      · rw [putG_core]; exact (absMu_it E _).1.1
      · rw [putG_core]; exact f4
      · rw [putG_core]; exact f5
      · rw [putG_rws, f1, updStep_rws, k1.rws]
    · rename_i ha
      have ha : E.arg.i .abs_form = 0 := not_not.mp ha
      have hmk := relBody_mk E hE kk s s' h
      have hfr := relBody_fresh E kk s s' hi.flag h
      unfold relBody at h
      obtain ⟨s0, h0, rfl⟩ := Option.map_eq_some_iff.mp h
      obtain ⟨s1, k1, rfl, e1⟩ := deltaStep_end E hwf hm hN hE hlq kk hi.pre h0
      refine ⟨s1, k1, ⟨e1.dir.ok.sync, e1.al, lands_of_dir E hwf hm ha hi.pre.rows hi.pre.ws (hi.fresh ha) k1 e1.dir.dir⟩, ?_, ?_, ?_, ?_, ?_, hmk, fun _ => hfr⟩
      · simp only [putG_core, putG4_core]; rfl
      · simp only [putG_core, putG4_core]; rfl
      · simp only [putG_core, putG4_core]; rfl
      · simp only [putG_core, putG4_core]; rfl
      · rw [putG_rws, putG_rws]
        unfold putG4
        simp only [putG_rws]
        show (updStep E s1).rws = _
        rw [updStep_rws, k1.rws]
  have hpars' := hpars
  simp only [pars, Prod.mk.injEq] at hpars
  obtain ⟨p1, -, p3, -, p5, -⟩ := hpars
  have hal : s'.core.alpha_prim = s1.core.alpha_prim := by rw [hap, (updStep_sol E s1).2.2.1]; exact (updateVar_alpha s1.core).1
  have hal2 : s'.core.alpha_dual = s1.core.alpha_dual := by rw [had, (updStep_sol E s1).2.2.2]; exact (updateVar_alpha s1.core).2
  have hsh : shortStep s'.core = shortStep s1.core := by unfold shortStep; rw [hal, hal2]
  refine ⟨⟨⟨p3.trans hi.pre.nc, by rw [hrws]; exact hi.pre.ws, hi.pre.rows.mk' E hkkt⟩, p1.trans hi.nv, p5.trans hi.tmin,
    by rw [hrws, hmask]; exact hi.flag, hfr⟩, s1.kkt.t, ?_, ?_⟩
  · have c := upd_contracts E hwf (hk.core.nv.trans hi.nv) (hk.core.nc.trans hi.pre.nc) hl
    have e0 : (solOf E.qp.dim s1.core).ux = (solOf E.qp.dim s.core).ux := by simp only [solOf, hk.core.v]
    have e0' : (solOf E.qp.dim s1.core).t = (solOf E.qp.dim s.core).t := by simp only [solOf, hk.core.t]
    have e1 : (solOf E.qp.dim (updStep E s1).core).ux = (solOf E.qp.dim s'.core).ux := by simp only [solOf, hv]
    have e1' : (solOf E.qp.dim (updStep E s1).core).t = (solOf E.qp.dim s'.core).t := by simp only [solOf, ht]
    rw [hsh, ← hi.tmin, ← hk.core.t_min]
    refine ⟨fun k i hk hi => ?_, fun k j hk hj hmm => ?_, fun k j hk hj => ?_⟩
    · have := c.dyn k i hk hi
      rw [vB_lin, vB_lin, e0, e1] at this
      rw [vB_lin, vB_lin]; exact this
    · have := c.con k j hk hj hmm
      rw [vD_lin, vD_lin, e0, e1, e0', e1'] at this
      rw [vD_lin, vD_lin]; exact this
    · have := c.slk k j hk hj
      rw [e0', e1'] at this
      exact this
  · rintro ⟨hz, hn⟩
    obtain ⟨c, a1, a2, a3, a4, a5, a6, a7, a8, -⟩ := hl.al
    have hflat : ∀ i, i < c.nc → 0 ≤ c.lam i ∧ 0 ≤ c.t i := by
      intro i hic
      rw [a1, hk.core.nc, hi.pre.nc] at hic
      obtain ⟨k, j, b1, b2, rfl⟩ := flat_split _ _ _ hic
      rw [a2, a3, hk.core.t, hk.core.lam]
      exact hn k j (by omega) b2
    obtain ⟨r0, r1, r2⟩ := alpha_prim_ok E.sq c (by rw [a6, hk.core.m_zero]; exact hz) (fun i hi => (hflat i hi).1) (fun i hi => (hflat i hi).2)
    rw [← a8, ← hal] at r0 r1 r2
    obtain ⟨q0, q1⟩ := short_range s'.core r0 r1
    refine ⟨q0, q1.trans r1, fun k j hkN hj => ?_⟩
    have hlt := stOff_lt (len := nct E.qp.dim) (N := E.qp.dim.N) hkN hj
    have hin : stOff (nct E.qp.dim) k + j < c.nc := by rw [a1, hk.core.nc, hi.pre.nc]; exact hlt
    have e := r2 _ hin
    rw [a4, hl.sync.t k j hkN hj] at e
    have e2 : c.t (stOff (nct E.qp.dim) k + j) = (solOf E.qp.dim s.core).t k j := by rw [a2, hk.core.t]; rfl
    rw [e2] at e
    exact convex_nonneg (hn k j hkN hj).2 e q0 q1

/-- the state in which the loop starts -/
theorem start_inv (hm : Mask01 E.qp) (sol : Sol K) (s : Ipm K) (hnv : s.core.nv = stOff (nvt E.qp.dim) (E.qp.dim.N + 1))
    (hnc : s.core.nc = stOff (nct E.qp.dim) (E.qp.dim.N + 1)) : PassInv E (startState E sol s) ∧
      (startState E sol s).core.m_zero = decide (vecnrmInf s.core.nc (fm E.qp) 0 = 0) := by
  have hi0 := ipmInit_rws E (prologue E sol s)
  set x := ipmInit E (prologue E sol s) with hx
  have hmk : MK E (prologue E sol s) x := by
    rw [hx]
    unfold ipmInit
    extract_lets D s1
    exact MK.ofEq E (maskLam_kkt E _)
  have hrows : Rows E x := Rows.mk' E (s := prologue E sol s) (fun _ _ _ _ => rfl) hmk
  have hc : x.core.nv = s.core.nv ∧ x.core.nc = s.core.nc ∧ x.core.t_min = E.arg.r .t_min ∧ x.core.m_zero = decide (vecnrmInf s.core.nc (fm E.qp) 0 = 0) := by
    rw [hx]
    unfold ipmInit
    extract_lets D s1
    have h1 : s1.core.nv = s.core.nv ∧ s1.core.nc = s.core.nc ∧ s1.core.t_min = E.arg.r .t_min := by
      simp only [s1]
      unfold maskLam
      split <;> exact ⟨rfl, rfl, rfl⟩
    exact ⟨h1.1, h1.2.1, h1.2.2, by show decide (vecnrmInf s1.core.nc _ 0 = 0) = _; rw [h1.2.1]⟩
  have hws : x.rws.Ok E.qp := by
    intro _
    rw [hi0.1]
    have := ncMask_ok E.qp hm
    rw [← hnc] at this
    exact this
  have hflag : x.rws.mask_constr = x.mask := by rw [hi0.1, hi0.2]; rfl
  unfold startState
  rw [← hx]
  split
  · rename_i ha
    obtain ⟨f1, -⟩ := absMu_frame E x
    obtain ⟨-, g2, g3⟩ := absMu_it E x
    simp only [pars, Prod.mk.injEq] at g2
    obtain ⟨p1, -, p3, -, p5, -, -, -, p9, -⟩ := g2
    refine ⟨⟨⟨(p3.trans hc.2.1).trans hnc, by rw [f1]; exact hws, hrows.mk' E (absMu_mk E x)⟩, (p1.trans hc.1).trans hnv, p5.trans hc.2.2.1,
      by rw [f1, g3]; exact hflag, fun e => absurd e ha⟩, p9.trans hc.2.2.2⟩
  · have hf := relStart_fresh E x hflag
    obtain ⟨g2, g3⟩ := relStart_pars E x
    simp only [pars, Prod.mk.injEq] at g2
    obtain ⟨p1, -, p3, -, p5, -, -, -, p9, -⟩ := g2
    have f1 : (relStart E x).rws = x.rws := by
      unfold relStart
      extract_lets s1 c2 s2
      split <;> rfl
    refine ⟨⟨⟨(p3.trans hc.2.1).trans hnc, by rw [f1]; exact hws, hrows.mk' E (MK.ofEq E (relStart_kkt E x))⟩, (p1.trans hc.1).trans hnv, p5.trans hc.2.2.1,
      hf.mask, fun _ => hf⟩, p9.trans hc.2.2.2⟩

/-- all iterates of a run -/
theorem run_inv (hwf : E.qp.WF) (hm : Mask01 E.qp) (hN : 1 ≤ E.qp.dim.N) (hE : E.Keeps) (hlq : E.lqf = 0 ∨ LqPrim E) (sol : Sol K) (s : Ipm K)
    (hnv : s.core.nv = stOff (nvt E.qp.dim) (E.qp.dim.N + 1)) (hnc : s.core.nc = stOff (nct E.qp.dim) (E.qp.dim.N + 1))
    (n : ℕ) (f : ℕ → Ipm K) (h0 : f 0 = startState E sol s) (hrun : Run (guardOf E) (passOf E) (E.arg.i .iter_max) n f) :
    ∀ i, i ≤ n → PassInv E (f i) ∧ (f i).core.m_zero = decide (vecnrmInf s.core.nc (fm E.qp) 0 = 0) := by
  intro i
  induction i with
  | zero => intro _; rw [h0]; exact start_inv E hm sol s hnv hnc
  | succ i ih =>
    intro hin
    obtain ⟨a1, a2⟩ := ih (by omega)
    have hb := (hrun i (by omega)).2.2
    refine ⟨(pass_contracts E hwf hm hN hE hlq i a1 hb).1, ?_⟩
    obtain ⟨-, -, -, hpars, -⟩ := pass_upd E i _ _ hb
    simp only [pars, Prod.mk.injEq] at hpars
    rw [hpars.2.2.2.2.2.2.2.2.1]; exact a2

/-- residuals of a point of the caller's problem, as OCP_QP_RES_COMPUTE returns them -/
abbrev resAt (res0 : Res K) (ws0 : ResWs K) (x : Ipm K) : Res K := resCompute E.qp (solOf E.qp.dim x.core) res0 ws0

theorem res_contracts (hwf : E.qp.WF) (hm : Mask01 E.qp) (res0 : Res K) (ws0 : ResWs K) (hws : ws0.Ok E.qp) {z z' : Sol K} {a tmin : K} {dt : ℕ → Vec K}
    (h : Contracts E.qp z z' a tmin dt) :
    (∀ k i, k < E.qp.dim.N → i < E.qp.dim.nx (k + 1) →
      (resCompute E.qp z' res0 ws0).res_b k i = (1 - a) * (resCompute E.qp z res0 ws0).res_b k i) ∧
    (∀ k j, k ≤ E.qp.dim.N → j < nct E.qp.dim k → (z'.t k j = z.t k j + a * dt k j ∨ E.qp.d_mask k j = 0) →
      (resCompute E.qp z' res0 ws0).res_d k j = (1 - a) * (resCompute E.qp z res0 ws0).res_d k j) ∧
    (∀ k j, k ≤ E.qp.dim.N → j < nct E.qp.dim k → (z'.t k j ≠ z.t k j + a * dt k j ∧ E.qp.d_mask k j = 1) →
      z'.t k j = tmin ∧ z.t k j + a * dt k j < tmin ∧
      (resCompute E.qp z' res0 ws0).res_d k j = (1 - a) * (resCompute E.qp z res0 ws0).res_d k j + (tmin - (z.t k j + a * dt k j))) := by
  have v := (resCompute_val E.qp hwf z res0 ws0 hws).1
  have v' := (resCompute_val E.qp hwf z' res0 ws0 hws).1
  refine ⟨fun k i hk hi => ?_, fun k j hk hj hc => ?_, fun k j hk hj hc => ?_⟩
  · rw [(v' k hk.le).1.b hk i hi, (v k hk.le).1.b hk i hi, h.dyn k i hk hi]
  · rw [(v' k hk).1.d j hj, (v k hk).1.d j hj]
    rcases hm k j hk hj with h0 | h0
    · rw [h0]; ring
    · rcases hc with hc | hc
      · rw [h.con k j hk hj h0, hc]; ring
      · rw [hc] at h0; exact absurd h0 zero_ne_one
  · rcases h.slk k j hk hj with h1 | ⟨h1, h2⟩
    · exact absurd h1 hc.1
    · refine ⟨h2, lt_of_le_of_ne h1 (fun e => hc.1 (h2.trans e.symm)), ?_⟩
      rw [(v' k hk).1.d j hj, (v k hk).1.d j hj, hc.2, h.con k j hk hj hc.2, h2]; ring

/-- **C67** Every iteration multiplies *all* dynamics residuals by one and the same factor `1 - a`, where `a` is the primal step
length of the iteration shortened as documented, and so are the inequality residuals, except those whose slack was raised to the
lower limit `t_min`; the dynamics residual of the returned solution is the product of the factors times that of the initial
iterate.  For every problem (convex or not), both formulations, with or without predictor-corrector, refinement, masks, and
whatever the quality of the factorisation. -/
theorem ipm_contraction (hwf : E.qp.WF) (hm : Mask01 E.qp) (hN : 1 ≤ E.qp.dim.N) (hE : E.Keeps) (hlq : E.lqf = 0 ∨ LqPrim E) (lf : ℕ) (sol : Sol K) (s : Ipm K)
    (hnv : s.core.nv = stOff (nvt E.qp.dim) (E.qp.dim.N + 1)) (hnc : s.core.nc = stOff (nct E.qp.dim) (E.qp.dim.N + 1)) (o : SolveOut K)
    (hc : ncMask E.qp s.core.nc ≠ 0) (h : ipmSolve E lf sol s = some o) (res0 : Res K) (ws0 : ResWs K) (hws : ws0.Ok E.qp) :
    ∃ f : ℕ → Ipm K, f 0 = startState E sol s ∧ Run (guardOf E) (passOf E) (E.arg.i .iter_max) o.iter f ∧
      solOf E.qp.dim o.s.core = solOf E.qp.dim (f o.iter).core ∧
      (∀ n, n < o.iter →
        (∀ k i, k < E.qp.dim.N → i < E.qp.dim.nx (k + 1) → (resAt E res0 ws0 (f (n + 1))).res_b k i =
          (1 - (shortStep (f (n + 1)).core).1) * (resAt E res0 ws0 (f n)).res_b k i) ∧
        (∀ k j, k ≤ E.qp.dim.N → j < nct E.qp.dim k → (resAt E res0 ws0 (f (n + 1))).res_d k j =
            (1 - (shortStep (f (n + 1)).core).1) * (resAt E res0 ws0 (f n)).res_d k j ∨
          ((solOf E.qp.dim (f (n + 1)).core).t k j = E.arg.r .t_min ∧ (1 - (shortStep (f (n + 1)).core).1) * (resAt E res0 ws0 (f n)).res_d k j <
            (resAt E res0 ws0 (f (n + 1))).res_d k j))) ∧
      ∀ k i, k < E.qp.dim.N → i < E.qp.dim.nx (k + 1) → (resAt E res0 ws0 o.s).res_b k i =
        (∏ n ∈ range o.iter, (1 - (shortStep (f (n + 1)).core).1)) * (resAt E res0 ws0 (f 0)).res_b k i := by
  obtain ⟨f, h0, hrun, -, hsol⟩ := ipm_run E lf sol s o hc h
  have hinv := run_inv E hwf hm hN hE hlq sol s hnv hnc o.iter f h0 hrun
  have step : ∀ n, n < o.iter → ∃ dt, Contracts E.qp (solOf E.qp.dim (f n).core) (solOf E.qp.dim (f (n + 1)).core)
      (shortStep (f (n + 1)).core).1 (E.arg.r .t_min) dt := fun n hn =>
    (pass_contracts E hwf hm hN hE hlq n (hinv n hn.le).1 (hrun n hn).2.2).2.imp fun _ h => h.1
  have hb : ∀ n, n < o.iter → ∀ k i, k < E.qp.dim.N → i < E.qp.dim.nx (k + 1) → (resAt E res0 ws0 (f (n + 1))).res_b k i =
      (1 - (shortStep (f (n + 1)).core).1) * (resAt E res0 ws0 (f n)).res_b k i := by
    intro n hn
    obtain ⟨dt, c⟩ := step n hn
    exact (res_contracts E hwf hm res0 ws0 hws c).1
  refine ⟨f, h0, hrun, hsol, fun n hn => ⟨hb n hn, fun k j hk hj => ?_⟩, fun k i hk hi => ?_⟩
  · obtain ⟨dt, c⟩ := step n hn
    obtain ⟨-, c2, c3⟩ := res_contracts E hwf hm res0 ws0 hws c
    by_cases hcl : (solOf E.qp.dim (f (n + 1)).core).t k j = (solOf E.qp.dim (f n).core).t k j + (shortStep (f (n + 1)).core).1 * dt k j ∨
        E.qp.d_mask k j = 0
    · exact Or.inl (c2 k j hk hj hcl)
    · push Not at hcl
      obtain ⟨e1, e2, e3⟩ := c3 k j hk hj ⟨hcl.1, (hm k j hk hj).resolve_left hcl.2⟩
      refine Or.inr ⟨e1, ?_⟩
      unfold resAt
      rw [e3]; linarith
  · have key : ∀ n, n ≤ o.iter → (resAt E res0 ws0 (f n)).res_b k i =
        (∏ n ∈ range n, (1 - (shortStep (f (n + 1)).core).1)) * (resAt E res0 ws0 (f 0)).res_b k i := by
      intro n
      induction n with
      | zero => intro _; simp
      | succ n ih =>
        intro hn
        rw [hb n (by omega) k i hk hi, ih (by omega), prod_range_succ]; ring
    unfold resAt
    rw [hsol]
    exact key o.iter (le_refl _)

/-- **C67** A solve started at a point that satisfies the dynamics (after the initialisation) returns a point that satisfies them
exactly, and so does a solve in which one iteration takes a full primal step. -/
theorem ipm_dynamics_exact (hwf : E.qp.WF) (hm : Mask01 E.qp) (hN : 1 ≤ E.qp.dim.N) (hE : E.Keeps) (hlq : E.lqf = 0 ∨ LqPrim E) (lf : ℕ) (sol : Sol K) (s : Ipm K)
    (hnv : s.core.nv = stOff (nvt E.qp.dim) (E.qp.dim.N + 1)) (hnc : s.core.nc = stOff (nct E.qp.dim) (E.qp.dim.N + 1)) (o : SolveOut K)
    (hc : ncMask E.qp s.core.nc ≠ 0) (h : ipmSolve E lf sol s = some o) :
    let U := view E.qp
    let p (x : Ipm K) := ptOf E.qp.dim (solOf E.qp.dim x.core).ux
    ((∀ k i, k < U.N → i < U.nx (k + 1) → U.dynDefect (p (startState E sol s)) k i = 0) →
      ∀ k i, k < U.N → i < U.nx (k + 1) → U.dynDefect (p o.s) k i = 0) ∧
    ∀ f : ℕ → Ipm K, f 0 = startState E sol s → Run (guardOf E) (passOf E) (E.arg.i .iter_max) o.iter f →
      (∃ n, n < o.iter ∧ (f (n + 1)).core.alpha_prim = 1 ∧ (f (n + 1)).core.alpha_dual = 1) →
      ∀ k i, k < U.N → i < U.nx (k + 1) → U.dynDefect (p o.s) k i = 0 := by
  intro U p
  obtain ⟨res0, ws0, hws⟩ : ∃ (_ : Res K) (ws0 : ResWs K), ws0.Ok E.qp :=
    ⟨s.res, { s.rws with valid_nc_mask := false }, fun e => by cases e⟩
  obtain ⟨f, h0, hrun, hsol, -, hprod⟩ := ipm_contraction E hwf hm hN hE hlq lf sol s hnv hnc o hc h res0 ws0 hws
  have conv : ∀ x : Ipm K, ∀ k i, k < E.qp.dim.N → i < E.qp.dim.nx (k + 1) → (resAt E res0 ws0 x).res_b k i = U.dynDefect (p x) k i :=
    fun x k i hk hi => res_dynamics E.qp hwf _ _ _ hws k i hk hi
  refine ⟨fun hz k i hk hi => ?_, fun g g0 grun hfull k i hk hi => ?_⟩
  · rw [← conv o.s k i hk hi, hprod k i hk hi, conv (f 0) k i hk hi, h0, hz k i hk hi, mul_zero]
  · have hfg : ∀ n, n ≤ o.iter → g n = f n := by
      intro n
      induction n with
      | zero => intro _; rw [g0, h0]
      | succ n ih =>
        intro hn
        have e1 := (grun n (by omega)).2.2
        have e2 := (hrun n (by omega)).2.2
        rw [ih (by omega), e2] at e1
        exact (Option.some.inj e1).symm
    obtain ⟨n, hn, hp, hd⟩ := hfull
    rw [hfg (n + 1) (by omega)] at hp hd
    rw [← conv o.s k i hk hi, hprod k i hk hi]
    have : (∏ n ∈ range o.iter, (1 - (shortStep (f (n + 1)).core).1)) = 0 := by
      refine prod_eq_zero (mem_range.mpr hn) ?_
      unfold shortStep
      rw [hp, hd]
      simp
    rw [this, zero_mul]

/-- **C67** Without complementarity targets, the initialisation of all modes and with clipping: the factors are in `[0,1]`, so that the
reported norm of the dynamics residual never increases, and an inequality residual exceeds `1 - a` times the previous one by at most
`t_min`. -/
theorem ipm_contraction_bounded (hwf : E.qp.WF) (hm : Mask01 E.qp) (hN : 1 ≤ E.qp.dim.N) (hE : E.Keeps) (hlq : E.lqf = 0 ∨ LqPrim E) (hi : InitOk E)
    (hcl : E.arg.i .t_lam_min = 2) (hl : 0 < E.arg.r .lam_min) (ht : 0 < E.arg.r .t_min)
    (hmz : ∀ k j, k ≤ E.qp.dim.N → j < nct E.qp.dim k → E.qp.m k j = 0) (sol : Sol K) (s : Ipm K)
    (hnv : s.core.nv = stOff (nvt E.qp.dim) (E.qp.dim.N + 1)) (hnc : s.core.nc = stOff (nct E.qp.dim) (E.qp.dim.N + 1))
    (n : ℕ) (f : ℕ → Ipm K) (h0 : f 0 = startState E sol s) (hrun : Run (guardOf E) (passOf E) (E.arg.i .iter_max) n f)
    (res0 : Res K) (ws0 : ResWs K) (hws : ws0.Ok E.qp) (i : ℕ) (hin : i < n) :
    0 ≤ (shortStep (f (i + 1)).core).1 ∧ (shortStep (f (i + 1)).core).1 ≤ 1 ∧
    (resInfNorm E.qp.dim (resAt E res0 ws0 (f (i + 1)))).2.1 ≤ (resInfNorm E.qp.dim (resAt E res0 ws0 (f i))).2.1 ∧
    (∀ k j, k ≤ E.qp.dim.N → j < nct E.qp.dim k → |(resAt E res0 ws0 (f (i + 1))).res_d k j| ≤
      (1 - (shortStep (f (i + 1)).core).1) * |(resAt E res0 ws0 (f i)).res_d k j| + E.arg.r .t_min) := by
  have hinv := run_inv E hwf hm hN hE hlq sol s hnv hnc n f h0 hrun i hin.le
  obtain ⟨-, dt, hcon, hrange⟩ := pass_contracts E hwf hm hN hE hlq i hinv.1 (hrun i hin).2.2
  have hins := (ipm_iterates_inside E hm hi hcl hl ht sol s hnc n f h0 hrun i hin.le).1
  have hz : vecnrmInf s.core.nc (fm E.qp) 0 = 0 := by
    obtain ⟨-, h2, -⟩ := vecnrmInf_spec s.core.nc (fm E.qp) 0
    rcases h2 with h2 | ⟨x, hx, h2⟩
    · exact h2
    · rw [hnc] at hx
      obtain ⟨k, j, b1, b2, rfl⟩ := flat_split _ _ _ hx
      have e : fm E.qp (stOff (nct E.qp.dim) k + j) = E.qp.m k j := stFlat_at _ _ _ k j b1 b2
      rw [h2, Nat.zero_add, e, hmz k j (by omega) b2, abs_zero]
  obtain ⟨r0, r1, r2⟩ := hrange ⟨by rw [hinv.2, hz]; simp, fun k j hk hj => by
    obtain ⟨a1, a2, a3⟩ := hins k j hk hj
    refine ⟨?_, a1.le⟩
    rcases hm k j hk hj with h | h
    · rw [a3 h]
    · exact (a2 h).le⟩
  obtain ⟨c1, c2, c3⟩ := res_contracts E hwf hm res0 ws0 hws hcon
  set a := (shortStep (f (i + 1)).core).1
  have h1a : 0 ≤ 1 - a := by linarith
  refine ⟨r0, r1, ?_, fun k j hk hj => ?_⟩
  · obtain ⟨-, ⟨n1, -⟩, -, -⟩ := res_norms E.qp.dim (resAt E res0 ws0 (f i))
    obtain ⟨-, ⟨-, n2⟩, -, -⟩ := res_norms E.qp.dim (resAt E res0 ws0 (f (i + 1)))
    have hnn : 0 ≤ (resInfNorm E.qp.dim (resAt E res0 ws0 (f i))).2.1 := by
      obtain ⟨-, ⟨-, n3⟩, -, -⟩ := res_norms E.qp.dim (resAt E res0 ws0 (f i))
      rcases n3 with n3 | ⟨_, _, _, _, n3⟩
      · rw [n3]
      · rw [n3]; exact abs_nonneg _
    rcases n2 with n2 | ⟨k, j, hk, hj, n2⟩
    · rw [n2]; exact hnn
    · rw [n2, c1 k j hk hj, abs_mul, abs_of_nonneg h1a]
      refine le_trans ?_ (n1 k j hk hj)
      exact mul_le_of_le_one_left (abs_nonneg _) (by linarith)
  · by_cases hc : (solOf E.qp.dim (f (i + 1)).core).t k j = (solOf E.qp.dim (f i).core).t k j + a * dt k j ∨ E.qp.d_mask k j = 0
    · rw [c2 k j hk hj hc, abs_mul, abs_of_nonneg h1a]; linarith
    · push Not at hc
      obtain ⟨e1, e2, e3⟩ := c3 k j hk hj ⟨hc.1, (hm k j hk hj).resolve_left hc.2⟩
      unfold resAt
      rw [e3]
      refine (abs_add_le _ _).trans ?_
      rw [abs_mul, abs_of_nonneg h1a]
      have := r2 k j hk hj
      have h3 : |E.arg.r .t_min - ((solOf E.qp.dim (f i).core).t k j + a * dt k j)| ≤ E.arg.r .t_min := by
        rw [abs_le]; constructor <;> linarith
      linarith

end

/-! The hypotheses are met by the runs `exS_run` (relative) and `exIpAbs_run` (absolute formulation): one iteration each -/

theorem exIpAbs_keeps : exIpAbs.Keeps := ⟨exIpEnv_keeps.lq, exIpEnv_keeps.fo⟩

example : ∃ o, ipmSolve exIpEnv 5 exIpSol exIpIpm = some o ∧ o.iter = 1 ∧ ∃ f : ℕ → Ipm ℚ,
    (resAt exIpEnv exIpRes exIpIpm.rws o.s).res_b 0 0 = (∏ n ∈ range o.iter, (1 - (shortStep (f (n + 1)).core).1)) *
      (resAt exIpEnv exIpRes exIpIpm.rws (f 0)).res_b 0 0 := by
  obtain ⟨o, h, he⟩ := Option.map_eq_some_iff.mp exS_run
  simp only [Prod.mk.injEq] at he
  obtain ⟨f, -, -, -, -, hp⟩ := ipm_contraction exIpEnv exIpQp_wf exIpQp_mask (by decide) exIpEnv_keeps (Or.inl rfl) 5 exIpSol exIpIpm
    (by decide +kernel) (by decide +kernel) o (by decide +kernel) h exIpRes exIpIpm.rws (fun e => absurd e (by decide))
  exact ⟨o, h, he.1, f, hp 0 0 (by decide) (by decide)⟩

/-- the initial dynamics residual of this run is not zero, the step is not a full one, and the residual shrinks -/
example : (resAt exIpEnv exIpRes exIpIpm.rws (startState exIpEnv exIpSol exIpIpm)).res_b 0 0 ≠ 0 := by decide +kernel

example : ∃ o, ipmSolve exIpAbs 5 exIpSol exIpIpm = some o ∧ o.iter = 1 ∧ ∃ f : ℕ → Ipm ℚ,
    (resAt exIpAbs exIpRes exIpIpm.rws o.s).res_b 0 0 = (∏ n ∈ range o.iter, (1 - (shortStep (f (n + 1)).core).1)) *
      (resAt exIpAbs exIpRes exIpIpm.rws (f 0)).res_b 0 0 := by
  obtain ⟨o, h, he⟩ := Option.map_eq_some_iff.mp exIpAbs_run
  simp only [Prod.mk.injEq] at he
  obtain ⟨f, -, -, -, -, hp⟩ := ipm_contraction exIpAbs exIpQp_wf exIpQp_mask (by decide) exIpAbs_keeps (Or.inl rfl) 5 exIpSol exIpIpm
    (by decide +kernel) (by decide +kernel) o (by decide +kernel) h exIpRes exIpIpm.rws (fun e => absurd e (by decide))
  exact ⟨o, h, he.1, f, hp 0 0 (by decide) (by decide)⟩

/-- one iteration from the initial point of the run: norm and factors -/
example : ∃ s', passOf exIpEnv 0 (startState exIpEnv exIpSol exIpIpm) = some s' ∧
    (resInfNorm exIpDim (resAt exIpEnv exIpRes exIpIpm.rws s')).2.1 ≤
      (resInfNorm exIpDim (resAt exIpEnv exIpRes exIpIpm.rws (startState exIpEnv exIpSol exIpIpm))).2.1 ∧
    |(resAt exIpEnv exIpRes exIpIpm.rws s').res_d 0 0| ≤ (1 - (shortStep s'.core).1) *
      |(resAt exIpEnv exIpRes exIpIpm.rws (startState exIpEnv exIpSol exIpIpm)).res_d 0 0| + 1 / 100000 := by
  obtain ⟨o, h, he⟩ := Option.map_eq_some_iff.mp exS_run
  simp only [Prod.mk.injEq] at he
  obtain ⟨f, h0, hrun, -⟩ := ipm_run exIpEnv 5 exIpSol exIpIpm o (by decide +kernel) h
  have hb := ipm_contraction_bounded exIpEnv exIpQp_wf exIpQp_mask (by decide) exIpEnv_keeps (Or.inl rfl)
    (Or.inl ⟨by decide, by decide +kernel, by decide +kernel, by decide +kernel⟩) rfl (by decide +kernel) (by decide +kernel) (fun _ _ _ _ => rfl) exIpSol exIpIpm
    (by decide +kernel) (by decide +kernel) o.iter f h0 hrun exIpRes exIpIpm.rws (fun e => absurd e (by decide)) 0 (by rw [he.1]; decide)
  refine ⟨f 1, ?_, ?_, ?_⟩
  · rw [← h0]; exact (hrun 0 (by rw [he.1]; decide)).2.2
  · rw [← h0]; exact hb.2.2.1
  · rw [← h0]; exact hb.2.2.2 0 0 (by decide) (by decide +kernel)

/-- without the constant term of the dynamics the initial point is consistent, and so is the result -/
def exIpHom : Env ℚ := { exIpEnv with qp := { exIpQp with b := fun _ _ => 0 } }

example : ∃ o, ipmSolve exIpHom 5 exIpSol exIpIpm = some o ∧ o.iter = 1 ∧
    (view exIpHom.qp).dynDefect (ptOf exIpHom.qp.dim (solOf exIpHom.qp.dim o.s.core).ux) 0 0 = 0 := by
  have hr : ((ipmSolve exIpHom 5 exIpSol exIpIpm).map fun o => o.iter) = some 1 := by decide +kernel
  obtain ⟨o, h, he⟩ := Option.map_eq_some_iff.mp hr
  refine ⟨o, h, he, (ipm_dynamics_exact exIpHom exIpQp_wf exIpQp_mask (by decide) ⟨exIpEnv_keeps.lq, exIpEnv_keeps.fo⟩ (Or.inl rfl) 5 exIpSol exIpIpm
    (by decide +kernel) (by decide +kernel) o (by decide +kernel) h).1 ?_ 0 0 (by decide) (by decide)⟩
  intro k i hk hi
  have hk' : k < 1 := hk
  have hk0 : k = 0 := by omega
  subst hk0
  have hi' : i < 1 := hi
  have hi0 : i = 0 := by omega
  subst hi0
  decide +kernel

end Hpipm
