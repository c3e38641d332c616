/-
C89: every iteration of a solve is one step of Mehrotra's predictor-corrector method.  C90: what a solve returns depends only
on the problem, the arguments and (warm start) the initial guess.
-/
import Verif.MehRun
import Verif.MehStop

namespace Hpipm
open Finset
set_option linter.unusedSectionVars false

section
variable {K : Type*} [Field K] [LinearOrder K] [IsStrictOrderedRing K]
variable (E : Env K)

/-! ### the solve as a loop -/

/-- end of a solve -/
def finOf (r : ℕ × Ipm K) : SolveOut K :=
  if E.arg.i .abs_form ≠ 0 then epilogue E (obsRel E) (r.1, absEnd E r.1 r.2) else epilogue E (obsRel E) r

theorem solve_loop (lf : ℕ) (sol : Sol K) (s : Ipm K) (hon : ncMask E.qp s.core.nc ≠ 0) :
    ipmSolve E lf sol s = (ipmLoop (guardOf E) (passOf E) (E.arg.i .iter_max) lf 0 (startState E sol s)).map (finOf E) := by
  have hnc0 : s.core.nc ≠ 0 := by
    intro e; apply hon; rw [e]; rfl
  unfold ipmSolve
  simp only
  rw [if_neg (by rintro (h1 | h1); exacts [hnc0 h1, hon h1])]
  by_cases ha : E.arg.i .abs_form ≠ 0
  · have e1 : guardOf E = fun s => contAbs E.arg (obsRel E s) := by funext x; unfold guardOf; rw [if_pos ha]
    have e2 : passOf E = absBody E := by funext k x; unfold passOf; rw [if_pos ha]
    have e3 : finOf E = fun r => epilogue E (obsRel E) (r.1, absEnd E r.1 r.2) := by funext x; unfold finOf; rw [if_pos ha]
    rw [if_pos ha, e1, e2, e3]
    unfold startState
    rw [if_pos ha]
  · have e1 : guardOf E = fun s => contRel E.arg (obsRel E s) := by funext x; unfold guardOf; rw [if_neg ha]
    have e2 : passOf E = relBody E := by funext k x; unfold passOf; rw [if_neg ha]
    have e3 : finOf E = fun r => epilogue E (obsRel E) r := by funext x; unfold finOf; rw [if_neg ha]
    rw [if_neg ha, e1, e2, e3]
    unfold startState
    rw [if_neg ha]

theorem fin_val (r : ℕ × Ipm K) : (finOf E r).iter = r.1 ∧ solOf E.qp.dim (finOf E r).s.core = solOf E.qp.dim r.2.core ∧
    (finOf E r).status = statusOf E.arg r.1 (obsRel E r.2) := by
  have hob : ∀ (kk : ℕ) (o o' : Obs K), o.ap = o'.ap → o.ad = o'.ad → (o.mu = none ↔ o'.mu = none) → statusOf E.arg kk o = statusOf E.arg kk o' := by
    intro kk o o' h1 h2 h3
    unfold statusOf
    rw [h1, h2]
    simp only [h3]
  unfold finOf
  split
  · obtain ⟨h1, -, -, h4⟩ := epilogue_obs E (r.1, absEnd E r.1 r.2)
    have hend : solOf E.qp.dim (absEnd E r.1 r.2).core = solOf E.qp.dim r.2.core ∧
        (absEnd E r.1 r.2).core.alpha_prim = r.2.core.alpha_prim ∧ (absEnd E r.1 r.2).core.alpha_dual = r.2.core.alpha_dual := by
      unfold absEnd
      split
      · extract_lets s1
        split <;> exact ⟨rfl, rfl, rfl⟩
      · exact ⟨rfl, rfl, rfl⟩
    refine ⟨rfl, h1.trans hend.1, h4.trans (hob _ _ _ ?_ ?_ ?_)⟩
    · show some _ = some _; rw [hend.2.1]
    · show some _ = some _; rw [hend.2.2]
    · constructor <;> intro h <;> cases h
  · obtain ⟨h1, -, -, h4⟩ := epilogue_obs E r
    exact ⟨rfl, h1, h4⟩

/-! ### the initial point -/

theorem putSol_eq (D : QpDim) (sol : Sol K) (c : Core K) : SolEq D (solOf D (putSol D sol c)) sol :=
  ⟨fun k i hk hi => stFlat_at _ _ _ k i (by omega) hi, fun k i hk hi => stFlat_at (net D) _ _ k i hk hi,
    fun k i hk hi => stFlat_at _ _ _ k i (by omega) hi, fun k i hk hi => stFlat_at _ _ _ k i (by omega) hi⟩

theorem start_zsol (sol : Sol K) (s : Ipm K) : solOf E.qp.dim (startState E sol s).core = solOf E.qp.dim (ipmInit E (prologue E sol s)).core := by
  unfold startState
  split
  · obtain ⟨-, f2, f3, -⟩ := absMu_frame E (ipmInit E (prologue E sol s))
    obtain ⟨g1, g2⟩ := (absMu_it E (ipmInit E (prologue E sol s))).1
    unfold solOf; rw [f2, f3, g1, g2]
  · exact (relStart_more E _).2.2.2

theorem start_pt (H : MHyp E) (sol : Sol K) (s : Ipm K) (hnc : s.core.nc = stOff (nct E.qp.dim) (E.qp.dim.N + 1)) :
    SolEq E.qp.dim (zOf E (startState E sol s)) (startPt E.sq E.qp E.arg sol) := by
  rw [zOf, start_zsol]
  have hp := prologue_ready E H.m01 sol s hnc
  set p := prologue E sol s with hp'
  have h0 : SolEq E.qp.dim (solOf E.qp.dim p.core) sol :=
    ⟨fun k i hk hi => stFlat_at _ _ _ k i (by omega) hi, fun k i hk hi => stFlat_at (net E.qp.dim) _ _ k i hk hi,
      fun k i hk hi => stFlat_at _ _ _ k i (by omega) hi, fun k i hk hi => stFlat_at _ _ _ k i (by omega) hi⟩
  have h1 := (initVar_agree E.sq E.qp H.wf E.arg _ _ (Or.inr h0.agree)).eq
  have hx : Ready E { p with core := putSol E.qp.dim (initVar E.sq E.qp E.arg (solOf E.qp.dim p.core)) p.core } :=
    ⟨hp.nc, hp.mask, hp.lam_min, hp.t_min, hp.clip, hp.split⟩
  have h2 := putSol_eq E.qp.dim (initVar E.sq E.qp E.arg (solOf E.qp.dim p.core)) p.core
  have hu : ∀ x : Ipm K, (solOf E.qp.dim (maskLam E x).core).ux = (solOf E.qp.dim x.core).ux ∧
      (solOf E.qp.dim (maskLam E x).core).pi = (solOf E.qp.dim x.core).pi := by
    intro x; unfold maskLam; split <;> exact ⟨rfl, rfl⟩
  set p1 : Ipm K := { p with core := putSol E.qp.dim (initVar E.sq E.qp E.arg (solOf E.qp.dim p.core)) p.core } with hp1
  have e : solOf E.qp.dim (ipmInit E p).core = solOf E.qp.dim (maskLam E p1).core := rfl
  rw [e]
  refine ⟨fun k i hk hi => ?_, fun k i hk hi => ?_, fun k j hk hj => ?_, fun k j hk hj => ?_⟩
  · rw [(hu _).1]; exact (h2.ux k i hk hi).trans (h1.ux k i hk hi)
  · rw [(hu _).2]; exact (h2.pi k i hk hi).trans (h1.pi k i hk hi)
  · rw [(maskLam_val E hx k j hk hj).1]
    show _ = if E.qp.d_mask k j = 1 then _ else _
    rcases H.m01 k j hk hj with e | e
    · rw [e, zero_mul, if_neg (by norm_num)]
    · rw [e, one_mul, if_pos rfl]; exact (h2.lam k j hk hj).trans (h1.lam k j hk hj)
  · rw [(maskLam_val E hx k j hk hj).2]; exact (h2.t k j hk hj).trans (h1.t k j hk hj)

theorem start_alpha (sol : Sol K) (s : Ipm K) : (startState E sol s).core.alpha_prim = 1 ∧ (startState E sol s).core.alpha_dual = 1 := by
  unfold startState
  split
  · obtain ⟨-, -, -, f4, f5⟩ := absMu_frame E (ipmInit E (prologue E sol s))
    exact ⟨f4, f5⟩
  · unfold relStart
    extract_lets s1 c2 s2
    split <;> exact ⟨rfl, rfl⟩

/-! ### C89 -/

/-- sizes of the workspace -/
structure Sized (s : Ipm K) : Prop where
  nv : s.core.nv = stOff (nvt E.qp.dim) (E.qp.dim.N + 1)
  ne : s.core.ne = stOff (net E.qp.dim) E.qp.dim.N
  nc : s.core.nc = stOff (nct E.qp.dim) (E.qp.dim.N + 1)

theorem on_ncMask (hm : Mask01 E.qp) {s : Ipm K} (hs : Sized E s) (h : onCount E.qp ≠ 0) : ncMask E.qp s.core.nc ≠ 0 := by
  rw [hs.nc, ncMask_count E.qp hm, compCount_on]; exact h

/-! ### the loop guard is a function of the iterate -/

theorem flat_lt (len : ℕ → ℕ) {n k i : ℕ} (hk : k < n) (hi : i < len k) : stOff len k + i < stOff len n := by
  induction n with
  | zero => omega
  | succ n ih =>
    show _ < stOff len n + len n
    rcases Nat.lt_succ_iff_lt_or_eq.mp hk with h | rfl
    · exact lt_of_lt_of_le (ih h) (Nat.le_add_right _ _)
    · omega

theorem norm_exceeds (len : ℕ → ℕ) (n : ℕ) (x : Vec K) (f : ℕ → Vec K) (h : ∀ k i, k < n → i < len k → x (stOff len k + i) = f k i) (tol : K) :
    vecnrmInf (stOff len n) x 0 > tol ↔ Exceeds len n f tol := by
  obtain ⟨h1, h2, h3⟩ := vecnrmInf_spec (stOff len n) x 0
  constructor
  · intro hx
    rcases h2 with h2 | ⟨i, hi, h2⟩
    · exact Or.inl (by rw [h2] at hx; exact hx)
    · obtain ⟨k, j, hk, hj, rfl⟩ := stFlat_inv len n i hi
      refine Or.inr ⟨k, j, hk, hj, ?_⟩
      rw [← h k j hk hj]
      rw [h2, Nat.zero_add] at hx; exact hx
  · rintro (hx | ⟨k, i, hk, hi, hx⟩)
    · exact lt_of_lt_of_le hx h3
    · rw [← h k i hk hi] at hx
      have := h1 (stOff len k + i) (flat_lt len hk hi)
      rw [Nat.zero_add] at this
      exact lt_of_lt_of_le hx this

theorem resInfNorm_flat (D : QpDim) (r : Res K) : resInfNorm D r = (vecnrmInf (stOff (nvt D) (D.N + 1)) (stFlat (nvt D) r.res_g (D.N + 1)) 0,
      vecnrmInf (stOff (fun k => D.nx (k + 1)) D.N) (stFlat (fun k => D.nx (k + 1)) r.res_b D.N) 0,
      vecnrmInf (stOff (nct D) (D.N + 1)) (stFlat (nct D) r.res_d (D.N + 1)) 0,
      vecnrmInf (stOff (nct D) (D.N + 1)) (stFlat (nct D) r.res_m (D.N + 1)) 0) := by
  simp only [resInfNorm]
  have a1 : ∀ n, loop n (fun ii s => s + (D.nu ii + D.nx ii + 2 * D.ns ii)) 0 = stOff (nvt D) n := by
    intro n; induction n with
    | zero => rfl
    | succ n ih => rw [loop_succ, ih]; rfl
  have a2 : ∀ n, loop n (fun ii s => s + D.nx (ii + 1)) 0 = stOff (fun k => D.nx (k + 1)) n := by
    intro n; induction n with
    | zero => rfl
    | succ n ih => rw [loop_succ, ih]; rfl
  have a3 : ∀ n, loop n (fun ii s => s + (2 * D.nb ii + 2 * D.ng ii + 2 * D.ns ii)) 0 = stOff (nct D) n := by
    intro n; induction n with
    | zero => rfl
    | succ n ih => rw [loop_succ, ih]; rfl
  rw [a1, a2, a3]; rfl

theorem fresh_gap (H : MHyp E) {s : Ipm K} (hi : MInv E s) (ha : E.arg.i .abs_form = 0) :
    s.res.dual_gap = ∑ k ∈ range (E.qp.dim.N + 1), vGap E.qp (zOf E s) k := by
  obtain ⟨r0, hr0⟩ := (hi.fresh ha).res
  have hs := res_rows E.qp H.wf s.kkt.BAbt s.kkt.RSQrq hi.rowB hi.rowR (zOf E s) r0 r0 s.rws s.rws hi.ok hi.ok
  have e0 : s.res = resCompute { E.qp with BAbt := s.kkt.BAbt, RSQrq := s.kkt.RSQrq } (zOf E s) r0 s.rws := hr0
  rw [← e0] at hs
  rw [hs.gap]
  exact (resCompute_val E.qp H.wf (zOf E s) r0 s.rws hi.ok).2.2.1

theorem guard_goOn (H : MHyp E) {s : Ipm K} (hi : MInv E s) :
    guardOf E s = true ↔ GoOn E.qp E.arg (zOf E s) s.core.alpha_prim s.core.alpha_dual := by
  unfold guardOf
  by_cases ha : E.arg.i .abs_form ≠ 0
  · rw [if_pos ha]
    unfold contAbs GoOn
    simp only [obsRel, Fl.gt, Option.map_some, Bool.and_eq_true, decide_eq_true_eq, hi.u.mu]
    constructor
    · rintro ⟨⟨h1, h2⟩, h3⟩; exact ⟨h1, h2, fun h => absurd h ha, fun _ => h3⟩
    · rintro ⟨h1, h2, -, h3⟩; exact ⟨⟨h1, h2⟩, h3 ha⟩
  · rw [if_neg ha]
    have ha0 : E.arg.i .abs_form = 0 := not_not.mp ha
    have hf := hi.fresh ha0
    have hn := hf.rmax.trans (resInfNorm_flat _ _)
    unfold contRel GoOn
    simp only [obsRel, Fl.gt, Bool.and_eq_true, Bool.or_eq_true, decide_eq_true_eq, fresh_gap E H hi ha0, hn]
    rw [norm_exceeds (nvt E.qp.dim) _ _ (fun k i => vG E.qp (zOf E s) ((zOf E s).lam k) k i) (fun k i hk hi' => by
        rw [stFlat_at _ _ _ k i hk hi', hi.u.g ha0 k i (by omega) hi']),
      norm_exceeds (fun k => E.qp.dim.nx (k + 1)) _ _ (vB E.qp (zOf E s)) (fun k i hk hi' => by
        rw [stFlat_at _ _ _ k i hk hi', hi.u.b ha0 k i hk hi']),
      norm_exceeds (nct E.qp.dim) _ _ (fun k j => E.qp.d_mask k j * vD E.qp (zOf E s) k j) (fun k i hk hi' => by
        rw [stFlat_at _ _ _ k i hk hi', hi.u.d ha0 k i (by omega) hi'])]
    have hm : resMTau E s > E.arg.r .res_m_max ↔ Exceeds (nct E.qp.dim) (E.qp.dim.N + 1)
        (fun k j => E.qp.d_mask k j * ((zOf E s).lam k j * (zOf E s).t k j - E.qp.m k j - E.arg.r .tau_min)) (E.arg.r .res_m_max) := by
      unfold resMTau
      rw [hi.c.rdy.nc]
      refine norm_exceeds _ _ _ _ (fun k j hk hj => ?_) _
      rw [axpy_in ⟨Nat.zero_le _, by have := flat_lt (nct E.qp.dim) hk hj; omega⟩]
      simp only [Nat.sub_zero, Nat.zero_add]
      rw [hi.u.rm k j (by omega) hj, fmask, stFlat_at _ _ _ k j hk hj]
      ring
    rw [hm]
    constructor
    · rintro ⟨⟨h1, h2⟩, h3⟩
      exact ⟨h1, h2, fun _ => by tauto, fun h => absurd ha0 h⟩
    · rintro ⟨h1, h2, h3, -⟩
      exact ⟨⟨h1, h2⟩, by have := h3 ha0; tauto⟩

/-- **C89** A solve of a strictly convex (after regularisation) problem returns, and it is a run of Mehrotra's
predictor-corrector method: from the documented initial point, for both formulations, with and without correction, conditional
correction, masks and split step lengths, it stops exactly by the documented rule and reports the status of that rule —
whatever the workspace held before and whichever form of the factorisation it was created with. -/
theorem ipm_mehrotra (H : MHyp E) (hE : E.Keeps) (hio : InitOk E) (lf : ℕ) (hlf : E.arg.i .iter_max ≤ lf) (sol : Sol K) (s : Ipm K)
    (hs : Sized E s) (hon : onCount E.qp ≠ 0) :
    ∃ o, ipmSolve E lf sol s = some o ∧ MehSolve E.sq E.qp E.arg sol o.iter o.status (solOf E.qp.dim o.s.core) := by
  have hon' := on_ncMask E H.m01 hs hon
  rw [solve_loop E lf sol s hon']
  have h0 := start_meh E H hio sol s hs.nv hs.ne hs.nc hon'
  obtain ⟨r, hr, -⟩ := ipmLoop_terminates (guardOf E) (passOf E) (E.arg.i .iter_max) (MInv E)
    (fun kk x hx _ _ => by
      obtain ⟨x', e, i, -⟩ := pass_meh E H hE hx kk
      exact ⟨x', e, i⟩) lf 0 _ h0 (by push_cast; omega)
  rw [hr, Option.map_some]
  obtain ⟨⟨f, f0, fr, hrun⟩, hstop⟩ := ipmLoop_run _ _ _ _ _ _ hr
  obtain ⟨v1, v2, v3⟩ := fin_val E r
  have hinv : ∀ n, n ≤ r.1 → MInv E (f n) := by
    intro n
    induction n with
    | zero => intro _; rw [f0]; exact h0
    | succ n ih =>
      intro hn
      obtain ⟨x', e, i, -⟩ := pass_meh E H hE (ih (by omega)) n
      have := (hrun n (by omega)).2.2
      rw [e] at this
      rw [← Option.some.inj this]; exact i
  refine ⟨_, rfl, fun n => zOf E (f n), fun n => (f n).core.alpha_prim, fun n => (f n).core.alpha_dual, ?_, ?_, ?_, ?_, ?_, ?_⟩
  · show SolEq _ (zOf E (f 0)) _ ∧ (f 0).core.alpha_prim = 1 ∧ (f 0).core.alpha_dual = 1
    rw [f0]; exact ⟨start_pt E H sol s hs.nc, start_alpha E sol s⟩
  · rw [v1]
    intro n hn
    obtain ⟨x', e, -, m⟩ := pass_meh E H hE (hinv n hn.le) n
    obtain ⟨r1, r2, r3⟩ := hrun n hn
    rw [e] at r3
    refine ⟨r1, (guard_goOn E H (hinv n hn.le)).mp r2, ?_⟩
    show MehIter _ _ _ (zOf E (f n)) (f (n + 1)).core.alpha_prim (f (n + 1)).core.alpha_dual (zOf E (f (n + 1)))
    rw [← Option.some.inj r3]; exact m
  · rw [v1]
    refine hstop.imp (fun h => h) (fun h hg => ?_)
    rw [← fr, ← Bool.not_eq_true, guard_goOn E H (hinv r.1 le_rfl)] at h
    exact h hg
  · rw [v1]; exact fun n hn => (hinv n hn).u.ins
  · show _ = zOf E (f (finOf E r).iter)
    rw [v1, v2, fr]
  · rw [v3, v1]
    rw [← fr]
    unfold statusOf
    simp only [obsRel, Fl.le, Bool.or_eq_true, decide_eq_true_eq, reduceCtorEq, if_false]

/-- **C90** What a solve returns depends on the problem, the arguments and (unless it starts cold) the guess only: two solves
that may differ in everything else — contents of the workspaces, form of the factorisation, size of the statistics — make the
same number of iterations, report the same status and return the same solution. -/
theorem ipm_history_independent (E' : Env K) (hsq : E'.sq = E.sq) (hqp : E'.qp = E.qp) (harg : E'.arg = E.arg)
    (H : MHyp E) (hlqf : E'.lqf = 0) (hE : E.Keeps) (hE' : E'.Keeps) (hio : InitOk E) (lf lf' : ℕ)
    (hlf : E.arg.i .iter_max ≤ lf) (hlf' : E.arg.i .iter_max ≤ lf') (sol sol' : Sol K)
    (hag : E.arg.i .warm_start = 0 ∨ SolEq E.qp.dim sol sol') (s s' : Ipm K) (hs : Sized E s) (hs' : Sized E' s')
    (hon : onCount E.qp ≠ 0) :
    ∃ o o', ipmSolve E lf sol s = some o ∧ ipmSolve E' lf' sol' s' = some o' ∧ o.iter = o'.iter ∧ o.status = o'.status ∧
      SolEq E.qp.dim (solOf E.qp.dim o.s.core) (solOf E.qp.dim o'.s.core) := by
  have H' : MHyp E' := ⟨by rw [hsq]; exact H.hsq, by rw [hqp]; exact H.wf, by rw [hqp]; exact H.hN, by rw [hqp]; exact H.unsh,
    by rw [hqp]; exact H.m01, by rw [hqp, harg]; exact H.cvx, by rw [harg]; exact H.dual, hlqf, by rw [harg]; exact H.clip,
    by rw [harg]; exact H.lmin, by rw [harg]; exact H.tmin, by rw [harg]; exact H.itp, by rw [harg]; exact H.itc⟩
  have hio' : InitOk E' := by
    unfold InitOk
    rw [hsq, harg]; exact hio
  obtain ⟨o, ho, m⟩ := ipm_mehrotra E H hE hio lf hlf sol s hs hon
  obtain ⟨o', ho', m'⟩ := ipm_mehrotra E' H' hE' hio' lf' (by rw [harg]; exact hlf') sol' s' hs' (by rw [hqp]; exact hon)
  rw [hsq, hqp, harg] at m'
  obtain ⟨e1, e2, e3⟩ := m.unique H.wf H.m01 H.cvx hag m'
  exact ⟨o, o', ho, ho', e1, e2, e3⟩

end
end Hpipm
