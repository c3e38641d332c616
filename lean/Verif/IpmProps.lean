/-
C29, C30, C33: the whole solver.  Number of iterations and termination, statistics inside their table, and what a
reported success means for the caller's problem.
-/
import Verif.IpmMat
import Verif.ResProps
import Verif.KktStep

namespace Hpipm
open Finset
set_option linter.unusedSectionVars false

section
variable {K : Type*} [Field K] [LinearOrder K] [IsStrictOrderedRing K] (E : Env K)

/-! ### C29: iterations -/

/-- **C29** The number of iterations reported by the solver is at most `iter_max` (zero for a negative limit). -/
theorem ipm_iter_le (lf : ℕ) (sol : Sol K) (s : Ipm K) (o : SolveOut K) (h : ipmSolve E lf sol s = some o) :
    (o.iter : ℤ) ≤ max (E.arg.i .iter_max) 0 := by
  unfold ipmSolve at h
  simp only at h
  split at h
  · cases h; exact le_max_right _ _
  · split at h
    · obtain ⟨r, hr, rfl⟩ := Option.map_eq_some_iff.mp h
      exact ipmLoop_iter_le _ _ _ _ _ _ hr
    · obtain ⟨r, hr, rfl⟩ := Option.map_eq_some_iff.mp h
      exact ipmLoop_iter_le _ _ _ _ _ _ hr

/-- **C29** The solver returns: the iteration loop is left after at most `iter_max` passes, as long as each
factorisation returns (see `C53` for that). -/
theorem ipm_terminates (sol : Sol K) (s : Ipm K) (lf : ℕ) (hlf : E.arg.i .iter_max ≤ lf)
    (hf : ∀ kk s', ∃ s'', deltaStep E kk s' = some s'') (ha : ∀ kk s', ∃ s'', absStep E kk s' = some s'') :
    ∃ o, ipmSolve E lf sol s = some o := by
  unfold ipmSolve
  simp only
  split
  · exact ⟨_, rfl⟩
  · split
    · obtain ⟨r, hr, -⟩ := ipmLoop_terminates (fun s => contAbs E.arg (obsRel E s)) (absBody E) (E.arg.i .iter_max) (fun _ => True)
        (fun kk s' _ _ _ => by
          obtain ⟨s'', e⟩ := ha kk s'
          exact ⟨_, by unfold absBody; rw [e]; rfl, trivial⟩) lf 0
        (absMu E (ipmInit E (prologue E sol s))) trivial (by push_cast; omega)
      rw [hr]; exact ⟨_, rfl⟩
    · obtain ⟨r, hr, -⟩ := ipmLoop_terminates (fun s => contRel E.arg (obsRel E s)) (relBody E) (E.arg.i .iter_max) (fun _ => True)
        (fun kk s' _ _ _ => by
          obtain ⟨s'', e⟩ := hf kk s'
          exact ⟨_, by unfold relBody; rw [e]; rfl, trivial⟩) lf 0
        (relStart E (ipmInit E (prologue E sol s))) trivial (by push_cast; omega)
      rw [hr]; exact ⟨_, rfl⟩

/-! ### C33: statistics -/

theorem putG_oob (kk col : ℕ) (hc : col < 21) (x : K) (s : Ipm K) : (putG E kk col x s).oob = s.oob :=
  (putG_keep E kk col hc x s).oob

theorem putG4_oob (kk col : ℕ) (hc : col + 3 < 21) (x : K × K × K × K) (s : Ipm K) : (putG4 E kk col x s).oob = s.oob :=
  (putG4_keep E kk col hc x s).oob

theorem maskLam_oob (s : Ipm K) : (maskLam E s).oob = s.oob := by unfold maskLam; split <;> rfl

theorem maskResM_oob (s : Ipm K) : (maskResM E s).oob = s.oob := by unfold maskResM; split <;> rfl

theorem updStep_oob (s : Ipm K) : (updStep E s).oob = s.oob := maskLam_oob E _

theorem relBody_oob (kk : ℕ) (s s' : Ipm K) (h : relBody E kk s = some s') : s'.oob = s.oob := by
  unfold relBody at h
  obtain ⟨s0, h0, rfl⟩ := Option.map_eq_some_iff.mp h
  obtain ⟨s1, hk, rfl⟩ := deltaStep_upd E kk s s0 h0
  simp only [putG_oob E kk 12 (by omega), putG_oob E kk 11 (by omega), putG_oob E kk 6 (by omega), putG4_oob E kk 7 (by omega)]
  show (updStep E s1).oob = s.oob
  rw [updStep_oob, hk.oob]

theorem absMu_oob (s : Ipm K) : (absMu E s).oob = s.oob := maskResM_oob E _

theorem absBody_oob (kk : ℕ) (s s' : Ipm K) (h : absBody E kk s = some s') : s'.oob = s.oob := by
  unfold absBody at h
  obtain ⟨s0, h0, rfl⟩ := Option.map_eq_some_iff.mp h
  obtain ⟨s1, hk, rfl⟩ := absStep_upd E kk s s0 h0
  simp only [putG_oob E kk 6 (by omega)]
  rw [absMu_oob, updStep_oob, hk.oob]

theorem relStart_oob (s : Ipm K) : (relStart E s).oob = s.oob := by
  unfold relStart
  extract_lets s1 s2
  split
  · rename_i h
    simp only [put_oob E _ _ _ (show ((12 : ℕ) : ℤ) < 21 * (1 + E.statMax) by push_cast; omega),
      put_oob E _ _ _ (show ((11 : ℕ) : ℤ) < 21 * (1 + E.statMax) by push_cast; omega),
      put_oob E _ _ _ (show ((10 : ℕ) : ℤ) < 21 * (1 + E.statMax) by push_cast; omega),
      put_oob E _ _ _ (show ((9 : ℕ) : ℤ) < 21 * (1 + E.statMax) by push_cast; omega),
      put_oob E _ _ _ (show ((8 : ℕ) : ℤ) < 21 * (1 + E.statMax) by push_cast; omega),
      put_oob E _ _ _ (show ((7 : ℕ) : ℤ) < 21 * (1 + E.statMax) by push_cast; omega)]
    rfl
  · rfl

theorem absEnd_oob (kk : ℕ) (s : Ipm K) : (absEnd E kk s).oob = s.oob := by
  unfold absEnd
  split
  · extract_lets s1
    split
    · rename_i h
      simp only [put_oob E _ _ _ (show ((21 * kk + 12 : ℕ) : ℤ) < 21 * (1 + E.statMax) by push_cast; omega),
        put_oob E _ _ _ (show ((21 * kk + 11 : ℕ) : ℤ) < 21 * (1 + E.statMax) by push_cast; omega),
        put_oob E _ _ _ (show ((21 * kk + 10 : ℕ) : ℤ) < 21 * (1 + E.statMax) by push_cast; omega),
        put_oob E _ _ _ (show ((21 * kk + 9 : ℕ) : ℤ) < 21 * (1 + E.statMax) by push_cast; omega),
        put_oob E _ _ _ (show ((21 * kk + 8 : ℕ) : ℤ) < 21 * (1 + E.statMax) by push_cast; omega),
        put_oob E _ _ _ (show ((21 * kk + 7 : ℕ) : ℤ) < 21 * (1 + E.statMax) by push_cast; omega)]
      rfl
    · rfl
  · rfl

theorem solveUnc_oob (s : Ipm K) : (solveUnc E s).s.oob = s.oob := by
  unfold solveUnc
  simp only
  split
  · split
    · rename_i h
      simp only [put_oob E _ _ _ (show ((11 : ℕ) : ℤ) < 21 * (1 + E.statMax) by push_cast; omega),
        put_oob E _ _ _ (show ((10 : ℕ) : ℤ) < 21 * (1 + E.statMax) by push_cast; omega),
        put_oob E _ _ _ (show ((9 : ℕ) : ℤ) < 21 * (1 + E.statMax) by push_cast; omega),
        put_oob E _ _ _ (show ((8 : ℕ) : ℤ) < 21 * (1 + E.statMax) by push_cast; omega),
        put_oob E _ _ _ (show ((7 : ℕ) : ℤ) < 21 * (1 + E.statMax) by push_cast; omega),
        put_oob E _ _ _ (show ((6 : ℕ) : ℤ) < 21 * (1 + E.statMax) by push_cast; omega)]
      rfl
    · rfl
  · rfl

theorem epilogue_oob (obs : Ipm K → Obs K) (r : ℕ × Ipm K) : (epilogue E obs r).s.oob = r.2.oob := by
  unfold epilogue
  simp only
  split <;> rfl

theorem ipmInit_oob (s : Ipm K) : (ipmInit E s).oob = s.oob := by
  unfold ipmInit
  extract_lets D s1
  exact maskLam_oob E _

/-- **C33** No write of the solver to the statistics leaves the table, whatever the iteration limit, the size of the
table and the formulation. -/
theorem ipm_stat_inside (lf : ℕ) (sol : Sol K) (s : Ipm K) (hs : s.oob = false) (o : SolveOut K)
    (h : ipmSolve E lf sol s = some o) : o.s.oob = false := by
  unfold ipmSolve at h
  simp only at h
  have hp : (prologue E sol s).oob = false := hs
  split at h
  · cases h
    rw [solveUnc_oob]; exact hp
  · split at h
    · obtain ⟨r, hr, rfl⟩ := Option.map_eq_some_iff.mp h
      rw [epilogue_oob, absEnd_oob]
      refine ipmLoop_inv _ _ _ (fun x => x.oob = false) (fun kk a b ha hb => (absBody_oob E kk a b hb).trans ha) lf _ r ?_ hr
      rw [absMu_oob, ipmInit_oob]; exact hp
    · obtain ⟨r, hr, rfl⟩ := Option.map_eq_some_iff.mp h
      rw [epilogue_oob]
      refine ipmLoop_inv _ _ _ (fun x => x.oob = false) (fun kk a b ha hb => (relBody_oob E kk a b hb).trans ha) lf _ r ?_ hr
      rw [relStart_oob, ipmInit_oob]; exact hp

/-! ### residuals of a QP whose extra rows differ -/

/-- two residual objects agree on all entries that belong to the problem -/
structure SameRes (D : QpDim) (r r' : Res K) : Prop where
  g : ∀ k i, k ≤ D.N → i < D.nu k + D.nx k + 2 * D.ns k → r'.res_g k i = r.res_g k i
  b : ∀ k i, k < D.N → i < D.nx (k + 1) → r'.res_b k i = r.res_b k i
  d : ∀ k i, k ≤ D.N → i < 2 * D.nb k + 2 * D.ng k + 2 * D.ns k → r'.res_d k i = r.res_d k i
  m : ∀ k i, k ≤ D.N → i < 2 * D.nb k + 2 * D.ng k + 2 * D.ns k → r'.res_m k i = r.res_m k i
  obj : r'.obj = r.obj
  gap : r'.dual_gap = r.dual_gap

theorem res_rows (q : OcpQp K) (hwf : q.WF) (B R : ℕ → Mat K)
    (hB : ∀ k i j, i < q.dim.nu k + q.dim.nx k → B k i j = q.BAbt k i j)
    (hR : ∀ k i j, i < q.dim.nu k + q.dim.nx k → R k i j = q.RSQrq k i j) (sol : Sol K)
    (r0 r1 : Res K) (w0 w1 : ResWs K) (h0 : w0.Ok q) (h1 : w1.Ok q) :
    SameRes q.dim (resCompute q sol r0 w0) (resCompute { q with
      BAbt := B
      RSQrq := R } sol r1 w1) := by
  set q' : OcpQp K := { q with
      BAbt := B
      RSQrq := R } with hq'
  have hwf' : q'.WF := hwf
  have h1' : w1.Ok q' := h1
  obtain ⟨a1, a2, a3, -⟩ := resCompute_val q hwf sol r0 w0 h0
  obtain ⟨b1, b2, b3, -⟩ := resCompute_val q' hwf' sol r1 w1 h1'
  have hh : ∀ k v i, i < q.dim.nu k + q.dim.nx k → hmul q' k v i = hmul q k v i := by
    intro k v i hi
    simp only [hmul]
    apply sum_congr rfl
    intro j hj
    have hj := mem_range.mp hj
    congr 1
    simp only [symL, hq', Nat.zero_add]
    split
    · exact hR k i j hi
    · exact hR k j i hj
  have hvG : ∀ k i lm, vG q' sol lm k i = vG q sol lm k i := by
    intro k i lm
    unfold vG
    simp only
    split
    · rename_i hi
      rw [hh k _ i hi]
      congr 1
      split
      · apply sum_congr rfl
        intro j _
        show B k i j * _ = _
        rw [hB k i j hi]
      · rfl
    · rfl
  have hvB : ∀ k i, vB q' sol k i = vB q sol k i := by
    intro k i
    unfold vB
    congr 1
    apply sum_congr rfl
    intro j hj
    show B k j i * _ = _
    rw [hB k j i (mem_range.mp hj)]
  refine ⟨?_, ?_, ?_, ?_, ?_, ?_⟩
  · intro k i hk hi
    rw [(a1 k hk).1.g i hi, (b1 k hk).1.g i hi]
    exact hvG k i _
  · intro k i hk hi
    rw [(a1 k hk.le).1.b hk i hi, (b1 k hk.le).1.b hk i hi]
    exact hvB k i
  · intro k i hk hi
    rw [(a1 k hk).1.d i hi, (b1 k hk).1.d i hi]; rfl
  · intro k i hk hi
    rw [(a1 k hk).2 i hi, (b1 k hk).2 i hi]; rfl
  · rw [a2, b2]
    apply sum_congr rfl
    intro k _
    unfold vObj
    simp only
    congr 2
    apply sum_congr rfl
    intro i hi
    rw [hh k _ i (mem_range.mp hi)]
  · rw [a3, b3]
    apply sum_congr rfl
    intro k _
    unfold vGap
    simp only
    congr 3
    apply sum_congr rfl
    intro i hi
    rw [hh k _ i (mem_range.mp hi)]

/-! ### C30: meaning of the status -/

/-- the residual object belongs to the current iterate -/
structure Fresh (s : Ipm K) : Prop where
  res : ∃ r0, s.res = resCompute (qpNow E s) (solOf E.qp.dim s.core) r0 s.rws
  rmax : s.rmax = resInfNorm E.qp.dim s.res
  rm : s.core.res_m = stFlat (nct E.qp.dim) s.res.res_m (E.qp.dim.N + 1)
  mask : s.rws.mask_constr = s.mask

theorem resStep_fresh (s : Ipm K) (h : s.rws.mask_constr = s.mask) : Fresh E (resStep E s) :=
  ⟨⟨s.res, rfl⟩, rfl, rfl, h⟩

/-- a change of `mu` -/
theorem Fresh.mu {s : Ipm K} (h : Fresh E s) (x : K) : Fresh E { s with core := { s.core with mu := x } } :=
  ⟨h.res, h.rmax, h.rm, h.mask⟩

theorem Fresh.put {s : Ipm K} (h : Fresh E s) (i : ℕ) (x : K) : Fresh E (put E i x s) := ⟨h.res, h.rmax, h.rm, h.mask⟩

theorem Fresh.putG {s : Ipm K} (h : Fresh E s) (kk col : ℕ) (x : K) : Fresh E (putG E kk col x s) := by
  unfold Hpipm.putG
  split
  · exact h.put E _ _
  · exact h

theorem Fresh.putG4 {s : Ipm K} (h : Fresh E s) (kk col : ℕ) (x : K × K × K × K) : Fresh E (putG4 E kk col x s) := by
  unfold Hpipm.putG4
  exact (((h.putG E _ _ _).putG E _ _ _).putG E _ _ _).putG E _ _ _

theorem relBody_fresh (kk : ℕ) (s s' : Ipm K) (hf : s.rws.mask_constr = s.mask) (h : relBody E kk s = some s') : Fresh E s' := by
  unfold relBody at h
  obtain ⟨s0, h0, rfl⟩ := Option.map_eq_some_iff.mp h
  obtain ⟨s1, hk, rfl⟩ := deltaStep_upd E kk s s0 h0
  have hm : (updStep E s1).rws.mask_constr = (updStep E s1).mask := by
    have e1 : (updStep E s1).rws = s1.rws := by unfold updStep maskLam; split <;> rfl
    have e2 : (updStep E s1).mask = s1.mask := by unfold updStep maskLam; split <;> rfl
    rw [e1, e2, hk.rws, hk.mask, hf]
  exact (((((resStep_fresh E _ hm).mu E _).putG E _ _ _).putG4 E _ _ _).putG E _ _ _).putG E _ _ _

theorem relStart_fresh (s : Ipm K) (hf : s.rws.mask_constr = s.mask) : Fresh E (relStart E s) := by
  unfold relStart
  extract_lets s1 c2 s2
  have h2 : Fresh E s2 := (resStep_fresh E s hf).mu E _
  split
  · exact (((((h2.put E _ _).put E _ _).put E _ _).put E _ _).put E _ _).put E _ _
  · exact h2

theorem ipmInit_rws (s : Ipm K) : (ipmInit E s).rws = s.rws ∧ (ipmInit E s).mask = s.mask := by
  unfold ipmInit
  extract_lets D s1
  refine ⟨?_, ?_⟩
  · show s1.rws = _
    simp only [s1]; unfold maskLam; split <;> rfl
  · show s1.mask = _
    simp only [s1]; unfold maskLam; split <;> rfl

theorem loop_kept {S X : Type*} (p : S → X) (n : ℕ) (f : ℕ → S → S) (s : S) (h : ∀ i s, p (f i s) = p s) :
    p (loop n f s) = p s :=
  loop_inv (S := S) (fun _ x => p x = p s) n f s rfl (fun i x _ ih => (h i x).trans ih)

/-- what the exit test and the caller see of the core workspace -/
def seen (c : Core K) : ℕ × Vec K × Vec K × Vec K × Vec K × Vec K × K × K × K :=
  (c.nc, c.v, c.pi, c.lam, c.t, c.res_m, c.mu, c.alpha_prim, c.alpha_dual)

theorem computeGGamma_seen (c : Core K) : seen (computeGGamma c) = seen c := by
  unfold computeGGamma
  split <;> exact loop_kept seen _ _ _ fun _ _ => rfl

theorem backupVar_seen (c : Core K) : seen (backupVar c) = seen c := by
  unfold backupVar
  extract_lets c1 c2 c3
  have h1 : seen c1 = seen c := loop_kept seen _ _ _ fun _ _ => rfl
  have h2 : seen c2 = seen c1 := loop_kept seen _ _ _ fun _ _ => rfl
  have h3 : seen c3 = seen c2 := loop_kept seen _ _ _ fun _ _ => rfl
  refine Eq.trans ?_ (h3.trans (h2.trans h1))
  exact loop_kept seen _ _ _ fun _ _ => rfl

theorem seen_obs (s s' : Ipm K) (h : seen s'.core = seen s.core) (h1 : s'.res = s.res) (h2 : s'.rmax = s.rmax) :
    obsRel E s' = obsRel E s ∧ solOf E.qp.dim s'.core = solOf E.qp.dim s.core := by
  simp only [seen, Prod.mk.injEq] at h
  obtain ⟨a1, a2, a3, a4, a5, a6, a7, a8, a9⟩ := h
  unfold obsRel resMTau solOf
  simp only [a1, a2, a3, a4, a5, a6, a7, a8, a9, h1, h2, and_self]

/-- the factorisation at exit does not touch the iterate or the residuals -/
theorem epilogue_obs (r : ℕ × Ipm K) : solOf E.qp.dim (epilogue E (obsRel E) r).s.core = solOf E.qp.dim r.2.core ∧
    (epilogue E (obsRel E) r).s.res = r.2.res ∧ (epilogue E (obsRel E) r).s.rmax = r.2.rmax ∧
    (epilogue E (obsRel E) r).status = statusOf E.arg r.1 (obsRel E r.2) := by
  unfold epilogue
  simp only
  split
  · have hs : seen (backupVar (computeGGamma r.2.core)) = seen r.2.core := by rw [backupVar_seen, computeGGamma_seen]
    obtain ⟨h1, h2⟩ := seen_obs E r.2 { r.2 with
      core := backupVar (computeGGamma r.2.core)
      kkt := E.factOnly (qpNow E r.2) (computeGGamma r.2.core) r.2.kkt
      rws := { r.2.rws with valid_nc_mask := false } } hs rfl rfl
    exact ⟨h2, rfl, rfl, by rw [h1]⟩
  · obtain ⟨h1, h2⟩ := seen_obs E r.2 { r.2 with
      rws := { r.2.rws with valid_nc_mask := false } } rfl rfl rfl
    exact ⟨h2, rfl, rfl, by rw [h1]⟩

/-- sizes and parameters of the core workspace -/
def pars (c : Core K) : ℕ × ℕ × ℕ × K × K × K × ℕ × ℕ × Bool × K :=
  (c.nv, c.ne, c.nc, c.lam_min, c.t_min, c.tau_min, c.t_lam_min, c.split_step, c.m_zero, c.nc_mask_inv)

theorem CKeep.pars {c c' : Core K} (h : CKeep c c') : pars c' = pars c := by
  unfold Hpipm.pars
  rw [h.nv, h.ne, h.nc, h.lam_min, h.t_min, h.tau_min, h.t_lam_min, h.split_step, h.m_zero, h.nc_mask_inv]

theorem updateVar_pars (c : Core K) : pars (updateVar c) = pars c := by
  unfold updateVar
  extract_lets a c1 c2 c3 c4
  have h1 : pars c1 = pars c := loop_kept pars _ _ _ fun _ _ => rfl
  have h2 : pars c2 = pars c1 := loop_kept pars _ _ _ fun _ _ => rfl
  have h3 : pars c3 = pars c2 := loop_kept pars _ _ _ fun _ _ => rfl
  have h4 : pars c4 = pars c2 := loop_kept pars _ _ _ fun _ _ => rfl
  split
  · refine Eq.trans ?_ (h3.trans (h2.trans h1))
    exact loop_kept pars _ _ _ fun _ _ => rfl
  · refine Eq.trans ?_ (h4.trans (h2.trans h1))
    exact loop_kept pars _ _ _ fun _ _ => rfl

theorem maskLam_pars (s : Ipm K) : pars (maskLam E s).core = pars s.core := by unfold maskLam; split <;> rfl

theorem updStep_pars (s : Ipm K) : pars (updStep E s).core = pars s.core := by
  unfold updStep
  rw [maskLam_pars]; exact updateVar_pars _

theorem updStep_mask (s : Ipm K) : (updStep E s).mask = s.mask := by unfold updStep maskLam; split <;> rfl

/-- sizes, parameters and the mask flag do not change in a pass of the relative loop -/
theorem relBody_pars (kk : ℕ) (s s' : Ipm K) (h : relBody E kk s = some s') : pars s'.core = pars s.core ∧ s'.mask = s.mask := by
  unfold relBody at h
  obtain ⟨s0, h0, rfl⟩ := Option.map_eq_some_iff.mp h
  obtain ⟨s1, hk, rfl⟩ := deltaStep_upd E kk s s0 h0
  simp only [putG_core, putG_mask, putG4_core]
  refine ⟨?_, ?_⟩
  · show pars (updStep E s1).core = _
    rw [updStep_pars, hk.core.pars]
  · have : ∀ (c : ℕ) (x : K × K × K × K) (s : Ipm K), (putG4 E kk c x s).mask = s.mask := by
      intro c x s; unfold putG4; simp only [putG_mask]
    rw [this, putG_mask]
    show (updStep E s1).mask = _
    rw [updStep_mask, hk.mask]

theorem relStart_pars (s : Ipm K) : pars (relStart E s).core = pars s.core ∧ (relStart E s).mask = s.mask := by
  unfold relStart
  extract_lets s1 c2 s2
  split <;> exact ⟨rfl, rfl⟩

theorem ncMask_ok (qp : OcpQp K) (hm : Mask01 qp) : MaskOk qp (decide (ncMask qp (stOff (nct qp.dim) (qp.dim.N + 1)) < stOff (nct qp.dim) (qp.dim.N + 1))) := by
  have key : ∀ n, ncMask qp n ≤ n ∧ (ncMask qp n = n → ∀ i, i < n → fmask qp i ≠ 0) := by
    intro n
    refine loop_inv (S := ℕ) (fun n x => x ≤ n ∧ (x = n → ∀ i, i < n → fmask qp i ≠ 0)) n _ 0 ⟨le_refl _, fun _ i hi => by omega⟩ ?_
    intro i x _ ⟨h1, h2⟩
    by_cases hx : fmask qp i ≠ 0
    · simp only [if_pos hx]
      refine ⟨by omega, fun e j hj => ?_⟩
      by_cases hji : j = i
      · rw [hji]; exact hx
      · exact h2 (by omega) j (by omega)
    · simp only [if_neg hx]
      exact ⟨by omega, fun e => by omega⟩
  unfold MaskOk
  by_cases hl : ncMask qp (stOff (nct qp.dim) (qp.dim.N + 1)) < stOff (nct qp.dim) (qp.dim.N + 1)
  · left; rw [decide_eq_true_eq]; exact hl
  · right
    intro k j hk hj
    obtain ⟨h1, h2⟩ := key (stOff (nct qp.dim) (qp.dim.N + 1))
    have h3 := h2 (by omega) (stOff (nct qp.dim) k + j) (stOff_lt hk hj)
    unfold fmask at h3
    rw [stFlat_at _ _ _ _ _ (by omega) hj] at h3
    rcases hm k j hk hj with h | h
    · exact absurd h h3
    · exact h

/-- **C30** What success of the relative formulation means to the caller.  Let the residual routine be run on the caller's QP and
the returned solution, with any residual object and workspace: stationarity, dynamics and inequality residuals are
within their tolerances, complementarity is within its tolerance of `tau_min` (of zero for masked constraints), the duality
gap is at most its tolerance, and fewer than `iter_max` iterations were made. -/
theorem ipm_success (hE : E.Keeps) (hwf : E.qp.WF) (hm : Mask01 E.qp) (lf : ℕ) (sol : Sol K) (s : Ipm K) (o : SolveOut K)
    (hnc : s.core.nc = stOff (nct E.qp.dim) (E.qp.dim.N + 1)) (hc : ncMask E.qp s.core.nc ≠ 0)
    (ha : E.arg.i .abs_form = 0) (hit : 0 ≤ E.arg.i .iter_max)
    (h : ipmSolve E lf sol s = some o) (hs : o.status = .SUCCESS) (res0 : Res K) (ws0 : ResWs K) (hws0 : ws0.Ok E.qp) :
    let D := E.qp.dim
    let r := resCompute E.qp (solOf D o.s.core) res0 ws0
    (∀ k i, k ≤ D.N → i < D.nu k + D.nx k + 2 * D.ns k → |r.res_g k i| ≤ E.arg.r .res_g_max) ∧
    (∀ k i, k < D.N → i < D.nx (k + 1) → |r.res_b k i| ≤ E.arg.r .res_b_max) ∧
    (∀ k i, k ≤ D.N → i < 2 * D.nb k + 2 * D.ng k + 2 * D.ns k → |r.res_d k i| ≤ E.arg.r .res_d_max) ∧
    (∀ k i, k ≤ D.N → i < 2 * D.nb k + 2 * D.ng k + 2 * D.ns k →
      |r.res_m k i - E.arg.r .tau_min * E.qp.d_mask k i| ≤ E.arg.r .res_m_max) ∧
    r.dual_gap ≤ E.arg.r .dual_gap_max ∧ (o.iter : ℤ) < E.arg.i .iter_max := by
  intro D r
  unfold ipmSolve at h
  simp only at h
  have hnc0 : s.core.nc ≠ 0 := by
    intro e
    apply hc
    rw [e]; rfl
  rw [if_neg (by rintro (h1 | h1); exacts [hnc0 h1, hc h1]), if_neg (by rw [ha]; simp)] at h
  obtain ⟨l, hl, rfl⟩ := Option.map_eq_some_iff.mp h
  obtain ⟨eo1, eo2, eo3, eo4⟩ := epilogue_obs E l
  rw [eo4] at hs
  -- the state at the end of the loop
  have hi0 := ipmInit_rws E (prologue E sol s)
  have hstart : (relStart E (ipmInit E (prologue E sol s))).kkt = (ipmInit E (prologue E sol s)).kkt := relStart_kkt E _
  have hF0 : Fresh E (relStart E (ipmInit E (prologue E sol s))) :=
    relStart_fresh E _ (by rw [hi0.1, hi0.2]; rfl)
  obtain ⟨hF, hp, hmk⟩ := ipmLoop_inv _ _ _ (fun x => Fresh E x ∧ (x.core.nc = (prologue E sol s).core.nc ∧ x.mask = (prologue E sol s).mask) ∧
      MK E (prologue E sol s) x)
    (fun kk a b ha hb => by
      obtain ⟨p1, p2⟩ := relBody_pars E kk a b hb
      refine ⟨relBody_fresh E kk a b ha.1.mask hb, ⟨?_, p2.trans ha.2.1.2⟩, ha.2.2.trans (relBody_mk E hE kk a b hb)⟩
      rw [← ha.2.1.1]
      simp only [pars, Prod.mk.injEq] at p1
      exact p1.2.2.1) lf _ l
    (by
      obtain ⟨p1, p2⟩ := relStart_pars E (ipmInit E (prologue E sol s))
      refine ⟨hF0, ⟨?_, p2.trans hi0.2⟩, ?_⟩
      · simp only [pars, Prod.mk.injEq] at p1
        rw [p1.2.2.1]
        unfold ipmInit maskLam
        simp only
        split <;> rfl
      · refine MKeep.trans ?_ (MK.ofEq E (relStart_kkt E _))
        unfold ipmInit
        extract_lets D s1
        exact MK.ofEq E (maskLam_kkt E _)) hl
  obtain ⟨-, hstop⟩ := ipmLoop_run _ _ _ _ _ _ hl
  have hle := ipmLoop_iter_le _ _ _ _ _ _ hl
  obtain ⟨n0, -, -, n1, n2, n3, n4, n5⟩ := (status_success_iff E.arg hit l.1 _ _ _ _ _ _ _ _ hstop hle).mp hs
  -- the residuals in force are those of the caller's problem
  obtain ⟨r0, hr0⟩ := hF.res
  have hok : l.2.rws.Ok E.qp := by
    intro _
    rw [hF.mask, hp.2]
    have := ncMask_ok E.qp hm
    rw [← hnc] at this
    exact this
  have hsame : SameRes E.qp.dim r l.2.res := by
    rw [hr0]
    show SameRes E.qp.dim (resCompute E.qp (solOf D (epilogue E (obsRel E) l).s.core) res0 ws0) _
    rw [eo1]
    exact res_rows E.qp hwf _ _ (fun k i j hi => hmk.B k i j hi) (fun k i j hi => hmk.R k i j hi) _ _ _ _ _ hws0 hok
  have hnm := res_norms E.qp.dim l.2.res
  simp only at hnm
  rw [hF.rmax] at n1 n2 n3
  refine ⟨?_, ?_, ?_, ?_, ?_, n0⟩
  · intro k i hk hi
    rw [← hsame.g k i hk hi]; exact (hnm.1.1 k i hk hi).trans n1
  · intro k i hk hi
    rw [← hsame.b k i hk hi]; exact (hnm.2.1.1 k i hk hi).trans n2
  · intro k i hk hi
    rw [← hsame.d k i hk hi]; exact (hnm.2.2.1.1 k i hk hi).trans n3
  · intro k i hk hi
    rw [← hsame.m k i hk hi]
    refine le_trans ?_ n4
    unfold resMTau
    have hlt := stOff_lt (len := nct D) (N := D.N) hk hi
    have hlt' : stOff (nct D) k + i < l.2.core.nc := by
      rw [hp.1]
      show _ < s.core.nc
      rw [hnc]; exact hlt
    refine le_trans (le_of_eq ?_) ((vecnrmInf_spec l.2.core.nc _ 0).1 _ hlt')
    congr 1
    unfold axpy
    rw [if_pos (by omega), hF.rm, Nat.sub_zero, Nat.zero_add, Nat.zero_add]
    unfold fmask
    rw [stFlat_at (nct D) l.2.res.res_m (D.N + 1) k i (by omega) hi, stFlat_at (nct D) E.qp.d_mask (D.N + 1) k i (by omega) hi]
    ring
  · rw [← hsame.gap]; exact n5

end
end Hpipm
