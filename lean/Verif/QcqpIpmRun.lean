/-
C83: whole runs of the QCQP interior point solver.
-/
import Verif.QcqpIpmInit

namespace Hpipm
open Finset
set_option linter.unusedSectionVars false

section
variable {K : Type*} [Field K] [LinearOrder K] [IsStrictOrderedRing K] (T : QEnv K)

/-! ### how a call ends -/

/-- **C83** The number of iterations reported by the QCQP solver is at most `iter_max` (zero for a negative limit). -/
theorem qipm_iter_le (lf : ℕ) (sol : Sol K) (s : QIpm K) (o : QSolveOut K) (h : qipmSolve T lf sol s = .ok o) :
    (o.iter : ℤ) ≤ max (T.arg.i .iter_max) 0 := by
  unfold qipmSolve at h
  simp only at h
  split at h
  · cases h
  · split at h
    · cases h; exact le_max_right _ _
    · split at h
      · split at h
        · cases h
        · rename_i r hr
          cases h
          exact ipmLoop_iter_le _ _ _ _ _ _ hr
      · split at h
        · cases h
        · rename_i r hr
          cases h
          exact ipmLoop_iter_le _ _ _ _ _ _ hr

/-- **C83** The solver reads through an unassigned pointer exactly when the heuristic start is selected and some stage has
general linear constraints. -/
theorem qipm_uninit_iff (lf : ℕ) (sol : Sol K) (s : QIpm K) :
    qipmSolve T lf sol s = .error .uninit ↔
      T.arg.i .warm_start < 2 ∧ T.arg.i .t0_init ≠ 0 ∧ T.arg.i .t0_init ≠ 1 ∧ ∃ k, k ≤ T.Q.base.dim.N ∧ 0 < T.Q.base.dim.ng k := by
  have h0 := qinitVar_none_iff T.sq (maskLower T.Q) T.arg sol
  rw [show (∃ k, k ≤ T.Q.base.dim.N ∧ 0 < T.Q.base.dim.ng k) ↔
    ∃ k, k ≤ (maskLower T.Q).base.dim.N ∧ 0 < (maskLower T.Q).base.dim.ng k from Iff.rfl, ← h0]
  constructor
  · intro h
    unfold qipmSolve at h
    simp only at h
    split at h
    · assumption
    · split at h
      · cases h
      · split at h
        · split at h <;> cases h
        · split at h <;> cases h
  · intro h
    unfold qipmSolve
    simp only
    rw [h]

/-- **C83** The QCQP solver returns, for every QCQP, every setting (other than those of `qipm_uninit_iff`) and every previous
contents of the workspace, as long as each factorisation ends. -/
theorem qipm_terminates (sol : Sol K) (s : QIpm K) (lf : ℕ) (hlf : T.arg.i .iter_max ≤ lf)
    (hi : ¬ (T.arg.i .warm_start < 2 ∧ T.arg.i .t0_init ≠ 0 ∧ T.arg.i .t0_init ≠ 1 ∧ ∃ k, k ≤ T.Q.base.dim.N ∧ 0 < T.Q.base.dim.ng k))
    (hf : ∀ qp kk s', ∃ s'', deltaStep (T.env qp) kk s' = some s'') (ha : ∀ qp kk s', ∃ s'', absStep (T.env qp) kk s' = some s'') :
    ∃ o, qipmSolve T lf sol s = .ok o := by
  have h0 : qinitVar T.sq (maskLower T.Q) T.arg sol ≠ none := fun h => hi ((qinitVar_none_iff T.sq (maskLower T.Q) T.arg sol).mp h)
  unfold qipmSolve
  simp only
  split
  · rename_i h; exact absurd h h0
  · split
    · exact ⟨_, rfl⟩
    · split
      · rename_i sol0 _ _ _
        obtain ⟨r, hr, -⟩ := ipmLoop_terminates (fun s => contAbs { T.arg with r := fun f => if f = .tau_min then T.qarg.r .tau_min else T.arg.r f } (qobs T s))
          (qabsBody T (maskLower T.Q)) (T.arg.i .iter_max) (fun _ => True) (fun kk s' _ _ _ => by
            obtain ⟨s'', e⟩ := ha s'.qp kk s'.ip
            exact ⟨_, by unfold qabsBody; rw [e]; rfl, trivial⟩) lf 0 (qabsMu (maskLower T.Q) (qstart (qbegin T sol0 s))) trivial (by push_cast; omega)
        rw [hr]; exact ⟨_, rfl⟩
      · rename_i sol0 _ _ _
        obtain ⟨r, hr, -⟩ := ipmLoop_terminates (fun s => contRel T.arg (qobs T s)) (qrelBody T (maskLower T.Q)) (T.arg.i .iter_max) (fun _ => True)
          (fun kk s' _ _ _ => by
            obtain ⟨s'', e⟩ := hf s'.qp kk s'.ip
            exact ⟨_, by unfold qrelBody; rw [e]; rfl, trivial⟩) lf 0 (qrelStart T (maskLower T.Q) (qstart (qbegin T sol0 s))) trivial (by push_cast; omega)
        rw [hr]; exact ⟨_, rfl⟩

/-! ### the state at the start of the loops -/

theorem qbegin_inv (hm : Mask01 T.Q.inner) (sol0 : Sol K) (s : QIpm K)
    (hnc : s.ip.core.nc = stOff (nct T.Q.inner.dim) (T.Q.base.dim.N + 1)) :
    QFrame T (qbegin T sol0 s) ∧ QIt T (qbegin T sol0 s) ∧
    QpApprox (maskLower T.Q) (qbegin T sol0 s).sol (qbegin T sol0 s).qp (qbegin T sol0 s).rws ∧
    (∀ k i, k ≤ T.Q.base.dim.N → i < nct T.Q.inner.dim k →
      (qbegin T sol0 s).sol.lam k i = (maskLower T.Q).base.d_mask k i * sol0.lam k i) ∧ (qbegin T sol0 s).sol.t = sol0.t ∧
    (qbegin T sol0 s).sol.ux = sol0.ux ∧ (qbegin T sol0 s).sol.pi = sol0.pi := by
  have hv := approxQp_val (maskLower T.Q) (maskSol (maskLower T.Q).inner.dim (maskLower T.Q).base.d_mask sol0)
    { qp := { s.qp with dim := (maskLower T.Q).inner.dim }
      rws := { s.rws with
        use_q_fun := true
        use_q_adj := true }
      nux0 := s.nux0
      nux1 := s.nux1 } rfl
  have hlam : ∀ k i, k ≤ T.Q.base.dim.N → i < nct T.Q.inner.dim k →
      (maskSol (maskLower T.Q).inner.dim (maskLower T.Q).base.d_mask sol0).lam k i = (maskLower T.Q).base.d_mask k i * sol0.lam k i := by
    intro k i hk hi
    have e : (maskSol (maskLower T.Q).inner.dim (maskLower T.Q).base.d_mask sol0).lam k i =
      if k ≤ T.Q.base.dim.N ∧ i < nct T.Q.inner.dim k then (maskLower T.Q).base.d_mask k i * sol0.lam k i else sol0.lam k i := rfl
    rw [e, if_pos ⟨hk, hi⟩]
  refine ⟨⟨hv.fix, ⟨?_, ?_, rfl, rfl, rfl, rfl⟩, rfl, rfl⟩, ⟨?_, ?_, ?_, ?_, ?_⟩, ⟨hv.fix, fun k hk => ?_⟩, hlam, rfl, rfl, rfl⟩
  · refine Eq.trans ?_ (congrArg (fun D : QpDim => stOff (nct D) (D.N + 1)) hv.fix.dim.symm)
    exact hnc
  · intro h; cases h
  · intro k i hk hi
    exact (stFlat_at (nvt T.Q.inner.dim) sol0.ux (T.Q.base.dim.N + 1) k i (by omega) hi).symm
  · intro k i hk hi
    exact (stFlat_at (net T.Q.inner.dim) sol0.pi T.Q.base.dim.N k i hk hi).symm
  · intro k i hk hi
    exact (stFlat_at (nct T.Q.inner.dim) (maskSol (maskLower T.Q).inner.dim (maskLower T.Q).base.d_mask sol0).lam
      (T.Q.base.dim.N + 1) k i (by omega) hi).symm
  · intro k i hk hi
    exact (stFlat_at (nct T.Q.inner.dim) sol0.t (T.Q.base.dim.N + 1) k i (by omega) hi).symm
  · intro k j hk hj
    have e := hlam k j hk hj
    show (maskLower T.Q).base.d_mask k j * (maskSol (maskLower T.Q).inner.dim (maskLower T.Q).base.d_mask sol0).lam k j =
      (maskSol (maskLower T.Q).inner.dim (maskLower T.Q).base.d_mask sol0).lam k j
    rw [e]
    rcases maskLower_01 hm k j hk hj with h | h
    · rw [show (maskLower T.Q).base.d_mask k j = 0 from h]; ring
    · rw [show (maskLower T.Q).base.d_mask k j = 1 from h]; ring
  · exact (hv.stage k hk).congr rfl (fun _ _ _ _ => rfl) rfl rfl rfl

/-- the state in which the iteration loop starts -/
def qstartState (sol0 : Sol K) (s : QIpm K) : QIpm K :=
  if T.qarg.i .abs_form ≠ 0 then qabsMu (maskLower T.Q) (qstart (qbegin T sol0 s))
  else qrelStart T (maskLower T.Q) (qstart (qbegin T sol0 s))

/-- one pass of the loop of the selected formulation -/
def qpassOf (kk : ℕ) (s : QIpm K) : Option (QIpm K) :=
  if T.qarg.i .abs_form ≠ 0 then qabsBody T (maskLower T.Q) kk s else qrelBody T (maskLower T.Q) kk s

/-- the loop guard of the selected formulation -/
def qguardOf (s : QIpm K) : Bool :=
  if T.qarg.i .abs_form ≠ 0 then
    contAbs { T.arg with r := fun f => if f = .tau_min then T.qarg.r .tau_min else T.arg.r f } (qobs T s)
  else contRel T.arg (qobs T s)

theorem qstart_inv {s : QIpm K} (hf : QFrame T s) (hi : QIt T s) : QFrame T (qstart s) ∧ QIt T (qstart s) :=
  ⟨⟨hf.fix, ⟨hf.ready.nc, hf.ready.mask, hf.ready.lam_min, hf.ready.t_min, hf.ready.clip, hf.ready.split⟩, hf.mask, hf.rmask⟩,
    ⟨hi.ux, hi.pi, hi.lam, hi.t, hi.masked⟩⟩

theorem qput_frame (E : Env K) (i : ℕ) (x : K) (ip : Ipm K) : (put E i x ip).core = ip.core ∧ (put E i x ip).mask = ip.mask := ⟨rfl, rfl⟩

theorem qrelStart_inv {s : QIpm K} (hf : QFrame T s) (hi : QIt T s) (ha : QpApprox (maskLower T.Q) s.sol s.qp s.rws) :
    QFrame T (qrelStart T (maskLower T.Q) s) ∧ QIt T (qrelStart T (maskLower T.Q) s) ∧ QFresh T (qrelStart T (maskLower T.Q) s) ∧
    (qrelStart T (maskLower T.Q) s).sol = s.sol := by
  unfold qrelStart
  extract_lets s1 E ip
  have h1 : ip.core = s1.ip.core ∧ ip.mask = s1.ip.mask := by
    simp only [ip]
    split <;> exact ⟨rfl, rfl⟩
  have hd : pars s1.ip.core = pars s.ip.core := rfl
  refine ⟨⟨hf.fix, (hf.ready.of _ (s' := s1.ip) hd rfl).of _ (by rw [h1.1]) h1.2, h1.2.trans hf.mask, hf.rmask⟩, ⟨?_, ?_, ?_, ?_, hi.masked⟩, ⟨ha, ⟨s.res, rfl⟩, rfl, ?_⟩, rfl⟩
  · intro k i hk hi'
    show s.sol.ux k i = (solOf _ ip.core).ux k i
    rw [h1.1]; exact hi.ux k i hk hi'
  · intro k i hk hi'
    show s.sol.pi k i = (solOf _ ip.core).pi k i
    rw [h1.1]; exact hi.pi k i hk hi'
  · intro k i hk hi'
    show s.sol.lam k i = (solOf _ ip.core).lam k i
    rw [h1.1]; exact hi.lam k i hk hi'
  · intro k i hk hi'
    show s.sol.t k i = (solOf _ ip.core).t k i
    rw [h1.1]; exact hi.t k i hk hi'
  · show ip.core.res_m = _
    rw [h1.1]; rfl

theorem qabsMu_inv {s : QIpm K} (hf : QFrame0 T s) :
    QFrame0 T (qabsMu (maskLower T.Q) s) ∧ (qabsMu (maskLower T.Q) s).sol = s.sol ∧
    (qabsMu (maskLower T.Q) s).ip.core.lam = s.ip.core.lam ∧ (qabsMu (maskLower T.Q) s).ip.core.t = s.ip.core.t ∧
    (qabsMu (maskLower T.Q) s).ip.oob = s.ip.oob ∧
    (qabsMu (maskLower T.Q) s).ip.core.mu = (∑ i ∈ range s.ip.core.nc, s.ip.core.lam i * s.ip.core.t i) / (s.ip.core.nc : K) := by
  have hq : (qabsMu (maskLower T.Q) s).qp.dim = s.qp.dim ∧ (qabsMu (maskLower T.Q) s).qp.d_mask = s.qp.d_mask :=
    loop_inv (S := QwSt K) (fun _ (x : QwSt K) => x.qp.dim = s.qp.dim ∧ x.qp.d_mask = s.qp.d_mask) _ _ _ ⟨rfl, rfl⟩
      (fun _ x _ hx => ⟨hx.1, hx.2⟩)
  refine ⟨⟨hq.1.trans hf.dim, fun k j hk hj => by rw [hq.2]; exact hf.dmask k j hk hj, ?_, hf.mask⟩, rfl, rfl, rfl, rfl, ?_⟩
  · exact (ready_qp T hf.ready hq.1 hf.mask).of _ rfl rfl
  · show dot s.ip.core.nc s.ip.core.lam 0 s.ip.core.t 0 / _ = _
    unfold dot
    simp only [Nat.zero_add]

/-- a pass of the absolute loop -/
theorem qabsBody_inv (hm : Mask01 T.Q.inner) (kk : ℕ) (s s' : QIpm K) (hf : QFrame0 T s)
    (h : qabsBody T (maskLower T.Q) kk s = some s') :
    QFrame0 T s' ∧ (∀ k i, k ≤ T.Q.base.dim.N → i < nct T.Q.inner.dim k → s'.sol.lam k i = (solOf T.Q.inner.dim s'.ip.core).lam k i ∧
      s'.sol.t k i = (solOf T.Q.inner.dim s'.ip.core).t k i) ∧ (T.qarg.i .t_lam_min = 2 → QClipped T s'.sol) ∧ s'.ip.oob = s.ip.oob ∧
    s'.ip.core.mu = (∑ i ∈ range s'.ip.core.nc, s'.ip.core.lam i * s'.ip.core.t i) / (s'.ip.core.nc : K) := by
  unfold qabsBody at h
  obtain ⟨ip, hip, rfl⟩ := Option.map_eq_some_iff.mp h
  obtain ⟨s1, hk1, rfl⟩ := absStep_upd _ kk _ _ hip
  obtain ⟨u1, u2, u3, u4⟩ := upd_iter T hm hf s1 hk1
  generalize hipd : updStep (T.env s.qp) s1 = ip at *
  have hoob : ip.oob = s.ip.oob := by rw [← hipd, updStep_oob, hk1.oob]
  have hf' : QFrame0 T { s with
      ip := ip
      sol := convSol (maskLower T.Q).inner.dim (solOf (maskLower T.Q).inner.dim ip.core) s.sol } := ⟨hf.dim, hf.dmask, u1, u2⟩
  obtain ⟨a1, a2, a3, a4, a5, a6⟩ := qabsMu_inv T hf'
  dsimp only
  generalize hsd : qabsMu (maskLower T.Q) { s with
      ip := ip
      sol := convSol (maskLower T.Q).inner.dim (solOf (maskLower T.Q).inner.dim ip.core) s.sol } = sd at *
  have ac : sd.ip.core.nc = ip.core.nc := by rw [← hsd]; rfl
  have hkp := putG_keep (T.env sd.qp) kk 6 (by omega) sd.ip.core.mu sd.ip
  have hlt : ∀ k i, k ≤ T.Q.base.dim.N → i < nct T.Q.inner.dim k → sd.sol.lam k i = (solOf T.Q.inner.dim ip.core).lam k i ∧
      sd.sol.t k i = (solOf T.Q.inner.dim ip.core).t k i := by
    intro k i hk hi
    rw [a2]
    have e : ∀ (x y : ℕ → Vec K), (if k ≤ (maskLower T.Q).inner.dim.N ∧ i < nct (maskLower T.Q).inner.dim k then x k i else y k i) = x k i :=
      fun x y => if_pos ⟨hk, hi⟩
    exact ⟨e _ _, e _ _⟩
  refine ⟨⟨a1.dim, a1.dmask, a1.ready.keep _ hkp, hkp.mask.trans a1.mask⟩, ?_, ?_, ?_, ?_⟩
  · intro k i hk hi
    obtain ⟨e1, e2⟩ := hlt k i hk hi
    simp only [putG_core]
    rw [e1, e2]
    have e3 : (solOf T.Q.inner.dim sd.ip.core).lam = (solOf T.Q.inner.dim ip.core).lam := by unfold solOf; rw [a3]
    have e4 : (solOf T.Q.inner.dim sd.ip.core).t = (solOf T.Q.inner.dim ip.core).t := by unfold solOf; rw [a4]
    rw [e3, e4]; exact ⟨rfl, rfl⟩
  · intro hc k j hk hj
    obtain ⟨e1, e2⟩ := hlt k j hk hj
    show T.qarg.r .t_min ≤ sd.sol.t k j ∧ (_ → T.qarg.r .lam_min ≤ sd.sol.lam k j) ∧ (_ → sd.sol.lam k j = 0)
    rw [e1, e2]; exact u4 hc k j hk hj
  · show (putG (T.env sd.qp) kk 6 sd.ip.core.mu sd.ip).oob = _
    rw [hkp.oob, a5]; exact hoob
  · simp only [putG_core]
    rw [a6, a3, a4, ac]

/-! ### whole runs -/

theorem qipm_cases (lf : ℕ) (sol : Sol K) (s : QIpm K) (o : QSolveOut K) (h : qipmSolve T lf sol s = .ok o) :
    ∃ sol0, qinitVar T.sq (maskLower T.Q) T.arg sol = some sol0 ∧
      (((s.ip.core.nc = 0 ∨ ncMask (qbegin T sol0 s).qp s.ip.core.nc = 0) ∧ o = qsolveUnc T (maskLower T.Q) (qbegin T sol0 s)) ∨
      (¬ (s.ip.core.nc = 0 ∨ ncMask (qbegin T sol0 s).qp s.ip.core.nc = 0) ∧ ∃ r,
        ipmLoop (qguardOf T) (qpassOf T) (T.arg.i .iter_max) lf 0 (qstartState T sol0 s) = some r ∧
        o = qepilogue T (maskLower T.Q) (if T.qarg.i .abs_form ≠ 0 then (r.1, qabsEnd T (maskLower T.Q) r.1 r.2) else r))) := by
  unfold qipmSolve at h
  simp only at h
  split at h
  · cases h
  · rename_i sol0 hs0
    refine ⟨sol0, hs0, ?_⟩
    split at h
    · rename_i hc; cases h; exact Or.inl ⟨hc, rfl⟩
    · rename_i hc
      refine Or.inr ⟨hc, ?_⟩
      have hg : qguardOf T = if T.qarg.i .abs_form ≠ 0 then
          (fun s => contAbs { T.arg with r := fun f => if f = .tau_min then T.qarg.r .tau_min else T.arg.r f } (qobs T s))
        else (fun s => contRel T.arg (qobs T s)) := by
        funext s; unfold qguardOf; split <;> rfl
      have hp : qpassOf T = if T.qarg.i .abs_form ≠ 0 then qabsBody T (maskLower T.Q) else qrelBody T (maskLower T.Q) := by
        funext kk s; unfold qpassOf; split <;> rfl
      rw [hg, hp]
      unfold qstartState
      by_cases ha : T.qarg.i .abs_form ≠ 0
      · rw [if_pos ha] at h
        simp only [if_pos ha]
        split at h
        · cases h
        · rename_i r hr
          cases h
          exact ⟨r, hr, rfl⟩
      · rw [if_neg ha] at h
        simp only [if_neg ha]
        split at h
        · cases h
        · rename_i r hr
          cases h
          exact ⟨r, hr, rfl⟩

/-- there is a constraint the solver takes into account -/
def QActive : Prop := ∃ k j, k ≤ T.Q.base.dim.N ∧ j < nct T.Q.inner.dim k ∧ (maskLower T.Q).base.d_mask k j ≠ 0

theorem qactive_nc (hm : Mask01 T.Q.inner) (sol0 : Sol K) (s : QIpm K)
    (hnc : s.ip.core.nc = stOff (nct T.Q.inner.dim) (T.Q.base.dim.N + 1)) (hact : QActive T) :
    ¬ (s.ip.core.nc = 0 ∨ ncMask (qbegin T sol0 s).qp s.ip.core.nc = 0) := by
  obtain ⟨k, j, hk, hj, hne⟩ := hact
  obtain ⟨hf, -⟩ := qbegin_inv T hm sol0 s hnc
  have hlt := stOff_lt (len := nct T.Q.inner.dim) (N := T.Q.base.dim.N) hk hj
  rw [← hnc] at hlt
  rintro (h | h)
  · omega
  · rw [ncMask_sum] at h
    have h' := (Finset.sum_eq_zero_iff.mp h) _ (mem_range.mpr hlt)
    have e : fmask (qbegin T sol0 s).qp (stOff (nct T.Q.inner.dim) k + j) = (maskLower T.Q).base.d_mask k j := by
      unfold fmask
      rw [hf.fix.dim]
      rw [show (maskLower T.Q).inner.dim = T.Q.inner.dim from rfl]
      rw [stFlat_at (nct T.Q.inner.dim) _ (T.Q.inner.dim.N + 1) k j (by show k < T.Q.base.dim.N + 1; omega) hj]
      exact hf.fix.mask k hk j hj
    rw [e, if_pos hne] at h'
    exact absurd h' one_ne_zero

theorem qabsEnd_it (kk : ℕ) (x : QIpm K) : (qabsEnd T (maskLower T.Q) kk x).sol = x.sol ∧
    (qabsEnd T (maskLower T.Q) kk x).ip.core = x.ip.core := by
  unfold qabsEnd
  split
  · extract_lets r m E
    clear_value r m
    refine ⟨rfl, ?_⟩
    dsimp only
    split
    · simp only [(qput_frame _ _ _ _).1]
    · rfl
  · exact ⟨rfl, rfl⟩

theorem qstartState_inv (hm : Mask01 T.Q.inner) (sol0 : Sol K) (s : QIpm K)
    (hnc : s.ip.core.nc = stOff (nct T.Q.inner.dim) (T.Q.base.dim.N + 1)) :
    QFrame0 T (qstartState T sol0 s) ∧ (qstartState T sol0 s).sol = (qbegin T sol0 s).sol ∧
    (T.qarg.i .abs_form = 0 → QFrame T (qstartState T sol0 s) ∧ QIt T (qstartState T sol0 s) ∧ QFresh T (qstartState T sol0 s)) := by
  obtain ⟨b1, b2, b3, -⟩ := qbegin_inv T hm sol0 s hnc
  obtain ⟨c1, c2⟩ := qstart_inv T b1 b2
  unfold qstartState
  split
  · rename_i ha
    obtain ⟨a1, a2, -⟩ := qabsMu_inv T c1.frame0
    exact ⟨a1, a2, fun h => absurd h ha⟩
  · obtain ⟨a1, a2, a3, a4⟩ := qrelStart_inv T c1 c2 b3
    exact ⟨a1.frame0, a4, fun _ => ⟨a1, a2, a3⟩⟩

theorem qpass_inv (hm : Mask01 T.Q.inner) (kk : ℕ) (s s' : QIpm K) (hf : QFrame0 T s)
    (hr : T.qarg.i .abs_form = 0 → QFrame T s) (h : qpassOf T kk s = some s') :
    QFrame0 T s' ∧ (T.qarg.i .abs_form = 0 → QFrame T s' ∧ QIt T s' ∧ QFresh T s') ∧ (T.qarg.i .t_lam_min = 2 → QClipped T s'.sol) ∧
    s'.ip.oob = s.ip.oob := by
  unfold qpassOf at h
  split at h
  · rename_i ha
    obtain ⟨a1, -, a3, a4, -⟩ := qabsBody_inv T hm kk s s' hf h
    exact ⟨a1, fun h => absurd h ha, a3, a4⟩
  · rename_i ha
    obtain ⟨a1, a2, a3, a4, a5, -⟩ := qrelBody_inv T hm kk s s' (hr (not_not.mp ha)) h
    exact ⟨a1.frame0, fun _ => ⟨a1, a2, a3⟩, a4, a5⟩

/-- **C83** Every iterate of the QCQP solver has strictly positive slacks, strictly positive multipliers of the constraints it
takes into account and zero multipliers of the others: in both formulations, for every QCQP (convex or not), every direction and
step length, as long as clipping is on. -/
theorem qipm_iterates_inside (hm : Mask01 T.Q.inner) (hi : QInitOk T.Q T.arg) (hc : T.qarg.i .t_lam_min = 2)
    (hl : 0 < T.qarg.r .lam_min) (ht : 0 < T.qarg.r .t_min) (sol sol0 : Sol K) (s : QIpm K)
    (hnc : s.ip.core.nc = stOff (nct T.Q.inner.dim) (T.Q.base.dim.N + 1)) (h0 : qinitVar T.sq (maskLower T.Q) T.arg sol = some sol0)
    (n : ℕ) (f : ℕ → QIpm K) (hf0 : f 0 = qstartState T sol0 s) (hrun : Run (qguardOf T) (qpassOf T) (T.arg.i .iter_max) n f) :
    ∀ i, i ≤ n → QInside T (f i).sol ∧ (0 < i → QClipped T (f i).sol) := by
  have key : ∀ i, i ≤ n → QFrame0 T (f i) ∧ (T.qarg.i .abs_form = 0 → QFrame T (f i)) ∧ QInside T (f i).sol ∧ (0 < i → QClipped T (f i).sol) := by
    intro i
    induction i with
    | zero =>
      intro _
      rw [hf0]
      obtain ⟨s1, s2, s3⟩ := qstartState_inv T hm sol0 s hnc
      obtain ⟨-, -, -, b4, b5, -⟩ := qbegin_inv T hm sol0 s hnc
      refine ⟨s1, fun h => (s3 h).1, ?_, fun h => absurd h (lt_irrefl _)⟩
      rw [s2]
      obtain ⟨sol', e, hp⟩ := qinitVar_interior T.sq (maskLower T.Q) T.arg sol hi
      rw [h0] at e
      cases e
      intro k j hk hj
      obtain ⟨p1, p2⟩ := hp k j hk hj
      rw [b5, b4 k j hk hj]
      refine ⟨p1, fun h1 => ?_, fun h2 => by rw [h2, zero_mul]⟩
      rw [h1, one_mul]
      refine (p2 fun hlo => ?_).1
      have hz := maskLower_lo T.Q k j hk hlo
      rw [hz] at h1
      exact zero_ne_one h1
    | succ i ih =>
      intro hin
      obtain ⟨r1, r2, -, -⟩ := ih (by omega)
      obtain ⟨a1, a2, a3, -⟩ := qpass_inv T hm i _ _ r1 r2 (hrun i (by omega)).2.2
      exact ⟨a1, fun h => (a2 h).1, (a3 hc).inside T hl ht, fun _ => a3 hc⟩
  exact fun i hin => (key i hin).2.2

/-- **C83** The solution returned by the QCQP solver: strictly positive slacks and multipliers of the constraints taken into
account, zero multipliers of the others, whatever the reported status. -/
theorem qipm_solution_inside (hm : Mask01 T.Q.inner) (hi : QInitOk T.Q T.arg) (hc : T.qarg.i .t_lam_min = 2)
    (hl : 0 < T.qarg.r .lam_min) (ht : 0 < T.qarg.r .t_min) (lf : ℕ) (sol : Sol K) (s : QIpm K) (o : QSolveOut K)
    (hnc : s.ip.core.nc = stOff (nct T.Q.inner.dim) (T.Q.base.dim.N + 1)) (hact : QActive T)
    (h : qipmSolve T lf sol s = .ok o) :
    ∀ k j, k ≤ T.Q.base.dim.N → j < nct T.Q.inner.dim k →
      0 < o.s.sol.t k j ∧ (o.Q.base.d_mask k j = 1 → 0 < o.s.sol.lam k j) ∧ (o.Q.base.d_mask k j = 0 → o.s.sol.lam k j = 0) := by
  obtain ⟨sol0, h0, hcs⟩ := qipm_cases T lf sol s o h
  rcases hcs with ⟨hz, -⟩ | ⟨-, r, hr, ho⟩
  · exact absurd hz (qactive_nc T hm sol0 s hnc hact)
  · obtain ⟨⟨f, f0, fr, hrun⟩, -⟩ := ipmLoop_run _ _ _ _ _ _ hr
    have hin := (qipm_iterates_inside T hm hi hc hl ht sol sol0 s hnc h0 _ f f0 hrun r.1 (le_refl _)).1
    rw [fr] at hin
    have e1 : o.Q = maskLower T.Q := by rw [ho]; rfl
    have e2 : o.s.sol = r.2.sol := by
      rw [ho]
      show (if T.qarg.i .abs_form ≠ 0 then (r.1, qabsEnd T (maskLower T.Q) r.1 r.2) else r).2.sol = _
      split
      · exact (qabsEnd_it T r.1 r.2).1
      · rfl
    rw [e1, e2]
    exact hin

end
end Hpipm
