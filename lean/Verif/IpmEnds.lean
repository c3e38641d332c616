/-
The solver returns for every QP, convex or not (C53): the regularisation loop of each factorisation ends
(KktReg.lean), and there are at most `iter_max` factorisations.

The bound `E.fuel` on the number of regularisation attempts is a device of the model; here it is shown to be
irrelevant: from some value on the result does not depend on it.
-/
import Verif.KktReg
import Verif.IpmPos

namespace Hpipm
open Finset
set_option linter.unusedSectionVars false

section
variable {K : Type*} [Field K] [LinearOrder K] [IsStrictOrderedRing K]

/-- more attempts do not change the outcome of a finished regularisation loop -/
theorem kktMain_mono (sq : K → K) (qp : OcpQp K) (reg pl : K) (G g : ℕ → Vec K) (n : ℕ) :
    ∀ (f : ℕ), n ≤ f → ∀ (preg : K) (init sqr : Bool) (st : KktSt K) (r : K × Bool × Bool × KktSt K),
    kktMain sq qp reg pl G g n preg init sqr st = some r → kktMain sq qp reg pl G g f preg init sqr st = some r := by
  induction n with
  | zero =>
    intro f _ preg init sqr st r h
    unfold kktMain at h ⊢
    generalize (if sqr then sqBack sq qp reg preg G g st else clBack sq qp reg preg G g st) = w at h ⊢
    simp only at h ⊢
    split at h
    · cases h
    · rename_i hs; rw [if_neg hs]; exact h
  | succ n ih =>
    intro f hf preg init sqr st r h
    obtain ⟨f', rfl⟩ : ∃ f', f = f' + 1 := ⟨f - 1, by omega⟩
    unfold kktMain at h ⊢
    generalize (if sqr then sqBack sq qp reg preg G g st else clBack sq qp reg preg G g st) = w at h ⊢
    simp only at h ⊢
    split at h
    · rename_i hs; rw [if_pos hs]; exact ih f' (by omega) _ _ _ _ _ h
    · rename_i hs; rw [if_neg hs]; exact h

theorem factSolve_mono (sq : K → K) (n f : ℕ) (hf : n ≤ f) (qp : OcpQp K) (dual sqr : Bool) (reg pl : K) (c : Core K) (st : KktSt K)
    (o : KktOut K) (h : factSolveKktStep sq n qp dual sqr reg pl c st = some o) :
    factSolveKktStep sq f qp dual sqr reg pl c st = some o := by
  unfold factSolveKktStep at h ⊢
  simp only at h ⊢
  split at h
  · cases h
  · rename_i preg init sqr' st' hm
    rw [kktMain_mono sq qp reg pl _ _ n f hf _ _ _ _ _ hm]
    exact h

/-- a positive regularisation comes out of the retries -/
theorem kktMain_pos (sq : K → K) (qp : OcpQp K) (reg pl : K) (hgr : RegGrows reg pl) (G g : ℕ → Vec K) (n : ℕ) :
    ∀ (preg : K) (init sqr : Bool) (st : KktSt K) (p : K) (i s : Bool) (t : KktSt K), (init = true → 0 < preg) →
    kktMain sq qp reg pl G g n preg init sqr st = some (p, i, s, t) → i = true → 0 < p := by
  induction n with
  | zero =>
    intro preg init sqr st p i s t h0 h hi
    unfold kktMain at h
    generalize (if sqr then sqBack sq qp reg preg G g st else clBack sq qp reg preg G g st) = w at h
    simp only at h
    split at h
    · cases h
    · simp only [Option.some.injEq, Prod.mk.injEq] at h
      obtain ⟨rfl, rfl, -, -⟩ := h
      exact h0 hi
  | succ n ih =>
    intro preg init sqr st p i s t h0 h hi
    unfold kktMain at h
    generalize (if sqr then sqBack sq qp reg preg G g st else clBack sq qp reg preg G g st) = w at h
    simp only at h
    split at h
    · refine ih _ _ _ _ _ _ _ _ (fun _ => ?_) h hi
      unfold nextPreg
      cases init
      · simpa [RegGrows] using hgr
      · simp only [Bool.true_eq_false, if_false, if_true]
        have := h0 rfl
        split_ifs <;> positivity
    · simp only [Option.some.injEq, Prod.mk.injEq] at h
      obtain ⟨rfl, rfl, -, -⟩ := h
      exact h0 hi

/-- the remembered regularisation: the argument `reg_prim`, or a positive number -/
def PregOk (reg pl : K) : Prop := pl = reg ∨ 0 < pl

theorem PregOk.grows {reg pl : K} (hreg : 0 ≤ reg) (h : PregOk reg pl) : RegGrows reg pl := by
  unfold RegGrows
  split_ifs with e
  · rw [e]; positivity
  · rcases h with h | h
    · exact absurd h e
    · positivity

/-- the environment with another bound on the attempts -/
def Env.withFuel (E : Env K) (f : ℕ) : Env K := { E with fuel := f }

/-- the LQ factorisation returns and remembers a regularisation of the expected kind (it is not modelled;
x_ocp_qp_kkt.c:1897-2296) -/
def Env.LqEnds (E : Env K) : Prop :=
  ∀ q p c k, PregOk (E.arg.r .reg_prim) p → ∃ o, E.lq q p c k = some o ∧ PregOk (E.arg.r .reg_prim) o.2.2.1

/-- hypotheses on the data of a solve -/
structure Env.Ends (E : Env K) : Prop where
  sq : ∀ x, 0 < x → E.sq x * E.sq x = x
  wf : E.qp.WF
  N : 1 ≤ E.qp.dim.N
  reg : 0 ≤ E.arg.r .reg_prim
  lq : E.lqf = 0 ∨ E.LqEnds

variable (E : Env K)

theorem putG_pl (kk col : ℕ) (x : K) (s : Ipm K) : (putG E kk col x s).preg_last = s.preg_last := by
  unfold putG; split <;> rfl
theorem putG4_pl (kk col : ℕ) (x : K × K × K × K) (s : Ipm K) : (putG4 E kk col x s).preg_last = s.preg_last := by
  unfold putG4; rw [putG_pl, putG_pl, putG_pl, putG_pl]
theorem maskResM_pl (s : Ipm K) : (maskResM E s).preg_last = s.preg_last := by unfold maskResM; split <;> rfl
theorem maskStep_pl (s : Ipm K) : (maskStep E s).preg_last = s.preg_last := by unfold maskStep; split <;> rfl
theorem maskLam_pl (s : Ipm K) : (maskLam E s).preg_last = s.preg_last := by unfold maskLam; split <;> rfl
theorem solveStep_pl (s : Ipm K) : (solveStep E s).preg_last = s.preg_last := rfl
theorem solveItref_pl (s : Ipm K) : (solveItref E s).preg_last = s.preg_last := rfl
theorem linRes_pl (s : Ipm K) : (linRes E s).1.preg_last = s.preg_last := rfl
theorem addItref_pl (a : K) (s : Ipm K) : (addItref E a s).preg_last = s.preg_last := rfl
theorem subSol_pl (s : Ipm K) : (subSol E s).preg_last = s.preg_last := rfl
theorem resStep_pl (s : Ipm K) : (resStep E s).preg_last = s.preg_last := rfl
theorem affineRhs_pl (s : Ipm K) : (affineRhs E s).preg_last = s.preg_last := by
  unfold affineRhs; rw [maskResM_pl]
theorem alphaStep_pl (kk col : ℕ) (s : Ipm K) : (alphaStep E kk col s).preg_last = s.preg_last := by
  unfold alphaStep; simp only; rw [putG_pl, putG_pl]
theorem updStep_pl (s : Ipm K) : (updStep E s).preg_last = s.preg_last := by unfold updStep; rw [maskLam_pl]

theorem itrefLoop_pl (kk : ℕ) (sh : Bool) : ∀ (n cnt : ℕ) (did : Bool) (x : K × K × K × K) (mx : K) (s : Ipm K),
    (itrefLoop E kk sh n cnt did x mx s).s.preg_last = s.preg_last := by
  intro n
  induction n with
  | zero => intro cnt did x mx s; rfl
  | succ n ih =>
    intro cnt did x mx s
    unfold itrefLoop
    split
    · rfl
    · extract_lets s1 r s2 mx'
      have h2 : s2.preg_last = s.preg_last := by
        simp only [s2, r, s1]
        rw [putG4_pl, linRes_pl, addItref_pl, maskStep_pl, solveItref_pl]
      split
      · simp only; rw [putG4_pl, addItref_pl, h2]
      · rw [ih, h2]

theorem itref_pl (kk : ℕ) (sh : Bool) (mx : ℤ) (s : Ipm K) : (itref E kk sh mx s).s.preg_last = s.preg_last := by
  unfold itref; simp only; rw [itrefLoop_pl, putG4_pl, linRes_pl]

theorem predPhase_pl (kk : ℕ) (s : Ipm K) : (predPhase E kk s).preg_last = s.preg_last := by
  unfold predPhase
  extract_lets o
  rw [alphaStep_pl, putG_pl, putG_pl]
  simp only [o]
  split
  · exact putG4_pl E kk 16 _ _
  · exact itref_pl E kk _ _ _

theorem sigmaStep_pl (kk : ℕ) (s : Ipm K) : (sigmaStep E kk s).preg_last = s.preg_last := by
  unfold sigmaStep; simp only; rw [putG_pl]; simp only; rw [putG_pl]

theorem corrPhase_pl (kk : ℕ) (s : Ipm K) : (corrPhase E kk s).preg_last = s.preg_last := by
  unfold corrPhase
  extract_lets s1 s2 s3 mu0 s4 s5
  have h3 : s3.preg_last = s.preg_last := by
    simp only [s3, s2, s1]
    rw [alphaStep_pl, maskStep_pl, solveStep_pl, maskResM_pl]
    exact sigmaStep_pl E kk s
  have h4 : s4.preg_last = s.preg_last := h3
  have h5 : s5.preg_last = s.preg_last := by simp only [s5]; rw [maskResM_pl]; exact h4
  split
  · split
    · rw [alphaStep_pl, maskStep_pl, solveStep_pl]; exact h5
    · exact h4
  · exact h3

theorem absCorr_pl (kk : ℕ) (s : Ipm K) : (absCorr E kk s).preg_last = s.preg_last := by
  unfold absCorr
  extract_lets s1 s2 s3 mu0 s4 s5
  have h3 : s3.preg_last = s.preg_last := by
    simp only [s3, s2, s1]
    rw [alphaStep_pl, maskStep_pl, subSol_pl, solveStep_pl, maskResM_pl]
    exact sigmaStep_pl E kk s
  have h4 : s4.preg_last = s.preg_last := h3
  have h5 : s5.preg_last = s.preg_last := by simp only [s5]; rw [maskResM_pl]; exact h4
  split
  · split
    · rw [alphaStep_pl, maskStep_pl, subSol_pl, solveStep_pl]; exact h5
    · exact h4
  · exact h3

theorem corrItref_pl (kk : ℕ) (s : Ipm K) : (corrItref E kk s).s.preg_last = s.preg_last := by
  unfold corrItref
  split
  · extract_lets o
    have h : o.s.preg_last = s.preg_last := itref_pl E kk _ _ _
    split
    · simp only; rw [alphaStep_pl]; exact h
    · exact h
  · rfl

theorem absMu_pl (s : Ipm K) : (absMu E s).preg_last = s.preg_last := by
  unfold absMu; simp only; rw [maskResM_pl]

theorem relStart_pl (s : Ipm K) : (relStart E s).preg_last = s.preg_last := by
  unfold relStart; simp only; split <;> rfl

theorem ipmInit_pl (s : Ipm K) : (ipmInit E s).preg_last = s.preg_last := by
  unfold ipmInit; simp only; rw [maskLam_pl]

theorem qpStep_wf (h : E.qp.WF) (s : Ipm K) : (qpStep E s).WF := by
  unfold qpStep qpNow
  split <;> exact h

/-! everything but the factorisation ignores the bound -/

theorem sigmaStep_fuel (f kk : ℕ) (s : Ipm K) : sigmaStep (E.withFuel f) kk s = sigmaStep E kk s := rfl
theorem solveStep_fuel (f : ℕ) (s : Ipm K) : solveStep (E.withFuel f) s = solveStep E s := rfl
theorem subSol_fuel (f : ℕ) (s : Ipm K) : subSol (E.withFuel f) s = subSol E s := rfl
theorem maskStep_fuel (f : ℕ) (s : Ipm K) : maskStep (E.withFuel f) s = maskStep E s := rfl
theorem maskResM_fuel (f : ℕ) (s : Ipm K) : maskResM (E.withFuel f) s = maskResM E s := rfl
theorem alphaStep_fuel (f kk col : ℕ) (s : Ipm K) : alphaStep (E.withFuel f) kk col s = alphaStep E kk col s := rfl
theorem putG_fuel (f kk col : ℕ) (x : K) (s : Ipm K) : putG (E.withFuel f) kk col x s = putG E kk col x s := rfl
theorem putG4_fuel (f kk col : ℕ) (x : K × K × K × K) (s : Ipm K) : putG4 (E.withFuel f) kk col x s = putG4 E kk col x s := rfl
theorem updStep_fuel (f : ℕ) (s : Ipm K) : updStep (E.withFuel f) s = updStep E s := rfl
theorem affineRhs_fuel (f : ℕ) (s : Ipm K) : affineRhs (E.withFuel f) s = affineRhs E s := rfl
theorem resStep_fuel (f : ℕ) (s : Ipm K) : resStep (E.withFuel f) s = resStep E s := rfl
theorem absMu_fuel (f : ℕ) (s : Ipm K) : absMu (E.withFuel f) s = absMu E s := rfl
theorem withFuel_arg (f : ℕ) : (E.withFuel f).arg = E.arg := rfl
theorem withFuel_qp (f : ℕ) : (E.withFuel f).qp = E.qp := rfl
theorem withFuel_statMax (f : ℕ) : (E.withFuel f).statMax = E.statMax := rfl
theorem addItref_fuel (f : ℕ) (a : K) (s : Ipm K) : addItref (E.withFuel f) a s = addItref E a s := rfl
theorem solveItref_fuel (f : ℕ) (s : Ipm K) : solveItref (E.withFuel f) s = solveItref E s := rfl
theorem linRes_fuel (f : ℕ) (s : Ipm K) : linRes (E.withFuel f) s = linRes E s := rfl
theorem itrefDone_fuel (f : ℕ) (x y : K × K × K × K) : itrefDone (E.withFuel f) x y = itrefDone E x y := rfl

theorem itrefLoop_fuel (f kk : ℕ) (sh : Bool) : ∀ (n cnt : ℕ) (did : Bool) (x : K × K × K × K) (mx : K) (s : Ipm K),
    itrefLoop (E.withFuel f) kk sh n cnt did x mx s = itrefLoop E kk sh n cnt did x mx s := by
  intro n
  induction n with
  | zero => intro cnt did x mx s; rfl
  | succ n ih =>
    intro cnt did x mx s
    unfold itrefLoop
    simp only [ih, addItref_fuel, solveItref_fuel, linRes_fuel, itrefDone_fuel, maskStep_fuel, putG4_fuel]

theorem itref_fuel (f kk : ℕ) (sh : Bool) (m : ℤ) (s : Ipm K) : itref (E.withFuel f) kk sh m s = itref E kk sh m s := by
  unfold itref; simp only [itrefLoop_fuel]; rfl

theorem predPhase_fuel (f kk : ℕ) (s : Ipm K) : predPhase (E.withFuel f) kk s = predPhase E kk s := by
  unfold predPhase; simp only [itref_fuel]; rfl

theorem corrItref_fuel (f kk : ℕ) (s : Ipm K) : corrItref (E.withFuel f) kk s = corrItref E kk s := by
  unfold corrItref; simp only [itref_fuel]; rfl

theorem corrPhase_fuel (f kk : ℕ) (s : Ipm K) : corrPhase (E.withFuel f) kk s = corrPhase E kk s := by
  unfold corrPhase
  simp only [sigmaStep_fuel, solveStep_fuel, maskStep_fuel, maskResM_fuel, alphaStep_fuel, withFuel_arg]
  rfl

theorem absCorr_fuel (f kk : ℕ) (s : Ipm K) : absCorr (E.withFuel f) kk s = absCorr E kk s := by
  let tail : Env K → Ipm K → Ipm K := fun E s =>
    if E.arg.i .cond_pred_corr = 1 then
      let mu_aff0 := s.core.mu_aff
      let s := { s with core := computeMuAff s.core }
      if s.core.mu_aff > 2 * mu_aff0 then
        let s := maskResM E { s with core := computeCentering s.core }
        alphaStep E kk 4 (maskStep E (subSol E (solveStep E s)))
      else s
    else s
  have ht : ∀ s, tail (E.withFuel f) s = tail E s := by
    intro s
    simp only [tail]
    by_cases h : E.arg.i .cond_pred_corr = 1
    · rw [if_pos h, if_pos (show (E.withFuel f).arg.i .cond_pred_corr = 1 from h)]; simp only [maskResM_fuel, alphaStep_fuel, maskStep_fuel, subSol_fuel, solveStep_fuel]
    · rw [if_neg h, if_neg (show ¬ (E.withFuel f).arg.i .cond_pred_corr = 1 from h)]
  have hd : ∀ E : Env K, absCorr E kk s = tail E (alphaStep E kk 4 (maskStep E (subSol E (solveStep E (maskResM E { sigmaStep E kk s with
    core := computeCenteringCorrection (sigmaStep E kk s).core }))))) := fun E => rfl
  rw [hd, hd, ht, maskResM_fuel, alphaStep_fuel, maskStep_fuel, subSol_fuel, solveStep_fuel, sigmaStep_fuel]

variable [Archimedean K]

/-- eventually (in the number of attempts allowed) a computation returns one value -/
def Ev {α : Type*} (f : ℕ → Option α) (P : α → Prop) : Prop := ∃ n a, (∀ k, n ≤ k → f k = some a) ∧ P a

omit [Field K] [LinearOrder K] [IsStrictOrderedRing K] [Archimedean K] in
theorem Ev.map {α β : Type*} {f : ℕ → Option α} {P : α → Prop} {Q : β → Prop} (h : Ev f P) (g : α → β) (hg : ∀ a, P a → Q (g a)) :
    Ev (fun k => (f k).map g) Q := by
  obtain ⟨n, a, h1, h2⟩ := h
  exact ⟨n, g a, fun k hk => by beta_reduce; rw [h1 k hk]; rfl, hg a h2⟩

omit [Field K] [LinearOrder K] [IsStrictOrderedRing K] [Archimedean K] in
theorem Ev.bind {α β : Type*} {f : ℕ → Option α} {P : α → Prop} {Q : β → Prop} (h : Ev f P) (g : ℕ → α → Option β)
    (hg : ∀ a, P a → Ev (fun k => g k a) Q) : Ev (fun k => (f k).bind (g k)) Q := by
  obtain ⟨n, a, h1, h2⟩ := h
  obtain ⟨m, b, h3, h4⟩ := hg a h2
  refine ⟨max n m, b, fun k hk => ?_, h4⟩
  beta_reduce
  rw [h1 k (le_trans (le_max_left _ _) hk)]
  exact h3 k (le_trans (le_max_right _ _) hk)

omit [Field K] [LinearOrder K] [IsStrictOrderedRing K] [Archimedean K] in
theorem Ev.const {α : Type*} {a : α} {P : α → Prop} (h : P a) : Ev (fun _ => some a) P := ⟨0, a, fun _ _ => rfl, h⟩

def PlOk (E : Env K) (s : Ipm K) : Prop := PregOk (E.arg.r .reg_prim) s.preg_last

variable {E}

theorem factStep_ev (hE : E.Ends) (s : Ipm K) (hs : PlOk E s) : Ev (fun f => factStep (E.withFuel f) s) (PlOk E) := by
  obtain ⟨n, hn⟩ := factSolve_ends E.sq hE.sq (qpStep E s) (qpStep_wf E hE.wf s) (by rw [qpStep_dim]; exact hE.N) (dualF E) E.sqr
    (E.arg.r .reg_prim) s.preg_last (hs.grows hE.reg) s.core s.kkt
    (by unfold qpStep qpNow; split <;> exact fun k i j _ _ _ => rfl) (by unfold qpStep qpNow; split <;> exact fun k i j _ _ _ => rfl)
  obtain ⟨o, ho⟩ := hn n (le_refl _)
  have hev : Ev (fun f => factSolveKktStep E.sq f (qpStep E s) (dualF E) E.sqr (E.arg.r .reg_prim) s.preg_last s.core s.kkt)
      (fun o => PregOk (E.arg.r .reg_prim) o.preg_last) := by
    refine ⟨n, o, fun k hk => factSolve_mono _ n k hk _ _ _ _ _ _ _ o ho, ?_⟩
    unfold factSolveKktStep at ho
    simp only at ho
    split at ho
    · cases ho
    · rename_i preg init sqr' st' hm
      simp only [Option.some.injEq] at ho
      subst ho
      simp only
      cases init
      · exact hs
      · exact Or.inr (kktMain_pos _ _ _ _ (hs.grows hE.reg) _ _ _ _ _ _ _ _ _ _ _ (by simp) hm rfl)
  exact hev.map (Q := PlOk E) (fun o => syncStep E.qp.dim { s with
      core := o.core
      kkt := o.st
      npd := o.npd_reg_hess
      preg_last := o.preg_last
      lastLq := false }) (fun o ho => ho)

theorem lqStep_ev (hE : E.LqEnds) (s : Ipm K) (hs : PlOk E s) : Ev (fun f => lqStep (E.withFuel f) s) (PlOk E) := by
  obtain ⟨o, ho, hp⟩ := hE (qpStep E s) s.preg_last (computeGammaGamma (stFlat (nct E.qp.dim) (qpStep E s).d (E.qp.dim.N + 1))
    (stFlat (nct E.qp.dim) (qpStep E s).m (E.qp.dim.N + 1)) s.core) s.kkt hs
  refine ⟨0, syncStep E.qp.dim { s with
      core := computeGammaGamma (stFlat (nct E.qp.dim) (qpStep E s).d (E.qp.dim.N + 1))
        (stFlat (nct E.qp.dim) (qpStep E s).m (E.qp.dim.N + 1)) s.core
      kkt := o.1
      npd := o.2.1
      preg_last := o.2.2.1
      lastLq := o.2.2.2 }, fun f _ => ?_, ?_⟩
  · show (E.lq (qpStep E s) s.preg_last (computeGammaGamma (stFlat (nct E.qp.dim) (qpStep E s).d (E.qp.dim.N + 1))
      (stFlat (nct E.qp.dim) (qpStep E s).m (E.qp.dim.N + 1)) s.core) s.kkt).map _ = _
    rw [ho]; rfl
  · exact hp

theorem PlOk.eq {s s' : Ipm K} (h : PlOk E s) (e : s'.preg_last = s.preg_last) : PlOk E s' := by
  unfold PlOk; rw [e]; exact h

theorem factPhase_ev (hE : E.Ends) (kk : ℕ) (s : Ipm K) (hs : PlOk E s) : Ev (fun f => factPhase (E.withFuel f) kk s) (PlOk E) := by
  have hlq : ∀ s, PlOk E s → E.lqf ≠ 0 → Ev (fun f => (lqStep (E.withFuel f) s).map fun s =>
      putG E kk 13 (if (maskStep E s).lastLq then 1 else 0) (maskStep E s)) (PlOk E) := by
    intro s hs h0
    refine (lqStep_ev (hE.lq.resolve_left h0) s hs).map _ (fun s hs => hs.eq ?_)
    rw [putG_pl, maskStep_pl]
  by_cases h0 : E.lqf = 0
  · have e : (fun f => factPhase (E.withFuel f) kk s) = fun f => (factStep (E.withFuel f) s).map fun s =>
        putG E kk 13 (if (maskStep E s).lastLq then 1 else 0) (maskStep E s) := by
      funext f; unfold factPhase; rw [if_pos (show (E.withFuel f).lqf = 0 from h0)]; rfl
    rw [e]
    refine (factStep_ev hE s hs).map _ (fun s hs => hs.eq ?_)
    rw [putG_pl, maskStep_pl]
  · by_cases h1 : E.lqf = 1
    · have e : (fun f => factPhase (E.withFuel f) kk s) = fun f => (factStep (E.withFuel f) s).bind fun s =>
          if (linRes E (maskStep E s)).2.1 > 1 / 100000 ∨ (linRes E (maskStep E s)).2.2.1 > 1 / 100000 ∨
            (linRes E (maskStep E s)).2.2.2.1 > 1 / 100000 ∨ (linRes E (maskStep E s)).2.2.2.2 > 1 / 100000 then
            (lqStep (E.withFuel f) (putG E kk 13 (if (linRes E (maskStep E s)).1.lastLq then 1 else 0) (linRes E (maskStep E s)).1)).map fun s =>
              putG E kk 13 (if (maskStep E s).lastLq then 1 else 0) (maskStep E s)
          else some (putG E kk 13 (if (linRes E (maskStep E s)).1.lastLq then 1 else 0) (linRes E (maskStep E s)).1) := by
        funext f; unfold factPhase
        rw [if_neg (show ¬ (E.withFuel f).lqf = 0 from h0), if_pos (show (E.withFuel f).lqf = 1 from h1)]; rfl
      rw [e]
      refine (factStep_ev hE s hs).bind _ (fun s hs => ?_)
      have hs' : PlOk E (putG E kk 13 (if (linRes E (maskStep E s)).1.lastLq then 1 else 0) (linRes E (maskStep E s)).1) :=
        hs.eq (by rw [putG_pl, linRes_pl, maskStep_pl])
      by_cases hc : (linRes E (maskStep E s)).2.1 > 1 / 100000 ∨ (linRes E (maskStep E s)).2.2.1 > 1 / 100000 ∨
            (linRes E (maskStep E s)).2.2.2.1 > 1 / 100000 ∨ (linRes E (maskStep E s)).2.2.2.2 > 1 / 100000
      · simp only [if_pos hc]; exact hlq _ hs' h0
      · simp only [if_neg hc]; exact Ev.const hs'
    · have e : (fun f => factPhase (E.withFuel f) kk s) = fun f => (lqStep (E.withFuel f) s).map fun s =>
          putG E kk 13 (if (maskStep E s).lastLq then 1 else 0) (maskStep E s) := by
        funext f; unfold factPhase
        rw [if_neg (show ¬ (E.withFuel f).lqf = 0 from h0), if_neg (show ¬ (E.withFuel f).lqf = 1 from h1)]; rfl
      rw [e]
      exact hlq s hs h0


theorem deltaStep_ev (hE : E.Ends) (kk : ℕ) (s : Ipm K) (hs : PlOk E s) : Ev (fun f => deltaStep (E.withFuel f) kk s) (PlOk E) := by
  have e : (fun f => deltaStep (E.withFuel f) kk s) = fun f => (factPhase (E.withFuel f) kk (affineRhs E s)).map fun s =>
      let s := predPhase E kk s
      let o : ItOut K := if E.arg.i .pred_corr = 1 then corrItref E kk (corrPhase E kk s) else ⟨s, 0, false⟩
      let s := if E.arg.i .itref_corr_max = 0 then putG4 E kk 16 (0, 0, 0, 0) o.s else o.s
      updStep E (putG E kk 15 (o.cnt : K) s) := by
    funext f; unfold deltaStep
    simp only [predPhase_fuel, corrItref_fuel, corrPhase_fuel, updStep_fuel, putG_fuel, putG4_fuel, withFuel_arg, affineRhs_fuel]
  rw [e]
  refine (factPhase_ev hE kk _ (hs.eq (affineRhs_pl E s))).map _ (fun s hs => ?_)
  extract_lets s1 o s2
  have h1 : s1.preg_last = s.preg_last := predPhase_pl E kk s
  have ho : o.s.preg_last = s.preg_last := by
    simp only [o]
    split
    · rw [corrItref_pl, corrPhase_pl, h1]
    · exact h1
  have h2 : s2.preg_last = s.preg_last := by
    simp only [s2]
    split
    · rw [putG4_pl, ho]
    · exact ho
  exact hs.eq (by rw [updStep_pl, putG_pl, h2])

theorem absStep_ev (hE : E.Ends) (kk : ℕ) (s : Ipm K) (hs : PlOk E s) : Ev (fun f => absStep (E.withFuel f) kk s) (PlOk E) := by
  have e : (fun f => absStep (E.withFuel f) kk s) = fun f => (factStep (E.withFuel f) (affineRhs E { s with core := { s.core with
      res_m := fun i => if i < s.core.nc then -1 * s.core.res_m i + (-2) * fm E.qp i else s.core.res_m i } })).map fun s =>
      let s := maskStep E (subSol E s)
      let s := alphaStep E kk 0 (putG E kk 20 (if s.npd then 1 else 0) s)
      let s := if E.arg.i .pred_corr = 1 then absCorr E kk s else s
      updStep E s := by
    funext f; unfold absStep
    simp only [absCorr_fuel, updStep_fuel, putG_fuel, withFuel_arg, affineRhs_fuel, alphaStep_fuel, maskStep_fuel, subSol_fuel, withFuel_qp]
    rfl
  rw [e]
  refine (factStep_ev hE _ (hs.eq (by rw [affineRhs_pl]))).map _ (fun s hs => ?_)
  extract_lets s1 s2 s3
  have h1 : s1.preg_last = s.preg_last := by simp only [s1]; rw [maskStep_pl, subSol_pl]
  have h2 : s2.preg_last = s.preg_last := by simp only [s2]; rw [alphaStep_pl, putG_pl, h1]
  have h3 : s3.preg_last = s.preg_last := by
    simp only [s3]
    split
    · rw [absCorr_pl, h2]
    · exact h2
  exact hs.eq (by rw [updStep_pl, h3])

theorem relBody_ev (hE : E.Ends) (kk : ℕ) (s : Ipm K) (hs : PlOk E s) : Ev (fun f => relBody (E.withFuel f) kk s) (PlOk E) := by
  have e : (fun f => relBody (E.withFuel f) kk s) = fun f => (deltaStep (E.withFuel f) kk s).map fun s =>
      let s := resStep E s
      let s := { s with core := { s.core with mu := s.res.res_mu } }
      putG E kk 12 s.res.obj (putG E kk 11 s.res.dual_gap (putG4 E kk 7 s.rmax (putG E kk 6 s.res.res_mu s))) := by
    funext f; unfold relBody
    simp only [putG_fuel, putG4_fuel, resStep_fuel]
  rw [e]
  refine (deltaStep_ev hE kk s hs).map _ (fun s hs => hs.eq ?_)
  extract_lets s1 s2
  rw [putG_pl, putG_pl, putG4_pl, putG_pl]
  exact resStep_pl E s

theorem absBody_ev (hE : E.Ends) (kk : ℕ) (s : Ipm K) (hs : PlOk E s) : Ev (fun f => absBody (E.withFuel f) kk s) (PlOk E) := by
  have e : (fun f => absBody (E.withFuel f) kk s) = fun f => (absStep (E.withFuel f) kk s).map fun s =>
      let s := absMu E s
      putG E kk 6 s.core.mu s := by
    funext f; unfold absBody
    simp only [putG_fuel, absMu_fuel]
  rw [e]
  refine (absStep_ev hE kk s hs).map _ (fun s hs => hs.eq ?_)
  extract_lets s1
  rw [putG_pl]
  exact absMu_pl E s

omit [Field K] [LinearOrder K] [IsStrictOrderedRing K] [Archimedean K] in
theorem ipmLoop_ev {S : Type*} (cont : S → Bool) (body : ℕ → ℕ → S → Option S) (m : ℤ) (P : S → Prop)
    (hb : ∀ kk s, P s → Ev (fun f => body f kk s) P) (d : ℕ) :
    ∀ (kk : ℕ) (s : S), P s → m ≤ kk + d →
    ∃ n r, ∀ f, n ≤ f → ∀ lf, d ≤ lf → ipmLoop cont (body f) m lf kk s = some r := by
  induction d with
  | zero =>
    intro kk s _ hk
    refine ⟨0, (kk, s), fun f _ lf _ => ?_⟩
    unfold ipmLoop
    rw [if_neg]
    simp only [Bool.and_eq_true, decide_eq_true_eq, not_and]
    intro h; omega
  | succ d ih =>
    intro kk s hs hk
    by_cases hc : (decide ((kk : ℤ) < m) && cont s) = true
    · obtain ⟨n1, s', h1, hs'⟩ := hb kk s hs
      obtain ⟨n2, r, h2⟩ := ih (kk + 1) s' hs' (by push_cast at hk ⊢; omega)
      refine ⟨max n1 n2, r, fun f hf lf hlf => ?_⟩
      obtain ⟨lf', rfl⟩ : ∃ lf', lf = lf' + 1 := ⟨lf - 1, by omega⟩
      unfold ipmLoop
      rw [if_pos hc]
      simp only
      rw [show body f kk s = some s' from h1 f (le_trans (le_max_left _ _) hf)]
      exact h2 f (le_trans (le_max_right _ _) hf) lf' (by omega)
    · refine ⟨0, (kk, s), fun f _ lf _ => ?_⟩
      unfold ipmLoop
      rw [if_neg hc]

/-- **C53.**  The solver returns for every QP, convex or not, every guess and every previous contents of the workspace,
provided `reg_prim >= 0`: there is one outcome `o` which is the result of the call for every sufficiently large bound
on the regularisation attempts (a device of the model) and every bound on the passes not below `iter_max`. -/
theorem ipm_ends (hE : E.Ends) (sol : Sol K) (s : Ipm K) :
    ∃ n o, ∀ fuel, n ≤ fuel → ∀ lf : ℕ, E.arg.i .iter_max ≤ lf → ipmSolve (E.withFuel fuel) lf sol s = some o := by
  have hp : PlOk E (prologue E sol s) := Or.inl rfl
  have hi : PlOk E (ipmInit E (prologue E sol s)) := hp.eq (ipmInit_pl E _)
  have hd : E.arg.i .iter_max ≤ ((0 : ℕ) : ℤ) + (E.arg.i .iter_max).toNat := by omega
  have hfe : ∀ f, ipmSolve (E.withFuel f) = fun lf sol s =>
      if s.core.nc = 0 ∨ ncMask E.qp s.core.nc = 0 then some (solveUnc E (prologue E sol s))
      else if E.arg.i .abs_form ≠ 0 then
        (ipmLoop (fun s => contAbs E.arg (obsRel E s)) (absBody (E.withFuel f)) (E.arg.i .iter_max) lf 0
          (absMu E (ipmInit E (prologue E sol s)))).map fun r => epilogue E (obsRel E) (r.1, absEnd E r.1 r.2)
      else
        (ipmLoop (fun s => contRel E.arg (obsRel E s)) (relBody (E.withFuel f)) (E.arg.i .iter_max) lf 0
          (relStart E (ipmInit E (prologue E sol s)))).map fun r => epilogue E (obsRel E) r := fun f => rfl
  simp only [hfe]
  by_cases h0 : s.core.nc = 0 ∨ ncMask E.qp s.core.nc = 0
  · exact ⟨0, _, fun f _ lf _ => by rw [if_pos h0]⟩
  · simp only [if_neg h0]
    by_cases ha : E.arg.i .abs_form ≠ 0
    · obtain ⟨n, r, h⟩ := ipmLoop_ev (fun s => contAbs E.arg (obsRel E s)) (fun f => absBody (E.withFuel f)) (E.arg.i .iter_max)
        (PlOk E) (fun kk s hs => absBody_ev hE kk s hs) (E.arg.i .iter_max).toNat 0 (absMu E (ipmInit E (prologue E sol s)))
        (hi.eq (absMu_pl E _)) hd
      exact ⟨n, _, fun f hf lf hlf => by rw [if_pos ha, h f hf lf (by omega)]; rfl⟩
    · obtain ⟨n, r, h⟩ := ipmLoop_ev (fun s => contRel E.arg (obsRel E s)) (fun f => relBody (E.withFuel f)) (E.arg.i .iter_max)
        (PlOk E) (fun kk s hs => relBody_ev hE kk s hs) (E.arg.i .iter_max).toNat 0 (relStart E (ipmInit E (prologue E sol s)))
        (hi.eq (relStart_pl E _)) hd
      exact ⟨n, _, fun f hf lf hlf => by rw [if_neg ha, h f hf lf (by omega)]; rfl⟩

end
end Hpipm
