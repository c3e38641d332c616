/-
Properties of the C interface of the solver (model: Solver.lean).
-/
import Verif.Solver
import Verif.ArgProps
import Verif.RedRes
import Verif.IpmStatus
import Verif.IpmPos
import Verif.PartCondProps

set_option linter.unusedSectionVars false

namespace Hpipm
open Finset

/-! ### arguments -/

section
variable {K : Type*} [Field K]

/-- **C57** What a newly created solver works with: every setting of the caller's argument object except `t0_init`. -/
theorem solver_create_args (d : Dims) (a : SolverArg K) :
    let w := (solverCreate d a).2.arg
    (∀ f, w.ipm.r f = a.ipm.r f) ∧ (∀ f, f ≠ .t0_init → w.ipm.i f = a.ipm.i f) ∧ w.reduce = a.reduce ∧ w.red = a.red := by
  intro w
  have h : (solverSizes d a).ipm = a.ipm ∧ (solverSizes d a).reduce = a.reduce ∧ (solverSizes d a).red = a.red := by
    unfold solverSizes; split <;> exact ⟨rfl, rfl, rfl⟩
  have hs := argDeepcopy_spec (solverSizes d a).ipm (solverArgCreate (K := K) d).ipm
  refine ⟨fun f => ?_, fun f hf => ?_, h.2.1, h.2.2⟩
  · rw [show w.ipm.r f = (argDeepcopy (solverSizes d a).ipm (solverArgCreate (K := K) d).ipm).r f from rfl, hs.1, h.1]
  · rw [show w.ipm.i f = (argDeepcopy (solverSizes d a).ipm (solverArgCreate (K := K) d).ipm).i f from rfl, hs.2 f hf, h.1]

/-- **C57, negative.**  The setting `t0_init` never reaches the solver: it is zero after creation, whatever the caller chose
(the default is 2). -/
theorem solver_t0_init_lost (d : Dims) (a : SolverArg K) : (solverCreate d a).2.arg.ipm.i .t0_init = 0 :=
  (argDeepcopy_t0_init (solverSizes d a).ipm _).trans rfl

theorem solver_default_t0_init (mode : ℤ) (a0 a : SolverArg K) (h : solverArgDefault mode a0 = .ok a) :
    a.ipm.i .t0_init = 2 ∧ a.reduce = 0 ∧ a.red = { (redArgDefault : RedArg K) with alias_unchanged := true } ∧
      a.validRed = a0.validRed ∧ a.redDim = a0.redDim := by
  unfold solverArgDefault at h
  split at h
  · rename_i i hi
    cases h
    refine ⟨?_, rfl, rfl, rfl, rfl⟩
    unfold argSetDefault at hi
    split at hi
    · cases hi
    · cases hi; rfl
  · cases h
  · cases h

/-- **C57** A setter of a created solver (real settings): the named setting gets the value, nothing else changes. -/
theorem solver_set_real (n : String) (hn : n ∈ solverFields) (f : RArg) (h : (n, Sum.inl f) ∈ argTable) (x : K)
    (ws : SolverWs K) : ∃ i, solverSet n (.real x) ws = .ok { ws with arg := { ws.arg with ipm := i } } ∧
      i.r f = x ∧ (∀ g, g ≠ f → i.r g = ws.arg.ipm.r g) ∧ (∀ g, i.i g = ws.arg.ipm.i g) := by
  obtain ⟨i, e, h1, h2, h3⟩ := argSet_real n f h x ws.arg.ipm
  refine ⟨i, ?_, h1, h2, h3⟩
  unfold solverSet
  rw [if_pos hn, e]

example : "tol_eq" ∈ solverFields ∧ ("tol_eq", Sum.inl RArg.res_b_max) ∈ argTable := ⟨by decide, by simp [argTable]⟩

/-- **C57** The same for the integer settings. -/
theorem solver_set_int (n : String) (hn : n ∈ solverFields) (f : IArg) (h : (n, Sum.inr f) ∈ argTable) (z : ℤ)
    (ws : SolverWs K) : ∃ i, solverSet n (.int z) ws = .ok { ws with arg := { ws.arg with ipm := i } } ∧
      i.i f = z ∧ (∀ g, g ≠ f → i.i g = ws.arg.ipm.i g) ∧ (∀ g, i.r g = ws.arg.ipm.r g) := by
  obtain ⟨i, e, h1, h2, -, h3⟩ := argSet_int n f h z ws.arg.ipm
  refine ⟨i, ?_, h1, fun g hg => h2 g hg ?_, h3⟩
  · unfold solverSet
    rw [if_pos hn, e]
  · rintro ⟨rfl, -⟩
    simp only [argTable, List.mem_cons, Prod.mk.injEq, List.not_mem_nil, or_false, reduceCtorEq,
        and_false, false_or, Sum.inr.injEq, and_true] at h
    subst h
    revert hn; decide

example : "t0_init" ∈ solverFields ∧ ("t0_init", Sum.inr IArg.t0_init) ∈ argTable := ⟨by decide, by simp [argTable]⟩

/-- **C57** Fields that may not be changed after creation are refused. -/
theorem solver_set_unknown (n : String) (hn : n ∉ solverFields) (v : CVal K) (ws : SolverWs K) : solverSet n v ws = .exit := by
  unfold solverSet; rw [if_neg hn]

/-- **C57** The settings that can be changed after creation, by name: a call with a value of the right type succeeds exactly for these. -/
theorem solver_settable (n : String) (ws : SolverWs K) :
    (∃ v ws', solverSet n v ws = .ok ws') ↔ n = "iter_max" ∨ n = "alpha_min" ∨ n = "mu0" ∨ n = "tol_stat" ∨ n = "tol_eq" ∨ n = "tol_ineq" ∨
      n = "tol_comp" ∨ n = "pred_corr" ∨ n = "split_step" ∨ n = "reg_prim" ∨ n = "t0_init" ∨ n = "tau_min" ∨ n = "m_safe" := by
  constructor
  · rintro ⟨v, ws', h⟩
    unfold solverSet at h
    by_cases hn : n ∈ solverFields
    · simpa [solverFields] using hn
    · rw [if_neg hn] at h; cases h
  · have hr : ∀ m f, m ∈ solverFields → (m, Sum.inl f) ∈ argTable → ∃ v ws', solverSet m v ws = .ok ws' := fun m f h1 h2 => by
      obtain ⟨i, e, -⟩ := solver_set_real m h1 f h2 0 ws
      exact ⟨_, _, e⟩
    have hi : ∀ m f, m ∈ solverFields → (m, Sum.inr f) ∈ argTable → ∃ v ws', solverSet m v ws = .ok ws' := fun m f h1 h2 => by
      obtain ⟨i, e, -⟩ := solver_set_int m h1 f h2 0 ws
      exact ⟨_, _, e⟩
    rintro (rfl | rfl | rfl | rfl | rfl | rfl | rfl | rfl | rfl | rfl | rfl | rfl | rfl)
    · exact hi _ .iter_max (by decide) (by simp [argTable])
    · exact hr _ .alpha_min (by decide) (by simp [argTable])
    · exact hr _ .mu0 (by decide) (by simp [argTable])
    · exact hr _ .res_g_max (by decide) (by simp [argTable])
    · exact hr _ .res_b_max (by decide) (by simp [argTable])
    · exact hr _ .res_d_max (by decide) (by simp [argTable])
    · exact hr _ .res_m_max (by decide) (by simp [argTable])
    · exact hi _ .pred_corr (by decide) (by simp [argTable])
    · exact hi _ .split_step (by decide) (by simp [argTable])
    · exact hr _ .reg_prim (by decide) (by simp [argTable])
    · exact hi _ .t0_init (by decide) (by simp [argTable])
    · exact hr _ .tau_min (by decide) (by simp [argTable])
    · exact hr _ .m_safe (by decide) (by simp [argTable])

example : "warm_start" ∉ solverFields ∧ "reduce_eq_dof" ∉ solverFields := by decide

/-- a successful setter changes only the interior point arguments -/
theorem solverSet_ok (n : String) (v : CVal K) (ws ws' : SolverWs K) (h : solverSet n v ws = .ok ws') :
    ∃ i, ws' = { ws with arg := { ws.arg with ipm := i } } := by
  unfold solverSet at h
  split at h
  · split at h
    · cases h; exact ⟨_, rfl⟩
    · cases h
    · cases h
  · cases h

/-- **C57** The argument object before the creation of a solver: any sequence of argument setters on a freshly created and
defaulted object leaves the reduced sizes to be computed, and the solution of the removed part switched on. -/
theorem solverArgSet_ok (n : String) (v : CVal K) (a a' : SolverArg K) (h : solverArgSet n v a = .ok a') :
    a'.red = a.red ∧ a'.validRed = a.validRed ∧ a'.redDim = a.redDim := by
  unfold solverArgSet at h
  split at h
  · split at h
    · cases h; exact ⟨rfl, rfl, rfl⟩
    · cases h
  · split at h
    · cases h; exact ⟨rfl, rfl, rfl⟩
    · cases h
    · cases h

/-- the value of `reduce_eq_dof` is the last one set -/
theorem solverArgSet_reduce (z : ℤ) (a : SolverArg K) :
    solverArgSet "reduce_eq_dof" (.int z) a = .ok { a with reduce := z } := by
  unfold solverArgSet; rw [if_pos rfl]

/-- argument objects a caller can have: created, defaults set, then any setter calls -/
inductive ArgHist (d : Dims) : SolverArg K → Prop
  | default {a : SolverArg K} (mode : ℤ) : solverArgDefault mode (solverArgCreate d) = .ok a → ArgHist d a
  | set {a a' : SolverArg K} (n : String) (v : CVal K) : ArgHist d a → solverArgSet n v a = .ok a' → ArgHist d a'

theorem argHist_ok (d : Dims) (a : SolverArg K) (h : ArgHist d a) : a.validRed = false ∧ a.redDim = zeroDims d.N ∧
    a.red = { (redArgDefault : RedArg K) with alias_unchanged := true } := by
  induction h with
  | default mode h =>
    obtain ⟨-, -, h1, h2, h3⟩ := solver_default_t0_init mode _ _ h
    exact ⟨h2, h3, h1⟩
  | set n v _ h ih =>
    obtain ⟨h1, h2, h3⟩ := solverArgSet_ok n v _ _ h
    exact ⟨h2.trans ih.1, h3.trans ih.2.1, h1.trans ih.2.2⟩

end

/-! ### the whole path: reduction, interior point method, restoration -/

section
variable {K : Type*} [Field K] [LinearOrder K] [IsStrictOrderedRing K]

theorem putSol_nc (D : QpDim) (x : Sol K) (c : Core K) : (putSol D x c).nc = c.nc := rfl

/-- a solve does not change the size of the constraint vectors of the workspace -/
theorem ipmSolve_nc (E : Env K) (lf : ℕ) (sol : Sol K) (s : Ipm K) (o : SolveOut K) (h : ipmSolve E lf sol s = some o) :
    o.s.core.nc = s.core.nc := by
  have nc_of : ∀ {c c' : Core K}, pars c' = pars c → c'.nc = c.nc := by
    intro c c' hp
    simp only [pars, Prod.mk.injEq] at hp
    exact hp.2.2.1
  have hep : ∀ r : ℕ × Ipm K, (epilogue E (obsRel E) r).s.core.nc = r.2.core.nc := by
    intro r
    unfold epilogue
    simp only
    split
    · have hs : seen (backupVar (computeGGamma r.2.core)) = seen r.2.core := by rw [backupVar_seen, computeGGamma_seen]
      simp only [seen, Prod.mk.injEq] at hs
      exact hs.1
    · rfl
  have h0 : (prologue E sol s).core.nc = s.core.nc := rfl
  have h1 : (ipmInit E (prologue E sol s)).core.nc = s.core.nc := (ipmInit_pars E _).1.trans h0
  unfold ipmSolve at h
  simp only at h
  split at h
  · cases h
    unfold solveUnc
    simp only
    split
    · split <;> rfl
    · rfl
  · split at h
    · obtain ⟨r, hr, rfl⟩ := Option.map_eq_some_iff.mp h
      rw [hep]
      have := ipmLoop_inv _ _ _ (fun x : Ipm K => x.core.nc = s.core.nc) (fun kk a b ha hb => by
        obtain ⟨s1, -, -, hp, -⟩ := absBody_upd E kk a b hb
        exact (nc_of hp).trans ha) lf _ r ((nc_of (absMu_it E _).2.1).trans h1) hr
      rw [← this]
      unfold absEnd
      split
      · simp only
        split <;> rfl
      · rfl
    · obtain ⟨r, hr, rfl⟩ := Option.map_eq_some_iff.mp h
      rw [hep]
      exact ipmLoop_inv _ _ _ (fun x : Ipm K => x.core.nc = s.core.nc)
        (fun kk a b ha hb => (nc_of (relBody_pars E kk a b hb).1).trans ha) lf _ r
        ((nc_of (relStart_pars E _).1).trans h1) hr

/-- sizes of a created workspace -/
theorem coreZero_nc (D : QpDim) : (coreZero (K := K) D).nc = stOff (nct D) (D.N + 1) := by
  have h : ∀ n, loop n (fun ii m => m + (2 * D.nb ii + 2 * D.ng ii + 2 * D.ns ii)) 0 = stOff (nct D) n := by
    intro n
    induction n with
    | zero => rfl
    | succ n ih => rw [loop_succ, ih]; rfl
  show loop D.N _ 0 + _ = _
  rw [h]; rfl

/-- what is true of a solver object between calls -/
structure SolverInv (d : Dims) (ws : SolverWs K) : Prop where
  plain : ws.arg.reduce = 0 → ws.ipm.core.nc = stOff (nct (qpDimOf d)) (d.N + 1)
  red : ws.arg.reduce ≠ 0 → ws.ipm.core.nc = stOff (nct ws.redQp.dim) (ws.redQp.dim.N + 1) ∧ RedDim (qpDimOf d) ws.redQp.dim

theorem redQp_dim' (arg : RedArg K) (qp red : OcpQp K) (ws : RedWs K) : (redQp arg qp red ws).1.dim = red.dim := by
  unfold redQp
  refine loop_inv (fun _ (s : OcpQp K × RedWs K) => s.1.dim = red.dim) _ _ _ rfl ?_
  rintro k ⟨r, w⟩ _ h
  unfold redStage
  split
  · exact h
  · show (redCopyMat arg qp k (redCopyVec qp k r)).dim = _
    unfold redCopyMat
    simp only
    split <;> exact h

/-- a new solver satisfies the invariant, if the reduced sizes were computed from the sizes it is created for: fresh argument
object and `reduce_eq_dof` 0 or odd -/
theorem create_inv (d : Dims) (a : SolverArg K) (ha : a.validRed = false) (hN : a.redDim.N = d.N)
    (hr : a.reduce = 0 ∨ a.reduce % 2 = 1) : SolverInv d (solverCreate d a).2 := by
  have hred : (solverSizes d a).reduce = a.reduce := by unfold solverSizes; split <;> rfl
  refine ⟨fun h => ?_, fun h => ?_⟩
  · have h0 : a.reduce = 0 := hred ▸ h
    show (coreZero (if (solverSizes d a).reduce ≠ 0 then _ else _)).nc = _
    rw [hred, if_neg (by simpa using h0), coreZero_nc]; rfl
  · have h0 : a.reduce ≠ 0 := hred ▸ h
    have h1 : a.reduce % 2 = 1 := by omega
    have e : (solverSizes d a).redDim = dimReduce d a.redDim := by unfold solverSizes; rw [if_pos ⟨ha, h1⟩]
    refine ⟨?_, ?_⟩
    · show (coreZero (if (solverSizes d a).reduce ≠ 0 then _ else _)).nc = _
      rw [hred, if_pos h0, coreZero_nc]; rfl
    · show RedDim (qpDimOf d) (qpDimOf (solverSizes d a).redDim)
      rw [e]
      exact dimReduce_redDim d a.redDim (by rw [dimReduce_N, hN])

theorem hist_inv (P : Prims K) (d : Dims) (ws ws' : SolverWs K) (h : SolverHist P d ws ws') :
    (SolverInv d ws → SolverInv d ws') ∧ ws'.arg.reduce = ws.arg.reduce ∧ ws'.arg.red = ws.arg.red := by
  induction h with
  | refl => exact ⟨id, rfl, rfl⟩
  | set f v _ hs ih =>
    obtain ⟨i, rfl⟩ := solverSet_ok f v _ _ hs
    obtain ⟨h1, h2, h3⟩ := ih
    exact ⟨fun h => ⟨(h1 h).plain, (h1 h).red⟩, h2, h3⟩
  | solve lf qp sol hq _ hs ih =>
    obtain ⟨h1, h2, h3⟩ := ih
    unfold solverSolve at hs
    split at hs
    · simp only at hs
      obtain ⟨o, ho, rfl⟩ := Option.map_eq_some_iff.mp hs
      refine ⟨fun h => ⟨fun h0 => absurd h0 (by assumption), fun h0 => ?_⟩, h2, h3⟩
      obtain ⟨k1, k2⟩ := (h1 h).red h0
      have e := ipmSolve_nc _ _ _ _ _ ho
      refine ⟨?_, ?_⟩
      · show o.s.core.nc = stOff (nct (redQp _ qp _ _).1.dim) ((redQp _ qp _ _).1.dim.N + 1)
        rw [e, redQp_dim', k1]
      · show RedDim _ (redQp _ qp _ _).1.dim
        rw [redQp_dim']; exact k2
    · simp only at hs
      obtain ⟨o, ho, rfl⟩ := Option.map_eq_some_iff.mp hs
      refine ⟨fun h => ⟨fun h0 => ?_, fun h0 => absurd h0 (by assumption)⟩, h2, h3⟩
      show o.s.core.nc = _
      rw [ipmSolve_nc _ _ _ _ _ ho, (h1 h).plain h0]

/-! positions of the kept constraints -/

/-- the constraint (lower/upper box, lower/upper general, slack bounds, in the order of the constraint vectors) is not one of
the removed equality boxes -/
def KeptCon (qp : OcpQp K) (k j : ℕ) : Prop :=
  (j < qp.dim.nb k → KeptBox qp k j) ∧
  (qp.dim.nb k + qp.dim.ng k ≤ j → j < qp.dim.nb k + qp.dim.ng k + qp.dim.nb k → KeptBox qp k (j - (qp.dim.nb k + qp.dim.ng k)))

/-- its position in the constraint vectors of the reduced problem -/
def newCon (qp : OcpQp K) (Dr : QpDim) (k j : ℕ) : ℕ :=
  let n := qp.dim.nb k + qp.dim.ng k
  if j < qp.dim.nb k then newBox qp k j
  else if j < n then Dr.nb k + (j - qp.dim.nb k)
  else if j < n + qp.dim.nb k then Dr.nb k + Dr.ng k + newBox qp k (j - n)
  else if j < 2 * n then Dr.nb k + Dr.ng k + (Dr.nb k + (j - n - qp.dim.nb k))
  else 2 * (Dr.nb k + Dr.ng k) + (j - 2 * n)

theorem conOk_at {qp : OcpQp K} {Dr : QpDim} {k : ℕ} {x y : Vec K} (h : ConOk qp Dr k x y) (j : ℕ) (hj : j < nct qp.dim k)
    (hk : KeptCon qp k j) : y (newCon qp Dr k j) = x j := by
  unfold nct at hj
  unfold newCon
  simp only
  by_cases h1 : j < qp.dim.nb k
  · rw [if_pos h1]; exact h.lo j h1 (hk.1 h1)
  rw [if_neg h1]
  by_cases h2 : j < qp.dim.nb k + qp.dim.ng k
  · rw [if_pos h2, h.glo _ (by omega)]; congr 1; omega
  rw [if_neg h2]
  by_cases h3 : j < qp.dim.nb k + qp.dim.ng k + qp.dim.nb k
  · rw [if_pos h3, h.up _ (by omega) (hk.2 (by omega) h3)]; congr 1; omega
  rw [if_neg h3]
  by_cases h4 : j < 2 * (qp.dim.nb k + qp.dim.ng k)
  · rw [if_pos h4, h.gup _ (by omega)]; congr 1; omega
  · rw [if_neg h4, h.sl _ (by omega)]; congr 1; omega

theorem newCon_lt {qp : OcpQp K} (hq : EqOk qp) {Dr : QpDim} (hd : RedDim qp.dim Dr) {k : ℕ} (hkN : k ≤ qp.dim.N) (j : ℕ)
    (hj : j < nct qp.dim k) (hk : KeptCon qp k j) : newCon qp Dr k j < nct Dr k := by
  obtain ⟨-, -, z3⟩ := red_sizes qp hq Dr hd k hkN
  have hng := hd.ng k hkN
  have hns := hd.ns k hkN
  have hlt : ∀ j, j < qp.dim.nb k → KeptBox qp k j → newBox qp k j < Dr.nb k := by
    intro j hj hkj; rw [← z3]; exact count_lt_of hkj hj
  unfold nct at hj ⊢
  unfold newCon
  simp only
  by_cases h1 : j < qp.dim.nb k
  · rw [if_pos h1]; have := hlt j h1 (hk.1 h1); omega
  rw [if_neg h1]
  by_cases h2 : j < qp.dim.nb k + qp.dim.ng k
  · rw [if_pos h2]; omega
  rw [if_neg h2]
  by_cases h3 : j < qp.dim.nb k + qp.dim.ng k + qp.dim.nb k
  · rw [if_pos h3]; have := hlt _ (by omega) (hk.2 (by omega) h3); omega
  rw [if_neg h3]
  by_cases h4 : j < 2 * (qp.dim.nb k + qp.dim.ng k)
  · rw [if_pos h4]; omega
  · rw [if_neg h4]; omega

theorem newCon_surj {qp : OcpQp K} (hq : EqOk qp) {Dr : QpDim} (hd : RedDim qp.dim Dr) {k : ℕ} (hkN : k ≤ qp.dim.N) (q : ℕ)
    (h : q < nct Dr k) : ∃ j, j < nct qp.dim k ∧ KeptCon qp k j ∧ newCon qp Dr k j = q := by
  obtain ⟨-, -, z3⟩ := red_sizes qp hq Dr hd k hkN
  have hng := hd.ng k hkN
  have hns := hd.ns k hkN
  have hsur : ∀ i, i < Dr.nb k → ∃ j, j < qp.dim.nb k ∧ KeptBox qp k j ∧ newBox qp k j = i := by
    intro i hi; rw [← z3] at hi; exact count_surj _ _ _ hi
  unfold nct at h ⊢
  unfold newCon KeptCon
  by_cases h1 : q < Dr.nb k
  · obtain ⟨j, a, b, c⟩ := hsur q h1
    exact ⟨j, by omega, ⟨fun _ => b, fun _ => by omega⟩, by simp only [if_pos a, c]⟩
  by_cases h2 : q < Dr.nb k + Dr.ng k
  · refine ⟨qp.dim.nb k + (q - Dr.nb k), by omega, ⟨by omega, by omega⟩, ?_⟩
    simp only
    rw [if_neg (by omega), if_pos (by omega)]; omega
  by_cases h3 : q < Dr.nb k + Dr.ng k + Dr.nb k
  · obtain ⟨j, a, b, c⟩ := hsur (q - (Dr.nb k + Dr.ng k)) (by omega)
    refine ⟨qp.dim.nb k + qp.dim.ng k + j, by omega, ⟨by omega, fun _ _ => by rw [Nat.add_sub_cancel_left]; exact b⟩, ?_⟩
    simp only
    rw [if_neg (by omega), if_neg (by omega), if_pos (by omega), Nat.add_sub_cancel_left, c]; omega
  by_cases h4 : q < 2 * (Dr.nb k + Dr.ng k)
  · refine ⟨qp.dim.nb k + qp.dim.ng k + qp.dim.nb k + (q - (Dr.nb k + Dr.ng k + Dr.nb k)), by omega, ⟨by omega, by omega⟩, ?_⟩
    simp only
    rw [if_neg (by omega), if_neg (by omega), if_neg (by omega), if_pos (by omega)]; omega
  · refine ⟨2 * (qp.dim.nb k + qp.dim.ng k) + (q - 2 * (Dr.nb k + Dr.ng k)), by omega, ⟨by omega, by omega⟩, ?_⟩
    simp only
    rw [if_neg (by omega), if_neg (by omega), if_neg (by omega), if_neg (by omega)]; omega

theorem red_mask01 {qp red : OcpQp K} (hq : EqOk qp) (hr : Reduced qp red) (hm : Mask01 qp) : Mask01 red := by
  intro k q hk hq'
  rw [hr.dim.N] at hk
  obtain ⟨j, hj, hkj, rfl⟩ := newCon_surj hq hr.dim hk q hq'
  rw [conOk_at (hr.vec k hk).mask j hj hkj]
  exact hm k j hk hj

/-- an active constraint remains -/
theorem red_active {qp red : OcpQp K} (hq : EqOk qp) (hr : Reduced qp red) (hm : Mask01 qp) {k j : ℕ} (hk : k ≤ qp.dim.N)
    (hj : j < nct qp.dim k) (hkj : KeptCon qp k j) (h1 : qp.d_mask k j = 1) :
    ncMask red (stOff (nct red.dim) (red.dim.N + 1)) ≠ 0 := by
  rw [ncMask_count red (red_mask01 hq hr hm)]
  unfold compCount
  have hlt := newCon_lt hq hr.dim hk j hj hkj
  have e : red.d_mask k (newCon qp red.dim k j) = 1 := (conOk_at (hr.vec k hk).mask j hj hkj).trans h1
  have hpos : 0 < ∑ k ∈ range (red.dim.N + 1), ∑ j ∈ range (2 * red.dim.nb k + 2 * red.dim.ng k + 2 * red.dim.ns k),
      if red.d_mask k j = 1 then 1 else 0 := by
    refine Finset.sum_pos' (fun _ _ => Nat.zero_le _) ⟨k, mem_range.mpr (by rw [hr.dim.N]; omega), ?_⟩
    refine Finset.sum_pos' (fun _ _ => Nat.zero_le _) ⟨newCon qp red.dim k j, mem_range.mpr hlt, ?_⟩
    rw [if_pos e]; exact Nat.one_pos
  omega

/-- the problem data a caller passes: sizes of the solver, admissible index lists, masks zero or one, and the list of
equality boxes consistent with the bounds (`Aligned`: finding 22) -/
structure UserData (d : Dims) (qp : OcpQp K) : Prop where
  dim : qp.dim = qpDimOf d
  wf : qp.WF
  mask : Mask01 qp
  eq : EqOk qp
  aligned : Aligned qp
  tight : Tight qp

/-- the primitives that are not modelled leave the problem data alone -/
def Prims.Keeps (P : Prims K) : Prop :=
  (∀ D q p c st o, P.lq q p c st = some o → MKeep D st o.1) ∧ ∀ D q c st, MKeep D st (P.factOnly q c st)

theorem Prims.Keeps.env {P : Prims K} (h : P.Keeps) (ws : SolverWs K) (qp : OcpQp K) : (ws.env P qp).Keeps :=
  ⟨fun q p c st o ho => h.1 _ q p c st o ho, fun q c st => h.2 _ q c st⟩

/-- **C58** Success of the solver, fixed variables removed: for any caller arguments with `reduce_eq_dof` odd, any history of
setters and solves on the solver, and any content of the solution object, if the last solve reports success then, for the
residual routine run on the *caller's* problem and the returned solution:
the fixed variables have their prescribed values; stationarity of every kept variable and slack, the dynamics, and the residual
of every kept constraint are within the tolerances; complementarity of the kept constraints is within its tolerance of
`tau_min`; the residual of the removed equality boxes is exactly `t_min` of the reduction (1e-16), and so is the stationarity
residual of the fixed variables if multipliers of masked constraints are zero; fewer than `iter_max` iterations were made. -/
theorem solver_success_reduced (P : Prims K) (hP : P.Keeps) (d : Dims) (a : SolverArg K) (ha : ArgHist d a)
    (hr : a.reduce % 2 = 1) (ws : SolverWs K) (hist : SolverHist P d (solverCreate d a).2 ws)
    (qp : OcpQp K) (hu : UserData d qp) (k0 j0 : ℕ) (hk0 : k0 ≤ qp.dim.N) (hj0 : j0 < nct qp.dim k0) (hc0 : KeptCon qp k0 j0)
    (hact : qp.d_mask k0 j0 = 1) (hrel : ws.arg.ipm.i .abs_form = 0) (hit : 0 ≤ ws.arg.ipm.i .iter_max)
    (lf : ℕ) (sol : Sol K) (o : SolverOut K) (h : solverSolve P lf qp sol ws = some o) (hs : o.ws.status = .SUCCESS)
    (res0 : Res K) (ws0 : ResWs K) (hws0 : ws0.Ok qp) :
    let D := qp.dim
    let r := resCompute qp o.sol res0 ws0
    let arg := ws.arg.ipm
    (∀ k e, k ≤ D.N → e < neThr D k → o.sol.ux k (qp.idxb k (qp.idxe k e)) = qp.d k (qp.idxe k e)) ∧
    (∀ k i, k ≤ D.N → i < D.nu k + D.nx k → Kept qp k i → |r.res_g k i| ≤ arg.r .res_g_max) ∧
    (∀ k i, k ≤ D.N → i < 2 * D.ns k → |r.res_g k (D.nu k + D.nx k + i)| ≤ arg.r .res_g_max) ∧
    (∀ k i, k < D.N → i < D.nx (k + 1) → |r.res_b k i| ≤ arg.r .res_b_max) ∧
    (∀ k j, k ≤ D.N → j < nct D k → KeptCon qp k j → |r.res_d k j| ≤ arg.r .res_d_max ∧
      |r.res_m k j - arg.r .tau_min * qp.d_mask k j| ≤ arg.r .res_m_max) ∧
    (∀ k e, k ≤ D.N → e < neThr D k → r.res_d k (qp.idxe k e) = 1 / 10 ^ 16 ∧
      r.res_d k (D.nb k + D.ng k + qp.idxe k e) = 1 / 10 ^ 16) ∧
    (MaskedLam qp o.sol → ∀ k e, k ≤ D.N → e < neThr D k → |r.res_g k (qp.idxb k (qp.idxe k e))| = 1 / 10 ^ 16) ∧
    (o.ws.iter : ℤ) < arg.i .iter_max := by
  intro D r arg
  obtain ⟨v1, v2, v3⟩ := argHist_ok d a ha
  have hinv := create_inv d a v1 (by rw [v2]; rfl) (Or.inr hr)
  obtain ⟨g1, g2, g3⟩ := hist_inv P d _ _ hist
  obtain ⟨-, -, w3, w4⟩ := solver_create_args d a
  have hI := g1 hinv
  have hred : ws.arg.reduce ≠ 0 := by rw [g2, w3]; omega
  have hra : ws.arg.red = { (redArgDefault : RedArg K) with alias_unchanged := true } := by rw [g3, w4, v3]
  have hall : ws.arg.red.All := by rw [hra]; exact ⟨rfl, rfl, rfl⟩
  have htm : ws.arg.red.t_min = 1 / 10 ^ 16 := by rw [hra]; rfl
  obtain ⟨n1, n2⟩ := hI.red hred
  rw [← hu.dim] at n2
  obtain ⟨R, s, hR, hdr, hs1, eo, es, ei⟩ : ∃ (R : OcpQp K × RedWs K) (s : SolveOut K), Reduced qp R.1 ∧ R.1.dim = ws.redQp.dim ∧
      ipmSolve (ws.env P R.1) lf ws.redSol ws.ipm = some s ∧
      o.sol = (restoreSol ws.arg.red qp R.1.dim (solOf R.1.dim s.s.core) sol R.2).1 ∧ o.ws.status = s.status ∧
      o.ws.iter = s.iter := by
    unfold solverSolve at h
    rw [if_pos hred] at h
    simp only at h
    obtain ⟨s, hs1, rfl⟩ := Option.map_eq_some_iff.mp h
    exact ⟨redQp ws.arg.red qp ws.redQp ws.redWs, s, redQp_reduced hu.eq _ _ n2 _, redQp_dim' _ _ _ _, hs1, rfl, rfl, rfl⟩
  rw [es] at hs
  rw [ei]
  have hwr := red_wf hu.eq hR hu.wf hu.aligned
  have hmr := red_mask01 hu.eq hR hu.mask
  have hnc : ws.ipm.core.nc = stOff (nct R.1.dim) (R.1.dim.N + 1) := by rw [hdr]; exact n1
  have hcc : ncMask R.1 ws.ipm.core.nc ≠ 0 := by rw [hnc]; exact red_active hu.eq hR hu.mask hk0 hj0 hc0 hact
  have ok1 : (⟨fun _ => 0, fun _ => 0, fun _ => 0, false, false, 0⟩ : ResWs K).Ok R.1 := fun h => by cases h
  obtain ⟨s1, s2, s3, s4, -, s6⟩ := ipm_success (ws.env P R.1) (hP.env ws R.1) hwr hmr lf ws.redSol ws.ipm s hnc hcc hrel hit
    hs1 hs res0 _ ok1
  have hrv := restore_loop hu.eq hu.wf ws.arg.red hall qp.d qp.rqz R.1.dim hR.dim
    (solOf R.1.dim s.s.core) sol R.2
  obtain ⟨b1, b2⟩ := restore_values hu.eq hu.wf ws.arg.red hall R.1.dim hR.dim (solOf R.1.dim s.s.core) sol R.2
  have key : ∀ k, k ≤ qp.dim.N → _ := fun k hk => red_residuals hu.eq hR hu.wf hu.aligned hu.tight b1 b2 res0 res0 ws0 _ hws0 ok1 (k := k) hk
  refine ⟨fun k e hk he => by rw [eo]; exact b1 k e hk he, fun k i hk hi hki => ?_, fun k i hk hi => ?_, fun k i hk hi => ?_,
    fun k j hk hj hkj => ⟨?_, ?_⟩, fun k e hk he => ?_, fun hml k e hk he => ?_, s6⟩
  · have e := (key k hk).1 i hi hki
    show |(resCompute qp o.sol res0 ws0).res_g k i| ≤ _
    rw [eo, ← e]
    refine s1 k _ (by show k ≤ R.1.dim.N; rw [hR.dim.N]; exact hk) ?_
    obtain ⟨-, z2, -⟩ := red_sizes qp hu.eq R.1.dim hR.dim k hk
    have : newPos qp k i < R.1.dim.nu k + R.1.dim.nx k := by rw [← z2]; exact count_lt_of hki hi
    show _ < R.1.dim.nu k + R.1.dim.nx k + 2 * R.1.dim.ns k
    omega
  · have e := (key k hk).2.1 i hi
    show |(resCompute qp o.sol res0 ws0).res_g k _| ≤ _
    rw [eo, ← e]
    refine s1 k _ (by show k ≤ R.1.dim.N; rw [hR.dim.N]; exact hk) ?_
    have h2 := hR.dim.ns k hk
    have h3 : i < 2 * qp.dim.ns k := hi
    show _ < R.1.dim.nu k + R.1.dim.nx k + 2 * R.1.dim.ns k
    omega
  · have e := (key k (le_of_lt hk)).2.2.1 hk i hi
    show |(resCompute qp o.sol res0 ws0).res_b k i| ≤ _
    rw [eo, ← e]
    refine s2 k _ (by show k < R.1.dim.N; rw [hR.dim.N]; exact hk) ?_
    show i < R.1.dim.nx (k + 1)
    have h1 : k < qp.dim.N := hk
    have h2 := hR.dim.nx (k + 1) (by omega) (by omega)
    have h3 : i < qp.dim.nx (k + 1) := hi
    omega
  · have e := conOk_at (key k hk).2.2.2.1 j hj hkj
    show |(resCompute qp o.sol res0 ws0).res_d k j| ≤ _
    rw [eo, ← e]
    exact s3 k _ (by show k ≤ R.1.dim.N; rw [hR.dim.N]; exact hk) (newCon_lt hu.eq hR.dim hk j hj hkj)
  · have e := conOk_at (key k hk).2.2.2.2 j hj hkj
    have e' := conOk_at (hR.vec k hk).mask j hj hkj
    show |(resCompute qp o.sol res0 ws0).res_m k j - _| ≤ _
    rw [eo, ← e, ← e']
    exact s4 k _ (by show k ≤ R.1.dim.N; rw [hR.dim.N]; exact hk) (newCon_lt hu.eq hR.dim hk j hj hkj)
  · obtain ⟨a1, -⟩ := (resCompute_val qp hu.wf (restoreSol ws.arg.red qp R.1.dim (solOf R.1.dim s.s.core) sol R.2).1 res0 ws0 hws0).1 k hk
    obtain ⟨t1, t2, t3, t4⟩ := hu.tight k e hk he
    have hb := hu.eq.box k e hk he
    obtain ⟨f1, f2⟩ := (hrv k hk).tfix (qp.idxe k e) hb (fun h => h e he rfl)
    have fx := b1 k e hk he
    have hst : ∀ j, j < nct qp.dim k → (resCompute qp (restoreSol ws.arg.red qp R.1.dim (solOf R.1.dim s.s.core) sol R.2).1 res0 ws0).res_d k j
        = qp.d_mask k j * vD qp (restoreSol ws.arg.red qp R.1.dim (solOf R.1.dim s.s.core) sol R.2).1 k j := a1.d
    have hvt : (restoreSol ws.arg.red qp R.1.dim (solOf R.1.dim s.s.core) sol R.2).1.t k (qp.idxe k e) = ws.arg.red.t_min := f1
    have hvt' : (restoreSol ws.arg.red qp R.1.dim (solOf R.1.dim s.s.core) sol R.2).1.t k (qp.dim.nb k + qp.dim.ng k + qp.idxe k e)
        = ws.arg.red.t_min := f2
    show (resCompute qp o.sol res0 ws0).res_d k (qp.idxe k e) = _ ∧
      (resCompute qp o.sol res0 ws0).res_d k (qp.dim.nb k + qp.dim.ng k + qp.idxe k e) = _
    rw [eo]
    constructor
    · refine (hst _ (by unfold nct; omega)).trans ?_
      unfold vD slk cval
      simp only
      rw [if_pos (by omega), if_pos hb, if_pos t4, t2, hvt, htm, fx]; ring
    · refine (hst _ (by unfold nct; omega)).trans ?_
      unfold vD slk cval
      simp only
      rw [if_neg (by omega), if_pos (by omega), Nat.add_sub_cancel_left, if_pos hb, if_pos t4, t1, t3, hvt', htm, fx]; ring
  · have hx := restore_stationary hu.eq hu.wf hu.aligned hu.tight ws.arg.red hall R.1.dim hR.dim (solOf R.1.dim s.s.core) sol R.2
      res0 ws0 hws0 (eo ▸ hml) hk he
    have hlm : ws.arg.red.lam_min = 1 / 10 ^ 16 := by rw [hra]; rfl
    have hp : (0 : K) ≤ 1 / 10 ^ 16 := by positivity
    simp only [hlm] at hx
    show |(resCompute qp o.sol res0 ws0).res_g k _| = _
    rw [eo]
    rcases hx with ⟨h1, -⟩ | ⟨h1, -⟩
    · refine (congrArg abs h1).trans (abs_of_nonneg hp)
    · refine (congrArg abs h1).trans ?_
      rw [abs_neg, abs_of_nonneg hp]

/-- **C58** Success of the solver without removal of fixed variables. -/
theorem solver_success_plain (P : Prims K) (hP : P.Keeps) (d : Dims) (a : SolverArg K) (ha : ArgHist d a)
    (hr : a.reduce = 0) (ws : SolverWs K) (hist : SolverHist P d (solverCreate d a).2 ws)
    (qp : OcpQp K) (hdim : qp.dim = qpDimOf d) (hwf : qp.WF) (hm : Mask01 qp) (hact : compCount qp ≠ 0)
    (hrel : ws.arg.ipm.i .abs_form = 0) (hit : 0 ≤ ws.arg.ipm.i .iter_max)
    (lf : ℕ) (sol : Sol K) (o : SolverOut K) (h : solverSolve P lf qp sol ws = some o) (hs : o.ws.status = .SUCCESS)
    (res0 : Res K) (ws0 : ResWs K) (hws0 : ws0.Ok qp) :
    let D := qp.dim
    let r := resCompute qp o.sol res0 ws0
    let arg := ws.arg.ipm
    (∀ k i, k ≤ D.N → i < D.nu k + D.nx k + 2 * D.ns k → |r.res_g k i| ≤ arg.r .res_g_max) ∧
    (∀ k i, k < D.N → i < D.nx (k + 1) → |r.res_b k i| ≤ arg.r .res_b_max) ∧
    (∀ k i, k ≤ D.N → i < 2 * D.nb k + 2 * D.ng k + 2 * D.ns k → |r.res_d k i| ≤ arg.r .res_d_max) ∧
    (∀ k i, k ≤ D.N → i < 2 * D.nb k + 2 * D.ng k + 2 * D.ns k →
      |r.res_m k i - arg.r .tau_min * qp.d_mask k i| ≤ arg.r .res_m_max) ∧
    r.dual_gap ≤ arg.r .dual_gap_max ∧ (o.ws.iter : ℤ) < arg.i .iter_max ∧ view o.qp = view qp := by
  intro D r arg
  obtain ⟨v1, v2, -⟩ := argHist_ok d a ha
  have hinv := create_inv d a v1 (by rw [v2]; rfl) (Or.inl hr)
  obtain ⟨g1, g2, -⟩ := hist_inv P d _ _ hist
  obtain ⟨-, -, w3, -⟩ := solver_create_args d a
  have hred : ws.arg.reduce = 0 := by rw [g2, w3, hr]
  have hnc : ws.ipm.core.nc = stOff (nct qp.dim) (qp.dim.N + 1) := by rw [(g1 hinv).plain hred, hdim]; rfl
  unfold solverSolve at h
  rw [if_neg (by simpa using hred)] at h
  simp only at h
  obtain ⟨s, hs1, rfl⟩ := Option.map_eq_some_iff.mp h
  have hc : ncMask qp ws.ipm.core.nc ≠ 0 := by rw [hnc, ncMask_count qp hm]; exact hact
  obtain ⟨s1, s2, s3, s4, s5, s6⟩ := ipm_success (ws.env P qp) (hP.env ws qp) hwf hm lf sol ws.ipm s hnc hc hrel hit
    hs1 hs res0 ws0 hws0
  exact ⟨s1, s2, s3, s4, s5, s6, solve_view (ws.env P qp) (hP.env ws qp) lf sol ws.ipm s hs1⟩

/-- **C59** With removal of fixed variables the content of the caller's solution object does not matter, whatever
`warm_start` is: two solves from the same solver state return the same primal and dual solution, status and iterations. -/
theorem solver_guess_ignored (P : Prims K) (ws : SolverWs K) (hred : ws.arg.reduce ≠ 0) (hall : ws.arg.red.All)
    (qp : OcpQp K) (hwf : qp.WF) (hq : EqOk qp) (hd : RedDim qp.dim ws.redQp.dim) (lf : ℕ) (sol sol' : Sol K) :
    (solverSolve P lf qp sol ws = none ↔ solverSolve P lf qp sol' ws = none) ∧
    ∀ o o', solverSolve P lf qp sol ws = some o → solverSolve P lf qp sol' ws = some o' →
      o.ws.status = o'.ws.status ∧ o.ws.iter = o'.ws.iter ∧
      (∀ k i, k ≤ qp.dim.N → i < nvt qp.dim k → o.sol.ux k i = o'.sol.ux k i) ∧
      (∀ k i, k < qp.dim.N → i < qp.dim.nx (k + 1) → o.sol.pi k i = o'.sol.pi k i) ∧
      (∀ k j, k ≤ qp.dim.N → j < nct qp.dim k → o.sol.lam k j = o'.sol.lam k j ∧ o.sol.t k j = o'.sol.t k j) := by
  unfold solverSolve
  rw [if_pos hred, if_pos hred]
  simp only
  generalize hR : redQp ws.arg.red qp ws.redQp ws.redWs = R
  have hdr : RedDim qp.dim R.1.dim := by rw [← hR, redQp_dim']; exact hd
  refine ⟨by rw [Option.map_eq_none_iff, Option.map_eq_none_iff], fun o o' h h' => ?_⟩
  obtain ⟨s, hs, rfl⟩ := Option.map_eq_some_iff.mp h
  obtain ⟨s', hs', rfl⟩ := Option.map_eq_some_iff.mp h'
  rw [hs] at hs'
  cases hs'
  have a := restore_loop hq hwf ws.arg.red hall qp.d qp.rqz R.1.dim hdr (solOf R.1.dim s.s.core) sol R.2
  have b := restore_loop hq hwf ws.arg.red hall qp.d qp.rqz R.1.dim hdr (solOf R.1.dim s.s.core) sol' R.2
  generalize hA : (loop (qp.dim.N + 1) (restoreStage ws.arg.red qp qp.d qp.rqz R.1.dim (solOf R.1.dim s.s.core)) (sol, R.2)) = A at a
  generalize hB : (loop (qp.dim.N + 1) (restoreStage ws.arg.red qp qp.d qp.rqz R.1.dim (solOf R.1.dim s.s.core)) (sol', R.2)) = B at b
  have eA : (restoreSol ws.arg.red qp R.1.dim (solOf (ws.env P R.1).qp.dim s.s.core) sol R.2).1 = A.1 := by rw [← hA]; rfl
  have eB : (restoreSol ws.arg.red qp R.1.dim (solOf (ws.env P R.1).qp.dim s.s.core) sol' R.2).1 = B.1 := by rw [← hB]; rfl
  rw [eA, eB]
  have hux : ∀ k i, k ≤ qp.dim.N → i < nvt qp.dim k → A.1.ux k i = B.1.ux k i := by
    intro k i hk hi
    unfold nvt at hi
    by_cases h1 : i < qp.dim.nu k + qp.dim.nx k
    · by_cases h2 : Kept qp k i
      · rw [(a k hk).var i h1 h2, (b k hk).var i h1 h2]
      · unfold Kept at h2
        push Not at h2
        obtain ⟨e, he, rfl⟩ := h2
        rw [(a k hk).fixed e he, (b k hk).fixed e he]
    · have : i = qp.dim.nu k + qp.dim.nx k + (i - (qp.dim.nu k + qp.dim.nx k)) := by omega
      rw [this, (a k hk).slack _ (by omega), (b k hk).slack _ (by omega)]
  have hpi : ∀ k i, k < qp.dim.N → i < qp.dim.nx (k + 1) → A.1.pi k i = B.1.pi k i := fun k i hk hi => by
    rw [(a k (by omega)).pi hk i hi, (b k (by omega)).pi hk i hi]
  have hkept : ∀ k j, k ≤ qp.dim.N → j < nct qp.dim k → KeptCon qp k j → A.1.lam k j = B.1.lam k j ∧ A.1.t k j = B.1.t k j :=
    fun k j hk hj hc => ⟨by rw [← conOk_at (a k hk).lam j hj hc, ← conOk_at (b k hk).lam j hj hc],
      by rw [← conOk_at (a k hk).t j hj hc, ← conOk_at (b k hk).t j hj hc]⟩
  have hfix : ∀ k j, k ≤ qp.dim.N → j < qp.dim.nb k → ¬ KeptBox qp k j → A.1.lam k j = B.1.lam k j ∧
      A.1.lam k (qp.dim.nb k + qp.dim.ng k + j) = B.1.lam k (qp.dim.nb k + qp.dim.ng k + j) := by
    intro k j hk hj hc
    have a1 := (a k hk).lamfix j hj hc
    have b1 := (b k hk).lamfix j hj hc
    simp only at a1 b1
    have e1 : hmul qp k (A.1.ux k) (qp.idxb k j) = hmul qp k (B.1.ux k) (qp.idxb k j) :=
      red_hmul_congr qp k _ _ _ (fun i hi => hux k i hk (by unfold nvt; omega))
    have e2 : cvalT qp k (fun i => if i < qp.dim.nb k ∧ ¬ KeptBox qp k i then 0
          else A.1.lam k (qp.dim.nb k + qp.dim.ng k + i) - A.1.lam k i) (qp.idxb k j) =
        cvalT qp k (fun i => if i < qp.dim.nb k ∧ ¬ KeptBox qp k i then 0
          else B.1.lam k (qp.dim.nb k + qp.dim.ng k + i) - B.1.lam k i) (qp.idxb k j) := by
      refine red_cvalT_congr qp k _ _ _ (fun i hi => ?_)
      by_cases hh : i < qp.dim.nb k ∧ ¬ KeptBox qp k i
      · rw [if_pos hh, if_pos hh]
      · rw [if_neg hh, if_neg hh]
        have kb : i < qp.dim.nb k → KeptBox qp k i := fun h => by by_contra h2; exact hh ⟨h, h2⟩
        rw [(hkept k i hk (by unfold nct; omega) ⟨kb, fun h => by omega⟩).1,
          (hkept k (qp.dim.nb k + qp.dim.ng k + i) hk (by unfold nct; omega)
            ⟨fun h => by omega, fun _ h => by rw [Nat.add_sub_cancel_left]; exact kb (by omega)⟩).1]
    have e3 : (if k < qp.dim.N then ∑ i ∈ range (qp.dim.nx (k + 1)), qp.BAbt k (qp.idxb k j) i * A.1.pi k i else 0) =
        (if k < qp.dim.N then ∑ i ∈ range (qp.dim.nx (k + 1)), qp.BAbt k (qp.idxb k j) i * B.1.pi k i else 0) := by
      split
      · exact sum_congr rfl (fun i hi => by rw [hpi k i (by assumption) (mem_range.mp hi)])
      · rfl
    rw [e1, e2, e3] at a1
    rcases le_or_gt 0 (hmul qp k (B.1.ux k) (qp.idxb k j) + qp.rqz k (qp.idxb k j)
      + cvalT qp k (fun i => if i < qp.dim.nb k ∧ ¬ KeptBox qp k i then 0
          else B.1.lam k (qp.dim.nb k + qp.dim.ng k + i) - B.1.lam k i) (qp.idxb k j)
      + (if k < qp.dim.N then ∑ i ∈ range (qp.dim.nx (k + 1)), qp.BAbt k (qp.idxb k j) i * B.1.pi k i else 0)) with hr | hr
    · rw [(a1.1 hr).1, (a1.1 hr).2, (b1.1 hr).1, (b1.1 hr).2]; exact ⟨rfl, rfl⟩
    · rw [(a1.2 hr).1, (a1.2 hr).2, (b1.2 hr).1, (b1.2 hr).2]; exact ⟨rfl, rfl⟩
  refine ⟨rfl, rfl, hux, hpi, fun k j hk hj => ?_⟩
  by_cases hc : KeptCon qp k j
  · exact hkept k j hk hj hc
  · unfold KeptCon at hc
    rw [not_and_or] at hc
    rcases hc with hc | hc
    · push Not at hc
      obtain ⟨c1, c2⟩ := hc
      exact ⟨(hfix k j hk c1 c2).1, by rw [((a k hk).tfix j c1 c2).1, ((b k hk).tfix j c1 c2).1]⟩
    · push Not at hc
      obtain ⟨c1, c2, c3⟩ := hc
      have e : j = qp.dim.nb k + qp.dim.ng k + (j - (qp.dim.nb k + qp.dim.ng k)) := by omega
      have hb : j - (qp.dim.nb k + qp.dim.ng k) < qp.dim.nb k := by omega
      refine ⟨?_, ?_⟩
      · have := (hfix k _ hk hb c3).2
        rwa [← e] at this
      · have h1 := ((a k hk).tfix _ hb c3).2
        have h2 := ((b k hk).tfix _ hb c3).2
        rw [← e] at h1 h2
        rw [h1, h2]

end

/-! ### what does not hold -/

/-- the value of a successful call -/
def Out.get {α : Type*} (x : α) : Out α → α
  | .ok a => a
  | _ => x

def exSv0 : SolverArg ℚ := (solverArgDefault 1 (solverArgCreate exFDims)).get (solverArgCreate exFDims)
def exSv1 : SolverArg ℚ := (solverArgSet "tol_stat" (.real 1000) exSv0).get exSv0
def exSv2 : SolverArg ℚ := (solverArgSet "tol_eq" (.real 1000) exSv1).get exSv1
def exSv3 : SolverArg ℚ := (solverArgSet "tol_ineq" (.real 1000) exSv2).get exSv2
def exSv4 : SolverArg ℚ := (solverArgSet "tol_comp" (.real 1000) exSv3).get exSv3
/-- arguments of the example: mode SPEED, loose tolerances, fixed variables removed -/
def exSvArg : SolverArg ℚ := (solverArgSet "reduce_eq_dof" (.int 1) exSv4).get exSv4

theorem exSvArg_hist : ArgHist exFDims exSvArg :=
  ArgHist.set "reduce_eq_dof" (.int 1) (ArgHist.set "tol_comp" (.real 1000) (ArgHist.set "tol_ineq" (.real 1000)
    (ArgHist.set "tol_eq" (.real 1000) (ArgHist.set "tol_stat" (.real 1000) (ArgHist.default 1
    (rfl : _ = Out.ok exSv0)) (rfl : _ = Out.ok exSv1)) (rfl : _ = Out.ok exSv2)) (rfl : _ = Out.ok exSv3))
    (rfl : _ = Out.ok exSv4)) rfl

def exSvDims2 : Dims := { exFDims with nx := fun _ => 4 }

/-- **C57, negative.**  One argument object for two solvers: the reduced sizes computed for the first problem are used for
the second one too. -/
theorem solver_stale_sizes : ∃ (d1 d2 : Dims) (a : SolverArg ℚ), ArgHist d1 a ∧ d1.N = d2.N ∧ a.reduce = 1 ∧
    (solverCreate d2 (solverCreate d1 a).1).2.redQp.dim.nx 0 ≠ d2.nx 0 - d2.nbxe 0 :=
  ⟨exFDims, exSvDims2, exSvArg, exSvArg_hist, rfl, rfl, by decide +kernel⟩

/-- **C57, negative.**  A nonzero even `reduce_eq_dof` switches the removal on, but the reduced sizes are never computed: the
reduced problem of the created solver has no variables at all. -/
theorem solver_even_flag (d : Dims) (a : SolverArg ℚ) (ha : ArgHist d a) (h : a.reduce % 2 = 0) (k : ℕ) :
    (solverCreate d a).2.arg.reduce = a.reduce ∧ (solverCreate d a).2.redQp.dim.nu k = 0 ∧
      (solverCreate d a).2.redQp.dim.nx k = 0 := by
  obtain ⟨v1, v2, -⟩ := argHist_ok d a ha
  have e : solverSizes d a = a := by unfold solverSizes; rw [if_neg (by rintro ⟨-, h2⟩; omega)]
  unfold solverCreate
  rw [e]
  simp only
  rw [v2]
  exact ⟨rfl, rfl, rfl⟩

/-! ### a whole run -/

def exSvP : Prims ℚ := ⟨fun _ => 3, 2, fun _ _ _ _ => none, fun _ _ st => st⟩

theorem exSv_run : ((solverSolve exSvP 5 exFQp exFSol (solverCreate exFDims exSvArg).2).map fun o =>
    (o.ws.iter, o.ws.status, o.sol.ux 0 2)) = some (0, .SUCCESS, 3) := by decide +kernel

def exFRes0 : Res ℚ := ⟨fun _ _ => 0, fun _ _ => 0, fun _ _ => 0, fun _ _ => 0, 0, 0, 0, 0⟩
def exFResWs : ResWs ℚ := ⟨fun _ => 0, fun _ => 0, fun _ => 0, false, false, 0⟩

/-- the hypotheses of `solver_success_reduced` are met by a solver that was created, used for one solve, given a new
tolerance and used again -/
theorem exSvP_keeps : exSvP.Keeps := ⟨fun _ _ _ _ _ _ h => (by cases h), fun _ _ _ _ => MKeep.refl _ _⟩

theorem exSv_user : UserData exFDims exFQp :=
  ⟨rfl, exF_wf, fun _ _ _ _ => Or.inr rfl, exF_eq, exF_aligned, exF_tight⟩

def exSvWs0 : SolverWs ℚ := (solverCreate exFDims exSvArg).2
def exSvWs1 : SolverWs ℚ := ((solverSolve exSvP 5 exFQp exFSol exSvWs0).map fun o => o.ws).getD exSvWs0
def exSvWs2 : SolverWs ℚ := (solverSet "tol_stat" (.real 500) exSvWs1).get exSvWs1

theorem exSv_hist : SolverHist exSvP exFDims exSvWs0 exSvWs2 := by
  refine SolverHist.set "tol_stat" (.real 500) (ws' := exSvWs1) ?_ rfl
  have h : (solverSolve exSvP 5 exFQp exFSol exSvWs0).isSome = true := by decide +kernel
  obtain ⟨o, ho⟩ := Option.isSome_iff_exists.mp h
  have e : exSvWs1 = o.ws := by unfold exSvWs1; rw [ho]; rfl
  rw [e]
  exact SolverHist.solve 5 exFQp exFSol rfl (SolverHist.refl _) ho

theorem exSv_run2 : ((solverSolve exSvP 5 exFQp exFSol exSvWs2).map fun o => (o.ws.iter, o.ws.status)) = some (0, .SUCCESS) ∧
    exSvWs2.arg.ipm.i .abs_form = 0 ∧ exSvWs2.arg.ipm.i .iter_max = 15 ∧ exSvWs2.arg.ipm.r .res_g_max = 500 := by
  refine ⟨by decide +kernel, by decide +kernel, by decide +kernel, by decide +kernel⟩

/-- upper bound of the first input (box 0 of stage 0) is kept and active -/
theorem exSv_active : KeptCon exFQp 0 0 ∧ exFQp.d_mask 0 0 = 1 := by
  refine ⟨⟨fun _ e he => ?_, fun h => absurd h (by decide)⟩, rfl⟩
  exact (by decide : (1 : ℕ) ≠ 0)

example (o : SolverOut ℚ) (h : solverSolve exSvP 5 exFQp exFSol exSvWs2 = some o) :
    o.sol.ux 0 2 = 3 ∧ |(resCompute exFQp o.sol exFRes0 exFResWs).res_g 0 0| ≤ 500 := by
  have hs : o.ws.status = .SUCCESS := by
    have := exSv_run2.1; rw [h] at this; exact congrArg (fun x => x.2) (Option.some.inj this)
  have key := solver_success_reduced exSvP exSvP_keeps exFDims exSvArg exSvArg_hist rfl exSvWs2 exSv_hist exFQp exSv_user
    0 0 (by decide) (by decide) exSv_active.1 exSv_active.2 exSv_run2.2.1 (by rw [exSv_run2.2.2.1]; decide) 5 exFSol o h hs
    exFRes0 exFResWs (fun h => by cases h)
  refine ⟨key.1 0 0 (by decide) (by decide), ?_⟩
  have := key.2.1 0 0 (by decide) (by decide) (fun e he => (by decide : (2 : ℕ) ≠ 0))
  rwa [exSv_run2.2.2.2] at this

/-- a run without removal, for `solver_success_plain` -/
theorem exSv_plain : ((solverSolve exSvP 5 exFQp exFSol (solverCreate exFDims exSv4).2).map fun o =>
    (o.ws.iter, o.ws.status)) = some (0, .SUCCESS) ∧ exSv4.reduce = 0 ∧ compCount exFQp ≠ 0 := by
  refine ⟨by decide +kernel, by decide +kernel, by decide +kernel⟩

/-- the hypotheses of `solver_guess_ignored` hold in the example -/
example : exSvWs0.arg.reduce ≠ 0 ∧ exSvWs0.arg.red.All ∧ RedDim exFQp.dim exSvWs0.redQp.dim := by
  refine ⟨by decide +kernel, ⟨rfl, rfl, rfl⟩, ?_⟩
  exact ((create_inv exFDims exSvArg rfl rfl (Or.inr rfl)).red (by decide +kernel)).2

end Hpipm
