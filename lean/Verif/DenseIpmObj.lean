/-
C76 (continued): the reported objective, and the unconstrained branch of the whole solve.  Examples for C73-C76.
-/
import Verif.DenseIpmUser
import Verif.DenseIpmEx
import Verif.DenseUnc

namespace Hpipm
open Finset
set_option linter.unusedSectionVars false

section
variable {K : Type*} [Field K] [LinearOrder K] [IsStrictOrderedRing K] (E : DEnv K)

/-- the objective only reads the first `nv` rows of the Hessian storage -/
theorem denseObj_congr (qp qp' : DenseQp K) (hd : qp'.dim = qp.dim) (hg : qp'.gz = qp.gz) (hZ : qp'.Z = qp.Z)
    (hH : ∀ i j, i < qp.dim.nv → qp'.Hv i j = qp.Hv i j) (v : Vec K) : denseObj qp' v = denseObj qp v := by
  unfold denseObj
  dsimp only
  rw [hd, hg, hZ]
  congr 1
  unfold dot
  refine sum_congr rfl fun i hi => ?_
  have hi := mem_range.mp hi
  congr 1
  unfold symv_l
  rw [if_pos (by omega), if_pos (by omega)]
  congr 2
  refine sum_congr rfl fun j hj => ?_
  have hj := mem_range.mp hj
  congr 1
  unfold symL
  split
  · exact hH _ _ (by omega)
  · exact hH _ _ (by omega)

theorem dunconstr_rows (sq : K → K) (lq : ℕ → ℕ → Mat K → Mat K × Mat K) (qp : DenseQp K) (alg : ℕ) (st : DKkt K) (i j : ℕ)
    (hi : i < qp.dim.nv) : (dunconstr sq lq qp alg st).1 i j = qp.Hv i j := by
  unfold dunconstr
  dsimp only
  split
  · split <;> rfl
  · show rowin qp.dim.nv 1 qp.gz 0 qp.Hv qp.dim.nv 0 i j = _
    unfold rowin
    rw [if_neg (by omega)]

theorem depilogue_Hv (r : ℕ × DIpm K) : (depilogue E r).s.Hv = r.2.Hv := by
  unfold depilogue
  dsimp only
  split <;> rfl

theorem dabsEnd_Hv (kk : ℕ) (s : DIpm K) : (dabsEnd E kk s).Hv = s.Hv := by
  unfold dabsEnd
  split
  · extract_lets s1
    split <;> rfl
  · rfl

theorem dsolveUnc_Hv (s : DIpm K) (i j : ℕ) (hi : i < E.qp.dim.nv) : (dsolveUnc E s).s.Hv i j = s.Hv i j := by
  have key : ∀ x : DIpm K, (if E.arg.i .comp_res_exit ≠ 0 then
      let s := dresStep E x
      let s := { s with core := { s.core with mu := s.res.res_mu } }
      if 0 < E.statMax then
        dput E 10 s.res.obj (dput E 9 s.rmax.2.2.2 (dput E 8 s.rmax.2.2.1 (dput E 7 s.rmax.2.1 (dput E 6 s.rmax.1 s))))
      else s
    else x).Hv = x.Hv := by
    intro x
    split
    · dsimp only
      split <;> rfl
    · rfl
  unfold dsolveUnc
  dsimp only
  rw [key]
  exact dunconstr_rows _ _ (dqpNow E s) _ _ i j hi

theorem dsolveUnc_v (s : DIpm K) : dsolOf (dsolveUnc E s).s.core =
    dstp (dunconstr E.sq E.lqd (dqpNow E s) E.arg.kkt_fact_alg { s.kkt with v := s.core.v, pi := s.core.pi, lam := s.core.lam, t := s.core.t }).2 := by
  have key : ∀ x : DIpm K, dsolOf (if E.arg.i .comp_res_exit ≠ 0 then
      let s := dresStep E x
      let s := { s with core := { s.core with mu := s.res.res_mu } }
      if 0 < E.statMax then
        dput E 10 s.res.obj (dput E 9 s.rmax.2.2.2 (dput E 8 s.rmax.2.2.1 (dput E 7 s.rmax.2.1 (dput E 6 s.rmax.1 s))))
      else s
    else x).core = dsolOf x.core := by
    intro x
    split
    · dsimp only
      split <;> rfl
    · rfl
  unfold dsolveUnc
  dsimp only
  rw [key]
  rfl

/-- **C76 (reported objective).**  With `compute_obj` set, every completed solve, whatever its status, marks the objective as
valid and reports the objective of the returned primal variables for the caller's problem. -/
theorem dipm_objective (hc : E.arg.compute_obj ≠ 0) (lf : ℕ) (sol : DqSol K) (s : DIpm K) (o : DSolveOut K)
    (h : dipmSolve E lf sol s = some o) :
    o.s.validObj = true ∧ o.s.obj = (dview E.qp).objective (dptOf E.qp.dim o.s.core.v) := by
  unfold dipmSolve at h
  dsimp only at h
  obtain ⟨o', ho, rfl⟩ := Option.map_eq_some_iff.mp h
  clear h; rename' ho => h
  have key : (∀ i j, i < E.qp.dim.nv → o'.s.Hv i j = E.qp.Hv i j) → (dobjStep E o').s.validObj = true ∧
      (dobjStep E o').s.obj = (dview E.qp).objective (dptOf E.qp.dim (dobjStep E o').s.core.v) := by
    intro hH
    rw [dobjStep_core]
    unfold dobjStep
    rw [if_pos hc]
    refine ⟨rfl, ?_⟩
    dsimp only
    rw [denseObj_congr E.qp (dqpNow E o'.s) rfl rfl rfl hH, denseObj_eq]
  apply key
  have h0 : (dipmInit E (dprologue E sol s)).Hv = E.qp.Hv := (dipmInit_rws E (dprologue E sol s)).2.2
  split at h
  · cases h
    intro i j hi
    rw [dsolveUnc_Hv E _ i j hi]
    rfl
  · split at h
    · obtain ⟨r, hr, rfl⟩ := Option.map_eq_some_iff.mp h
      have := ipmLoop_inv _ _ _ (fun x => x.Hv = E.qp.Hv) (fun kk a b ha hb => (dabsBody_same E kk a b hb).Hv.trans ha) _ _ _
        ((dabsMu_same E _).Hv.trans h0) hr
      intro i j _
      rw [depilogue_Hv, dabsEnd_Hv, this]
    · obtain ⟨r, hr, rfl⟩ := Option.map_eq_some_iff.mp h
      have := ipmLoop_inv _ _ _ (fun x => x.Hv = E.qp.Hv) (fun kk a b ha hb => (drelBody_same E kk a b hb).Hv.trans ha) _ _ _
        ((drelStart_same E _).Hv.trans h0) hr
      intro i j _
      rw [depilogue_Hv, this]

/-- **C76 (no inequalities).**  A problem without inequality constraints whose objective is strictly convex (for the null space
method: on the null space of the equalities) and whose equalities are independent is solved exactly by one call: zero
iterations, status success, and the returned primal variables are a global optimum, whatever the previous content of the
workspace and of the solution. -/
theorem dipm_noineq_optimal (hsq : ∀ x, 0 < x → E.sq x * E.sq x = x) (hwf : E.qp.WF) (hn : DNoIneq E.qp)
    (hlq : DLqHyp E.lqd E.qp E.arg.kkt_fact_alg) (hS : 0 < E.qp.dim.ne → E.arg.kkt_fact_alg = 0 → DSymH E.qp)
    (hr : FullRank E.qp.dim.ne E.qp.dim.nv E.qp.A) (hcv : DCurv E.qp E.arg.kkt_fact_alg 0)
    (lf : ℕ) (sol : DqSol K) (s : DIpm K) (hnc : s.core.nc = 0) :
    ∃ o, dipmSolve E lf sol s = some o ∧ o.iter = 0 ∧ o.status = .SUCCESS ∧
      (dview E.qp).IsOptimal (dptOf E.qp.dim o.s.core.v) := by
  unfold dipmSolve
  dsimp only
  rw [if_pos (Or.inl hnc)]
  refine ⟨_, rfl, by rw [dobjStep_iter]; rfl, by rw [dobjStep_status]; rfl, ?_⟩
  rw [dobjStep_core]
  have e : (dsolveUnc E (dprologue E sol s)).s.core.v = _ := congrArg DqSol.v (dsolveUnc_v E (dprologue E sol s))
  rw [e]
  have eq : dqpNow E (dprologue E sol s) = E.qp := rfl
  rw [eq]
  exact (dunconstr_optimal E.qp hsq hwf hn E.arg.kkt_fact_alg hlq hS hr hcv _ dfreshRes dfreshWs (dfreshWs_ok _)).2.2

end
end Hpipm
