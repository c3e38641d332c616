/-
Full condensing from the user's side: the dense QP written by COND_QP_COND (cond/x_cond.c:445-457) and the solution returned by
COND_QP_EXPAND_SOL (534-541) against the OCP QP given by the user.
-/
import Verif.CondFull
import Verif.IpmUser

namespace Hpipm
open Finset
set_option linter.unusedSectionVars false

section
variable {K : Type*} [Field K] [LinearOrder K] [IsStrictOrderedRing K]

/-! ### a dense QP without equalities and its one-stage form with states -/

section
variable (q : DenseQp K) (n : ℕ) (hn : n ≤ q.dim.nv)
include hn

theorem cview_nv (k : ℕ) : (cview q n).dim.nu k + (cview q n).dim.nx k = (ov q).dim.nu k + (ov q).dim.nx k := by
  show q.dim.nv - n + n = q.dim.nv + 0
  omega

theorem cview_hmul (v : Vec K) (k i : ℕ) : hmul (cview q n) k v i = hmul (ov q) k v i := by
  unfold hmul
  rw [cview_nv q n hn]
  rfl

theorem cview_cval (v : Vec K) (k j : ℕ) : cval (cview q n) k v j = cval (ov q) k v j := by
  unfold cval
  rw [cview_nv q n hn]
  rfl

theorem cview_ineq (ux : ℕ → Vec K) (k j : ℕ) : ineq (cview q n) ux k j = ineq (ov q) ux k j := by
  unfold ineq linD
  dsimp only
  rw [cview_nv q n hn]
  simp only [cview_cval q n hn]
  rfl

theorem cview_vG (s : DqSol K) (lm : Vec K) (i : ℕ) : vG (cview q n) (csol s) lm 0 i = vG (ov q) (osol s) lm 0 i := by
  unfold vG
  dsimp only
  rw [cview_nv q n hn]
  simp only [cview_hmul q n hn, if_neg (show ¬ (0 < 0 ∧ _) from fun h => absurd h.1 (lt_irrefl 0))]
  rfl

theorem cview_vD (s : DqSol K) (j : ℕ) : vD (cview q n) (csol s) 0 j = vD (ov q) (osol s) 0 j := by
  unfold vD
  dsimp only
  rw [cview_nv q n hn]
  simp only [cview_cval q n hn]
  rfl

theorem cview_objective (v : Vec K) : (view (cview q n)).objective (ptOf (cview q n).dim (fun _ => v)) = (dview q).objective (dptOf q.dim v) := by
  rw [oobjective, obj_pair, obj_pair]
  have e : ∀ k, nvt (cview q n).dim k = nvt (ov q).dim k := by
    intro k
    unfold nvt
    rw [cview_nv q n hn]
    rfl
  have e1 : pairV (cview q n).dim (hessMul (cview q n) (fun _ => v)) (fun _ => v) = pairV (ov q).dim (hessMul (ov q) (fun _ => v)) (fun _ => v) := by
    unfold pairV
    show ∑ k ∈ range (0 + 1), _ = ∑ k ∈ range (0 + 1), _
    refine sum_congr rfl fun k _ => ?_
    rw [e]
    refine sum_congr rfl fun i _ => ?_
    unfold hessMul
    rw [cview_nv q n hn, cview_hmul q n hn]
    rfl
  have e2 : pairV (cview q n).dim (cview q n).rqz (fun _ => v) = pairV (ov q).dim (ov q).rqz (fun _ => v) := by
    unfold pairV
    show ∑ k ∈ range (0 + 1), _ = ∑ k ∈ range (0 + 1), _
    refine sum_congr rfl fun k _ => ?_
    rw [e]
    rfl
  rw [e1, e2]

end

/-- feasibility of a dense QP without equalities, packed form -/
theorem dfeasible_iff (q : DenseQp K) (hw : q.WF) (he : q.dim.ne = 0) (v : Vec K) :
    (dview q).Feasible (dptOf q.dim v) ↔ ∀ j, j < q.dim.nct → q.d_mask j ≠ 0 → ineq (ov q) (fun _ => v) 0 j ≤ 0 := by
  have F := feasible_iff (ov q) (fun _ => v)
  have key : (dview q).Feasible (dptOf q.dim v) ↔ (view (ov q)).Feasible (ptOf (ov q).dim (fun _ => v)) := by
    have hval : ∀ j, j < q.dim.nb + q.dim.ng → (dview q).value (dptOf q.dim v) j = (view (ov q)).value (opt (dptOf q.dim v)) 0 j :=
      fun j hj => ov_value q _ j hw hj
    have A := opt_agree q v
    have A' : Agree (view (ov q)) (ptOf (ov q).dim (fun _ => v)) (opt (dptOf q.dim v)) :=
      ⟨fun k i hi => (A.u k i hi).symm, fun k i hi => (A.x k i hi).symm, fun k i hi => (A.sl k i hi).symm, fun k i hi => (A.su k i hi).symm⟩
    constructor
    · intro h
      refine feasible_congr (ov q) (ov_wf q hw) _ _ A' ?_
      refine ⟨fun k i hk => absurd hk (Nat.not_lt_zero _), fun k j hk hj hm => ?_, fun k j hk hj hm => ?_, fun k j hk hj hm => ?_, fun k j hk hj hm => ?_⟩
      all_goals
        have h0 : k = 0 := Nat.le_zero.mp hk
        subst h0
      · have := h.lo j hj hm; rw [hval j hj] at this; exact this
      · have := h.up j hj hm; rw [hval j hj] at this; exact this
      · exact h.ls j hj hm
      · exact h.us j hj hm
    · intro h
      have h := feasible_congr (ov q) (ov_wf q hw) _ _ A h
      refine ⟨fun i hi => ?_, fun j hj hm => ?_, fun j hj hm => ?_, fun j hj hm => ?_, fun j hj hm => ?_⟩
      · have : i < q.dim.ne := hi
        omega
      · rw [hval j hj]; exact h.lo 0 j (le_refl _) hj hm
      · rw [hval j hj]; exact h.up 0 j (le_refl _) hj hm
      · exact h.ls 0 j (le_refl _) hj hm
      · exact h.us 0 j (le_refl _) hj hm
  rw [key, F]
  constructor
  · rintro ⟨-, h⟩ j hj hm
    exact h 0 j (Nat.zero_le _) hj hm
  · intro h
    refine ⟨fun k i hk => absurd hk (Nat.not_lt_zero _), fun k j hk hj hm => ?_⟩
    have h0 : k = 0 := Nat.le_zero.mp hk
    subst h0
    exact h j hj hm

variable {sq : K → K} {P : OcpQp K} {dq : DenseQp K} {arg : CondArg} {ws : CondWs K}

theorem cond_nx0 (h : CondCall P dq arg) : P.dim.nx 0 ≤ (condDense sq P dq arg ws).dim.nv := by
  show P.dim.nx 0 ≤ dq.dim.nv
  rw [(cond_sizes h).1]
  unfold nvCond
  omega

theorem cond_ne (h : CondCall P dq arg) : (condDense sq P dq arg ws).dim.ne = 0 := (cond_sizes h).2.1

/-- the dense QP written by condensing has index lists in range -/
theorem cond_wf (hsq : CondSqOk sq arg) (h : CondCall P dq arg) : (condDense sq P dq arg ws).WF := by
  have W := cb_wf (full_condensed (ws := ws) hsq h) h.wf
  refine ⟨fun j hj => ?_, fun j hj => W.2 0 j (Nat.zero_le _) hj⟩
  have := W.1 0 j (Nat.zero_le _) hj
  rw [cview_nv _ _ (cond_nx0 h)] at this
  exact this

/-- feasibility of the dense QP through its one-stage form -/
theorem cview_feasible (q : DenseQp K) (n : ℕ) (hn : n ≤ q.dim.nv) (hw : q.WF) (he : q.dim.ne = 0) (v : Vec K) :
    (view (cview q n)).Feasible (ptOf (cview q n).dim (fun _ => v)) ↔ (dview q).Feasible (dptOf q.dim v) := by
  rw [dfeasible_iff q hw he, feasible_iff]
  constructor
  · rintro ⟨-, h⟩ j hj hm
    rw [← cview_ineq q n hn]
    exact h 0 j (Nat.zero_le _) hj hm
  · intro h
    refine ⟨fun k i hk => absurd hk (Nat.not_lt_zero _), fun k j hk hj hm => ?_⟩
    have h0 : k = 0 := Nat.le_zero.mp hk
    subst h0
    rw [cview_ineq q n hn]
    exact h j hj hm

/-- **Condensed cost** (C78): along every expanded point the objective of the user's problem is the objective of the dense QP plus a
constant. -/
theorem fullCond_objective (hsq : CondSqOk sq arg) (h : CondCall P dq arg) (ha : ExpandAll arg) :
    ∃ c : K, ∀ (ds : DqSol K) (sol : Sol K), (view P).objective (ptOf P.dim (condSol sq P dq arg ws ds sol).ux)
      = (dview (condDense sq P dq arg ws)).objective (dptOf dq.dim ds.v) + c := by
  obtain ⟨c, hc⟩ := ex_objective (full_condensed (ws := ws) hsq h)
  refine ⟨c, fun ds sol => ?_⟩
  rw [hc _ _ (full_expands hsq h ha ds sol).ux]
  congr 1
  exact cview_objective _ _ (cond_nx0 h) ds.v

/-- **Feasibility** (C78): the expanded point always satisfies the dynamics, and it satisfies the constraints of the user's problem
exactly when the dense point satisfies those of the dense QP. -/
theorem fullCond_feasible (hsq : CondSqOk sq arg) (h : CondCall P dq arg) (ha : ExpandAll arg) (ds : DqSol K) (sol : Sol K) :
    (∀ k i, k < P.dim.N → i < P.dim.nx (k + 1) → (view P).dynDefect (ptOf P.dim (condSol sq P dq arg ws ds sol).ux) k i = 0) ∧
    ((view P).Feasible (ptOf P.dim (condSol sq P dq arg ws ds sol).ux)
      ↔ (dview (condDense sq P dq arg ws)).Feasible (dptOf dq.dim ds.v)) := by
  have C := full_condensed (ws := ws) hsq h
  have E := (full_expands (ws := ws) hsq h ha ds sol).ux
  refine ⟨fun k i hk hi => ?_, ?_⟩
  · rw [← dynRes_view P _ k i hi]
    have := ex_dyn_in C E (ii := 0) (l := k) (i := i) (Nat.zero_le _) (by omega) (by
      show i < P.dim.nx (0 + k + 1)
      rw [Nat.zero_add]; exact hi)
    have e : stOff (fun _ => P.dim.N + 1) 0 + k = k := by show 0 + k = k; omega
    rw [e] at this
    exact this
  · rw [ex_feasible C E h.wf]
    exact cview_feasible _ _ (cond_nx0 h) (cond_wf hsq h) (cond_ne h) ds.v

/-- nothing is lost: every point that satisfies the dynamics is the expansion of a dense point -/
theorem fullCond_complete (hsq : CondSqOk sq arg) (h : CondCall P dq arg) (ha : ExpandAll arg) (w : ℕ → Vec K)
    (hd : ∀ k i, k < P.dim.N → i < P.dim.nx (k + 1) → (view P).dynDefect (ptOf P.dim w) k i = 0) :
    ∀ pi lam t sol, ∀ k j, k ≤ P.dim.N → j < nvt P.dim k →
      (condSol sq P dq arg ws ⟨condVec P P.dim.N w, pi, lam, t⟩ sol).ux k j = w k j := by
  intro pi lam t sol k j hk hj
  have C := full_condensed (ws := ws) hsq h
  have E := ex_of_dyn C w (fun k i hk hi => by rw [dynRes_view P w k i hi]; exact hd k i hk hi)
  have e0 : stOff (fun _ => P.dim.N + 1) 0 + k = k := by show 0 + k = k; omega
  have e1 : (fun l => w (stOff (fun _ => P.dim.N + 1) 0 + l)) = w := by funext l; show w (0 + l) = w l; rw [Nat.zero_add]
  have a := E 0 k j (Nat.zero_le _) (by show k < P.dim.N + 1; omega) (by rw [e0]; exact hj)
  have b := (full_expands (ws := ws) hsq h ha ⟨condVec P P.dim.N w, pi, lam, t⟩ sol).ux 0 k j (Nat.zero_le _)
    (by show k < P.dim.N + 1; omega) (by rw [e0]; exact hj)
  rw [e0] at a b
  rw [a, b]
  have es : shiftQp P (stOff (fun _ => P.dim.N + 1) 0) = P := shift_zero P
  dsimp only
  rw [es, e1]
  rfl

/-- **Optimality** (C78): the expanded point is a solution of the user's problem exactly when the dense point is a solution of the dense
QP. -/
theorem fullCond_optimal (hsq : CondSqOk sq arg) (h : CondCall P dq arg) (ha : ExpandAll arg) (ds : DqSol K) (sol : Sol K) :
    (view P).IsOptimal (ptOf P.dim (condSol sq P dq arg ws ds sol).ux)
      ↔ (dview (condDense sq P dq arg ws)).IsOptimal (dptOf dq.dim ds.v) := by
  have C := full_condensed (ws := ws) hsq h
  have E := (full_expands (ws := ws) hsq h ha ds sol).ux
  have hw := cond_wf (ws := ws) hsq h
  have hn := cond_nx0 (sq := sq) (ws := ws) h
  have he := cond_ne (sq := sq) (ws := ws) h
  rw [ex_optimal C E h.wf]
  generalize hq : condDense sq P dq arg ws = q at *
  have hdim : q.dim = dq.dim := by rw [← hq]; rfl
  rw [← hdim]
  generalize P.dim.nx 0 = n at *
  have F := cview_feasible q n hn hw he
  have O := cview_objective q n hn
  constructor
  · rintro ⟨h1, h2⟩
    refine ⟨(F ds.v).mp h1, fun p' hp' => ?_⟩
    obtain ⟨f, o⟩ := dpack_feasible q hw p' hp'
    rw [← o, ← O, ← O]
    exact h2 _ ((F _).mpr f)
  · rintro ⟨h1, h2⟩
    refine ⟨(F ds.v).mpr h1, fun p' hp' => ?_⟩
    have hcw : (cview q n).WF := by
      refine ⟨fun k j hk hj => ?_, fun k j hk hj => hw.soft j hj⟩
      rw [cview_nv q n hn]
      exact hw.idxb j hj
    have hv := feasible_congr (cview q n) hcw _ _ (packPt_agree (cview q n) p') hp'
    have A : Agree (view (cview q n)) (ptOf (cview q n).dim (packPt (cview q n).dim p')) p' := packPt_agree (cview q n) p'
    have hv0 : (view (cview q n)).Feasible (ptOf (cview q n).dim (fun _ => packPt (cview q n).dim p' 0)) := by
      rw [feasible_iff] at hv ⊢
      refine ⟨fun k i hk => absurd hk (Nat.not_lt_zero _), fun k j hk hj hm => ?_⟩
      have h0 : k = 0 := Nat.le_zero.mp hk
      subst h0
      exact hv.2 0 j (Nat.zero_le _) hj hm
    have ho : (view (cview q n)).objective (ptOf (cview q n).dim (fun _ => packPt (cview q n).dim p' 0)) = (view (cview q n)).objective p' := by
      rw [← objective_congr _ _ _ A, obj_pair, obj_pair]
      unfold pairV
      show 1 / 2 * (∑ k ∈ range (0 + 1), _) + (∑ k ∈ range (0 + 1), _) = 1 / 2 * (∑ k ∈ range (0 + 1), _) + (∑ k ∈ range (0 + 1), _)
      simp only [Nat.zero_add, range_one, sum_singleton]
      rfl
    rw [← ho]
    have := h2 _ ((F _).mp hv0)
    rw [← O, ← O] at this
    exact this

/-- the residuals of a dense QP are within the given bounds -/
def DResWithin (D : DDim) (r : DRes K) (eg ed em : K) : Prop :=
  (∀ i, i < D.nv + 2 * D.ns → |r.res_g i| ≤ eg) ∧ (∀ j, j < D.nct → |r.res_d j| ≤ ed) ∧ (∀ j, j < D.nct → |r.res_m j| ≤ em)

/-- multipliers of masked constraints are zero -/
def DLamMasked (q : DenseQp K) (lam : Vec K) : Prop := ∀ j, j < q.dim.nct → q.d_mask j * lam j = lam j

theorem cview_residuals (q : DenseQp K) (n : ℕ) (hn : n ≤ q.dim.nv) (hw : q.WF) (he : q.dim.ne = 0) (ds : DqSol K) (res : Res K) (dres : DRes K)
    (rw1 rw2 : ResWs K) (h1 : rw1.Ok (cview q n)) (h2 : DWsOk rw2 q) (eg eb ed em : K) :
    ResWithin (cview q n).dim (resCompute (cview q n) (csol ds) res rw1) eg eb ed em ↔ DResWithin q.dim (dresCompute q ds dres rw2) eg ed em := by
  have hcw : (cview q n).WF := by
    refine ⟨fun k j hk hj => ?_, fun k j hk hj => hw.soft j hj⟩
    rw [cview_nv q n hn]
    exact hw.idxb j hj
  have V := (resCompute_val (cview q n) hcw (csol ds) res rw1 h1).1 0 (Nat.zero_le _)
  have W := dresCompute_val q hw ds dres rw2 h2
  have envt : nvt (cview q n).dim 0 = q.dim.nv + 2 * q.dim.ns := by
    unfold nvt
    rw [cview_nv q n hn]
    rfl
  have hatp : ∀ i, atp q ds.pi i = 0 := by intro i; unfold atp; rw [he]; simp
  have eg' : ∀ i, i < q.dim.nv + 2 * q.dim.ns → (resCompute (cview q n) (csol ds) res rw1).res_g 0 i = (dresCompute q ds dres rw2).res_g i := by
    intro i hi
    rw [V.1.g i (by rw [envt]; exact hi), W.g i hi, hatp, sub_zero]
    exact cview_vG q n hn ds _ i
  have ed' : ∀ j, j < q.dim.nct → (resCompute (cview q n) (csol ds) res rw1).res_d 0 j = (dresCompute q ds dres rw2).res_d j := by
    intro j hj
    rw [V.1.d j hj, W.d j hj]
    exact congrArg _ (cview_vD q n hn ds j)
  have em' : ∀ j, j < q.dim.nct → (resCompute (cview q n) (csol ds) res rw1).res_m 0 j = (dresCompute q ds dres rw2).res_m j := by
    intro j hj
    rw [V.2 j hj, W.m j hj]
    rfl
  constructor
  · rintro ⟨a, -, c, d⟩
    exact ⟨fun i hi => by rw [← eg' i hi]; exact a 0 i (Nat.zero_le _) (by rw [envt]; exact hi), fun j hj => by rw [← ed' j hj]; exact c 0 j (Nat.zero_le _) hj,
      fun j hj => by rw [← em' j hj]; exact d 0 j (Nat.zero_le _) hj⟩
  · rintro ⟨a, c, d⟩
    refine ⟨fun k i hk hi => ?_, fun k i hk => absurd hk (Nat.not_lt_zero _), fun k i hk hi => ?_, fun k i hk hi => ?_⟩
    all_goals
      have h0 : k = 0 := Nat.le_zero.mp hk
      subst h0
    · rw [envt] at hi; rw [eg' i hi]; exact a i hi
    · rw [ed' i hi]; exact c i hi
    · rw [em' i hi]; exact d i hi

/-- **Residuals of an expanded solution** (C78): if multipliers of masked constraints are zero, the residuals reported for the user's
problem at the expanded solution respect any bounds that the residuals reported for the dense QP at its solution respect, and
conversely; the dynamics hold exactly. -/
theorem fullCond_residuals (hsq : CondSqOk sq arg) (h : CondCall P dq arg) (ha : ExpandAll arg) (ds : DqSol K) (sol : Sol K)
    (hm : DLamMasked (condDense sq P dq arg ws) ds.lam) (res : Res K) (dres : DRes K) (rw1 rw2 : ResWs K)
    (h1 : rw1.Ok P) (h2 : DWsOk rw2 (condDense sq P dq arg ws)) (eg ed em : K) (hg : 0 ≤ eg) :
    ResWithin P.dim (resCompute P (condSol sq P dq arg ws ds sol) res rw1) eg 0 ed em
      ↔ DResWithin dq.dim (dresCompute (condDense sq P dq arg ws) ds dres rw2) eg ed em := by
  have S := se_residuals (full_condensed (ws := ws) hsq h) h.wf (full_expands hsq h ha ds sol)
    (fun k j _ hj => hm j hj) res res rw1 ⟨fun _ => 0, fun _ => 0, fun _ => 0, false, false, 0⟩ h1 (fun e => by cases e) eg 0 ed em hg (le_refl 0)
  rw [S]
  exact cview_residuals _ _ (cond_nx0 h) (cond_wf hsq h) (cond_ne h) ds res dres _ rw2 (fun e => by cases e) h2 eg 0 ed em

/-- multipliers and slacks of the inequalities are only moved: signs carry over -/
theorem fullCond_signs (hsq : CondSqOk sq arg) (h : CondCall P dq arg) (ha : ExpandAll arg) (ds : DqSol K) (sol : Sol K)
    (hp : ∀ p, p < dq.dim.nct → 0 ≤ ds.lam p ∧ 0 ≤ ds.t p) :
    ∀ k j, k ≤ P.dim.N → j < nct P.dim k →
      0 ≤ (condSol sq P dq arg ws ds sol).lam k j ∧ 0 ≤ (condSol sq P dq arg ws ds sol).t k j := by
  intro k j hk hj
  have C := full_condensed (ws := ws) hsq h
  have E := full_expands (ws := ws) hsq h ha ds sol
  have e0 : stOff (fun _ => P.dim.N + 1) 0 + k = k := by show 0 + k = k; omega
  have hl : k < (fun _ => P.dim.N + 1) 0 := by show k < P.dim.N + 1; omega
  have a := (ex_ineq C E.ux h.wf (ii := 0) (l := k) (j := j) (Nat.zero_le _) hl (by rw [e0]; exact hj)).2.2.2
  have b := E.lam 0 k j (Nat.zero_le _) hl (by rw [e0]; exact hj)
  have c := E.t 0 k j (Nat.zero_le _) hl (by rw [e0]; exact hj)
  rw [e0] at b c
  rw [b, c]
  exact hp _ a

/-- the user's data survive condensing: `A, B, b` and the lower triangles the solver reads, and all other fields -/
theorem fullCond_keeps (hsq : CondSqOk sq arg) (h : CondCall P dq arg) :
    LowKept P (condSrc sq P dq arg ws).BAbt (condSrc sq P dq arg ws).RSQrq ∧
    condSrc sq P dq arg ws = { P with BAbt := (condSrc sq P dq arg ws).BAbt, RSQrq := (condSrc sq P dq arg ws).RSQrq } :=
  ⟨(cond_tgt hsq h).2, condSrc_eq sq P dq arg ws⟩

/-- the masks of the dense QP are those of the user's problem, moved -/
theorem fullCond_mask01 (hsq : CondSqOk sq arg) (h : CondCall P dq arg) (hm : Mask01 P) : DMask01 (condDense sq P dq arg ws) := by
  have C := full_condensed (ws := ws) hsq h
  have E := expandPt_expands C (fun _ _ => 0)
  intro p hp
  obtain ⟨l, j, hl, hj, rfl⟩ := ineqPos_surj (C.blk 0 (Nat.zero_le _)) p hp
  have hl : l < (fun _ => P.dim.N + 1) 0 := by
    show l < P.dim.N + 1
    have : l ≤ P.dim.N + 1 - 1 := hl
    omega
  have e := (ex_ineq C E h.wf (Nat.zero_le _) hl hj).2.1
  have e0 : stOff (fun _ => P.dim.N + 1) 0 + l = l := by show 0 + l = l; omega
  rw [e0] at e
  have hj' : j < nct P.dim l := by
    have : shiftQp P (stOff (fun _ => P.dim.N + 1) 0) = P := shift_zero P
    rw [this] at hj
    exact hj
  have hl' : l < P.dim.N + 1 := hl
  rcases hm l j (by omega) hj' with h0 | h1
  · left; exact e.trans h0
  · right; exact e.trans h1

/-- condensing may be repeated: the dense QP left by condensing can receive any problem with the same sizes and soft constraints -/
theorem fullCond_again (hsq : CondSqOk sq arg) (h : CondCall P dq arg) (P' : OcpQp K) (hw : P'.WF) (hd : P'.dim = P.dim)
    (hr : ∀ k j, P'.idxs_rev k j = P.idxs_rev k j) (hx : ∀ k j, P'.idxb k j = P.idxb k j) (ha : AlgOk arg P' P'.dim.N) :
    CondCall P' (condDense sq P dq arg ws) arg := by
  refine ⟨hw, ?_, fun k hk => ?_, h.cls, ha, fun k j hk hj hrev => ?_⟩
  · rw [hd]; exact h.dims
  · have := h.split k (by rw [hd] at hk; exact hk)
    rw [hd]
    refine ⟨this.1, fun j hj => ?_⟩
    rw [hx]
    exact this.2 j hj
  · rw [hd] at hk hj
    have e : conPos P' P'.dim.N k j = conPos P P.dim.N k j := by
      have key : ∀ A B : OcpQp K, A.dim = B.dim → A.idxb = B.idxb → conPos A A.dim.N k j = conPos B B.dim.N k j := by
        intro A B h1 h2
        cases A; cases B
        simp only at h1 h2
        subst h1 h2
        rfl
      exact key P' P hd (funext fun k => funext fun j => hx k j)
    rw [e]
    have := (cond_tgt (ws := ws) hsq h).1.rev k j hk hj
    rw [if_pos (by rw [← hr]; exact hrev)] at this
    exact this

/-! ### convexity and suboptimality -/

theorem obj_line (qp : OcpQp K) (w l : ℕ → Vec K) :
    (view qp).objective (ptOf qp.dim (fun k i => w k i + 1 * l k i)) + (view qp).objective (ptOf qp.dim (fun k i => w k i + (-1) * l k i))
      = 2 * (view qp).objective (ptOf qp.dim w) + pairV qp.dim (hessMul qp l) l := by
  rw [obj_pair, obj_pair, obj_pair]
  have hh : ∀ (c : K) k i, hessMul qp (fun k i => w k i + c * l k i) k i = hessMul qp w k i + c * hessMul qp l k i := by
    intro c k i
    unfold hessMul
    split
    · unfold hmul
      rw [mul_sum, ← sum_add_distrib]
      exact sum_congr rfl fun j _ => by ring
    · ring
  have e : ∀ c : K, pairV qp.dim (hessMul qp (fun k i => w k i + c * l k i)) (fun k i => w k i + c * l k i)
      = pairV qp.dim (hessMul qp w) w + c * (pairV qp.dim (hessMul qp w) l + pairV qp.dim (hessMul qp l) w) + c * c * pairV qp.dim (hessMul qp l) l := by
    intro c
    unfold pairV
    rw [← sum_add_distrib, mul_sum, mul_sum, ← sum_add_distrib, ← sum_add_distrib]
    refine sum_congr rfl fun k _ => ?_
    rw [← sum_add_distrib, mul_sum, mul_sum, ← sum_add_distrib, ← sum_add_distrib]
    refine sum_congr rfl fun i _ => ?_
    rw [hh]; ring
  have e2 : ∀ c : K, pairV qp.dim qp.rqz (fun k i => w k i + c * l k i) = pairV qp.dim qp.rqz w + c * pairV qp.dim qp.rqz l := by
    intro c
    unfold pairV
    rw [mul_sum, ← sum_add_distrib]
    refine sum_congr rfl fun k _ => ?_
    rw [mul_sum, ← sum_add_distrib]
    exact sum_congr rfl fun i _ => by ring
  rw [e, e, e2, e2]; ring

theorem flatL_sum (f : ℕ → ℕ) (g : ℕ → Vec K) (N : ℕ) :
    ∑ p ∈ range (∑ k ∈ range (N + 1), f k), |flatL f g N p| = ∑ k ∈ range (N + 1), ∑ i ∈ range (f k), |g k i| := by
  induction N with
  | zero => simp [flatL]
  | succ n ih =>
    rw [sum_range_succ f, sum_range_succ (fun k => ∑ i ∈ range (f k), |g k i|), add_comm (∑ k ∈ range (n + 1), f k), sum_range_add, ← ih, add_comm]
    congr 1
    · refine sum_congr rfl fun p _ => ?_
      have e : flatL f g (n + 1) (f (n + 1) + p) = flatL f g n p := by
        show (if f (n + 1) + p < f (n + 1) then _ else flatL f g n (f (n + 1) + p - f (n + 1))) = _
        rw [if_neg (by omega), Nat.add_sub_cancel_left]
      rw [e]
    · refine sum_congr rfl fun p hp => ?_
      unfold flatL
      rw [if_pos (mem_range.mp hp)]

theorem dquad_pack (q : DenseQp K) (x : DPt K) : (dview q).quad (dptOf q.dim (dpackPt q.dim x)) = (dview q).quad x := by
  have hv : ∀ i, i < q.dim.nv → (dptOf q.dim (dpackPt q.dim x)).v i = x.v i := fun i hi => by
    simp only [dptOf, dpackPt]; rw [if_pos hi]
  have hsl : ∀ i, i < q.dim.ns → (dptOf q.dim (dpackPt q.dim x)).sl i = x.sl i := fun i hi => by
    simp only [dptOf, dpackPt]; rw [if_neg (by omega), if_pos (by omega)]; congr 1; omega
  have hsu : ∀ i, i < q.dim.ns → (dptOf q.dim (dpackPt q.dim x)).su i = x.su i := fun i hi => by
    simp only [dptOf, dpackPt]; rw [if_neg (by omega), if_neg (by omega)]; congr 1; omega
  unfold DUser.quad
  congr 1
  · congr 1
    · congr 1
      exact sum_congr rfl fun i hi => sum_congr rfl fun j hj => by rw [hv i (mem_range.mp hi), hv j (mem_range.mp hj)]
    · congr 1
      exact sum_congr rfl fun i hi => by rw [hsl i (mem_range.mp hi)]
  · congr 1
    exact sum_congr rfl fun i hi => by rw [hsu i (mem_range.mp hi)]

/-- **Convexity carries over** (C78): condensing a convex problem gives a convex dense QP. -/
theorem fullCond_convex (hsq : CondSqOk sq arg) (h : CondCall P dq arg) (hc : (view P).Convex) (x : DPt K) :
    0 ≤ (dview (condDense sq P dq arg ws)).quad x := by
  have C := full_condensed (ws := ws) hsq h
  have hn := cond_nx0 (sq := sq) (ws := ws) h
  rw [← dquad_pack]
  obtain ⟨c0, hob⟩ := ex_objective C
  generalize condDense sq P dq arg ws = q at *
  generalize hv : dpackPt q.dim x = v
  have es : shiftQp P (stOff (fun _ => P.dim.N + 1) 0) = P := shift_zero P
  have E : ∀ c : K, Expands P (cview q (P.dim.nx 0)) (fun _ => P.dim.N + 1) (fun _ p => 0 + c * v p)
      (fun k j => stageOf P P.dim.N (fun _ => 0) k j + c * stageL P P.dim.N v k j) := by
    intro c ii l j hi hl hj
    have h0 : ii = 0 := Nat.le_zero.mp hi
    subst h0
    rw [es]
    have e0 : stOff (fun _ => P.dim.N + 1) 0 + l = l := by show 0 + l = l; omega
    rw [e0]
    exact (stageOf_lin P P.dim.N (fun _ => 0) v c l j).symm
  have E0 : Expands P (cview q (P.dim.nx 0)) (fun _ => P.dim.N + 1) (fun _ _ => 0) (fun k j => stageOf P P.dim.N (fun _ => 0) k j) := by
    intro ii l j hi hl hj
    have h0 : ii = 0 := Nat.le_zero.mp hi
    subst h0
    rw [es]
    have e0 : stOff (fun _ => P.dim.N + 1) 0 + l = l := by show 0 + l = l; omega
    rw [e0]
    rfl
  have a := obj_line P (fun k j => stageOf P P.dim.N (fun _ => 0) k j) (fun k j => stageL P P.dim.N v k j)
  rw [hob _ _ (E 1), hob _ _ (E (-1)), hob _ _ E0] at a
  have b := obj_line (cview q (P.dim.nx 0)) (fun _ _ => 0) (fun _ => v)
  have hq := hc (ptOf P.dim (fun k j => stageL P P.dim.N v k j))
  rw [quad_pair] at hq
  have hd : (dview q).quad (dptOf q.dim v) = 1 / 2 * pairV (cview q (P.dim.nx 0)).dim (hessMul (cview q (P.dim.nx 0)) (fun _ => v)) (fun _ => v) := by
    have o1 := cview_objective q (P.dim.nx 0) hn v
    rw [obj_pair] at o1
    have o2 : (dview q).objective (dptOf q.dim v) = (dview q).quad (dptOf q.dim v) + (dview q).lin (dptOf q.dim v) := rfl
    have o3 : pairV (cview q (P.dim.nx 0)).dim (cview q (P.dim.nx 0)).rqz (fun _ => v) = (dview q).lin (dptOf q.dim v) := by
      have l1 := oobjective q v
      rw [obj_pair, o2, oquad, quad_pair] at l1
      have l2 := add_left_cancel l1
      rw [l2]
      unfold pairV
      show ∑ k ∈ range (0 + 1), _ = ∑ k ∈ range (0 + 1), _
      refine sum_congr rfl fun k _ => ?_
      have e : nvt (cview q (P.dim.nx 0)).dim k = nvt (ov q).dim k := by
        unfold nvt
        rw [cview_nv q _ hn]
        rfl
      rw [e]
      rfl
    rw [o2, o3] at o1
    exact (add_right_cancel o1).symm
  rw [hd]
  linarith

/-- the condensed variables of a point are some of its components -/
theorem condVec_absSum (P : OcpQp K) (w : ℕ → Vec K) :
    ∑ p ∈ range (nvCond P P.dim.N + 2 * nsAll P.dim P.dim.N), |condVec P P.dim.N w p| ≤ (view P).absSum (ptOf P.dim w) := by
  have e1 : ∑ p ∈ range (nuAll P.dim P.dim.N), |condVec P P.dim.N w p| = ∑ k ∈ range (P.dim.N + 1), ∑ i ∈ range (P.dim.nu k), |w k i| := by
    rw [← flatL_sum P.dim.nu (fun k i => w k i) P.dim.N]
    refine sum_congr rfl fun p hp => ?_
    have hp : p < nuAll P.dim P.dim.N := mem_range.mp hp
    unfold condVec
    rw [if_pos hp]
  have e2 : ∑ p ∈ range (P.dim.nx 0), |condVec P P.dim.N w (nuAll P.dim P.dim.N + p)| = ∑ i ∈ range (P.dim.nx 0), |w 0 (P.dim.nu 0 + i)| := by
    refine sum_congr rfl fun p hp => ?_
    have := mem_range.mp hp
    unfold condVec
    rw [if_neg (by omega), if_pos (by unfold nvCond; omega), Nat.add_sub_cancel_left]
  have e3 : ∑ p ∈ range (nsAll P.dim P.dim.N), |condVec P P.dim.N w (nvCond P P.dim.N + p)|
      = ∑ k ∈ range (P.dim.N + 1), ∑ i ∈ range (P.dim.ns k), |w k (P.dim.nu k + P.dim.nx k + i)| := by
    rw [← flatL_sum P.dim.ns (fun k i => w k (P.dim.nu k + P.dim.nx k + i)) P.dim.N]
    refine sum_congr rfl fun p hp => ?_
    have hp : p < nsAll P.dim P.dim.N := mem_range.mp hp
    unfold condVec
    rw [if_neg (by unfold nvCond; omega), if_neg (by omega), if_pos (by omega), Nat.add_sub_cancel_left]
  have e4 : ∑ p ∈ range (nsAll P.dim P.dim.N), |condVec P P.dim.N w (nvCond P P.dim.N + nsAll P.dim P.dim.N + p)|
      = ∑ k ∈ range (P.dim.N + 1), ∑ i ∈ range (P.dim.ns k), |w k (P.dim.nu k + P.dim.nx k + P.dim.ns k + i)| := by
    rw [← flatL_sum P.dim.ns (fun k i => w k (P.dim.nu k + P.dim.nx k + P.dim.ns k + i)) P.dim.N]
    refine sum_congr rfl fun p hp => ?_
    unfold condVec
    rw [if_neg (by unfold nvCond; omega), if_neg (by omega), if_neg (by omega), Nat.add_sub_cancel_left]
  have ex : ∑ i ∈ range (P.dim.nx 0), |w 0 (P.dim.nu 0 + i)| ≤ ∑ k ∈ range (P.dim.N + 1), ∑ i ∈ range (P.dim.nx k), |w k (P.dim.nu k + i)| :=
    single_le_sum (f := fun k => ∑ i ∈ range (P.dim.nx k), |w k (P.dim.nu k + i)|) (fun k _ => sum_nonneg fun i _ => abs_nonneg _) (mem_range.mpr (Nat.succ_pos _))
  have et : (view P).absSum (ptOf P.dim w) = (∑ k ∈ range (P.dim.N + 1), ∑ i ∈ range (P.dim.nu k), |w k i|)
      + (∑ k ∈ range (P.dim.N + 1), ∑ i ∈ range (P.dim.nx k), |w k (P.dim.nu k + i)|)
      + (∑ k ∈ range (P.dim.N + 1), ∑ i ∈ range (P.dim.ns k), |w k (P.dim.nu k + P.dim.nx k + i)|)
      + ∑ k ∈ range (P.dim.N + 1), ∑ i ∈ range (P.dim.ns k), |w k (P.dim.nu k + P.dim.nx k + P.dim.ns k + i)| := by
    rw [← sum_add_distrib, ← sum_add_distrib, ← sum_add_distrib]
    rfl
  rw [two_mul, ← add_assoc, sum_range_add, sum_range_add, e3, e4, et]
  have en : nvCond P P.dim.N = nuAll P.dim P.dim.N + P.dim.nx 0 := rfl
  rw [en, sum_range_add, e1, e2]
  linarith

/-! ### condense, solve, expand -/

/-- **Condense, solve, expand** (C78).  The dense solver returns success on the condensed problem: then the expanded solution satisfies
the dynamics of the user's problem exactly, its residuals are within the tolerances given to the solver, all multipliers and slacks
are nonnegative, and - if the user's problem is convex - no feasible point `p` of the user's problem is better by more than the tolerance
on the duality gap plus `res_g_max` times the sum of the absolute values of `p`. -/
theorem condSolve_contract (hsq : CondSqOk sq arg) (h : CondCall P dq arg) (ha : ExpandAll arg) (E : DEnv K)
    (hE : E.qp = condDense sq P dq arg ws) (lf : ℕ) (dsol : DqSol K) (s : DIpm K) (o : DSolveOut K) (hs : DSolved E lf dsol s o)
    (ht : 0 ≤ E.arg.r .tau_min) (hg : 0 ≤ E.arg.r .res_g_max) (sol : Sol K) (res : Res K) (rw1 : ResWs K) (h1 : rw1.Ok P) :
    let r := condSol sq P dq arg ws (dsolOf o.s.core) sol
    ResWithin P.dim (resCompute P r res rw1) (E.arg.r .res_g_max) 0 (E.arg.r .res_d_max) (E.arg.r .res_m_max + E.arg.r .tau_min) ∧
    (∀ k j, k ≤ P.dim.N → j < nct P.dim k → 0 ≤ r.lam k j ∧ 0 ≤ r.t k j) ∧
    ((view P).Convex → ∀ p, (view P).Feasible p → (view P).objective (ptOf P.dim r.ux) - E.arg.r .dual_gap_max -
      E.arg.r .res_g_max * (view P).absSum p ≤ (view P).objective p) := by
  intro r
  have hin := dipm_solution_inside E hs.mask hs.init hs.clip hs.lam_min hs.t_min lf dsol s o hs.nc hs.act hs.ran
  have hdim : E.qp.dim = dq.dim := by rw [hE]; rfl
  have hlm : DLamMasked (condDense sq P dq arg ws) (dsolOf o.s.core).lam := by
    rw [← hE]
    intro j hj
    rcases hs.mask j hj with h0 | h1
    · rw [h0, zero_mul, (hin j hj).2.2 h0]
    · rw [h1, one_mul]
  obtain ⟨q1, -, q3, q4, -, -⟩ := dipm_success E hs.wf hs.mask lf dsol s o hs.nc hs.act hs.rel hs.iter hs.ran hs.ok dfreshRes dfreshWs
    (dfreshWs_ok _)
  refine ⟨?_, ?_, ?_⟩
  · refine (fullCond_residuals hsq h ha (dsolOf o.s.core) sol hlm res dfreshRes rw1 dfreshWs h1 (dfreshWs_ok _) _ _ _ hg).mpr ?_
    rw [← hE, ← hdim]
    refine ⟨q1, q3, fun j hj => ?_⟩
    have a := q4 j hj
    have hmask : |E.arg.r .tau_min * E.qp.d_mask j| ≤ E.arg.r .tau_min := by
      rcases hs.mask j hj with h0 | h1
      · rw [h0, mul_zero, abs_zero]; exact ht
      · rw [h1, mul_one, abs_of_nonneg ht]
    have b := abs_add_le ((dresCompute E.qp (dsolOf o.s.core) dfreshRes dfreshWs).res_m j - E.arg.r .tau_min * E.qp.d_mask j) (E.arg.r .tau_min * E.qp.d_mask j)
    rw [sub_add_cancel] at b
    linarith
  · refine fullCond_signs hsq h ha _ sol fun p hp => ?_
    rw [← hdim] at hp
    have := hin p hp
    refine ⟨?_, this.1.le⟩
    rcases hs.mask p hp with h0 | h1
    · rw [this.2.2 h0]
    · exact (this.2.1 h1).le
  · intro hc p hp
    have C := full_condensed (ws := ws) hsq h
    obtain ⟨c, hob⟩ := ex_objective C
    have hp' := feasible_congr P h.wf _ _ (packPt_agree P p) hp
    set v' : Vec K := condVec P P.dim.N (packPt P.dim p) with hv'
    have Ex : Expands P (cview (condDense sq P dq arg ws) (P.dim.nx 0)) (fun _ => P.dim.N + 1) (fun _ => v') (packPt P.dim p) := by
      have E := ex_of_dyn C (packPt P.dim p) (fun k i hk hi => by rw [dynRes_view P _ k i hi]; exact hp'.dyn k i hk hi)
      intro ii l j hi hl hj
      have h0 : ii = 0 := Nat.le_zero.mp hi
      subst h0
      have a := E 0 l j (le_refl 0) hl hj
      rw [a]
      have es : shiftQp P (stOff (fun _ => P.dim.N + 1) 0) = P := shift_zero P
      have e1 : (fun l => packPt P.dim p (stOff (fun _ => P.dim.N + 1) 0 + l)) = packPt P.dim p := by
        funext l; show packPt P.dim p (0 + l) = packPt P.dim p l; rw [Nat.zero_add]
      dsimp only
      rw [es, e1]
      rfl
    have hf := (cview_feasible _ _ (cond_nx0 h) (cond_wf hsq h) (cond_ne h) v').mp ((ex_feasible C Ex h.wf).mp hp')
    rw [← hE] at hf
    have sub := dipm_success_subopt hs (by rw [hE]; exact fullCond_convex hsq h hc) _ hf
    have o1 := hob _ _ (full_expands (ws := ws) hsq h ha (dsolOf o.s.core) sol).ux
    have o2 := hob _ _ Ex
    rw [objective_congr _ _ _ (packPt_agree P p)] at o2
    have o3 : (view (cview (condDense sq P dq arg ws) (P.dim.nx 0))).objective (ptOf (cview (condDense sq P dq arg ws) (P.dim.nx 0)).dim (csol (dsolOf o.s.core)).ux) =
      _ := cview_objective (condDense sq P dq arg ws) (P.dim.nx 0) (cond_nx0 h) (dsolOf o.s.core).v
    rw [cview_objective _ _ (cond_nx0 h)] at o2
    rw [o3] at o1
    rw [← hE] at o1 o2
    have hab : (dview E.qp).absSum (dptOf E.qp.dim v') ≤ (view P).absSum p := by
      rw [← dabsSum_packed, hdim, (cond_sizes h).1, (cond_sizes h).2.2.2.2, ← absSum_congr _ _ _ (packPt_agree P p)]
      exact condVec_absSum P (packPt P.dim p)
    have hmul := mul_le_mul_of_nonneg_left hab hg
    have e : (dview E.qp).objective (dptOf E.qp.dim (dsolOf o.s.core).v) = (dview E.qp).objective (dptOf E.qp.dim o.s.core.v) := rfl
    show (view P).objective (ptOf P.dim (condSol sq P dq arg ws (dsolOf o.s.core) sol).ux) - _ - _ ≤ _
    linarith

end
end Hpipm
