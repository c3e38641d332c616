/-
C81: the tree interior point solver.  Iterations, termination, statistics, interior iterates, and what a reported success
means for the residuals of the caller's tree QP.
-/
import Verif.TreeIpmFrame
import Verif.TreeResEx
import Verif.IpmStatus

namespace Hpipm
open Finset
set_option linter.unusedSectionVars false

section
variable {K : Type*} [Field K] [LinearOrder K] [IsStrictOrderedRing K] (T : TEnv K)

/-! ### iterations and termination -/

/-- **C81** The number of iterations reported by the tree solver is at most `iter_max` (zero for a negative limit). -/
theorem tipm_iter_le (lf : ℕ) (sol : Sol K) (s : Ipm K) (o : SolveOut K) (h : tipmSolve T lf sol s = some o) :
    (o.iter : ℤ) ≤ max (T.arg.i .iter_max) 0 := by
  unfold tipmSolve at h
  simp only at h
  split at h
  · cases h; exact le_max_right _ _
  · split at h
    · obtain ⟨r, hr, rfl⟩ := Option.map_eq_some_iff.mp h
      exact ipmLoop_iter_le _ _ _ _ _ _ hr
    · obtain ⟨r, hr, rfl⟩ := Option.map_eq_some_iff.mp h
      exact ipmLoop_iter_le _ _ _ _ _ _ hr

/-- **C81** The tree solver returns, for every tree QP, every setting and every previous contents of the workspace. -/
theorem tipm_terminates (sol : Sol K) (s : Ipm K) (lf : ℕ) (hlf : T.arg.i .iter_max ≤ lf) :
    ∃ o, tipmSolve T lf sol s = some o := by
  unfold tipmSolve
  simp only
  split
  · exact ⟨_, rfl⟩
  · split
    · obtain ⟨r, hr, -⟩ := ipmLoop_terminates (fun s => contAbs T.arg (obsRel T.env s)) (fun kk s => some (tabsBody T kk s))
        (T.arg.i .iter_max) (fun _ => True) (fun kk s' _ _ _ => ⟨_, rfl, trivial⟩) lf 0
        (absMu T.env (tipmInit T (prologue T.env sol s))) trivial (by push_cast; omega)
      rw [hr]; exact ⟨_, rfl⟩
    · obtain ⟨r, hr, -⟩ := ipmLoop_terminates (fun s => contRel T.arg (obsRel T.env s)) (fun kk s => some (trelBody T kk s))
        (T.arg.i .iter_max) (fun _ => True) (fun kk s' _ _ _ => ⟨_, rfl, trivial⟩) lf 0
        (trelStart T (tipmInit T (prologue T.env sol s))) trivial (by push_cast; omega)
      rw [hr]; exact ⟨_, rfl⟩

/-- **C81** No write of the tree solver to the statistics leaves the table of `20*(1+stat_max)` entries. -/
theorem tipm_stat_inside (lf : ℕ) (sol : Sol K) (s : Ipm K) (hs : s.oob = false) (o : SolveOut K)
    (h : tipmSolve T lf sol s = some o) : o.s.oob = false := by
  unfold tipmSolve at h
  simp only at h
  have hp : (prologue T.env sol s).oob = false := hs
  split at h
  · cases h
    rw [tsolveUnc_oob]; exact hp
  · split at h
    · obtain ⟨r, hr, rfl⟩ := Option.map_eq_some_iff.mp h
      show (tabsEnd T r.1 r.2).oob = false
      rw [tabsEnd_oob]
      refine ipmLoop_inv _ _ _ (fun x => x.oob = false) (fun kk a b ha hb => ?_) lf _ r ?_ hr
      · cases hb; exact (tabsBody_oob T kk a).trans ha
      · rw [absMu_oob, (tipmInit_frame T _).1]; exact hp
    · obtain ⟨r, hr, rfl⟩ := Option.map_eq_some_iff.mp h
      show r.2.oob = false
      refine ipmLoop_inv _ _ _ (fun x => x.oob = false) (fun kk a b ha hb => ?_) lf _ r ?_ hr
      · cases hb; exact (trelBody_oob T kk a).trans ha
      · rw [trelStart_oob, (tipmInit_frame T _).1]; exact hp

/-! ### interior iterates -/

theorem tiniBox_cen (nb ng : ℕ) (idxb : ℕ → ℕ) (d mask : Vec K) (mu0 : K) (s : IniSt K) (i : ℕ)
    (hi : i < nb ∨ (nb + ng ≤ i ∧ i < 2 * nb + ng)) :
    Cen mu0 (loop nb (tiniBox (nb + ng) idxb d mask mu0) s).lam (loop nb (tiniBox (nb + ng) idxb d mask mu0) s).t i := by
  have h := loop_inv (S := IniSt K) (fun n s => ∀ i, i < n ∨ (nb + ng ≤ i ∧ i < nb + ng + n) → Cen mu0 s.lam s.t i) nb
    (tiniBox (nb + ng) idxb d mask mu0) s (fun i hi => by omega) (by
      intro n s hn ih i hi
      have key : ∀ r : K × K × K, 0 < r.2.1 → 0 < r.2.2 →
          Cen mu0 (upd (upd s.lam n (mu0 / r.2.1)) (nb + ng + n) (mu0 / r.2.2))
            (upd (upd s.t n r.2.1) (nb + ng + n) r.2.2) i := by
        intro r h1 h2
        apply cen_upd2 _ _ _ _ _ _ _ (by omega) h1 h2
        by_cases h3 : i = n
        · exact Or.inl h3
        · by_cases h4 : i = nb + ng + n
          · exact Or.inr (Or.inl h4)
          · exact Or.inr (Or.inr (ih i (by omega)))
      have hp := thr0_pos (K := K)
      unfold tiniBox
      extract_lets x dl du tl tu r
      apply key
      · show 0 < r.2.1
        simp only [r]
        split_ifs with h1 h2 h3
        · exact hp
        · exact hp
        · exact lt_of_lt_of_le hp (not_lt.1 h1)
        · exact lt_of_lt_of_le hp (not_lt.1 h1)
      · show 0 < r.2.2
        simp only [r]
        split_ifs with h1 h2 h3
        · exact hp
        · exact lt_of_lt_of_le hp (not_lt.1 h2)
        · exact hp
        · exact lt_of_lt_of_le hp (not_lt.1 h3))
  exact h i (by omega)

theorem tiniSoft_cen (n2 ns : ℕ) (mu0 : K) (s : IniSt K) (i : ℕ)
    (hi : i < n2 ∧ Cen mu0 s.lam s.t i ∨ (n2 ≤ i ∧ i < n2 + 2 * ns)) :
    Cen mu0 (loop ns (tiniSoft n2 ns mu0) s).lam (loop ns (tiniSoft n2 ns mu0) s).t i := by
  have h := loop_inv (S := IniSt K) (fun n s' => ∀ i,
      (i < n2 ∧ Cen mu0 s.lam s.t i ∨ (n2 ≤ i ∧ i < n2 + n) ∨ (n2 + ns ≤ i ∧ i < n2 + ns + n)) → Cen mu0 s'.lam s'.t i) ns
    (tiniSoft n2 ns mu0) s (by
      rintro i (h | h | h)
      · exact h.2
      · omega
      · omega) (by
      intro n s' hn ih i hi
      unfold tiniSoft
      dsimp only
      apply cen_upd2 _ _ _ _ _ _ _ (by omega) one_pos one_pos
      by_cases h3 : i = n2 + n
      · exact Or.inl h3
      · by_cases h4 : i = n2 + ns + n
        · exact Or.inr (Or.inl h4)
        · refine Or.inr (Or.inr (ih i ?_))
          rcases hi with h | h | h
          · exact Or.inl h
          · right; left; omega
          · right; right; omega)
  apply h
  rcases hi with h | h
  · exact Or.inl h
  · right; omega

theorem tinitVar_cen (sq : K → K) (qp : OcpQp K) (a : IpmArg K) (sol : Sol K) (hw : a.i .warm_start < 2)
    (hq : 0 < sq (a.r .mu0)) (hq2 : sq (a.r .mu0) * sq (a.r .mu0) = a.r .mu0) (k j : ℕ) (hk : k ≤ qp.dim.N)
    (hj : j < nct qp.dim k) :
    Cen (a.r .mu0) ((tinitVar sq qp a sol).lam k) ((tinitVar sq qp a sol).t k) j := by
  unfold tinitVar
  extract_lets D N mu0 sol1 sol2 sol3 sol4
  rw [if_neg (by omega), if_neg (by omega)]
  split_ifs with h1 h2
  · obtain ⟨_, e1, e2⟩ := (iniStages_val N (fun k s => iniConst (nct D k) (sq mu0) (sq mu0) s) sol2).1 k hk
    rw [e1, e2]
    obtain ⟨e3, e4⟩ := iniConst_val (nct D k) (sq mu0) (sq mu0) ⟨sol2.ux k, sol2.lam k, sol2.t k⟩ j hj
    unfold Cen
    rw [e3, e4]
    exact ⟨hq, hq2⟩
  · obtain ⟨_, e1, e2⟩ := (iniStages_val N (fun k s => iniConst (nct D k) mu0 1 s) sol2).1 k hk
    rw [e1, e2]
    obtain ⟨e3, e4⟩ := iniConst_val (nct D k) mu0 1 ⟨sol2.ux k, sol2.lam k, sol2.t k⟩ j hj
    unfold Cen
    rw [e3, e4]
    exact ⟨one_pos, mul_one _⟩
  · obtain ⟨_, e1, e2⟩ := (iniStages_val N (fun k s =>
        loop (D.ns k) (tiniSoft (2 * D.nb k + 2 * D.ng k) (D.ns k) mu0) s) sol4).1 k hk
    rw [e1, e2]
    have hn : nct qp.dim k = 2 * D.nb k + 2 * D.ng k + 2 * D.ns k := rfl
    apply tiniSoft_cen
    by_cases hj2 : j < 2 * D.nb k + 2 * D.ng k
    · refine Or.inl ⟨hj2, ?_⟩
      obtain ⟨_, e3, e4⟩ := (iniStages_val N (fun k s =>
        loop (D.ng k) (iniGen0 (D.nb k) (D.ng k) (qp.d k) (qp.d_mask k) mu0)
          { s with t := gemv_t (D.nu k + D.nx k) (D.ng k) 1 (qp.DCt k) 0 0 s.ux 0 0 s.t (D.nb k) s.t (D.nb k) }) sol3).1 k hk
      show Cen mu0 (sol4.lam k) (sol4.t k) j
      rw [show sol4.lam k = _ from e3, show sol4.t k = _ from e4]
      apply iniGen0_cen
      by_cases c : j < D.nb k ∨ (D.nb k + D.ng k ≤ j ∧ j < 2 * D.nb k + D.ng k)
      · refine Or.inl ⟨c, ?_⟩
        obtain ⟨_, e5, e6⟩ := (iniStages_val N (fun k s =>
          loop (D.nb k) (tiniBox (D.nb k + D.ng k) (qp.idxb k) (qp.d k) (qp.d_mask k) mu0) s) sol2).1 k hk
        have hb := tiniBox_cen (D.nb k) (D.ng k) (qp.idxb k) (qp.d k) (qp.d_mask k) mu0
          ⟨sol2.ux k, sol2.lam k, sol2.t k⟩ j c
        have e7 : gemv_t (D.nu k + D.nx k) (D.ng k) 1 (qp.DCt k) 0 0 (sol3.ux k) 0 0 (sol3.t k) (D.nb k) (sol3.t k)
            (D.nb k) j = sol3.t k j := by
          unfold gemv_t; rw [if_neg (by omega)]
        unfold Cen at hb ⊢
        dsimp only
        rw [e7]
        rw [show sol3.lam k = _ from e5, show sol3.t k = _ from e6]
        exact hb
      · right; omega
    · right; omega

/-- **C81** Cold start and primal warm start of the tree solver: every slack and multiplier is strictly positive and all
products equal the initial barrier parameter, whatever the tree QP and the previous contents. -/
theorem tinitVar_interior (sq : K → K) (qp : OcpQp K) (a : IpmArg K) (sol : Sol K) (hw : a.i .warm_start < 2)
    (hmu : 0 < a.r .mu0) (hq : 0 < sq (a.r .mu0)) (hq2 : sq (a.r .mu0) * sq (a.r .mu0) = a.r .mu0)
    (k j : ℕ) (hk : k ≤ qp.dim.N) (hj : j < nct qp.dim k) :
    0 < (tinitVar sq qp a sol).t k j ∧ 0 < (tinitVar sq qp a sol).lam k j ∧
      (tinitVar sq qp a sol).lam k j * (tinitVar sq qp a sol).t k j = a.r .mu0 := by
  have h := tinitVar_cen sq qp a sol hw hq hq2 k j hk hj
  exact ⟨h.1, h.lam_pos hmu, h.2⟩

/-- **C81** Primal-dual warm start and hot start: slacks and multipliers of inequalities are the previous ones lifted to the
threshold; the primal point and the multipliers of the dynamics are kept. -/
theorem tinitVar_warm (sq : K → K) (qp : OcpQp K) (a : IpmArg K) (sol : Sol K) (hw : 2 ≤ a.i .warm_start) :
    (∀ k j, k ≤ qp.dim.N → j < nct qp.dim k →
      (tinitVar sq qp a sol).t k j = max (if a.i .warm_start = 2 then 1 / 10 else a.r .t0_min) (sol.t k j) ∧
      (tinitVar sq qp a sol).lam k j = max (if a.i .warm_start = 2 then 1 / 10 else a.r .lam0_min) (sol.lam k j)) ∧
    (∀ k, k ≤ qp.dim.N → (tinitVar sq qp a sol).ux k = sol.ux k) ∧ (tinitVar sq qp a sol).pi = sol.pi := by
  have hux : ∀ (l t : K) (n : ℕ) (s : IniSt K), (iniClip n l t s).ux = s.ux := by
    intro l t n s
    unfold iniClip
    exact loop_kept (fun s : IniSt K => s.ux) _ _ _ fun _ _ => rfl
  unfold tinitVar
  extract_lets D N mu0 sol1 sol2 sol3 sol4
  by_cases h3 : a.i .warm_start ≥ 3
  · rw [if_pos h3, if_neg (by omega), if_neg (by omega)]
    have hv := iniStages_val N (fun k s => iniClip (nct D k) (a.r .lam0_min) (a.r .t0_min) s) sol
    refine ⟨fun k j hk hj => ?_, fun k hk => ?_, hv.2⟩
    · obtain ⟨_, e1, e2⟩ := hv.1 k hk
      rw [e1, e2]
      obtain ⟨e3, e4⟩ := iniClip_val (nct D k) (a.r .lam0_min) (a.r .t0_min) ⟨sol.ux k, sol.lam k, sol.t k⟩ j hj
      exact ⟨e4, e3⟩
    · rw [(hv.1 k hk).1, hux]
  · rw [if_neg h3, if_pos (by omega), if_pos (by omega), if_pos (by omega)]
    have hv := iniStages_val N (fun k s => iniClip (nct D k) thr0 thr0 s) sol
    refine ⟨fun k j hk hj => ?_, fun k hk => ?_, hv.2⟩
    · obtain ⟨_, e1, e2⟩ := hv.1 k hk
      rw [e1, e2]
      obtain ⟨e3, e4⟩ := iniClip_val (nct D k) thr0 thr0 ⟨sol.ux k, sol.lam k, sol.t k⟩ j hj
      exact ⟨e4, e3⟩
    · rw [(hv.1 k hk).1, hux]

theorem tinitVar_pos (hi : InitOk T.env) (sol : Sol K) (k j : ℕ) (hk : k ≤ T.t.qp.dim.N) (hj : j < nct T.t.qp.dim k) :
    0 < (tinitVar T.sq T.t.qp T.arg sol).t k j ∧ 0 < (tinitVar T.sq T.t.qp T.arg sol).lam k j := by
  rcases hi with ⟨h1, h2, h3, h4⟩ | h | ⟨h1, h2, h3⟩
  · obtain ⟨a, b, -⟩ := tinitVar_interior T.sq T.t.qp T.arg sol h1 h2 h3 h4 k j hk hj
    exact ⟨a, b⟩
  · have h : T.arg.i .warm_start = 2 := h
    obtain ⟨a, b⟩ := (tinitVar_warm T.sq T.t.qp T.arg sol (by omega)).1 k j hk hj
    rw [a, b, h]
    simp only [if_true]
    exact ⟨lt_max_of_lt_left (by norm_num), lt_max_of_lt_left (by norm_num)⟩
  · have h1 : 3 ≤ T.arg.i .warm_start := h1
    obtain ⟨a, b⟩ := (tinitVar_warm T.sq T.t.qp T.arg sol (by omega)).1 k j hk hj
    rw [a, b]
    rw [if_neg (by omega), if_neg (by omega)]
    exact ⟨lt_max_of_lt_left h2, lt_max_of_lt_left h3⟩

theorem tipmInit_pars (s : Ipm K) : (tipmInit T s).core.nc = s.core.nc ∧ (tipmInit T s).core.lam_min = s.core.lam_min ∧
    (tipmInit T s).core.t_min = s.core.t_min ∧ (tipmInit T s).core.t_lam_min = s.core.t_lam_min ∧
    (tipmInit T s).core.split_step = s.core.split_step ∧ (tipmInit T s).core.nc_mask_inv = s.core.nc_mask_inv := by
  have hb : ∀ c : Core K, pars (backupVar c) = pars c := by
    intro c
    unfold backupVar
    extract_lets c1 c2 c3
    have h1 : pars c1 = pars c := loop_kept pars _ _ _ fun _ _ => rfl
    have h2 : pars c2 = pars c1 := loop_kept pars _ _ _ fun _ _ => rfl
    have h3 : pars c3 = pars c2 := loop_kept pars _ _ _ fun _ _ => rfl
    refine Eq.trans ?_ (h3.trans (h2.trans h1))
    exact loop_kept pars _ _ _ fun _ _ => rfl
  unfold tipmInit
  extract_lets D s1
  have h := hb s1.core
  have h' : pars s1.core = pars (putSol D (tinitVar T.sq T.t.qp T.arg (solOf D s.core)) s.core) := maskLam_pars T.env _
  have h2 : pars (putSol D (tinitVar T.sq T.t.qp T.arg (solOf D s.core)) s.core) = pars s.core := rfl
  have h3 := h.trans (h'.trans h2)
  simp only [pars, Prod.mk.injEq] at h3
  obtain ⟨-, -, q3, q4, q5, -, q7, q8, -, q10⟩ := h3
  exact ⟨q3, q4, q5, q7, q8, q10⟩

theorem tipmInit_ready {s : Ipm K} (h : Ready T.env s) : Ready T.env (tipmInit T s) := by
  obtain ⟨h1, h2, h3, h4, h5, -⟩ := tipmInit_pars T s
  refine ⟨h1.trans h.nc, ?_, h2.trans h.lam_min, h3.trans h.t_min, h4.trans h.clip, h5.trans h.split⟩
  rw [(tipmInit_frame T s).2.2]
  exact h.mask

/-- the multipliers of masked constraints are zero -/
def MaskedIt (s : Ipm K) : Prop := LamMasked T.t.qp (solOf T.t.qp.dim s.core).lam

theorem MaskedIt.same {s s' : Ipm K} (h : MaskedIt T s) (e : s'.core.lam = s.core.lam) : MaskedIt T s' := by
  unfold MaskedIt
  have e2 : (solOf T.t.qp.dim s'.core).lam = (solOf T.t.qp.dim s.core).lam := by unfold solOf; rw [e]
  rw [e2]; exact h

theorem maskLam_masked (hm : Mask01 T.t.qp) {s : Ipm K} (h : Ready T.env s) : MaskedIt T (maskLam T.env s) := by
  intro k j hk hj
  have e : (solOf T.t.qp.dim (maskLam T.env s).core).lam k j = T.t.qp.d_mask k j * (solOf T.t.qp.dim s.core).lam k j :=
    (maskLam_val T.env h k j hk hj).1
  rw [e]
  rcases hm k j hk hj with h | h <;> rw [h] <;> ring

theorem tipmInit_it (s : Ipm K) : SameIt (maskLam T.env { s with
    core := putSol T.t.qp.dim (tinitVar T.sq T.t.qp T.arg (solOf T.t.qp.dim s.core)) s.core }) (tipmInit T s) := by
  unfold tipmInit
  extract_lets D s1
  have h := backupVar_seen s1.core
  simp only [seen, Prod.mk.injEq] at h
  exact ⟨h.2.2.2.2.1, h.2.2.2.1⟩

theorem tipmInit_masked (hm : Mask01 T.t.qp) {s : Ipm K} (h : Ready T.env s) : MaskedIt T (tipmInit T s) := by
  have hr : Ready T.env { s with core := putSol T.t.qp.dim (tinitVar T.sq T.t.qp T.arg (solOf T.t.qp.dim s.core)) s.core } :=
    ⟨h.nc, h.mask, h.lam_min, h.t_min, h.clip, h.split⟩
  exact (maskLam_masked T hm hr).same T (tipmInit_it T s).2

theorem tipmInit_inside (hi : InitOk T.env) {s : Ipm K} (h : Ready T.env s) : Inside T.env (tipmInit T s) := by
  have hr : Ready T.env { s with core := putSol T.t.qp.dim (tinitVar T.sq T.t.qp T.arg (solOf T.t.qp.dim s.core)) s.core } :=
    ⟨h.nc, h.mask, h.lam_min, h.t_min, h.clip, h.split⟩
  refine Inside.same T.env (s := maskLam T.env { s with
    core := putSol T.t.qp.dim (tinitVar T.sq T.t.qp T.arg (solOf T.t.qp.dim s.core)) s.core }) ?_ (tipmInit_it T s)
  intro k j hk hj
  obtain ⟨e1, e2⟩ := maskLam_val T.env hr k j hk hj
  obtain ⟨p1, p2⟩ := tinitVar_pos T hi (solOf T.t.qp.dim s.core) k j hk hj
  have el : (solOf T.env.qp.dim (putSol T.t.qp.dim (tinitVar T.sq T.t.qp T.arg (solOf T.t.qp.dim s.core)) s.core)).lam k j =
      (tinitVar T.sq T.t.qp T.arg (solOf T.t.qp.dim s.core)).lam k j := stFlat_at _ _ _ _ _ (Nat.lt_succ_of_le hk) hj
  have et : (solOf T.env.qp.dim (putSol T.t.qp.dim (tinitVar T.sq T.t.qp T.arg (solOf T.t.qp.dim s.core)) s.core)).t k j =
      (tinitVar T.sq T.t.qp T.arg (solOf T.t.qp.dim s.core)).t k j := stFlat_at _ _ _ _ _ (Nat.lt_succ_of_le hk) hj
  rw [el] at e1
  rw [et] at e2
  rw [e1, e2]
  exact ⟨p1, fun h1 => by rw [h1, one_mul]; exact p2, fun h0 => by rw [h0, zero_mul]⟩

theorem tputG_seen (kk col : ℕ) (x : K) (s : Ipm K) : (tputG T kk col x s).core = s.core ∧ (tputG T kk col x s).mask = s.mask := by
  have h := tputG_seq T kk col x s
  exact ⟨h.core, h.mask⟩

theorem trelBody_upd (kk : ℕ) (s : Ipm K) : ∃ s1, Keep s s1 ∧ SameIt (updStep T.env s1) (trelBody T kk s) ∧
    pars (trelBody T kk s).core = pars s.core ∧ (trelBody T kk s).mask = s.mask ∧ (trelBody T kk s).rws = s.rws := by
  obtain ⟨s1, hk, e⟩ := tdeltaStep_upd T kk s
  refine ⟨s1, hk, ?_⟩
  unfold trelBody
  rw [e]
  extract_lets s2 c2 s3
  have hseq : SEq s3 (tputG T kk 12 s3.res.obj (tputG T kk 11 s3.res.dual_gap (tputG4 T kk 7 s3.rmax (tputG T kk 6 s3.res.res_mu s3)))) :=
    (((tputG_seq T kk 6 _ _).trans (tputG4_seq T kk 7 _ _)).trans (tputG_seq T kk 11 _ _)).trans (tputG_seq T kk 12 _ _)
  unfold SameIt
  rw [hseq.core, hseq.mask, hseq.rws]
  refine ⟨⟨rfl, rfl⟩, ?_, ?_, ?_⟩
  · show pars (updStep T.env s1).core = _
    rw [updStep_pars, hk.core.pars]
  · show (updStep T.env s1).mask = _
    rw [updStep_mask, hk.mask]
  · show (updStep T.env s1).rws = _
    have e1 : (updStep T.env s1).rws = s1.rws := by unfold updStep maskLam; split <;> rfl
    rw [e1, hk.rws]

theorem tabsBody_upd (kk : ℕ) (s : Ipm K) : ∃ s1, Keep s s1 ∧ SameIt (updStep T.env s1) (tabsBody T kk s) ∧
    pars (tabsBody T kk s).core = pars s.core ∧ (tabsBody T kk s).mask = s.mask := by
  obtain ⟨s1, hk, e⟩ := tabsStep_upd T kk s
  refine ⟨s1, hk, ?_⟩
  unfold tabsBody
  rw [e]
  unfold SameIt
  simp only [(tputG_seen T kk 6 _ _).1, (tputG_seen T kk 6 _ _).2]
  refine ⟨(absMu_it T.env _).1, ?_, ?_⟩
  · rw [(absMu_it T.env _).2.1, updStep_pars, hk.core.pars]
  · rw [(absMu_it T.env _).2.2, updStep_mask, hk.mask]

theorem trelStart_it (s : Ipm K) : SameIt s (trelStart T s) ∧ pars (trelStart T s).core = pars s.core ∧
    (trelStart T s).mask = s.mask ∧ (trelStart T s).rws = s.rws := by
  unfold trelStart
  extract_lets s1 c2 s2
  split <;> exact ⟨⟨rfl, rfl⟩, rfl, rfl, rfl⟩

/-- the state in which the iteration loop starts -/
def tstartState (sol : Sol K) (s : Ipm K) : Ipm K :=
  if T.arg.i .abs_form ≠ 0 then absMu T.env (tipmInit T (prologue T.env sol s)) else trelStart T (tipmInit T (prologue T.env sol s))

/-- one pass of the loop of the selected formulation -/
def tpassOf (kk : ℕ) (s : Ipm K) : Option (Ipm K) := some (if T.arg.i .abs_form ≠ 0 then tabsBody T kk s else trelBody T kk s)

theorem tpass_upd (kk : ℕ) (s s' : Ipm K) (h : tpassOf T kk s = some s') :
    ∃ s1, Keep s s1 ∧ SameIt (updStep T.env s1) s' ∧ pars s'.core = pars s.core ∧ s'.mask = s.mask := by
  unfold tpassOf at h
  cases h
  split
  · exact tabsBody_upd T kk s
  · obtain ⟨s1, h1, h2, h3, h4, -⟩ := trelBody_upd T kk s
    exact ⟨s1, h1, h2, h3, h4⟩

theorem tstart_ready (hm : Mask01 T.t.qp) (sol : Sol K) (s : Ipm K) (hnc : s.core.nc = stOff (nct T.t.qp.dim) (T.t.qp.dim.N + 1)) :
    Ready T.env (tstartState T sol s) := by
  have h := tipmInit_ready T (prologue_ready T.env hm sol s hnc)
  unfold tstartState
  split
  · exact h.of T.env (absMu_it T.env _).2.1 (absMu_it T.env _).2.2
  · exact h.of T.env (trelStart_it T _).2.1 (trelStart_it T _).2.2.1

theorem tstart_inside (hm : Mask01 T.t.qp) (hi : InitOk T.env) (sol : Sol K) (s : Ipm K)
    (hnc : s.core.nc = stOff (nct T.t.qp.dim) (T.t.qp.dim.N + 1)) : Inside T.env (tstartState T sol s) := by
  have h := tipmInit_inside T hi (prologue_ready T.env hm sol s hnc)
  unfold tstartState
  split
  · exact h.same T.env (absMu_it T.env _).1
  · exact h.same T.env (trelStart_it T _).1

theorem updStep_masked (hm : Mask01 T.t.qp) {s : Ipm K} (h : Ready T.env s) : MaskedIt T (updStep T.env s) :=
  maskLam_masked T hm (s := { s with core := updateVar s.core }) (h.of T.env (updateVar_pars s.core) rfl)

/-- **C81** Every iterate of the tree solver has positive slacks, positive multipliers of present constraints and zero
multipliers of masked constraints: in both formulations, for every tree QP (convex or not), every direction and step length, as
long as clipping is on. -/
theorem tipm_iterates_inside (hm : Mask01 T.t.qp) (hi : InitOk T.env) (hc : T.arg.i .t_lam_min = 2) (hl : 0 < T.arg.r .lam_min)
    (ht : 0 < T.arg.r .t_min) (sol : Sol K) (s : Ipm K) (hnc : s.core.nc = stOff (nct T.t.qp.dim) (T.t.qp.dim.N + 1))
    (n : ℕ) (f : ℕ → Ipm K) (h0 : f 0 = tstartState T sol s) (hrun : Run (guardOf T.env) (tpassOf T) (T.arg.i .iter_max) n f) :
    ∀ i, i ≤ n → Inside T.env (f i) ∧ (0 < i → Clipped T.env (f i)) := by
  have key : ∀ i, i ≤ n → Ready T.env (f i) ∧ Inside T.env (f i) ∧ (0 < i → Clipped T.env (f i)) := by
    intro i
    induction i with
    | zero => intro _; rw [h0]; exact ⟨tstart_ready T hm sol s hnc, tstart_inside T hm hi sol s hnc, fun h => absurd h (lt_irrefl _)⟩
    | succ i ih =>
      intro hin
      obtain ⟨r1, -, -⟩ := ih (by omega)
      obtain ⟨s1, hk, he, hp, hmk⟩ := tpass_upd T i _ _ (hrun i (by omega)).2.2
      have hcl : Clipped T.env (f (i + 1)) := (updStep_clipped T.env (r1.keep T.env hk) hc).same T.env he
      exact ⟨r1.of T.env hp hmk, hcl.inside T.env hl ht, fun _ => hcl⟩
  exact fun i hin => (key i hin).2

theorem tabsEnd_it (kk : ℕ) (x : Ipm K) : SameIt x (tabsEnd T kk x) ∧ solOf T.t.qp.dim (tabsEnd T kk x).core = solOf T.t.qp.dim x.core ∧
    (tabsEnd T kk x).core.alpha_prim = x.core.alpha_prim ∧ (tabsEnd T kk x).core.alpha_dual = x.core.alpha_dual := by
  unfold tabsEnd
  split
  · extract_lets s1
    split <;> exact ⟨⟨rfl, rfl⟩, rfl, rfl, rfl⟩
  · exact ⟨⟨rfl, rfl⟩, rfl, rfl, rfl⟩

/-- the returned solution is the last iterate of the run -/
theorem tipm_run (lf : ℕ) (sol : Sol K) (s : Ipm K) (o : SolveOut K) (hc : ncMask T.t.qp s.core.nc ≠ 0)
    (h : tipmSolve T lf sol s = some o) : ∃ f : ℕ → Ipm K, f 0 = tstartState T sol s ∧
      Run (guardOf T.env) (tpassOf T) (T.arg.i .iter_max) o.iter f ∧ SameIt (f o.iter) o.s ∧
      solOf T.t.qp.dim o.s.core = solOf T.t.qp.dim (f o.iter).core := by
  unfold tipmSolve at h
  simp only at h
  have hnc0 : s.core.nc ≠ 0 := by
    intro e
    apply hc
    rw [e]; rfl
  rw [if_neg (by rintro (h1 | h1); exacts [hnc0 h1, hc h1])] at h
  by_cases ha : T.arg.i .abs_form ≠ 0
  · rw [if_pos ha] at h
    obtain ⟨r, hr, rfl⟩ := Option.map_eq_some_iff.mp h
    obtain ⟨⟨f, f0, fr, hrun⟩, -⟩ := ipmLoop_run _ _ _ _ _ _ hr
    refine ⟨f, ?_, ?_, ?_, ?_⟩
    · rw [f0]; unfold tstartState; rw [if_pos ha]
    · intro i hi
      obtain ⟨a, b, c⟩ := hrun i hi
      exact ⟨a, by unfold guardOf; rw [if_pos (show T.env.arg.i .abs_form ≠ 0 from ha)]; exact b, by unfold tpassOf; rw [if_pos ha]; exact c⟩
    · show SameIt (f r.1) (tepilogue T (r.1, tabsEnd T r.1 r.2)).s
      rw [fr]
      exact (tabsEnd_it T r.1 r.2).1
    · show solOf T.t.qp.dim (tabsEnd T r.1 r.2).core = solOf T.t.qp.dim (f r.1).core
      rw [fr, (tabsEnd_it T r.1 r.2).2.1]
  · rw [if_neg ha] at h
    obtain ⟨r, hr, rfl⟩ := Option.map_eq_some_iff.mp h
    obtain ⟨⟨f, f0, fr, hrun⟩, -⟩ := ipmLoop_run _ _ _ _ _ _ hr
    refine ⟨f, ?_, ?_, ?_, ?_⟩
    · rw [f0]; unfold tstartState; rw [if_neg ha]
    · intro i hi
      obtain ⟨a, b, c⟩ := hrun i hi
      exact ⟨a, by unfold guardOf; rw [if_neg (show ¬ T.env.arg.i .abs_form ≠ 0 from ha)]; exact b, by unfold tpassOf; rw [if_neg ha]; exact c⟩
    · show SameIt (f r.1) r.2
      rw [fr]; exact ⟨rfl, rfl⟩
    · show solOf T.t.qp.dim r.2.core = solOf T.t.qp.dim (f r.1).core
      rw [fr]

/-- **C81** The solution returned by the tree solver: positive slacks and multipliers, zero multipliers of masked constraints,
whatever the reported status. -/
theorem tipm_solution_inside (hm : Mask01 T.t.qp) (hi : InitOk T.env) (hc : T.arg.i .t_lam_min = 2) (hl : 0 < T.arg.r .lam_min)
    (ht : 0 < T.arg.r .t_min) (lf : ℕ) (sol : Sol K) (s : Ipm K) (o : SolveOut K)
    (hnc : s.core.nc = stOff (nct T.t.qp.dim) (T.t.qp.dim.N + 1)) (hm0 : ncMask T.t.qp s.core.nc ≠ 0)
    (h : tipmSolve T lf sol s = some o) :
    ∀ k j, k ≤ T.t.qp.dim.N → j < 2 * T.t.qp.dim.nb k + 2 * T.t.qp.dim.ng k + 2 * T.t.qp.dim.ns k →
      0 < (solOf T.t.qp.dim o.s.core).t k j ∧ (T.t.qp.d_mask k j = 1 → 0 < (solOf T.t.qp.dim o.s.core).lam k j) ∧
        (T.t.qp.d_mask k j = 0 → (solOf T.t.qp.dim o.s.core).lam k j = 0) := by
  obtain ⟨f, h0, hrun, -, hs⟩ := tipm_run T lf sol s o hm0 h
  have := (tipm_iterates_inside T hm hi hc hl ht sol s hnc _ f h0 hrun o.iter (le_refl _)).1
  rw [hs]; exact this

/-! ### meaning of success -/

/-- the residual object belongs to the current iterate -/
structure TFresh (s : Ipm K) : Prop where
  res : ∃ r0, s.res = tresCompute T.t (solOf T.t.qp.dim s.core) r0 s.rws
  rmax : s.rmax = tresInfNorm T.t.qp.dim s.res
  rm : s.core.res_m = stFlat (nct T.t.qp.dim) s.res.res_m (T.t.qp.dim.N + 1)

theorem TFresh.seq {s s' : Ipm K} (h : TFresh T s) (e : SEq s s') : TFresh T s' := by
  refine ⟨?_, ?_, ?_⟩
  · rw [e.res, e.core, e.rws]; exact h.res
  · rw [e.rmax, e.res]; exact h.rmax
  · rw [e.core, e.res]; exact h.rm

theorem tresStep_fresh (s : Ipm K) (x : K) : TFresh T { tresStep T s with core := { (tresStep T s).core with mu := x } } :=
  ⟨⟨s.res, rfl⟩, rfl, rfl⟩

theorem trelBody_fresh (kk : ℕ) (s : Ipm K) : TFresh T (trelBody T kk s) := by
  unfold trelBody
  extract_lets s2 c2 s3
  exact (tresStep_fresh T _ _).seq T
    ((((tputG_seq T kk 6 _ _).trans (tputG4_seq T kk 7 _ _)).trans (tputG_seq T kk 11 _ _)).trans (tputG_seq T kk 12 _ _))

theorem trelStart_fresh (s : Ipm K) : TFresh T (trelStart T s) := by
  unfold trelStart
  extract_lets s1 c2 s2
  have h2 : TFresh T s2 := tresStep_fresh T s _
  split
  · exact h2.seq T ((((((tput_seq T _ _ _).trans (tput_seq T _ _ _)).trans (tput_seq T _ _ _)).trans (tput_seq T _ _ _)).trans
      (tput_seq T _ _ _)).trans (tput_seq T _ _ _))
  · exact h2

/-- **C81** What success of the relative formulation means.  Run the tree residual routine on the caller's tree QP and the
returned solution, with any residual object and workspace: stationarity, dynamics and inequality residuals are within their
tolerances, complementarity is within its tolerance of `tau_min` (of zero for masked constraints), the duality gap is at most its
tolerance, and fewer than `iter_max` iterations were made. -/
theorem tipm_success (htr : T.t.TreeOk) (hwf : T.t.qp.WF) (hm : Mask01 T.t.qp) (lf : ℕ) (sol : Sol K) (s : Ipm K) (o : SolveOut K)
    (hnc : s.core.nc = stOff (nct T.t.qp.dim) (T.t.qp.dim.N + 1)) (hc : ncMask T.t.qp s.core.nc ≠ 0)
    (ha : T.arg.i .abs_form = 0) (hit : 0 ≤ T.arg.i .iter_max)
    (h : tipmSolve T lf sol s = some o) (hs : o.status = .SUCCESS) (res0 : Res K) (ws0 : ResWs K) (hws0 : ws0.Ok T.t.qp) :
    let D := T.t.qp.dim
    let r := tresCompute T.t (solOf D o.s.core) res0 ws0
    (∀ k i, k ≤ D.N → i < D.nu k + D.nx k + 2 * D.ns k → |r.res_g k i| ≤ T.arg.r .res_g_max) ∧
    (∀ k i, k < D.N → i < D.nx (k + 1) → |r.res_b k i| ≤ T.arg.r .res_b_max) ∧
    (∀ k i, k ≤ D.N → i < 2 * D.nb k + 2 * D.ng k + 2 * D.ns k → |r.res_d k i| ≤ T.arg.r .res_d_max) ∧
    (∀ k i, k ≤ D.N → i < 2 * D.nb k + 2 * D.ng k + 2 * D.ns k →
      |r.res_m k i - T.arg.r .tau_min * T.t.qp.d_mask k i| ≤ T.arg.r .res_m_max) ∧
    r.dual_gap ≤ T.arg.r .dual_gap_max ∧ (o.iter : ℤ) < T.arg.i .iter_max ∧ LamMasked T.t.qp (solOf D o.s.core).lam := by
  intro D r
  unfold tipmSolve at h
  simp only at h
  have hnc0 : s.core.nc ≠ 0 := by
    intro e
    apply hc
    rw [e]; rfl
  rw [if_neg (by rintro (h1 | h1); exacts [hnc0 h1, hc h1]), if_neg (by rw [ha]; simp)] at h
  obtain ⟨l, hl, rfl⟩ := Option.map_eq_some_iff.mp h
  have hs : statusOf T.arg l.1 (obsRel T.env l.2) = .SUCCESS := hs
  have hpr := prologue_ready T.env hm sol s hnc
  obtain ⟨hF, hR, hM, hW⟩ := ipmLoop_inv _ _ _ (fun x => TFresh T x ∧ Ready T.env x ∧ MaskedIt T x ∧ x.rws.Ok T.t.qp)
    (fun kk a b ha hb => by
      cases hb
      obtain ⟨s1, hk, he, hp, hmk, hrw⟩ := trelBody_upd T kk a
      refine ⟨trelBody_fresh T kk a, ha.2.1.of T.env hp hmk, ?_, by rw [hrw]; exact ha.2.2.2⟩
      exact (updStep_masked T hm (ha.2.1.keep T.env hk)).same T he.2) lf _ l
    (by
      have h0 := tipmInit_ready T hpr
      obtain ⟨i1, i2, i3, i4⟩ := trelStart_it T (tipmInit T (prologue T.env sol s))
      refine ⟨trelStart_fresh T _, h0.of T.env i2 i3, (tipmInit_masked T hm hpr).same T i1.2, ?_⟩
      rw [i4, (tipmInit_frame T _).2.1]
      intro _
      have := ncMask_ok T.t.qp hm
      rw [← hnc] at this
      exact this) hl
  obtain ⟨-, hstop⟩ := ipmLoop_run _ _ _ _ _ _ hl
  have hle := ipmLoop_iter_le _ _ _ _ _ _ hl
  obtain ⟨n0, -, -, n1, n2, n3, n4, n5⟩ := (status_success_iff T.arg hit l.1 _ _ _ _ _ _ _ _ hstop hle).mp hs
  obtain ⟨r0, hr0⟩ := hF.res
  have v1 : TVal T.t (solOf D l.2.core) l.2.res := by
    rw [hr0]; exact tresCompute_val T.t htr hwf _ hM _ _ hW
  have v2 : TVal T.t (solOf D l.2.core) r := tresCompute_val T.t htr hwf _ hM _ _ hws0
  have hnm := tres_norms D l.2.res
  simp only at hnm
  rw [hF.rmax] at n1 n2 n3
  refine ⟨?_, ?_, ?_, ?_, ?_, n0, hM⟩
  · intro k i hk hi
    rw [v2.g k hk i hi, ← v1.g k hk i hi]; exact (hnm.1.1 k i hk hi).trans n1
  · intro k i hk hi
    rw [v2.b k hk i hi, ← v1.b k hk i hi]; exact (hnm.2.1.1 k i hk hi).trans n2
  · intro k i hk hi
    rw [v2.d k hk i hi, ← v1.d k hk i hi]; exact (hnm.2.2.1.1 k i hk hi).trans n3
  · intro k i hk hi
    rw [v2.m k hk i hi, ← v1.m k hk i hi]
    refine le_trans ?_ n4
    unfold resMTau
    have hlt := stOff_lt (len := nct D) (N := D.N) hk hi
    have hlt' : stOff (nct D) k + i < l.2.core.nc := by
      rw [hR.nc]; exact hlt
    refine le_trans (le_of_eq ?_) ((vecnrmInf_spec l.2.core.nc _ 0).1 _ hlt')
    congr 1
    unfold axpy
    rw [if_pos (by omega), hF.rm, Nat.sub_zero, Nat.zero_add, Nat.zero_add]
    unfold fmask
    show _ = stFlat (nct D) l.2.res.res_m (D.N + 1) _ + -T.arg.r .tau_min * stFlat (nct D) T.t.qp.d_mask (D.N + 1) _
    rw [stFlat_at (nct D) l.2.res.res_m (D.N + 1) k i (by omega) hi, stFlat_at (nct D) T.t.qp.d_mask (D.N + 1) k i (by omega) hi]
    ring
  · rw [v2.gap, ← v1.gap]; exact n5

/-! ### status -/

/-- mean complementarity is what `mu` holds after every pass of the absolute loop -/
theorem tabs_mu_inv (hm : Mask01 T.t.qp) (lf : ℕ) (sol : Sol K) (s : Ipm K) (r : ℕ × Ipm K)
    (hnc : s.core.nc = stOff (nct T.t.qp.dim) (T.t.qp.dim.N + 1)) (hc : ncMask T.t.qp s.core.nc ≠ 0)
    (hr : ipmLoop (fun s => contAbs T.arg (obsRel T.env s)) (fun kk s => some (tabsBody T kk s)) (T.arg.i .iter_max) lf 0
      (absMu T.env (tipmInit T (prologue T.env sol s))) = some r) :
    r.2.core.mu = compSum T.t.qp (solOf T.t.qp.dim r.2.core) / (compCount T.t.qp : K) := by
  have hinv0 : (prologue T.env sol s).core.nc_mask_inv = 1 / (compCount T.t.qp : K) := by
    have : (prologue T.env sol s).core.nc_mask_inv = if ncMask T.t.qp s.core.nc = 0 then 0 else 1 / (ncMask T.t.qp s.core.nc : K) := rfl
    rw [this, if_neg hc, hnc, ncMask_count T.t.qp hm]
  have hp := tipmInit_ready T (prologue_ready T.env hm sol s hnc)
  have same : ∀ y : Ipm K, solOf T.t.qp.dim (absMu T.env y).core = solOf T.t.qp.dim y.core := by
    intro y
    unfold absMu
    simp only
    unfold maskResM
    split <;> rfl
  have key := ipmLoop_inv _ _ _ (fun x => Ready T.env x ∧ x.core.nc_mask_inv = 1 / (compCount T.t.qp : K) ∧
      x.core.mu = compSum T.t.qp (solOf T.t.qp.dim x.core) / (compCount T.t.qp : K))
    (fun kk a b ha hb => by
      cases hb
      obtain ⟨h1, h2, -⟩ := ha
      obtain ⟨s1, hk, he, hpp, hmk⟩ := tabsBody_upd T kk a
      refine ⟨h1.of T.env hpp hmk, ?_, ?_⟩
      · simp only [pars, Prod.mk.injEq] at hpp
        rw [hpp.2.2.2.2.2.2.2.2.2, h2]
      · obtain ⟨s2, hk2, e⟩ := tabsStep_upd T kk a
        unfold tabsBody
        rw [e]
        simp only [(tputG_seen T kk 6 _ _).1]
        have hr2 : Ready T.env (updStep T.env s2) := (h1.keep T.env hk2).of T.env (updStep_pars T.env s2) (updStep_mask T.env s2)
        have hi2 : (updStep T.env s2).core.nc_mask_inv = 1 / (compCount T.t.qp : K) := by
          have := updStep_pars T.env s2
          simp only [pars, Prod.mk.injEq] at this
          rw [this.2.2.2.2.2.2.2.2.2]
          have := hk2.core.pars
          simp only [pars, Prod.mk.injEq] at this
          rw [this.2.2.2.2.2.2.2.2.2, h2]
        rw [absMu_mu T.env hm hr2, same (updStep T.env s2), hi2, mul_one_div]; rfl) lf _ r
    ⟨hp.of T.env (absMu_it T.env _).2.1 (absMu_it T.env _).2.2, by
        have := (absMu_it T.env (tipmInit T (prologue T.env sol s))).2.1
        simp only [pars, Prod.mk.injEq] at this
        rw [this.2.2.2.2.2.2.2.2.2, (tipmInit_pars T _).2.2.2.2.2, hinv0],
      by rw [absMu_mu T.env hm hp, same (tipmInit T (prologue T.env sol s)), (tipmInit_pars T _).2.2.2.2.2, hinv0, mul_one_div]; rfl⟩ hr
  exact key.2.2

/-- **C81** The reported status of the tree solver for a problem with present constraints: `MAX_ITER` exactly when the
iteration limit was used up, `MIN_STEP` exactly when it was not and the last step was too short, `SUCCESS` otherwise; in the absolute
formulation `SUCCESS` means that the mean complementarity is within tolerance of `tau_min`. -/
theorem tipm_status (hm : Mask01 T.t.qp) (lf : ℕ) (sol : Sol K) (s : Ipm K) (o : SolveOut K)
    (hnc : s.core.nc = stOff (nct T.t.qp.dim) (T.t.qp.dim.N + 1)) (hc : ncMask T.t.qp s.core.nc ≠ 0)
    (h : tipmSolve T lf sol s = some o) :
    (o.status = .MAX_ITER ↔ (o.iter : ℤ) = T.arg.i .iter_max) ∧
    (o.status = .MIN_STEP ↔ (o.iter : ℤ) ≠ T.arg.i .iter_max ∧
      (o.s.core.alpha_prim ≤ T.arg.r .alpha_min ∨ o.s.core.alpha_dual ≤ T.arg.r .alpha_min)) ∧
    (o.status = .MAX_ITER ∨ o.status = .MIN_STEP ∨ o.status = .SUCCESS) ∧
    (T.arg.i .abs_form ≠ 0 → 0 ≤ T.arg.i .iter_max → o.status = .SUCCESS →
      |compSum T.t.qp (solOf T.t.qp.dim o.s.core) / (compCount T.t.qp : K) - T.arg.r .tau_min| ≤ T.arg.r .res_m_max) := by
  unfold tipmSolve at h
  simp only at h
  have hnc0 : s.core.nc ≠ 0 := by
    intro e
    apply hc
    rw [e]; rfl
  rw [if_neg (by rintro (h1 | h1); exacts [hnc0 h1, hc h1])] at h
  have hst : ∀ r : ℕ × Ipm K,
      ((tepilogue T r).status = .MAX_ITER ↔ (r.1 : ℤ) = T.arg.i .iter_max) ∧
      ((tepilogue T r).status = .MIN_STEP ↔ (r.1 : ℤ) ≠ T.arg.i .iter_max ∧
        (r.2.core.alpha_prim ≤ T.arg.r .alpha_min ∨ r.2.core.alpha_dual ≤ T.arg.r .alpha_min)) ∧
      ((tepilogue T r).status = .MAX_ITER ∨ (tepilogue T r).status = .MIN_STEP ∨ (tepilogue T r).status = .SUCCESS) := by
    intro r
    have e : (tepilogue T r).status = statusOf T.arg r.1 (obsRel T.env r.2) := rfl
    rw [e]
    unfold statusOf obsRel Fl.le
    by_cases h1 : (r.1 : ℤ) = T.arg.i .iter_max
    · simp [h1]
    · by_cases h2 : r.2.core.alpha_prim ≤ T.arg.r .alpha_min ∨ r.2.core.alpha_dual ≤ T.arg.r .alpha_min
      · simp [h1, h2]
      · simp [h1, h2]
  by_cases ha : T.arg.i .abs_form ≠ 0
  · rw [if_pos ha] at h
    obtain ⟨r, hr, rfl⟩ := Option.map_eq_some_iff.mp h
    obtain ⟨p1, p2, p3⟩ := hst (r.1, tabsEnd T r.1 r.2)
    refine ⟨p1, p2, p3, fun _ hit hs => ?_⟩
    have hmu := tabs_mu_inv T hm lf sol s r hnc hc hr
    obtain ⟨-, hstop⟩ := ipmLoop_run _ _ _ _ _ _ hr
    have hle := ipmLoop_iter_le _ _ _ _ _ _ hr
    obtain ⟨-, hend1, hend2, hend3⟩ := tabsEnd_it T r.1 r.2
    show |compSum T.t.qp (solOf T.t.qp.dim (tabsEnd T r.1 r.2).core) / _ - _| ≤ _
    rw [hend1, ← hmu]
    rw [hs] at p1 p2
    have n1 : ¬ (r.1 : ℤ) = T.arg.i .iter_max := fun e => by have := p1.mpr e; cases this
    have n2 : ¬ (r.2.core.alpha_prim ≤ T.arg.r .alpha_min ∨ r.2.core.alpha_dual ≤ T.arg.r .alpha_min) := by
      intro e
      have := p2.mpr ⟨n1, by rw [hend2, hend3]; exact e⟩
      cases this
    push Not at n2
    rcases hstop with hstop | hstop
    · exfalso
      rw [max_eq_left hit] at hle
      omega
    · unfold contAbs obsRel at hstop
      simp only [Fl.gt, Option.map_some, gt_iff_lt, n2, decide_true, Bool.true_and, decide_eq_false_iff_not, not_lt] at hstop
      exact hstop
  · rw [if_neg ha] at h
    obtain ⟨r, hr, rfl⟩ := Option.map_eq_some_iff.mp h
    obtain ⟨p1, p2, p3⟩ := hst r
    exact ⟨p1, p2, p3, fun h => absurd h ha⟩

end
end Hpipm
