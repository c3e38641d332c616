import Verif.IpmInitProps
import Verif.IpmEx

/-!
# The starting point and the box constraints (C56)

OCP_QP_INIT_VAR, x_ocp_qp_ipm.c:1773-1835 (`t0_init = 2`, `var_init_scheme = 0`, no dual warm start): position of the
bounded variables and of the slacks of their bounds.
-/
set_option linter.unusedSectionVars false

namespace Hpipm

section
variable {K : Type*} [Field K] [LinearOrder K] [IsStrictOrderedRing K]

/-- where a bounded variable starts: `x0` before, `lo`/`hi` the bounds or `none` if masked.  Moved to a distance 1/10 from a
bound it is too close to or beyond; to the centre if too close to both. -/
def boxStart (lo hi : Option K) (x0 : K) : K :=
  match lo, hi with
  | none, none => x0
  | some l, none => if x0 - l < 1 / 10 then l + 1 / 10 else x0
  | none, some u => if u - x0 < 1 / 10 then u - 1 / 10 else x0
  | some l, some u =>
    if x0 - l < 1 / 10 then if u - x0 < 1 / 10 then (l + u) / 2 else l + 1 / 10
    else if u - x0 < 1 / 10 then u - 1 / 10 else x0

/-- slack of a bound at signed distance `dist` of the original point -/
def slackStart (present : Bool) (dist : K) : K := if present then max (1 / 10) dist else 1

/-- the bound as the user gave it; `none` if masked -/
def bnd (mask x : K) : Option K := if mask = 0 then none else some x

theorem iniBox0_one (nbg : ℕ) (idxb : ℕ → ℕ) (d mask : Vec K) (mu0 : K) (j : ℕ) (s : IniSt K) (hj : j ≠ nbg + j) :
    (iniBox0 nbg idxb d mask mu0 j s).ux (idxb j) = boxStart (bnd (mask j) (d j)) (bnd (mask (nbg + j)) (-d (nbg + j))) (s.ux (idxb j)) ∧
    (iniBox0 nbg idxb d mask mu0 j s).t j = slackStart (decide (mask j ≠ 0)) (s.ux (idxb j) - d j) ∧
    (iniBox0 nbg idxb d mask mu0 j s).t (nbg + j) = slackStart (decide (mask (nbg + j) ≠ 0)) (-d (nbg + j) - s.ux (idxb j)) := by
  unfold iniBox0
  extract_lets x dl du tl tu r
  have ht : (0 : K) < 1 / 10 := by norm_num
  have h1 : ¬ ((1 : K) < 1 / 10) := by norm_num
  have hthr : (thr0 : K) = 1 / 10 := rfl
  refine ⟨?_, ?_, ?_⟩
  · show upd s.ux (idxb j) r.1 (idxb j) = _
    rw [upd_same]
    simp only [r, tl, tu, dl, du, x, hthr, bnd]
    by_cases m1 : mask j = 0 <;> by_cases m2 : mask (nbg + j) = 0 <;> simp only [m1, m2, if_true, if_false, boxStart]
    · rw [if_neg (by linarith), if_neg (by linarith)]
    · rw [if_neg (by linarith)]
      split_ifs <;> rfl
    · rw [if_neg (show ¬ (-(-s.ux (idxb j) - 1) - s.ux (idxb j) < 1 / 10) by linarith),
        if_neg (show ¬ (-(-s.ux (idxb j) - 1) - s.ux (idxb j) < 1 / 10) by linarith)]
      rw [show -d j + s.ux (idxb j) = s.ux (idxb j) - d j by ring]
      split_ifs <;> rfl
    · rw [show -d j + s.ux (idxb j) = s.ux (idxb j) - d j by ring]
      split_ifs <;> first | rfl | ring
  · show upd (upd s.t j r.2.1) (nbg + j) r.2.2 j = _
    rw [upd_ne _ _ hj, upd_same]
    simp only [r, tl, tu, dl, du, x, hthr, slackStart]
    by_cases m1 : mask j = 0
    · simp only [m1, if_true]
      rw [if_neg (by linarith)]
      simp only [ne_eq, not_true_eq_false, decide_false, Bool.false_eq_true, if_false]
      split_ifs <;> ring
    · simp only [m1, if_false]
      rw [show -d j + s.ux (idxb j) = s.ux (idxb j) - d j by ring]
      rw [if_pos (show decide (mask j ≠ 0) = true by simpa using m1)]
      by_cases h : s.ux (idxb j) - d j < 1 / 10
      · rw [if_pos h, max_eq_left (le_of_lt h)]; split_ifs <;> rfl
      · rw [if_neg h, max_eq_right (not_lt.mp h)]; split_ifs <;> rfl
  · show upd (upd s.t j r.2.1) (nbg + j) r.2.2 (nbg + j) = _
    rw [upd_same]
    simp only [r, tl, tu, dl, du, x, hthr, slackStart]
    by_cases m2 : mask (nbg + j) = 0
    · simp only [m2, if_true]
      rw [if_neg (show ¬ (-(-s.ux (idxb j) - 1) - s.ux (idxb j) < 1 / 10) by linarith),
        if_neg (show ¬ (-(-s.ux (idxb j) - 1) - s.ux (idxb j) < 1 / 10) by linarith)]
      simp only [ne_eq, not_true_eq_false, decide_false, Bool.false_eq_true, if_false]
      split_ifs <;> ring
    · simp only [m2, if_false]
      rw [if_pos (show decide (mask (nbg + j) ≠ 0) = true by simpa using m2)]
      by_cases h : -d (nbg + j) - s.ux (idxb j) < 1 / 10
      · rw [if_pos h, if_pos h, max_eq_left (le_of_lt h)]; split_ifs <;> rfl
      · rw [if_neg h, if_neg h, max_eq_right (not_lt.mp h)]; split_ifs <;> rfl

theorem iniBox0_frame (nbg : ℕ) (idxb : ℕ → ℕ) (d mask : Vec K) (mu0 : K) (j : ℕ) (s : IniSt K) :
    (∀ i, i ≠ idxb j → (iniBox0 nbg idxb d mask mu0 j s).ux i = s.ux i) ∧
    (∀ i, i ≠ j → i ≠ nbg + j → (iniBox0 nbg idxb d mask mu0 j s).t i = s.t i) := by
  unfold iniBox0
  extract_lets x dl du tl tu r
  exact ⟨fun i hi => upd_ne _ _ hi, fun i h1 h2 => by
    show upd (upd s.t j r.2.1) (nbg + j) r.2.2 i = s.t i
    rw [upd_ne _ _ h2, upd_ne _ _ h1]⟩

theorem iniBox0_loop (nb ng : ℕ) (idxb : ℕ → ℕ) (hinj : ∀ i j, i < nb → j < nb → idxb i = idxb j → i = j) (d mask : Vec K) (mu0 : K)
    (s : IniSt K) (j : ℕ) (hj : j < nb) :
    let o := loop nb (iniBox0 (nb + ng) idxb d mask mu0) s
    o.ux (idxb j) = boxStart (bnd (mask j) (d j)) (bnd (mask (nb + ng + j)) (-d (nb + ng + j))) (s.ux (idxb j)) ∧
    o.t j = slackStart (decide (mask j ≠ 0)) (s.ux (idxb j) - d j) ∧
    o.t (nb + ng + j) = slackStart (decide (mask (nb + ng + j) ≠ 0)) (-d (nb + ng + j) - s.ux (idxb j)) := by
  have h := loop_inv (S := IniSt K) (fun n o => n ≤ nb →
      (∀ j, j < n → o.ux (idxb j) = boxStart (bnd (mask j) (d j)) (bnd (mask (nb + ng + j)) (-d (nb + ng + j))) (s.ux (idxb j)) ∧
        o.t j = slackStart (decide (mask j ≠ 0)) (s.ux (idxb j) - d j) ∧
        o.t (nb + ng + j) = slackStart (decide (mask (nb + ng + j) ≠ 0)) (-d (nb + ng + j) - s.ux (idxb j))) ∧
      (∀ j, n ≤ j → j < nb → o.ux (idxb j) = s.ux (idxb j))) nb (iniBox0 (nb + ng) idxb d mask mu0) s
    (fun _ => ⟨fun j hj => absurd hj (by omega), fun _ _ _ => rfl⟩) (by
      intro n o hn ih _
      obtain ⟨h1, h2⟩ := ih (by omega)
      obtain ⟨f1, f2⟩ := iniBox0_frame (nb + ng) idxb d mask mu0 n o
      refine ⟨fun j hj => ?_, fun j hj hjn => ?_⟩
      · by_cases hjn : j = n
        · subst hjn
          have := iniBox0_one (nb + ng) idxb d mask mu0 j o (by omega)
          rw [h2 j (le_refl _) hn] at this
          exact this
        · rw [f1 _ (fun e => hjn (hinj j n (by omega) hn e)), f2 j hjn (by omega), f2 (nb + ng + j) (by omega) (by omega)]
          exact h1 j (by omega)
      · rw [f1 _ (fun e => absurd (hinj j n hjn hn e) (by omega))]
        exact h2 j (by omega) hjn)
  exact (h (le_refl _)).1 j hj

theorem iniGen0_frame (nb ng : ℕ) (d mask : Vec K) (mu0 : K) (s : IniSt K) :
    (loop ng (iniGen0 nb ng d mask mu0) s).ux = s.ux ∧
    (∀ i, i < nb ∨ (nb + ng ≤ i ∧ i < 2 * nb + ng) → (loop ng (iniGen0 nb ng d mask mu0) s).t i = s.t i) := by
  exact loop_inv (S := IniSt K) (fun _ o => o.ux = s.ux ∧ ∀ i, i < nb ∨ (nb + ng ≤ i ∧ i < 2 * nb + ng) → o.t i = s.t i) ng
    (iniGen0 nb ng d mask mu0) s ⟨rfl, fun _ _ => rfl⟩ (by
      intro n o hn ⟨h1, h2⟩
      refine ⟨h1, fun i hi => ?_⟩
      rw [← h2 i hi]
      show upd (upd o.t (nb + n) _) (2 * nb + ng + n) _ i = o.t i
      rw [upd_ne _ _ (by omega), upd_ne _ _ (by omega)])

theorem iniSoft0_frame (sq : K → K) (n2 ns nv : ℕ) (d mask : Vec K) (mu0 : K) (s : IniSt K) :
    (∀ i, i < nv → (loop ns (iniSoft0 sq n2 ns nv d mask mu0) s).ux i = s.ux i) ∧
    (∀ i, i < n2 → (loop ns (iniSoft0 sq n2 ns nv d mask mu0) s).t i = s.t i) := by
  exact loop_inv (S := IniSt K) (fun _ o => (∀ i, i < nv → o.ux i = s.ux i) ∧ ∀ i, i < n2 → o.t i = s.t i) ns
    (iniSoft0 sq n2 ns nv d mask mu0) s ⟨fun _ _ => rfl, fun _ _ => rfl⟩ (by
      intro n o hn ⟨h1, h2⟩
      unfold iniSoft0
      extract_lets dl du tl tu ux1 ux2 q
      refine ⟨fun i hi => ?_, fun i hi => ?_⟩
      · rw [← h1 i hi]
        show ux2 i = o.ux i
        have e1 : ux1 i = o.ux i := by
          simp only [ux1]; split
          · rw [upd_ne _ _ (by omega)]
          · rfl
        simp only [ux2]; split
        · rw [upd_ne _ _ (by omega)]; exact e1
        · exact e1
      · rw [← h2 i hi]
        show upd (upd o.t (n2 + n) q) (n2 + ns + n) q i = o.t i
        rw [upd_ne _ _ (by omega), upd_ne _ _ (by omega)])

/-- **C56**: where the bounded variables and the slacks of their bounds start -/
theorem initVar_box (sq : K → K) (qp : OcpQp K) (hwf : qp.WF) (a : IpmArg K) (sol : Sol K) (hw : a.i .warm_start < 2)
    (hw0 : 0 ≤ a.i .warm_start) (ht : a.i .t0_init = 2) (hv : a.i .var_init_scheme = 0)
    (hinj : ∀ k i j, k ≤ qp.dim.N → i < qp.dim.nb k → j < qp.dim.nb k → qp.idxb k i = qp.idxb k j → i = j)
    (k j : ℕ) (hk : k ≤ qp.dim.N) (hj : j < qp.dim.nb k) :
    let o := initVar sq qp a sol
    let u := qp.dim.nb k + qp.dim.ng k + j
    let x0 := if a.i .warm_start = 0 then 0 else sol.ux k (qp.idxb k j)
    o.ux k (qp.idxb k j) = boxStart (bnd (qp.d_mask k j) (qp.d k j)) (bnd (qp.d_mask k u) (-qp.d k u)) x0 ∧
    o.t k j = slackStart (decide (qp.d_mask k j ≠ 0)) (x0 - qp.d k j) ∧
    o.t k u = slackStart (decide (qp.d_mask k u ≠ 0)) (-qp.d k u - x0) := by
  intro o u x0
  have hb := hwf.1 k j hk hj
  show (initVar sq qp a sol).ux k _ = _ ∧ (initVar sq qp a sol).t k j = _ ∧ (initVar sq qp a sol).t k u = _
  unfold initVar
  extract_lets D N mu0 sol1 sol2 sol3 sol4
  rw [if_neg (by omega), if_neg (by omega), if_neg (by omega), if_neg (by omega), if_pos hv]
  have hx0 : sol2.ux k (qp.idxb k j) = x0 := by
    have e1 : sol2.ux = sol1.ux := by
      exact loop_inv (S := Sol K) (fun _ s => s.ux = sol1.ux) N _ sol1 rfl (fun n s _ h => h)
    rw [e1]
    simp only [sol1, x0]
    split
    · have := loop_inv (S := Sol K) (fun n s => ∀ k, k < n → ∀ i, i < nvt D k → s.ux k i = 0) (N + 1)
        (fun k (sol : Sol K) => { sol with ux := upd sol.ux k (vecse (nvt D k) 0 (sol.ux k) 0) }) sol
        (fun k hk => absurd hk (by omega)) (by
          intro n s hn ih k hk i hi
          by_cases hkn : k = n
          · subst hkn
            show upd s.ux k _ k i = 0
            rw [upd_same]
            unfold vecse
            rw [if_pos (by omega)]
          · show upd s.ux n _ k i = 0
            rw [upd_ne _ _ hkn]
            exact ih k (by omega) i hi)
      have hb' : qp.idxb k j < nvt D k := by
        have : qp.idxb k j < D.nu k + D.nx k := hb
        show _ < D.nu k + D.nx k + 2 * D.ns k; omega
      exact this k (by show k < qp.dim.N + 1; omega) _ hb'
    · rfl
  obtain ⟨a1, _, a3⟩ := (iniStages_val N (fun k s =>
        loop (D.ns k) (iniSoft0 sq (2 * D.nb k + 2 * D.ng k) (D.ns k) (D.nu k + D.nx k) (qp.d k) (qp.d_mask k) mu0) s) sol4).1 k hk
  obtain ⟨b1, _, b3⟩ := (iniStages_val N (fun k s =>
        loop (D.ng k) (iniGen0 (D.nb k) (D.ng k) (qp.d k) (qp.d_mask k) mu0)
          { s with t := gemv_t (D.nu k + D.nx k) (D.ng k) 1 (qp.DCt k) 0 0 s.ux 0 0 s.t (D.nb k) s.t (D.nb k) }) sol3).1 k hk
  obtain ⟨c1, _, c3⟩ := (iniStages_val N (fun k s =>
          loop (D.nb k) (iniBox0 (D.nb k + D.ng k) (qp.idxb k) (qp.d k) (qp.d_mask k) mu0) s) sol2).1 k hk
  obtain ⟨s1, s2⟩ := iniSoft0_frame sq (2 * D.nb k + 2 * D.ng k) (D.ns k) (D.nu k + D.nx k) (qp.d k) (qp.d_mask k) mu0
    ⟨sol4.ux k, sol4.lam k, sol4.t k⟩
  obtain ⟨g1, g2⟩ := iniGen0_frame (D.nb k) (D.ng k) (qp.d k) (qp.d_mask k) mu0
    ⟨sol3.ux k, sol3.lam k, gemv_t (D.nu k + D.nx k) (D.ng k) 1 (qp.DCt k) 0 0 (sol3.ux k) 0 0 (sol3.t k) (D.nb k) (sol3.t k) (D.nb k)⟩
  have gm : ∀ i, i < D.nb k ∨ (D.nb k + D.ng k ≤ i) → gemv_t (D.nu k + D.nx k) (D.ng k) 1 (qp.DCt k) 0 0 (sol3.ux k) 0 0 (sol3.t k) (D.nb k) (sol3.t k)
            (D.nb k) i = sol3.t k i := by
    intro i hi
    unfold gemv_t; rw [if_neg (by omega)]
  obtain ⟨x1, x2, x3⟩ := iniBox0_loop (D.nb k) (D.ng k) (qp.idxb k) (fun i j hi hj => hinj k i j hk hi hj) (qp.d k) (qp.d_mask k) mu0
    ⟨sol2.ux k, sol2.lam k, sol2.t k⟩ j hj
  dsimp only at x1 x2 x3
  rw [hx0] at x1 x2 x3
  have hjD : j < D.nb k := hj
  have hbD : qp.idxb k j < D.nu k + D.nx k := hb
  have huD : u = D.nb k + D.ng k + j := rfl
  rw [a1, a3, s1 _ hbD, s2 j (by omega), s2 u (by omega)]
  dsimp only
  rw [show sol4.ux k = _ from b1, show sol4.t k = _ from b3, g1, g2 j (by omega), g2 u (by omega)]
  dsimp only
  rw [gm j (by omega), gm u (by omega), show sol3.ux k = _ from c1, show sol3.t k = _ from c3]
  exact ⟨x1, x2, x3⟩

/-- a box at least 1/5 wide: the variable starts inside, at least 1/10 away from both bounds -/
theorem boxStart_inside {l u x0 : K} (h : l + 1 / 5 ≤ u) :
    l + 1 / 10 ≤ boxStart (some l) (some u) x0 ∧ boxStart (some l) (some u) x0 ≤ u - 1 / 10 := by
  unfold boxStart
  dsimp only
  split_ifs with h1 h2 h2
  · constructor <;> linarith
  · constructor <;> linarith
  · constructor <;> linarith
  · constructor <;> linarith

/-- a variable that is already inside is not moved -/
theorem boxStart_kept {l u x0 : K} (h1 : l + 1 / 10 ≤ x0) (h2 : x0 ≤ u - 1 / 10) : boxStart (some l) (some u) x0 = x0 := by
  unfold boxStart
  dsimp only
  rw [if_neg (by linarith), if_neg (by linarith)]

/-- **C56**: every two-sided box that is at least 1/5 wide contains the starting value, with margin 1/10; a value already
inside is kept and then the slacks are the distances to the bounds (the inequality residual of the box is zero) -/
theorem initVar_box_inside (sq : K → K) (qp : OcpQp K) (hwf : qp.WF) (a : IpmArg K) (sol : Sol K) (hw : a.i .warm_start < 2)
    (hw0 : 0 ≤ a.i .warm_start) (ht : a.i .t0_init = 2) (hv : a.i .var_init_scheme = 0)
    (hinj : ∀ k i j, k ≤ qp.dim.N → i < qp.dim.nb k → j < qp.dim.nb k → qp.idxb k i = qp.idxb k j → i = j)
    (k j : ℕ) (hk : k ≤ qp.dim.N) (hj : j < qp.dim.nb k) (m1 : qp.d_mask k j = 1)
    (m2 : qp.d_mask k (qp.dim.nb k + qp.dim.ng k + j) = 1) :
    let o := initVar sq qp a sol
    let lb := qp.d k j
    let ub := -qp.d k (qp.dim.nb k + qp.dim.ng k + j)
    let x0 := if a.i .warm_start = 0 then 0 else sol.ux k (qp.idxb k j)
    (lb + 1 / 5 ≤ ub → lb + 1 / 10 ≤ o.ux k (qp.idxb k j) ∧ o.ux k (qp.idxb k j) ≤ ub - 1 / 10) ∧
    (lb + 1 / 10 ≤ x0 → x0 ≤ ub - 1 / 10 → o.ux k (qp.idxb k j) = x0 ∧ o.t k j = x0 - lb ∧
      o.t k (qp.dim.nb k + qp.dim.ng k + j) = ub - x0) := by
  obtain ⟨h1, h2, h3⟩ := initVar_box sq qp hwf a sol hw hw0 ht hv hinj k j hk hj
  have b1 : ∀ x : K, bnd (qp.d_mask k j) x = some x := fun x => by unfold bnd; rw [m1, if_neg one_ne_zero]
  have b2 : ∀ x : K, bnd (qp.d_mask k (qp.dim.nb k + qp.dim.ng k + j)) x = some x := fun x => by unfold bnd; rw [m2, if_neg one_ne_zero]
  rw [b1, b2] at h1
  rw [m1] at h2
  rw [m2] at h3
  simp only [slackStart, ne_eq, one_ne_zero, not_false_eq_true, decide_true, if_true] at h2 h3
  dsimp only
  refine ⟨fun hw => by rw [h1]; exact boxStart_inside hw, fun c1 c2 => ⟨by rw [h1]; exact boxStart_kept c1 c2, ?_, ?_⟩⟩
  · rw [h2]; exact max_eq_right (by linarith)
  · rw [h3]; exact max_eq_right (by linarith)

def exBoxQp : OcpQp ℚ := { exIpQp with d := fun _ j => if j = 0 then 1 else -21 / 20 }
def exBoxArg : IpmArg ℚ := { exIpArg with i := fun f => match f with | .t0_init => 2 | _ => 0 }

/-- a narrow box: the starting value may be outside, and the slack of the violated bound does not show it
(cold start, 1 ≤ x ≤ 21/20: the variable starts at 11/10 with upper slack 21/20) -/
theorem initVar_box_escapes (sol : Sol ℚ) : exBoxQp.WF ∧ exBoxQp.dim.nb 0 = 1 ∧ exBoxQp.idxb 0 0 = 0 ∧
    exBoxQp.d 0 0 = 1 ∧ -exBoxQp.d 0 1 = 21 / 20 ∧ exBoxQp.d_mask 0 0 = 1 ∧ exBoxQp.d_mask 0 1 = 1 ∧
    (initVar (fun x => x) exBoxQp exBoxArg sol).ux 0 0 = 11 / 10 ∧ (initVar (fun x => x) exBoxQp exBoxArg sol).t 0 1 = 21 / 20 := by
  have hwf : exBoxQp.WF := by
    refine ⟨fun k j hk hj => ?_, fun k j _ _ => Or.inl rfl⟩
    have hk : k ≤ 1 := hk
    interval_cases k
    · show (0 : ℕ) < _; decide
    · exact absurd hj (by show ¬ j < 0; omega)
  have h := initVar_box (fun x => x) exBoxQp hwf exBoxArg sol (show (0 : ℤ) < 2 by norm_num) (le_refl _) rfl rfl
    (fun k i j hk hi hj _ => by
      have hk : k ≤ 1 := hk
      interval_cases k
      · have hi : i < 1 := hi
        have hj : j < 1 := hj
        omega
      · exact absurd hj (by show ¬ j < 0; omega)) 0 0 (Nat.zero_le _) (by decide)
  obtain ⟨h1, -, h3⟩ := h
  refine ⟨hwf, rfl, rfl, rfl, by decide +kernel, rfl, rfl, h1.trans ?_, h3.trans ?_⟩
  · show boxStart (some (1 : ℚ)) (some (-(-21 / 20))) 0 = 11 / 10
    decide +kernel
  · show slackStart true (-(-21 / 20) - 0 : ℚ) = 21 / 20
    decide +kernel

/-- a case of `initVar_box_inside`: 1 ≤ x ≤ 2, cold start, the variable starts at 11/10 -/
example : boxStart (some (1 : ℚ)) (some 2) 0 = 11 / 10 ∧ slackStart true (0 - 1 : ℚ) = 1 / 10 ∧ slackStart true (2 - 0 : ℚ) = 2 := by
  decide +kernel

end
end Hpipm
