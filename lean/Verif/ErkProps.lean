/-
C64 - C66: the explicit Runge-Kutta integrator.
-/
import Verif.Erk
import Verif.ErkSpec
import Mathlib.Tactic.LinearCombination
import Mathlib.Tactic.FieldSimp
import Mathlib.Tactic.Ring
import Mathlib.Tactic.NormNum

namespace Hpipm
open Finset
set_option linter.unusedSectionVars false

section
variable {K : Type*} [Field K] [LinearOrder K] [IsStrictOrderedRing K] [FloorRing K]

/-- stage derivatives of an explicit method, by recursion on the stage; `F s` is the right-hand side at the time of stage `s`, `a` the
coefficients times the step length -/
def rkK (F : ℕ → Vec K → Vec K) (a : ℕ → ℕ → K) (x : Vec K) (s : ℕ) : Vec K :=
  F s (fun j => x j + ∑ l ∈ (range s).attach, a s l.1 * rkK F a x l.1 j)
termination_by s
decreasing_by exact mem_range.mp l.2

theorem rkK_eq (F : ℕ → Vec K → Vec K) (a : ℕ → ℕ → K) (x : Vec K) (s : ℕ) :
    rkK F a x s = F s (fun j => x j + ∑ l ∈ range s, a s l * rkK F a x l j) := by
  rw [rkK]
  congr 1
  funext j
  rw [sum_attach (range s) (fun l => a s l * rkK F a x l j)]

/-- the state after a step -/
def rkNext (F : ℕ → Vec K → Vec K) (a : ℕ → ℕ → K) (b : ℕ → K) (ns : ℕ) (x : Vec K) (j : ℕ) : K :=
  x j + ∑ s ∈ range ns, b s * rkK F a x s j

/-- the right-hand side called by the integrator: forward VDE if there are sensitivities -/
def ErkWs.rhs (w : ErkWs K) (t : K) (x : Vec K) : Vec K := if w.nf > 0 then w.vde (cTrunc t) x w.p else w.ode (cTrunc t) x w.p

/-- number of entries of state and sensitivities -/
def ErkWs.nX (w : ErkWs K) : ℕ := w.nx * (1 + w.nf)

/-- the tableau in the object -/
def RkData.tab (d : RkData K) : Tableau K := ⟨d.ns, fun i j => d.A (i + d.ns * j), d.B, d.C⟩

theorem erk_copy (n : ℕ) (w : ErkWs K) : loop n (fun ii (w : ErkWs K) => { w with x_tmp := upd w.x_tmp ii (w.x_for ii) }) w =
    { w with x_tmp := fun i => if i < n then w.x_for i else w.x_tmp i } := by
  induction n with
  | zero => simp
  | succ n ih =>
    rw [loop_succ, ih]
    congr 1
    funext i
    by_cases h : i = n
    · subst h; simp
    · simp only [upd_ne _ _ h]
      by_cases h2 : i < n
      · rw [if_pos h2, if_pos (by omega)]
      · rw [if_neg h2, if_neg (by omega)]

theorem erk_axpy (n o : ℕ) (a : K) (w : ErkWs K) :
    loop n (fun jj (w : ErkWs K) => { w with x_tmp := upd w.x_tmp jj (w.x_tmp jj + a * w.k (jj + o)) }) w =
    { w with x_tmp := fun i => if i < n then w.x_tmp i + a * w.k (i + o) else w.x_tmp i } := by
  induction n with
  | zero => simp
  | succ n ih =>
    rw [loop_succ, ih]
    congr 1
    funext i
    by_cases h : i = n
    · subst h; simp
    · simp only [upd_ne _ _ h]
      by_cases h2 : i < n
      · rw [if_pos h2, if_pos (by omega)]
      · rw [if_neg h2, if_neg (by omega)]

theorem erk_comb (m n ss : ℕ) (w : ErkWs K) :
    loop m (fun ii (w : ErkWs K) =>
      let a := w.rk.A (ss + w.rk.ns * ii)
      if a ≠ 0 then
        let a := a * w.h
        loop n (fun jj (w : ErkWs K) => { w with x_tmp := upd w.x_tmp jj (w.x_tmp jj + a * w.k (jj + ii * n)) }) w
      else w) w =
    { w with x_tmp := fun i => if i < n then w.x_tmp i + ∑ l ∈ range m, w.rk.A (ss + w.rk.ns * l) * w.h * w.k (i + l * n) else w.x_tmp i } := by
  induction m with
  | zero => simp
  | succ m ih =>
    rw [loop_succ, ih]
    dsimp only
    by_cases ha : w.rk.A (ss + w.rk.ns * m) = 0
    · rw [if_neg (not_not.mpr ha)]
      congr 1
      funext i
      rw [sum_range_succ, ha, zero_mul, zero_mul, add_zero]
    · rw [if_pos ha, erk_axpy]
      congr 1
      funext i
      dsimp only
      by_cases h : i < n
      · rw [if_pos h, if_pos h, if_pos h, sum_range_succ, add_assoc]
      · rw [if_neg h, if_neg h, if_neg h]

theorem erkStage_eq (t : K) (ss : ℕ) (w : ErkWs K) :
    ∃ xt, (∀ i, i < w.nX → xt i = w.x_for i + ∑ l ∈ range ss, w.rk.A (ss + w.rk.ns * l) * w.h * w.k (i + l * w.nX)) ∧
    erkStage t ss w = { w with
      x_tmp := xt
      k := fun i => if ss * w.nX ≤ i ∧ i < ss * w.nX + w.nX then w.rhs (t + w.h * w.rk.C ss) xt (i - ss * w.nX) else w.k i } := by
  unfold erkStage
  dsimp only
  rw [erk_copy]
  have hc := erk_comb ss (w.nx * (1 + w.nf)) ss { w with x_tmp := fun i => if i < w.nx * (1 + w.nf) then w.x_for i else w.x_tmp i }
  dsimp only at hc
  rw [hc]
  refine ⟨_, fun i hi => ?_, rfl⟩
  have hi' : i < w.nx * (1 + w.nf) := hi
  dsimp only
  rw [if_pos hi', if_pos hi']
  rfl

/-- everything the integrator leaves alone -/
structure ErkKeep (w w' : ErkWs K) : Prop where
  rk : w'.rk = w.rk
  h : w'.h = w.h
  steps : w'.steps = w.steps
  ode : w'.ode = w.ode
  vde : w'.vde = w.vde
  p : w'.p = w.p
  nx : w'.nx = w.nx
  nf : w'.nf = w.nf
  np : w'.np = w.np
  l : w'.l = w.l
  na : w'.na = w.na
  nf_max : w'.nf_max = w.nf_max
  na_max : w'.na_max = w.na_max

theorem ErkKeep.refl (w : ErkWs K) : ErkKeep w w := ⟨rfl, rfl, rfl, rfl, rfl, rfl, rfl, rfl, rfl, rfl, rfl, rfl, rfl⟩
theorem ErkKeep.trans {w w' w'' : ErkWs K} (a : ErkKeep w w') (b : ErkKeep w' w'') : ErkKeep w w'' :=
  ⟨b.rk.trans a.rk, b.h.trans a.h, b.steps.trans a.steps, b.ode.trans a.ode, b.vde.trans a.vde, b.p.trans a.p, b.nx.trans a.nx,
   b.nf.trans a.nf, b.np.trans a.np, b.l.trans a.l, b.na.trans a.na, b.nf_max.trans a.nf_max, b.na_max.trans a.na_max⟩

theorem ErkKeep.nX {w w' : ErkWs K} (a : ErkKeep w w') : w'.nX = w.nX := by unfold ErkWs.nX; rw [a.nx, a.nf]
theorem ErkKeep.rhs {w w' : ErkWs K} (a : ErkKeep w w') : w'.rhs = w.rhs := by unfold ErkWs.rhs; rw [a.nf, a.vde, a.ode, a.p]

/-- coefficients times the step length -/
def ErkWs.a (w : ErkWs K) (i j : ℕ) : K := w.rk.A (i + w.rk.ns * j) * w.h
/-- right-hand side of stage `s` of a step from time `t` -/
def ErkWs.F (w : ErkWs K) (t : K) (s : ℕ) (x : Vec K) : Vec K := w.rhs (t + w.h * w.rk.C s) x

/-- the user's right-hand side reads and writes the entries of states and sensitivities -/
def ErkWs.LocalRhs (w : ErkWs K) : Prop := ∀ t x y, (∀ i, i < w.nX → x i = y i) → ∀ i, i < w.nX → w.rhs t x i = w.rhs t y i

theorem erk_stages (t : K) (w : ErkWs K) (hl : w.LocalRhs) (m : ℕ) :
    let w' := loop m (fun ss w => erkStage t ss w) w
    ErkKeep w w' ∧ w'.x_for = w.x_for ∧ ∀ s i, s < m → i < w.nX → w'.k (i + s * w.nX) = rkK (w.F t) w.a w.x_for s i := by
  induction m with
  | zero => exact ⟨ErkKeep.refl w, rfl, fun s i hs => by omega⟩
  | succ m ih =>
    dsimp only at ih ⊢
    rw [loop_succ]
    set v := loop m (fun ss w => erkStage t ss w) w with hv
    obtain ⟨hk, hx, hs⟩ := ih
    obtain ⟨xt, h1, h2⟩ := erkStage_eq t m v
    rw [h2]
    refine ⟨hk.trans ⟨rfl, rfl, rfl, rfl, rfl, rfl, rfl, rfl, rfl, rfl, rfl, rfl, rfl⟩, hx, fun s i hsm hi => ?_⟩
    dsimp only
    rw [hk.nX]
    by_cases h : s = m
    · subst h
      rw [if_pos ⟨by omega, by omega⟩, show i + s * w.nX - s * w.nX = i by omega, hk.rhs, hk.h, hk.rk, rkK_eq]
      refine hl _ _ _ (fun j hj => ?_) i hi
      rw [h1 j (by rw [hk.nX]; exact hj), hx, hk.nX, hk.rk, hk.h]
      congr 1
      refine sum_congr rfl (fun l hl' => ?_)
      rw [hs l j (mem_range.mp hl') hj]
      rfl
    · have hlt : s < m := by omega
      have : (s + 1) * w.nX ≤ m * w.nX := Nat.mul_le_mul_right _ hlt
      rw [Nat.add_mul, one_mul] at this
      rw [if_neg (by omega)]
      exact hs s i hlt hi

theorem erk_upd (n o : ℕ) (b : K) (w : ErkWs K) :
    loop n (fun ii (w : ErkWs K) => { w with x_for := upd w.x_for ii (w.x_for ii + b * w.k (ii + o)) }) w =
    { w with x_for := fun i => if i < n then w.x_for i + b * w.k (i + o) else w.x_for i } := by
  induction n with
  | zero => simp
  | succ n ih =>
    rw [loop_succ, ih]
    congr 1
    funext i
    by_cases h : i = n
    · subst h; simp
    · simp only [upd_ne _ _ h]
      by_cases h2 : i < n
      · rw [if_pos h2, if_pos (by omega)]
      · rw [if_neg h2, if_neg (by omega)]

theorem erk_sum (m n : ℕ) (w : ErkWs K) :
    loop m (fun ss (w : ErkWs K) =>
      let b := w.h * w.rk.B ss
      loop n (fun ii (w : ErkWs K) => { w with x_for := upd w.x_for ii (w.x_for ii + b * w.k (ii + ss * n)) }) w) w =
    { w with x_for := fun i => if i < n then w.x_for i + ∑ s ∈ range m, w.h * w.rk.B s * w.k (i + s * n) else w.x_for i } := by
  induction m with
  | zero => simp
  | succ m ih =>
    rw [loop_succ, ih]
    dsimp only
    rw [erk_upd]
    congr 1
    funext i
    dsimp only
    by_cases h : i < n
    · rw [if_pos h, if_pos h, if_pos h, sum_range_succ, add_assoc]
    · rw [if_neg h, if_neg h, if_neg h]

theorem erkStep_val (t : K) (w : ErkWs K) (hl : w.LocalRhs) :
    ErkKeep w (erkStep t w) ∧ (∀ i, i < w.nX → (erkStep t w).x_for i = rkNext (w.F t) w.a (fun s => w.h * w.rk.B s) w.rk.ns w.x_for i) ∧
    ∀ i, w.nX ≤ i → (erkStep t w).x_for i = w.x_for i := by
  obtain ⟨hk, hx, hs⟩ := erk_stages t w hl w.rk.ns
  unfold erkStep
  dsimp only
  set v := loop w.rk.ns (fun ss w => erkStage t ss w) w with hv
  have hn : w.nx * (1 + w.nf) = w.nX := rfl
  rw [hn]
  have := erk_sum v.rk.ns w.nX v
  dsimp only at this
  rw [this]
  refine ⟨hk.trans ⟨rfl, rfl, rfl, rfl, rfl, rfl, rfl, rfl, rfl, rfl, rfl, rfl, rfl⟩, fun i hi => ?_, fun i hi => ?_⟩
  · dsimp only
    rw [if_pos hi, hx, hk.rk, hk.h, rkNext]
    congr 1
    exact sum_congr rfl (fun s hs' => by rw [hs s i (mem_range.mp hs') hi])
  · dsimp only
    rw [if_neg (by omega), hx]

/-- the trajectory: state and sensitivities after `j` steps -/
def erkSeq (w : ErkWs K) (j : ℕ) : ErkWs K × K := loop j (fun _ (p : ErkWs K × K) => (erkStep p.2 p.1, p.2 + p.1.h)) (w, 0)

theorem erkSeq_keep (w : ErkWs K) (hl : w.LocalRhs) (j : ℕ) :
    ErkKeep w (erkSeq w j).1 ∧ (erkSeq w j).2 = (j : K) * w.h ∧ (erkSeq w j).1.LocalRhs := by
  induction j with
  | zero => exact ⟨ErkKeep.refl w, by simp [erkSeq], hl⟩
  | succ j ih =>
    obtain ⟨h1, h2, h3⟩ := ih
    have e : erkSeq w (j + 1) = (erkStep (erkSeq w j).2 (erkSeq w j).1, (erkSeq w j).2 + (erkSeq w j).1.h) := rfl
    have hk := (erkStep_val (erkSeq w j).2 (erkSeq w j).1 h3).1
    rw [e]
    refine ⟨h1.trans hk, ?_, ?_⟩
    · dsimp only
      rw [h2, h1.h]; push_cast; ring
    · have hk2 := h1.trans hk
      intro t x y hxy i hi
      dsimp only at hxy hi ⊢
      rw [hk2.rhs]
      rw [hk2.nX] at hxy hi
      exact hl t x y hxy i hi

/-- a step of the integrator is a step of the Runge-Kutta method of the strictly lower part of the tableau, for the right-hand side with
truncated time -/
theorem erkStep_lower (t : K) (w : ErkWs K) (hl : w.LocalRhs) : RkStep w.rk.tab.lower w.nX w.rhs w.h t w.x_for (erkStep t w).x_for := by
  refine ⟨rkK (w.F t) w.a w.x_for, fun i hi a ha => ?_, fun a ha => ?_⟩
  · rw [rkK_eq]
    show w.rhs (t + w.h * w.rk.C i) _ a = w.rhs (t + w.rk.C i * w.h) _ a
    rw [mul_comm w.h]
    refine hl _ _ _ (fun e _ => ?_) a ha
    congr 1
    have hns : w.rk.tab.lower.s = w.rk.ns := rfl
    rw [hns] at hi ⊢
    rw [mul_sum, ← sum_subset (range_subset_range.mpr (le_of_lt hi))]
    · refine sum_congr rfl (fun l hl' => ?_)
      have : w.rk.tab.lower.A i l = w.rk.A (i + w.rk.ns * l) := if_pos (mem_range.mp hl')
      rw [this]
      show w.rk.A (i + w.rk.ns * l) * w.h * _ = w.h * (w.rk.A (i + w.rk.ns * l) * _)
      ring
    · intro l hl1 hl2
      have : w.rk.tab.lower.A i l = 0 := if_neg (by have := mem_range.not.mp hl2; omega)
      rw [this, zero_mul, mul_zero]
  · rw [(erkStep_val t w hl).2.1 a ha, rkNext]
    congr 1
    rw [mul_sum]
    refine sum_congr rfl (fun s _ => ?_)
    show w.h * w.rk.B s * _ = w.h * (w.rk.B s * _)
    ring

/-- for an explicit tableau nothing is dropped -/
theorem rkStep_lower (T : Tableau K) (he : T.Explicit) (n : ℕ) (f : K → Vec K → Vec K) (h t : K) (x x' : Vec K) :
    RkStep T.lower n f h t x x' ↔ RkStep T n f h t x x' := by
  unfold RkStep
  refine exists_congr (fun k => and_congr ?_ Iff.rfl)
  refine forall_congr' (fun i => forall_congr' (fun hi => forall_congr' (fun a => forall_congr' (fun _ => ?_))))
  have : ∀ e, ∑ j ∈ range T.lower.s, T.lower.A i j * k j e = ∑ j ∈ range T.s, T.A i j * k j e := by
    refine fun e => sum_congr rfl (fun j hj => ?_)
    congr 1
    by_cases hji : j < i
    · exact if_pos hji
    · rw [he i j hi (by omega) (mem_range.mp hj)]
      exact if_neg hji
  simp only [this]
  exact Iff.rfl

/-- **C64**, for every tableau, explicit or not: the integrator performs `steps` steps of the method given by the strictly lower part of the
tableau; entries on and above the diagonal are ignored without notice (finding 40) -/
theorem erk_solve_lower (w : ErkWs K) (hna : w.na = 0) (hl : w.LocalRhs) :
    ∃ w', erkSolve w = .ok w' ∧ ErkKeep w w' ∧ RkRun w.rk.tab.lower w.nX w.rhs w.h 0 w.steps w.x_for w'.x_for := by
  refine ⟨(erkSeq w w.steps).1, ?_, (erkSeq_keep w hl w.steps).1, fun j => (erkSeq w j).1.x_for, fun _ _ => rfl, fun _ _ => rfl,
    fun j hj => ?_⟩
  · unfold erkSolve
    rw [if_neg (by omega)]
    rfl
  · obtain ⟨h1, h2, h3⟩ := erkSeq_keep w hl j
    have h := erkStep_lower (erkSeq w j).2 (erkSeq w j).1 h3
    rw [h1.rk, h1.nX, h1.rhs, h1.h] at h
    rw [zero_add]
    have e : (erkSeq w (j + 1)).1 = erkStep (erkSeq w j).2 (erkSeq w j).1 := rfl
    dsimp only
    rw [e, ← h2]
    exact h

/-- **C64.**  The integrator performs `steps` steps of the Runge-Kutta method given by the tableau, starting at time zero, on state and
sensitivities together, for the right-hand side the user supplied, evaluated at times truncated to integers.  Scratch contents have no
influence, settings are kept. -/
theorem erk_solve_run (w : ErkWs K) (hna : w.na = 0) (hl : w.LocalRhs) (he : w.rk.tab.Explicit) :
    ∃ w', erkSolve w = .ok w' ∧ ErkKeep w w' ∧ RkRun w.rk.tab w.nX w.rhs w.h 0 w.steps w.x_for w'.x_for := by
  obtain ⟨w', h1, h2, y, y0, y1, y2⟩ := erk_solve_lower w hna hl
  exact ⟨w', h1, h2, y, y0, y1, fun j hj => (rkStep_lower _ he _ _ _ _ _ _).mp (y2 j hj)⟩

/-- **C64**, for a right-hand side that does not depend on time: the result is that of the method for the user's function -/
theorem erk_solve_autonomous (w : ErkWs K) (hna : w.na = 0) (hnf : w.nf = 0) (g : Vec K → Vec K → Vec K)
    (ho : ∀ t x p, w.ode t x p = g x p) (hg : ∀ x y p, (∀ i, i < w.nx → x i = y i) → ∀ i, i < w.nx → g x p i = g y p i)
    (he : w.rk.tab.Explicit) : ∃ w', erkSolve w = .ok w' ∧ RkRun w.rk.tab w.nx (fun _ x => g x w.p) w.h 0 w.steps w.x_for w'.x_for := by
  have hX : w.nX = w.nx := by unfold ErkWs.nX; rw [hnf]; omega
  have hr : w.rhs = fun _ x => g x w.p := by
    funext t x
    unfold ErkWs.rhs
    rw [if_neg (by omega), ho]
  obtain ⟨w', h1, -, h3⟩ := erk_solve_run w hna (by intro t x y hxy i hi; rw [hr]; rw [hX] at hxy hi; exact hg x y w.p hxy i hi) he
  rw [hX, hr] at h3
  exact ⟨w', h1, h3⟩

/-- the run of an explicit method is determined by the starting point -/
theorem rkStep_unique (T : Tableau K) (he : T.Explicit) (n : ℕ) (f : K → Vec K → Vec K) (hf : Local n f) (h t : K) (x y x' y' : Vec K)
    (hxy : ∀ i, i < n → x i = y i) (h1 : RkStep T n f h t x x') (h2 : RkStep T n f h t y y') : ∀ i, i < n → x' i = y' i := by
  obtain ⟨k, a1, b1⟩ := h1
  obtain ⟨k', a2, b2⟩ := h2
  have key : ∀ s, s < T.s → ∀ i, i < n → k s i = k' s i := by
    intro s
    induction s using Nat.strong_induction_on with
    | _ s ih =>
      intro hs i hi
      rw [a1 s hs i hi, a2 s hs i hi]
      refine hf _ _ _ (fun e hee => ?_) i hi
      rw [hxy e hee]
      congr 2
      refine sum_congr rfl (fun j hj => ?_)
      have hj := mem_range.mp hj
      by_cases hjs : j < s
      · rw [ih j hjs hj e hee]
      · rw [he s j hs (by omega) hj, zero_mul, zero_mul]
  intro i hi
  rw [b1 i hi, b2 i hi, hxy i hi]
  congr 2
  exact sum_congr rfl (fun s hs => by rw [key s (mem_range.mp hs) i hi])

theorem rkRun_unique (T : Tableau K) (he : T.Explicit) (n : ℕ) (f : K → Vec K → Vec K) (hf : Local n f) (h t : K) (m : ℕ) (x x' y' : Vec K)
    (h1 : RkRun T n f h t m x x') (h2 : RkRun T n f h t m x y') : ∀ i, i < n → x' i = y' i := by
  obtain ⟨y, a1, b1, c1⟩ := h1
  obtain ⟨z, a2, b2, c2⟩ := h2
  have key : ∀ j, j ≤ m → ∀ i, i < n → y j i = z j i := by
    intro j
    induction j with
    | zero => exact fun _ i hi => (a1 i hi).trans (a2 i hi).symm
    | succ j ih => exact fun hj => rkStep_unique T he n f hf h _ _ _ _ _ (ih (by omega)) (c1 j (by omega)) (c2 j (by omega))
  exact fun i hi => (b1 i hi).symm.trans ((key m (le_refl m) i hi).trans (b2 i hi))

end
end Hpipm
