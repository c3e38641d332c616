/-
C29, C30: termination, iteration count and exit status of the solver loop, for any body and any (possibly NaN)
observations.
-/
import Verif.IpmCtl
import Mathlib.Tactic.Linarith
import Mathlib.Data.Rat.Defs
import Mathlib.Algebra.Order.Ring.Rat

namespace Hpipm

section
variable {K : Type*} [LinearOrder K] {S : Type*}

/-- A run of `n` passes: state `f i` before pass `i`, each pass entered because the guard held and the iteration limit
was not reached. -/
def Run (cont : S → Bool) (body : ℕ → S → Option S) (iter_max : ℤ) (n : ℕ) (f : ℕ → S) : Prop :=
  ∀ i, i < n → (i : ℤ) < iter_max ∧ cont (f i) = true ∧ body i (f i) = some (f (i + 1))

theorem ipmLoop_run_aux (cont : S → Bool) (body : ℕ → S → Option S) (iter_max : ℤ) (fuel : ℕ) :
    ∀ (k0 : ℕ) (s0 : S) (r : ℕ × S), ipmLoop cont body iter_max fuel k0 s0 = some r →
    k0 ≤ r.1 ∧ ∃ f : ℕ → S, f k0 = s0 ∧ f r.1 = r.2 ∧
      (∀ i, k0 ≤ i → i < r.1 → (i : ℤ) < iter_max ∧ cont (f i) = true ∧ body i (f i) = some (f (i + 1))) ∧
      ¬ ((r.1 : ℤ) < iter_max ∧ cont r.2 = true) := by
  induction fuel with
  | zero =>
    intro k0 s0 r h
    unfold ipmLoop at h
    split at h
    · cases h
    · rename_i hc
      cases h
      refine ⟨le_refl _, fun _ => s0, rfl, rfl, fun i hi hi' => by omega, ?_⟩
      simpa using hc
  | succ fuel ih =>
    intro k0 s0 r h
    unfold ipmLoop at h
    split at h
    · rename_i hc
      obtain ⟨s1, hb, h⟩ := Option.bind_eq_some_iff.mp h
      obtain ⟨hk, f, h0, hr, hrun, hstop⟩ := ih (k0 + 1) s1 r h
      refine ⟨by omega, fun i => if i = k0 then s0 else f i, if_pos rfl, ?_, ?_, hstop⟩
      · show (if r.1 = k0 then s0 else f r.1) = r.2
        rw [if_neg (by omega)]; exact hr
      · intro i hi hi'
        beta_reduce
        by_cases e : i = k0
        · subst e
          rw [if_pos rfl, if_neg (by omega), h0]
          simp only [Bool.and_eq_true, decide_eq_true_eq] at hc
          exact ⟨hc.1, hc.2, hb⟩
        · rw [if_neg e, if_neg (by omega)]
          exact hrun i (by omega) hi'
    · rename_i hc
      cases h
      refine ⟨le_refl _, fun _ => s0, rfl, rfl, fun i hi hi' => by omega, ?_⟩
      simpa using hc

/-- **C29** the loop executes exactly the reported number of passes, each entered because the guard held, and stops
because the limit was reached or the guard failed. -/
theorem ipmLoop_run (cont : S → Bool) (body : ℕ → S → Option S) (iter_max : ℤ) (fuel : ℕ) (s0 : S) (r : ℕ × S)
    (h : ipmLoop cont body iter_max fuel 0 s0 = some r) :
    (∃ f : ℕ → S, f 0 = s0 ∧ f r.1 = r.2 ∧ Run cont body iter_max r.1 f) ∧
    ((r.1 : ℤ) ≥ iter_max ∨ cont r.2 = false) := by
  obtain ⟨_, f, h0, hr, hrun, hstop⟩ := ipmLoop_run_aux cont body iter_max fuel 0 s0 r h
  refine ⟨⟨f, h0, hr, fun i hi => hrun i (by omega) hi⟩, ?_⟩
  by_contra hn
  push Not at hn
  exact hstop ⟨hn.1, by simpa using hn.2⟩

/-- **C29** never more passes than `iter_max` (none if it is negative). -/
theorem ipmLoop_iter_le (cont : S → Bool) (body : ℕ → S → Option S) (iter_max : ℤ) (fuel : ℕ) (s0 : S) (r : ℕ × S)
    (h : ipmLoop cont body iter_max fuel 0 s0 = some r) : (r.1 : ℤ) ≤ max iter_max 0 := by
  obtain ⟨⟨f, _, _, hrun⟩, _⟩ := ipmLoop_run cont body iter_max fuel s0 r h
  rcases Nat.eq_zero_or_pos r.1 with h0 | hp
  · rw [h0]; exact le_max_right _ _
  · have := (hrun (r.1 - 1) (by omega)).1
    have : ((r.1 - 1 : ℕ) : ℤ) = (r.1 : ℤ) - 1 := by omega
    exact le_trans (by omega) (le_max_left _ _)

/-- **C29** with `iter_max` passes of fuel the loop ends, as long as each pass it enters returns. -/
theorem ipmLoop_terminates (cont : S → Bool) (body : ℕ → S → Option S) (iter_max : ℤ) (I : S → Prop)
    (hb : ∀ (kk : ℕ) s, I s → (kk : ℤ) < iter_max → cont s = true → ∃ s', body kk s = some s' ∧ I s') (fuel : ℕ) :
    ∀ (k0 : ℕ) (s0 : S), I s0 → iter_max ≤ (k0 : ℤ) + fuel →
    ∃ r, ipmLoop cont body iter_max fuel k0 s0 = some r ∧ I r.2 := by
  induction fuel with
  | zero =>
    intro k0 s0 hI hf
    unfold ipmLoop
    rw [if_neg (by simp; intro h; omega)]
    exact ⟨_, rfl, hI⟩
  | succ fuel ih =>
    intro k0 s0 hI hf
    unfold ipmLoop
    split
    · rename_i hc
      simp only [Bool.and_eq_true, decide_eq_true_eq] at hc
      obtain ⟨s', e, hI'⟩ := hb k0 s0 hI hc.1 hc.2
      obtain ⟨r, hr, hIr⟩ := ih (k0 + 1) s' hI' (by push_cast at hf ⊢; omega)
      exact ⟨r, by rw [e]; exact hr, hIr⟩
    · exact ⟨_, rfl, hI⟩

/-- an invariant of the passes holds at the end -/
theorem ipmLoop_inv (cont : S → Bool) (body : ℕ → S → Option S) (iter_max : ℤ) (I : S → Prop)
    (hb : ∀ kk s s', I s → body kk s = some s' → I s') (fuel : ℕ) (s0 : S) (r : ℕ × S) (h0 : I s0)
    (h : ipmLoop cont body iter_max fuel 0 s0 = some r) : I r.2 := by
  obtain ⟨⟨f, e0, er, hrun⟩, _⟩ := ipmLoop_run cont body iter_max fuel s0 r h
  have : ∀ i, i ≤ r.1 → I (f i) := by
    intro i
    induction i with
    | zero => intro _; rw [e0]; exact h0
    | succ i ih => intro hi; exact hb i _ _ (ih (by omega)) (hrun i (by omega)).2.2
  rw [← er]; exact this r.1 (le_refl _)

/-- an invariant that starts to hold with the first pass -/
theorem ipmLoop_inv_pos (cont : S → Bool) (body : ℕ → S → Option S) (iter_max : ℤ) (I J : S → Prop)
    (hb : ∀ kk s s', I s → body kk s = some s' → I s' ∧ J s') (fuel : ℕ) (s0 : S) (r : ℕ × S) (h0 : I s0)
    (h : ipmLoop cont body iter_max fuel 0 s0 = some r) (hr : 0 < r.1) : J r.2 := by
  obtain ⟨⟨f, e0, er, hrun⟩, _⟩ := ipmLoop_run cont body iter_max fuel s0 r h
  have : ∀ i, i ≤ r.1 → I (f i) := by
    intro i
    induction i with
    | zero => intro _; rw [e0]; exact h0
    | succ i ih => intro hi; exact (hb i _ _ (ih (by omega)) (hrun i (by omega)).2.2).1
  have := (hb (r.1 - 1) _ _ (this (r.1 - 1) (by omega)) (hrun (r.1 - 1) (by omega)).2.2).2
  rwa [show r.1 - 1 + 1 = r.1 by omega, er] at this

/-- all measures are at or below their tolerances; a NaN measure counts as not above -/
def NoneAbove (a : IpmArg K) (o : Obs K) : Prop :=
  (∀ x, o.rg = some x → x ≤ a.r .res_g_max) ∧ (∀ x, o.rb = some x → x ≤ a.r .res_b_max) ∧
  (∀ x, o.rd = some x → x ≤ a.r .res_d_max) ∧ (∀ x, o.rm = some x → x ≤ a.r .res_m_max) ∧
  (∀ x, o.gap = some x → x ≤ a.r .dual_gap_max)

theorem gt_false_iff (x : Fl K) (y : K) : x.gt y = false ↔ ∀ v, x = some v → v ≤ y := by
  cases x with
  | none => simp [Fl.gt]
  | some v => simp [Fl.gt]

/-- **C30** what each reported status means, for the relative formulation: the loop has ended with `kk` passes and
observations `o`.  Floating point values may be NaN.  `SUCCESS` needs a nonnegative iteration limit for its meaning. -/
theorem status_meaning (a : IpmArg K) (kk : ℕ) (o : Obs K)
    (hstop : (kk : ℤ) ≥ a.i .iter_max ∨ contRel a o = false) (hle : (kk : ℤ) ≤ max (a.i .iter_max) 0) :
    (statusOf a kk o = .MAX_ITER ↔ (kk : ℤ) = a.i .iter_max) ∧
    (statusOf a kk o = .MIN_STEP → ∃ x, (o.ap = some x ∨ o.ad = some x) ∧ x ≤ a.r .alpha_min) ∧
    (statusOf a kk o = .NAN_SOL → o.mu = none) ∧
    (statusOf a kk o = .SUCCESS → (∃ x, o.mu = some x) ∧ (0 ≤ a.i .iter_max →
      (kk : ℤ) < a.i .iter_max ∧ ((∃ x, o.ap = some x) → (∃ x, o.ad = some x) → NoneAbove a o))) ∧
    statusOf a kk o ≠ .INCONS_EQ := by
  unfold statusOf
  by_cases h1 : (kk : ℤ) = a.i .iter_max
  · simp [h1]
  rw [if_neg h1]
  by_cases h2 : (o.ap.le (a.r .alpha_min) || o.ad.le (a.r .alpha_min)) = true
  · rw [if_pos h2]
    refine ⟨by simp [h1], fun _ => ?_, by simp, by simp, by simp⟩
    simp only [Bool.or_eq_true] at h2
    rcases h2 with h | h
    · cases e : o.ap with
      | none => rw [e] at h; simp [Fl.le] at h
      | some x => rw [e] at h; exact ⟨x, Or.inl rfl, by simpa [Fl.le] using h⟩
    · cases e : o.ad with
      | none => rw [e] at h; simp [Fl.le] at h
      | some x => rw [e] at h; exact ⟨x, Or.inr rfl, by simpa [Fl.le] using h⟩
  rw [if_neg h2]
  by_cases h3 : o.mu = none
  · simp [h1, h3]
  rw [if_neg h3]
  refine ⟨by simp [h1], by simp, by simp, fun _ => ⟨Option.ne_none_iff_exists'.mp h3, fun hi => ?_⟩, by simp⟩
  have hlt : (kk : ℤ) < a.i .iter_max := lt_of_le_of_ne (by rw [max_eq_left hi] at hle; exact hle) h1
  refine ⟨hlt, fun hap had => ?_⟩
  have hc : contRel a o = false := by
    rcases hstop with h | h
    · omega
    · exact h
  obtain ⟨x, hx⟩ := hap
  obtain ⟨y, hy⟩ := had
  simp only [Bool.or_eq_true, not_or, hx, hy, Fl.le, decide_eq_true_eq, not_le] at h2
  unfold contRel at hc
  rw [hx, hy] at hc
  simp only [Fl.gt, gt_iff_lt, h2.1, h2.2, decide_true, Bool.true_and] at hc
  rw [Bool.or_eq_false_iff, Bool.or_eq_false_iff, Bool.or_eq_false_iff, Bool.or_eq_false_iff] at hc
  obtain ⟨⟨⟨⟨c1, c2⟩, c3⟩, c4⟩, c5⟩ := hc
  exact ⟨(gt_false_iff _ _).mp c1, (gt_false_iff _ _).mp c2, (gt_false_iff _ _).mp c3, (gt_false_iff _ _).mp c4,
    (gt_false_iff _ _).mp c5⟩

/-- **C30** conversely: with numbers everywhere, a stopped solve whose measures are all within tolerance, before the
iteration limit and with step lengths above the minimum, is reported as success; otherwise it is not (limit
nonnegative). -/
theorem status_success_iff (a : IpmArg K) (hi : 0 ≤ a.i .iter_max) (kk : ℕ) (ap ad rg rb rd rm gap mu : K)
    (hstop : (kk : ℤ) ≥ a.i .iter_max ∨ contRel a ⟨some ap, some ad, some rg, some rb, some rd, some rm, some gap, some mu⟩ = false)
    (hle : (kk : ℤ) ≤ max (a.i .iter_max) 0) :
    statusOf a kk ⟨some ap, some ad, some rg, some rb, some rd, some rm, some gap, some mu⟩ = .SUCCESS ↔
      (kk : ℤ) < a.i .iter_max ∧ a.r .alpha_min < ap ∧ a.r .alpha_min < ad ∧ rg ≤ a.r .res_g_max ∧
        rb ≤ a.r .res_b_max ∧ rd ≤ a.r .res_d_max ∧ rm ≤ a.r .res_m_max ∧ gap ≤ a.r .dual_gap_max := by
  constructor
  · intro h
    have hm := status_meaning a kk _ hstop hle
    obtain ⟨_, h2⟩ := hm.2.2.2.1 h
    obtain ⟨h3, h4⟩ := h2 hi
    obtain ⟨n1, n2, n3, n4, n5⟩ := h4 ⟨_, rfl⟩ ⟨_, rfl⟩
    have hal : a.r .alpha_min < ap ∧ a.r .alpha_min < ad := by
      unfold statusOf at h
      rw [if_neg (by omega)] at h
      by_contra hn
      have : (Fl.le (some ap) (a.r .alpha_min) || Fl.le (some ad) (a.r .alpha_min)) = true := by
        simp only [Fl.le, Bool.or_eq_true, decide_eq_true_eq]
        by_contra h'
        push Not at h'
        exact hn h'
      simp only [this, if_true] at h
      cases h
    exact ⟨h3, hal.1, hal.2, n1 _ rfl, n2 _ rfl, n3 _ rfl, n4 _ rfl, n5 _ rfl⟩
  · rintro ⟨h1, h2, h3, _⟩
    unfold statusOf
    rw [if_neg (by omega), if_neg (by simp [Fl.le, h2, h3]), if_neg (by simp)]

/-- **C30** (negation of the full claim) a negative iteration limit is reported as success whatever the residuals
are. -/
theorem status_negative_limit (a : IpmArg K) (hi : a.i .iter_max < 0) (ap ad : K) (hap : a.r .alpha_min < ap)
    (had : a.r .alpha_min < ad) (rg rb rd rm gap : Fl K) (mu : K) :
    statusOf a 0 ⟨some ap, some ad, rg, rb, rd, rm, gap, some mu⟩ = .SUCCESS := by
  unfold statusOf
  rw [if_neg (by push_cast; omega), if_neg (by simp [Fl.le, hap, had]), if_neg (by simp)]

/-- **C30** (quirk) a solve that converges in exactly `iter_max` passes is reported as `MAX_ITER`, even when all
measures are within tolerance. -/
theorem status_converged_at_limit (a : IpmArg K) (kk : ℕ) (h : (kk : ℤ) = a.i .iter_max) (o : Obs K) :
    statusOf a kk o = .MAX_ITER := by
  unfold statusOf; rw [if_pos h]

end

section Concrete

/-- a counter that decreases its residual from 10 by one per pass, tolerance 3 -/
def exCtlArg : IpmArg ℚ := ⟨fun f => if f = .alpha_min then 0 else 3, fun f => if f = .iter_max then 50 else 0⟩
def exCtlObs (s : ℚ) : Obs ℚ := ⟨some 1, some 1, some s, some 0, some 0, some 0, some 0, some 1⟩

/-- C29, C30 at work: seven passes, success -/
example : ipmLoop (fun s => contRel exCtlArg (exCtlObs s)) (fun _ s => some (s - 1)) 50 50 0 (10 : ℚ) = some (7, 3) ∧
    statusOf exCtlArg 7 (exCtlObs 3) = .SUCCESS := by decide +kernel

example : (exCtlArg.i .iter_max) = 50 ∧ contRel exCtlArg (exCtlObs 3) = false ∧
    NoneAbove exCtlArg (exCtlObs 3) := by
  refine ⟨by decide +kernel, by decide +kernel, ?_⟩
  have h := (status_meaning exCtlArg 7 (exCtlObs 3) (Or.inr (by decide +kernel)) (by decide +kernel)).2.2.2.1 (by decide +kernel)
  exact (h.2 (by decide +kernel)).2 ⟨_, rfl⟩ ⟨_, rfl⟩

/-- a NaN step length ends the loop; with a NaN `mu` the status is `NAN_SOL` -/
example : statusOf exCtlArg 3 ⟨none, none, none, none, none, none, none, none⟩ = .NAN_SOL ∧
    contRel exCtlArg ⟨none, some 1, some 10, none, none, none, none, none⟩ = false := by decide +kernel

end Concrete
end Hpipm
