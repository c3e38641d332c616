/-
C64, C66: default tableaux, setters and getters, memory of the explicit Runge-Kutta integrator.
-/
import Verif.ErkProps
import Verif.Mem

namespace Hpipm
open Finset
set_option linter.unusedSectionVars false

section
variable {K : Type*} [Field K] [LinearOrder K] [IsStrictOrderedRing K] [FloorRing K]

/-- the classical method with four stages -/
def classic4 : Tableau K where
  s := 4
  A := fun i j => if i = 1 ∧ j = 0 ∨ i = 2 ∧ j = 1 then 1 / 2 else if i = 3 ∧ j = 2 then 1 else 0
  b := fun i => if i = 0 ∨ i = 3 then 1 / 6 else 1 / 3
  c := fun i => if i = 0 then 0 else if i = 3 then 1 else 1 / 2

/-- the midpoint method -/
def midpoint : Tableau K where
  s := 2
  A := fun i j => if i = 1 ∧ j = 0 then 1 / 2 else 0
  b := fun i => if i = 0 then 0 else 1
  c := fun i => if i = 0 then 0 else 1 / 2

/-- two tableaux agree in the entries a method uses -/
def Tableau.Same (T U : Tableau K) : Prop :=
  T.s = U.s ∧ (∀ i j, i < T.s → j < T.s → T.A i j = U.A i j) ∧ (∀ i, i < T.s → T.b i = U.b i ∧ T.c i = U.c i)

/-- **C64.**  `SIM_RK_DATA_INIT_DEFAULT` with a name and the matching number of stages loads the classical or the midpoint method,
marked as explicit, and ends the process otherwise -/
theorem rk_init_default (field : String) (d : RkData K) :
    (field = "ERK4" ∧ d.ns = 4 → ∃ d', rkInitDefault field d = .ok d' ∧ d'.expl = 1 ∧ d'.tab.Same classic4) ∧
    (field = "ERK2" ∧ d.ns = 2 → ∃ d', rkInitDefault field d = .ok d' ∧ d'.expl = 1 ∧ d'.tab.Same midpoint) ∧
    (¬ (field = "ERK4" ∧ d.ns = 4 ∨ field = "ERK2" ∧ d.ns = 2) → rkInitDefault field d = .exit) := by
  refine ⟨?_, ?_, ?_⟩
  · rintro ⟨rfl, h4⟩
    refine ⟨_, (if_pos rfl).trans (if_pos h4), rfl, h4, fun i j hi hj => ?_, fun i hi => ?_⟩
    · have hi' : i < 4 := h4 ▸ hi
      have hj' : j < 4 := h4 ▸ hj
      show upd _ _ _ (i + d.ns * j) = _
      rw [h4]
      interval_cases i <;> interval_cases j <;> simp [upd, classic4]
    · have hi' : i < 4 := h4 ▸ hi
      interval_cases i <;> simp [upd, classic4, RkData.tab]
  · rintro ⟨rfl, h2⟩
    refine ⟨_, (if_neg (by decide)).trans ((if_pos rfl).trans (if_pos h2)), rfl, h2, fun i j hi hj => ?_, fun i hi => ?_⟩
    · have hi' : i < 2 := h2 ▸ hi
      have hj' : j < 2 := h2 ▸ hj
      show upd _ _ _ (i + d.ns * j) = _
      rw [h2]
      interval_cases i <;> interval_cases j <;> simp [upd, midpoint]
    · have hi' : i < 2 := h2 ▸ hi
      interval_cases i <;> simp [upd, midpoint, RkData.tab]
  · intro h
    unfold rkInitDefault
    split_ifs with a b c e
    · exact absurd (Or.inl ⟨a, b⟩) h
    · rfl
    · exact absurd (Or.inr ⟨c, e⟩) h
    · rfl
    · rfl

theorem classic4_explicit : (classic4 : Tableau K).Explicit := by
  intro i j hi hij hj
  have hi : i < 4 := hi
  have hj : j < 4 := hj
  interval_cases i <;> interval_cases j <;> simp_all [classic4]

theorem midpoint_explicit : (midpoint : Tableau K).Explicit := by
  intro i j hi hij hj
  have hi : i < 2 := hi
  have hj : j < 2 := hj
  interval_cases i <;> interval_cases j <;> simp_all [midpoint]

theorem classic4_rows : (classic4 : Tableau K).RowSum := by
  intro i hi
  have hi : i < 4 := hi
  interval_cases i <;> simp [classic4, sum_range_succ]

theorem midpoint_rows : (midpoint : Tableau K).RowSum := by
  intro i hi
  have hi : i < 2 := hi
  interval_cases i <;> simp [midpoint, sum_range_succ]

/-- the default four-stage method meets the order conditions up to order four -/
theorem classic4_order : (classic4 : Tableau K).Order4 := by
  constructor
  · constructor <;> simp [classic4, sum_range_succ] <;> norm_num
  all_goals simp [classic4, sum_range_succ] <;> norm_num

theorem midpoint_order : (midpoint : Tableau K).Order2 := by
  constructor <;> simp [midpoint, sum_range_succ]

/-- the midpoint method is not of order three -/
theorem midpoint_not_order3 : ∑ i ∈ range (midpoint : Tableau K).s, (midpoint : Tableau K).b i * (midpoint : Tableau K).c i ^ 2 ≠ 1 / 3 := by
  simp [midpoint, sum_range_succ]
  norm_num

theorem rkStep_same (T U : Tableau K) (h : T.Same U) (n : ℕ) (f : K → Vec K → Vec K) (hh t : K) (x x' : Vec K) :
    RkStep T n f hh t x x' ↔ RkStep U n f hh t x x' := by
  obtain ⟨h1, h2, h3⟩ := h
  unfold RkStep
  rw [← h1]
  refine exists_congr (fun k => and_congr ?_ ?_)
  · refine forall_congr' (fun i => forall_congr' (fun hi => forall_congr' (fun a => forall_congr' (fun _ => ?_))))
    rw [(h3 i hi).2]
    have : ∀ e, ∑ j ∈ range T.s, T.A i j * k j e = ∑ j ∈ range T.s, U.A i j * k j e :=
      fun e => sum_congr rfl (fun j hj => by rw [h2 i j hi (mem_range.mp hj)])
    simp only [this]
  · refine forall_congr' (fun a => forall_congr' (fun _ => ?_))
    have : ∑ i ∈ range T.s, T.b i * k i a = ∑ i ∈ range T.s, U.b i * k i a := sum_congr rfl (fun i hi => by rw [(h3 i (mem_range.mp hi)).1])
    rw [this]

/-- one step of the default four-stage method for `x' = M x` is the Taylor polynomial of the exponential of degree four -/
theorem classic4_linear (n : ℕ) (M : ℕ → ℕ → K) (h t : K) (x x' : Vec K) (hs : RkStep classic4 n (fun _ => linRhs n M) h t x x') (a : ℕ) (ha : a < n) :
    x' a = x a + h * linRhs n M x a + h ^ 2 / 2 * linRhs n M (linRhs n M x) a + h ^ 3 / 6 * linRhs n M (linRhs n M (linRhs n M x)) a +
      h ^ 4 / 24 * linRhs n M (linRhs n M (linRhs n M (linRhs n M x))) a := by
  obtain ⟨k, hk, hx⟩ := hs
  have hadd : ∀ (y z : Vec K) (c : K) i, linRhs n M (fun e => y e + c * z e) i = linRhs n M y i + c * linRhs n M z i := by
    intro y z c i
    unfold linRhs
    rw [mul_sum, ← sum_add_distrib]
    exact sum_congr rfl (fun j _ => by ring)
  have hcong : ∀ (y z : Vec K) i, (∀ j, j < n → y j = z j) → linRhs n M y i = linRhs n M z i :=
    fun y z i hyz => sum_congr rfl (fun j hj => by rw [hyz j (mem_range.mp hj)])
  have k0 : ∀ i, i < n → k 0 i = linRhs n M x i := by
    intro i hi
    rw [hk 0 (show 0 < 4 by decide) i hi]
    exact hcong _ _ _ (fun j _ => by simp [classic4, sum_range_succ])
  have k1 : ∀ i, i < n → k 1 i = linRhs n M x i + h / 2 * linRhs n M (linRhs n M x) i := by
    intro i hi
    rw [hk 1 (show 1 < 4 by decide) i hi, ← hadd]
    exact hcong _ _ _ (fun j hj => by simp [classic4, sum_range_succ, k0 j hj]; ring)
  have k2 : ∀ i, i < n → k 2 i = linRhs n M x i + h / 2 * (linRhs n M (linRhs n M x) i + h / 2 * linRhs n M (linRhs n M (linRhs n M x)) i) := by
    intro i hi
    rw [hk 2 (show 2 < 4 by decide) i hi, ← hadd, ← hadd]
    exact hcong _ _ _ (fun j hj => by simp [classic4, sum_range_succ, k1 j hj]; ring)
  have k3 : ∀ i, i < n → k 3 i = linRhs n M x i + h * (linRhs n M (linRhs n M x) i + h / 2 * (linRhs n M (linRhs n M (linRhs n M x)) i +
      h / 2 * linRhs n M (linRhs n M (linRhs n M (linRhs n M x))) i)) := by
    intro i hi
    rw [hk 3 (show 3 < 4 by decide) i hi, ← hadd, ← hadd, ← hadd]
    exact hcong _ _ _ (fun j hj => by simp [classic4, sum_range_succ, k2 j hj])
  rw [hx a ha]
  have : ∑ i ∈ range (classic4 : Tableau K).s, (classic4 : Tableau K).b i * k i a = 1 / 6 * k 0 a + 1 / 3 * k 1 a + 1 / 3 * k 2 a + 1 / 6 * k 3 a := by
    simp [classic4, sum_range_succ]
  rw [this, k0 a ha, k1 a ha, k2 a ha, k3 a ha]
  ring

theorem midpoint_linear (n : ℕ) (M : ℕ → ℕ → K) (h t : K) (x x' : Vec K) (hs : RkStep midpoint n (fun _ => linRhs n M) h t x x') (a : ℕ) (ha : a < n) :
    x' a = x a + h * linRhs n M x a + h ^ 2 / 2 * linRhs n M (linRhs n M x) a := by
  obtain ⟨k, hk, hx⟩ := hs
  have hadd : ∀ (y z : Vec K) (c : K) i, linRhs n M (fun e => y e + c * z e) i = linRhs n M y i + c * linRhs n M z i := by
    intro y z c i
    unfold linRhs
    rw [mul_sum, ← sum_add_distrib]
    exact sum_congr rfl (fun j _ => by ring)
  have hcong : ∀ (y z : Vec K) i, (∀ j, j < n → y j = z j) → linRhs n M y i = linRhs n M z i :=
    fun y z i hyz => sum_congr rfl (fun j hj => by rw [hyz j (mem_range.mp hj)])
  have k0 : ∀ i, i < n → k 0 i = linRhs n M x i := by
    intro i hi
    rw [hk 0 (show 0 < 2 by decide) i hi]
    exact hcong _ _ _ (fun j _ => by simp [midpoint, sum_range_succ])
  have k1 : ∀ i, i < n → k 1 i = linRhs n M x i + h / 2 * linRhs n M (linRhs n M x) i := by
    intro i hi
    rw [hk 1 (show 1 < 2 by decide) i hi, ← hadd]
    exact hcong _ _ _ (fun j hj => by simp [midpoint, sum_range_succ, k0 j hj]; ring)
  rw [hx a ha]
  have : ∑ i ∈ range (midpoint : Tableau K).s, (midpoint : Tableau K).b i * k i a = k 1 a := by
    simp [midpoint, sum_range_succ]
  rw [this, k1 a ha]
  ring

theorem rkA_loop (n m : ℕ) (A : Vec K) (d : RkData K) :
    loop n (fun ii (s : RkData K) => { s with A := upd s.A (ii + m) (A (ii + m)) }) d =
    { d with A := fun i => if m ≤ i ∧ i < m + n then A i else d.A i } := by
  induction n with
  | zero =>
    have : ∀ i, ¬ (m ≤ i ∧ i < m + 0) := fun i => by omega
    simp only [this, if_false]
    rfl
  | succ n ih =>
    rw [loop_succ, ih]
    congr 1
    funext i
    by_cases h : i = n + m
    · subst h; simp [Nat.add_comm]
    · simp only [upd_ne _ _ h]
      by_cases h2 : m ≤ i ∧ i < m + n
      · rw [if_pos h2, if_pos (by omega)]
      · rw [if_neg h2, if_neg (by omega)]

theorem rkAA_loop (n m : ℕ) (A : Vec K) (d : RkData K) :
    loop m (fun jj (s : RkData K) => loop n (fun ii (s : RkData K) => { s with A := upd s.A (ii + n * jj) (A (ii + n * jj)) }) s) d =
    { d with A := fun i => if i < n * m then A i else d.A i } := by
  induction m with
  | zero => simp
  | succ m ih =>
    rw [loop_succ, ih, rkA_loop]
    congr 1
    funext i
    dsimp only
    rw [Nat.mul_add, mul_one]
    by_cases h : i < n * m
    · rw [if_neg (by omega), if_pos h, if_pos (by omega)]
    · by_cases h2 : i < n * m + n
      · rw [if_pos (by omega), if_pos h2]
      · rw [if_neg (by omega), if_neg h, if_neg h2]

theorem rkB_loop (n : ℕ) (B : Vec K) (d : RkData K) :
    loop n (fun ii (s : RkData K) => { s with B := upd s.B ii (B ii) }) d = { d with B := fun i => if i < n then B i else d.B i } := by
  induction n with
  | zero => simp
  | succ n ih =>
    rw [loop_succ, ih]
    congr 1
    funext i
    by_cases h : i = n
    · subst h; simp
    · simp only [upd_ne _ _ h]
      by_cases h2 : i < n
      · rw [if_pos h2, if_pos (by omega)]
      · rw [if_neg h2, if_neg (by omega)]

theorem rkC_loop (n : ℕ) (C : Vec K) (d : RkData K) :
    loop n (fun ii (s : RkData K) => { s with C := upd s.C ii (C ii) }) d = { d with C := fun i => if i < n then C i else d.C i } := by
  induction n with
  | zero => simp
  | succ n ih =>
    rw [loop_succ, ih]
    congr 1
    funext i
    by_cases h : i = n
    · subst h; simp
    · simp only [upd_ne _ _ h]
      by_cases h2 : i < n
      · rw [if_pos h2, if_pos (by omega)]
      · rw [if_neg h2, if_neg (by omega)]

/-- **C64.**  A tableau handed over by columns is the tableau the integrator uses; entries of the arrays beyond it are kept -/
theorem rk_set_all (expl : ℕ) (A B C : Vec K) (d : RkData K) :
    (rkSetAll expl A B C d).tab.Same ⟨d.ns, fun i j => A (i + d.ns * j), B, C⟩ ∧ (rkSetAll expl A B C d).expl = expl ∧
    (∀ i, d.ns * d.ns ≤ i → (rkSetAll expl A B C d).A i = d.A i) ∧
    (∀ i, d.ns ≤ i → (rkSetAll expl A B C d).B i = d.B i ∧ (rkSetAll expl A B C d).C i = d.C i) := by
  unfold rkSetAll
  dsimp only
  rw [rkAA_loop, rkB_loop, rkC_loop]
  refine ⟨⟨rfl, fun i j hi hj => ?_, fun i hi => ⟨?_, ?_⟩⟩, rfl, fun i hi => ?_, fun i hi => ⟨?_, ?_⟩⟩
  · have hi : i < d.ns := hi
    have hj : j < d.ns := hj
    have : d.ns * (j + 1) ≤ d.ns * d.ns := Nat.mul_le_mul_left _ hj
    rw [Nat.mul_add, mul_one] at this
    show (if i + d.ns * j < d.ns * d.ns then _ else _) = _
    rw [if_pos (by omega)]
  · exact if_pos hi
  · exact if_pos hi
  · exact if_neg (by show ¬ i < d.ns * d.ns; omega)
  · exact if_neg (by show ¬ i < d.ns; omega)
  · exact if_neg (by show ¬ i < d.ns; omega)

end
end Hpipm
