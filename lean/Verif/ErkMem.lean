/-
C66: setters, getters and memory of the explicit Runge-Kutta integrator.
-/
import Verif.ErkTab

namespace Hpipm
open Finset
set_option linter.unusedSectionVars false

section
variable {K : Type*} [Field K] [LinearOrder K] [IsStrictOrderedRing K] [FloorRing K]

theorem erkX_loop (n m : ℕ) (x : Vec K) (w : ErkWs K) :
    loop n (fun ii (w : ErkWs K) => { w with x_for := upd w.x_for (m + ii) (x ii) }) w =
    { w with x_for := fun i => if m ≤ i ∧ i < m + n then x (i - m) else w.x_for i } := by
  induction n with
  | zero =>
    have : ∀ i, ¬ (m ≤ i ∧ i < m + 0) := fun i => by omega
    simp only [this, if_false]
    rfl
  | succ n ih =>
    rw [loop_succ, ih]
    congr 1
    funext i
    by_cases h : i = m + n
    · subst h
      simp only [upd_same]
      rw [if_pos (by omega), Nat.add_sub_cancel_left]
    · simp only [upd_ne _ _ h]
      by_cases h2 : m ≤ i ∧ i < m + n
      · rw [if_pos h2, if_pos (by omega)]
      · rw [if_neg h2, if_neg (by omega)]

theorem erkX0_loop (n : ℕ) (x : Vec K) (w : ErkWs K) :
    loop n (fun ii (w : ErkWs K) => { w with x_for := upd w.x_for ii (x ii) }) w =
    { w with x_for := fun i => if i < n then x i else w.x_for i } := by
  have := erkX_loop n 0 x w
  simp only [Nat.zero_add, Nat.zero_le, true_and, Nat.sub_zero] at this
  exact this

theorem erkFs_loop (n : ℕ) (x : Vec K) (w : ErkWs K) :
    loop n (fun ii (w : ErkWs K) => { w with x_for := upd w.x_for (w.nx + ii) (x ii) }) w =
    { w with x_for := fun i => if w.nx ≤ i ∧ i < w.nx + n then x (i - w.nx) else w.x_for i } := by
  induction n with
  | zero =>
    have : ∀ i, ¬ (w.nx ≤ i ∧ i < w.nx + 0) := fun i => by omega
    simp only [this, if_false]
    rfl
  | succ n ih =>
    rw [loop_succ, ih]
    congr 1
    funext i
    by_cases h : i = w.nx + n
    · subst h
      simp only [upd_same]
      rw [if_pos (by omega), Nat.add_sub_cancel_left]
    · simp only [upd_ne _ _ h]
      by_cases h2 : w.nx ≤ i ∧ i < w.nx + n
      · rw [if_pos h2, if_pos (by omega)]
      · rw [if_neg h2, if_neg (by omega)]

theorem erkP_loop (n : ℕ) (x : Vec K) (w : ErkWs K) :
    loop n (fun ii (w : ErkWs K) => { w with p := upd w.p ii (x ii) }) w =
    { w with p := fun i => if i < n then x i else w.p i } := by
  induction n with
  | zero => simp
  | succ n ih =>
    rw [loop_succ, ih]
    congr 1
    funext i
    by_cases h : i = n
    · subst h; simp
    · simp only [upd_ne _ _ h]
      by_cases h2 : i < n
      · rw [if_pos h2, if_pos (by omega)]
      · rw [if_neg h2, if_neg (by omega)]

theorem erkL0_loop (n : ℕ) (A : ℕ) (w : ErkWs K) :
    loop n (fun ii (w : ErkWs K) => { w with l := upd w.l (A * w.steps + ii) 0 }) w =
    { w with l := fun i => if A * w.steps ≤ i ∧ i < A * w.steps + n then 0 else w.l i } := by
  induction n with
  | zero =>
    have : ∀ i, ¬ (A * w.steps ≤ i ∧ i < A * w.steps + 0) := fun i => by omega
    simp only [this, if_false]
    rfl
  | succ n ih =>
    rw [loop_succ, ih]
    congr 1
    funext i
    by_cases h : i = A * w.steps + n
    · subst h
      simp only [upd_same]
      rw [if_pos (by omega)]
    · simp only [upd_ne _ _ h]
      by_cases h2 : A * w.steps ≤ i ∧ i < A * w.steps + n
      · rw [if_pos h2, if_pos (by omega)]
      · rw [if_neg h2, if_neg (by omega)]

theorem erkL1_loop (n : ℕ) (A : ℕ) (bs : Vec K) (w : ErkWs K) :
    loop n (fun ii (w : ErkWs K) => { w with l := upd w.l (A * w.steps + w.np + ii) (bs ii) }) w =
    { w with l := fun i => if A * w.steps + w.np ≤ i ∧ i < A * w.steps + w.np + n then bs (i - (A * w.steps + w.np)) else w.l i } := by
  induction n with
  | zero =>
    have : ∀ i, ¬ (A * w.steps + w.np ≤ i ∧ i < A * w.steps + w.np + 0) := fun i => by omega
    simp only [this, if_false]
    rfl
  | succ n ih =>
    rw [loop_succ, ih]
    congr 1
    funext i
    by_cases h : i = A * w.steps + w.np + n
    · subst h
      simp only [upd_same]
      rw [if_pos (by omega), Nat.add_sub_cancel_left]
    · simp only [upd_ne _ _ h]
      by_cases h2 : A * w.steps + w.np ≤ i ∧ i < A * w.steps + w.np + n
      · rw [if_pos h2, if_pos (by omega)]
      · rw [if_neg h2, if_neg (by omega)]

theorem erkOut_loop (n m : ℕ) (f out : Vec K) : loop n (fun ii o => upd o ii (f (m + ii))) out = fun i => if i < n then f (m + i) else out i := by
  induction n with
  | zero => simp
  | succ n ih =>
    rw [loop_succ, ih]
    funext i
    by_cases h : i = n
    · subst h; simp
    · rw [upd_ne _ _ h]
      by_cases h2 : i < n
      · rw [if_pos h2, if_pos (by omega)]
      · rw [if_neg h2, if_neg (by omega)]

theorem erkGetX_val (w : ErkWs K) (out : Vec K) (i : ℕ) : erkGetX w out i = if i < w.nx then w.x_for i else out i := by
  have := erkOut_loop w.nx 0 w.x_for out
  simp only [Nat.zero_add] at this
  unfold erkGetX
  rw [this]

theorem erkGetFs_val (w : ErkWs K) (out : Vec K) (i : ℕ) : erkGetFs w out i = if i < w.nx * w.nf then w.x_for (w.nx + i) else out i := by
  unfold erkGetFs
  rw [erkOut_loop]

/-- what `SIM_ERK_WS_SET_ALL` leaves in the workspace -/
structure ErkLoaded (nf na : ℕ) (x fs bs p : Vec K) (ode vde : ℤ → Vec K → Vec K → ℕ → K) (w w' : ErkWs K) : Prop where
  getX : ∀ out i, erkGetX w' out i = if i < w.nx then x i else out i
  getFs : ∀ out i, erkGetFs w' out i = if i < w.nx * nf then fs i else out i
  p : ∀ i, w'.p i = if i < w.np then p i else w.p i
  fns : w'.ode = ode ∧ w'.vde = vde ∧ w'.nf = nf ∧ w'.na = na
  keeps : w'.rk = w.rk ∧ w'.h = w.h ∧ w'.steps = w.steps ∧ w'.nx = w.nx ∧ w'.np = w.np ∧ w'.nf_max = w.nf_max ∧ w'.na_max = w.na_max ∧
    w'.k = w.k ∧ w'.x_tmp = w.x_tmp
  inside : ∀ i, w.nx * (1 + w.nf_max) ≤ i → w'.x_for i = w.x_for i
  l : ∀ i, w'.l i = if na > 0 then
        (if (w.np + w.nx) * w.steps + w.np ≤ i ∧ i < (w.np + w.nx) * w.steps + w.np + w.nx then bs (i - ((w.np + w.nx) * w.steps + w.np))
          else if (w.np + w.nx) * w.steps ≤ i ∧ i < (w.np + w.nx) * w.steps + w.np then 0 else w.l i) else w.l i

theorem erkSetAll_eq (nf na : ℕ) (x fs bs p : Vec K) (ode vde : ℤ → Vec K → Vec K → ℕ → K) (w : ErkWs K) (h1 : nf ≤ w.nf_max) (h2 : na ≤ w.na_max) :
    erkSetAll nf na x fs bs p ode vde w = .ok { w with
      nf := nf
      na := na
      x_for := fun i => if w.nx ≤ i ∧ i < w.nx + w.nx * nf then fs (i - w.nx) else if i < w.nx then x i else w.x_for i
      p := fun i => if i < w.np then p i else w.p i
      ode := ode
      vde := vde
      l := fun i => if na > 0 then
        (if (w.np + w.nx) * w.steps + w.np ≤ i ∧ i < (w.np + w.nx) * w.steps + w.np + w.nx then bs (i - ((w.np + w.nx) * w.steps + w.np))
          else if (w.np + w.nx) * w.steps ≤ i ∧ i < (w.np + w.nx) * w.steps + w.np then 0 else w.l i) else w.l i } := by
  unfold erkSetAll
  rw [if_neg (by omega), if_neg (by omega)]
  congr 1
  dsimp only
  rw [erkX0_loop, erkFs_loop, erkP_loop]
  by_cases hna : na > 0
  · rw [if_pos hna, erkL0_loop, erkL1_loop]
    simp only [hna, if_true]
  · rw [if_neg hna]
    simp only [hna, if_false]

/-- **C66.**  `SIM_ERK_WS_SET_ALL` ends the process exactly if more sensitivities are requested than the workspace was created for;
otherwise the values read back are those handed over -/
theorem erk_set_all (nf na : ℕ) (x fs bs p : Vec K) (ode vde : ℤ → Vec K → Vec K → ℕ → K) (w : ErkWs K) :
    (erkSetAll nf na x fs bs p ode vde w = .exit ↔ ¬ (nf ≤ w.nf_max ∧ na ≤ w.na_max)) ∧
    (nf ≤ w.nf_max ∧ na ≤ w.na_max → ∃ w', erkSetAll nf na x fs bs p ode vde w = .ok w' ∧ ErkLoaded nf na x fs bs p ode vde w w') := by
  refine ⟨⟨fun h hc => ?_, fun h => ?_⟩, fun h => ⟨_, erkSetAll_eq nf na x fs bs p ode vde w h.1 h.2, ?_⟩⟩
  · rw [erkSetAll_eq nf na x fs bs p ode vde w hc.1 hc.2] at h
    cases h
  · unfold erkSetAll
    by_cases h1 : nf > w.nf_max
    · exact if_pos h1
    · rw [if_neg h1]
      exact if_pos (by omega)
  · have hle : w.nx * nf ≤ w.nx * w.nf_max := Nat.mul_le_mul_left _ h.1
    refine ⟨fun out i => ?_, fun out i => ?_, fun i => rfl, ⟨rfl, rfl, rfl, rfl⟩, ⟨rfl, rfl, rfl, rfl, rfl, rfl, rfl, rfl, rfl⟩, fun i hi => ?_, fun i => rfl⟩
    · rw [erkGetX_val]
      dsimp only
      by_cases h : i < w.nx
      · rw [if_pos h, if_pos h, if_neg (by omega), if_pos h]
      · rw [if_neg h, if_neg h]
    · rw [erkGetFs_val]
      dsimp only
      by_cases h : i < w.nx * nf
      · rw [if_pos h, if_pos h, if_pos ⟨by omega, by omega⟩, Nat.add_sub_cancel_left]
      · rw [if_neg h, if_neg h]
    · have : w.nx * (1 + w.nf_max) = w.nx + w.nx * w.nf_max := by ring
      dsimp only
      rw [if_neg (by omega), if_neg (by omega)]

/-- **C66**: the single setters and getters -/
theorem erk_set_get (x fs p : Vec K) (w : ErkWs K) (out : Vec K) (i : ℕ) :
    erkGetX (erkSetX x w) out i = (if i < w.nx then x i else out i) ∧
    erkGetFs (erkSetFs fs w) out i = (if i < w.nx * w.nf then fs i else out i) ∧
    erkGetX (erkSetFs fs w) out i = erkGetX w out i ∧ erkGetFs (erkSetX x w) out i = erkGetFs w out i ∧
    (erkSetP p w).p i = (if i < w.np then p i else w.p i) ∧ (erkSetP p w).x_for = w.x_for := by
  unfold erkSetX erkSetFs erkSetP
  rw [erkX0_loop, erkFs_loop, erkP_loop]
  simp only [erkGetX_val, erkGetFs_val]
  refine ⟨?_, ?_, ?_, ?_, trivial, trivial⟩
  · by_cases h : i < w.nx
    · rw [if_pos h, if_pos h, if_pos h]
    · rw [if_neg h, if_neg h]
  · by_cases h : i < w.nx * w.nf
    · rw [if_pos h, if_pos h, if_pos ⟨by omega, by omega⟩, Nat.add_sub_cancel_left]
    · rw [if_neg h, if_neg h]
  · by_cases h : i < w.nx
    · rw [if_pos h, if_pos h, if_neg (by omega)]
    · rw [if_neg h, if_neg h]
  · by_cases h : i < w.nx * w.nf
    · rw [if_pos h, if_pos h, if_neg (by omega)]
    · rw [if_neg h, if_neg h]

/-- the erkPieces of a list of sizes laid out one after the other from `o` -/
def erkPieces (o : ℕ) : List ℕ → List (ℕ × ℕ)
  | [] => []
  | n :: r => (o, n) :: erkPieces (o + n) r

/-- no two arrays overlap and all are inside a buffer of the given size -/
def ErkFits (size : ℕ) (l : List (ℕ × ℕ)) : Prop := (∀ q ∈ l, q.1 + q.2 ≤ size) ∧ l.Pairwise (fun a b => a.1 + a.2 ≤ b.1)

theorem erkPieces_fit (o : ℕ) (l : List ℕ) : ErkFits (o + l.sum) (erkPieces o l) ∧ ∀ q ∈ erkPieces o l, o ≤ q.1 := by
  induction l generalizing o with
  | nil => exact ⟨⟨fun q hq => absurd hq (by simp [erkPieces]), List.Pairwise.nil⟩, fun q hq => absurd hq (by simp [erkPieces])⟩
  | cons n r ih =>
    obtain ⟨⟨h1, h2⟩, h3⟩ := ih (o + n)
    rw [List.sum_cons]
    refine ⟨⟨fun q hq => ?_, List.Pairwise.cons (fun q hq => h3 q hq) h2⟩, fun q hq => ?_⟩
    · rcases List.mem_cons.mp hq with rfl | hq
      · dsimp only; omega
      · have := h1 q hq; omega
    · rcases List.mem_cons.mp hq with rfl | hq
      · exact le_refl _
      · have := h3 q hq; omega

/-- **C66.**  The arrays of the tableau object fill the memory requested, without overlap -/
theorem rk_layout (ns : ℕ) : ErkFits (rkMemsize ns) (rkLayout ns) := by
  have h := (erkPieces_fit 0 [ns * ns, ns, ns]).1
  have e : 0 + [ns * ns, ns, ns].sum = rkMemsize ns := by simp [rkMemsize]; ring
  rw [e] at h
  simpa [erkPieces, rkLayout] using h

/-- **C66.**  The arrays of the workspace fill the memory requested, without overlap -/
theorem erk_layout (ns steps nx np nf_max na_max : ℕ) :
    ErkFits (erkMemsize ns steps nx np nf_max na_max) (erkPieces 0 (erkSizes ns steps nx np nf_max na_max)) := by
  have h := (erkPieces_fit 0 (erkSizes ns steps nx np nf_max na_max)).1
  have e : 0 + (erkSizes ns steps nx np nf_max na_max).sum = erkMemsize ns steps nx np nf_max na_max := by
    unfold erkSizes erkMemsize
    by_cases hn : na_max > 0
    · simp [hn]; ring
    · simp [hn]; ring
  rwa [e] at h

theorem erkStage_frame (t : K) (ss : ℕ) (w : ErkWs K) :
    (∀ i, w.nX ≤ i → (erkStage t ss w).x_tmp i = w.x_tmp i) ∧ (∀ i, (ss + 1) * w.nX ≤ i → (erkStage t ss w).k i = w.k i) ∧
    (erkStage t ss w).nX = w.nX ∧ (erkStage t ss w).rk = w.rk := by
  unfold erkStage
  dsimp only
  rw [erk_copy]
  have hc := erk_comb ss (w.nx * (1 + w.nf)) ss { w with x_tmp := fun i => if i < w.nx * (1 + w.nf) then w.x_for i else w.x_tmp i }
  dsimp only at hc
  rw [hc]
  refine ⟨fun i hi => ?_, fun i hi => ?_, rfl, rfl⟩
  · have hi : w.nx * (1 + w.nf) ≤ i := hi
    dsimp only
    rw [if_neg (by omega), if_neg (by omega)]
  · unfold ErkWs.nX at hi
    rw [Nat.add_mul, one_mul] at hi
    exact if_neg (by omega)

theorem erkStages_frame (t : K) (w : ErkWs K) (m : ℕ) :
    let w' := loop m (fun ss w => erkStage t ss w) w
    (∀ i, w.nX ≤ i → w'.x_tmp i = w.x_tmp i) ∧ (∀ i, m * w.nX ≤ i → w'.k i = w.k i) ∧ w'.nX = w.nX ∧ w'.rk = w.rk := by
  induction m with
  | zero => exact ⟨fun _ _ => rfl, fun _ _ => rfl, rfl, rfl⟩
  | succ m ih =>
    dsimp only at ih ⊢
    rw [loop_succ]
    set v := loop m (fun ss w => erkStage t ss w) w with hv
    obtain ⟨h1, h2, h3, h4⟩ := ih
    obtain ⟨g1, g2, g3, g4⟩ := erkStage_frame t m v
    refine ⟨fun i hi => ?_, fun i hi => ?_, g3.trans h3, g4.trans h4⟩
    · rw [g1 i (by rw [h3]; exact hi), h1 i hi]
    · rw [g2 i (by rw [h3]; exact hi), h2 i (by rw [Nat.add_mul, one_mul] at hi; omega)]

theorem erkStep_frame (t : K) (w : ErkWs K) :
    (∀ i, w.nX ≤ i → (erkStep t w).x_tmp i = w.x_tmp i) ∧ (∀ i, w.rk.ns * w.nX ≤ i → (erkStep t w).k i = w.k i) ∧
    (erkStep t w).nX = w.nX ∧ (erkStep t w).rk = w.rk := by
  have h := erkStages_frame t w w.rk.ns
  unfold erkStep
  dsimp only
  set v := loop w.rk.ns (fun ss w => erkStage t ss w) w with hv
  have hn : w.nx * (1 + w.nf) = w.nX := rfl
  rw [hn]
  have := erk_sum v.rk.ns w.nX v
  dsimp only at this
  rw [this]
  exact h

/-- **C66.**  If the number of sensitivities is at most the number the workspace was created for, the integrator writes only entries inside
its arrays (`x_for`, `x_tmp`: `nx*(1+nf_max)` entries; `K`: `ns*nx*(1+nf_max)` entries) -/
theorem erk_solve_inside (w : ErkWs K) (hl : w.LocalRhs) (hnf : w.nf ≤ w.nf_max) (w' : ErkWs K) (h : erkSolve w = .ok w') :
    (∀ i, w.nx * (1 + w.nf_max) ≤ i → w'.x_for i = w.x_for i ∧ w'.x_tmp i = w.x_tmp i) ∧
    (∀ i, w.rk.ns * (w.nx * (1 + w.nf_max)) ≤ i → w'.k i = w.k i) := by
  have hle : w.nX ≤ w.nx * (1 + w.nf_max) := Nat.mul_le_mul_left _ (by omega)
  have hle2 : w.rk.ns * w.nX ≤ w.rk.ns * (w.nx * (1 + w.nf_max)) := Nat.mul_le_mul_left _ hle
  have hna : w.na = 0 := by
    by_contra hc
    unfold erkSolve at h
    rw [if_pos (by omega)] at h
    cases h
  have e : w' = (erkSeq w w.steps).1 := by
    unfold erkSolve at h
    rw [if_neg (by omega)] at h
    exact (Out.ok.inj h).symm
  have key : ∀ j, (∀ i, w.nX ≤ i → (erkSeq w j).1.x_for i = w.x_for i ∧ (erkSeq w j).1.x_tmp i = w.x_tmp i) ∧
      (∀ i, w.rk.ns * w.nX ≤ i → (erkSeq w j).1.k i = w.k i) := by
    intro j
    induction j with
    | zero => exact ⟨fun _ _ => ⟨rfl, rfl⟩, fun _ _ => rfl⟩
    | succ j ih =>
      obtain ⟨k1, k2, k3⟩ := erkSeq_keep w hl j
      have e : (erkSeq w (j + 1)).1 = erkStep (erkSeq w j).2 (erkSeq w j).1 := rfl
      obtain ⟨f1, f2, -, -⟩ := erkStep_frame (erkSeq w j).2 (erkSeq w j).1
      have f3 := (erkStep_val (erkSeq w j).2 (erkSeq w j).1 k3).2.2
      rw [k1.nX] at f1 f2 f3
      rw [k1.rk] at f2
      rw [e]
      exact ⟨fun i hi => ⟨(f3 i hi).trans (ih.1 i hi).1, (f1 i hi).trans (ih.1 i hi).2⟩, fun i hi => (f2 i hi).trans (ih.2 i hi)⟩
  rw [e]
  exact ⟨fun i hi => (key w.steps).1 i (by omega), fun i hi => (key w.steps).2 i (by omega)⟩

/-- The array `l` has `nf_max*(steps+1)` entries.  With enough room for states and parameters `SIM_ERK_WS_SET_ALL` stays inside -/
theorem erk_l_inside (nf na : ℕ) (x fs bs p : Vec K) (ode vde : ℤ → Vec K → Vec K → ℕ → K) (w w' : ErkWs K)
    (h : erkSetAll nf na x fs bs p ode vde w = .ok w') (hroom : w.np + w.nx ≤ w.nf_max) (i : ℕ) (hi : w.nf_max * (w.steps + 1) ≤ i) :
    w'.l i = w.l i := by
  by_cases hc : nf ≤ w.nf_max ∧ na ≤ w.na_max
  · obtain ⟨w'', h1, h2⟩ := (erk_set_all nf na x fs bs p ode vde w).2 hc
    rw [h1] at h
    obtain rfl := Out.ok.inj h
    have h3 := h2.l
    have : (w.np + w.nx) * (w.steps + 1) ≤ w.nf_max * (w.steps + 1) := Nat.mul_le_mul_right _ hroom
    have e : (w.np + w.nx) * (w.steps + 1) = (w.np + w.nx) * w.steps + w.np + w.nx := by ring
    have q : (if (w.np + w.nx) * w.steps + w.np ≤ i ∧ i < (w.np + w.nx) * w.steps + w.np + w.nx then bs (i - ((w.np + w.nx) * w.steps + w.np))
          else if (w.np + w.nx) * w.steps ≤ i ∧ i < (w.np + w.nx) * w.steps + w.np then 0 else w.l i) = w.l i := by
      rw [if_neg (by omega), if_neg (by omega)]
    rw [h3 i, q]
    exact ite_self _
  · rw [((erk_set_all nf na x fs bs p ode vde w).1).2 hc] at h
    cases h

/-- … and without it, it writes past the end: finding 41 -/
theorem erk_l_overrun (nf na : ℕ) (x fs p : Vec K) (ode vde : ℤ → Vec K → Vec K → ℕ → K) (w : ErkWs K)
    (hn : nf ≤ w.nf_max) (ha : na ≤ w.na_max) (h0 : 0 < na) (hx : 0 < w.nx) (hroom : w.nf_max < w.np + w.nx) :
    ∃ bs w' i, erkSetAll nf na x fs bs p ode vde w = .ok w' ∧ w.nf_max * (w.steps + 1) ≤ i ∧ w'.l i ≠ w.l i := by
  have e : (w.np + w.nx) * (w.steps + 1) = (w.np + w.nx) * w.steps + w.np + w.nx := by ring
  obtain ⟨w', h1, h2⟩ := (erk_set_all nf na x fs (fun _ => w.l ((w.np + w.nx) * (w.steps + 1) - 1) + 1) p ode vde w).2 ⟨hn, ha⟩
  refine ⟨_, w', (w.np + w.nx) * (w.steps + 1) - 1, h1, ?_, ?_⟩
  · have : (w.nf_max + 1) * (w.steps + 1) ≤ (w.np + w.nx) * (w.steps + 1) := Nat.mul_le_mul_right _ hroom
    rw [Nat.add_mul, one_mul] at this
    omega
  · have h3 := h2.l
    rw [h3, if_pos h0, if_pos ⟨by omega, by omega⟩]
    exact fun q => absurd q (by simp)

/-- `SIM_ERK_WS_SET_NF` does not compare with `nf_max`; the next setter then writes past the end of `x_for`: finding 42 -/
theorem erk_nf_overrun (w : ErkWs K) (hx : 0 < w.nx) (nf : ℕ) (hnf : w.nf_max < nf) :
    ∃ fs i, w.nx * (1 + w.nf_max) ≤ i ∧ (erkSetFs fs (erkSetNf nf w)).x_for i ≠ w.x_for i := by
  have hle : w.nx * (w.nf_max + 1) ≤ w.nx * nf := Nat.mul_le_mul_left _ hnf
  have e1 : w.nx * (w.nf_max + 1) = w.nx * w.nf_max + w.nx := by ring
  have e2 : w.nx * (1 + w.nf_max) = w.nx * w.nf_max + w.nx := by ring
  refine ⟨fun _ => w.x_for (w.nx * (1 + w.nf_max)) + 1, w.nx * (1 + w.nf_max), le_refl _, ?_⟩
  unfold erkSetFs
  rw [erkFs_loop]
  have : w.nx ≤ w.nx * (1 + w.nf_max) ∧ w.nx * (1 + w.nf_max) < w.nx + w.nx * nf := ⟨by omega, by omega⟩
  show (if w.nx ≤ w.nx * (1 + w.nf_max) ∧ w.nx * (1 + w.nf_max) < w.nx + w.nx * nf then _ else _) ≠ _
  rw [if_pos this]
  simp

/-- with adjoint sensitivities the integrator always ends the process -/
theorem erk_adjoint_exit (w : ErkWs K) : erkSolve w = .exit ↔ 0 < w.na := by
  unfold erkSolve
  split_ifs with h
  · exact ⟨fun _ => h, fun _ => rfl⟩
  · exact ⟨fun q => (by cases q), fun q => absurd q h⟩

end
end Hpipm
