/-
Closed forms of the slack routines of the KKT solver (intermediate results).
-/
import Verif.Kkt

namespace Hpipm
open Finset
set_option linter.unusedSectionVars false

section
variable {K : Type*} [Field K] [LinearOrder K]

theorem loop_proj {S T : Type*} (p : S → T) (n : ℕ) (body : ℕ → S → S) (body' : ℕ → T → T) (s : S)
    (h : ∀ i s, i < n → p (body i s) = body' i (p s)) : p (loop n body s) = loop n body' (p s) := by
  induction n with
  | zero => rfl
  | succ n ih => rw [loop_succ, loop_succ, h n _ (by omega), ih (fun i s hi => h i s (by omega))]

theorem loop_keep {S T : Type*} (p : S → T) (n : ℕ) (body : ℕ → S → S) (s : S)
    (h : ∀ i s, i < n → p (body i s) = p s) : p (loop n body s) = p s := by
  induction n with
  | zero => rfl
  | succ n ih => rw [loop_succ, h n _ (by omega), ih (fun i s hi => h i s (by omega))]

/-- a loop filling two adjacent blocks -/
theorem set2_val (n o : ℕ) (f1 f2 : ℕ → K) (a : Vec K) (i : ℕ) :
    loop n (fun i a => upd (upd a (o + i) (f1 i)) (o + n + i) (f2 i)) a i =
      if o ≤ i ∧ i < o + n then f1 (i - o) else if o + n ≤ i ∧ i < o + n + n then f2 (i - (o + n)) else a i := by
  have h : ∀ k, k ≤ n → ∀ i, loop k (fun i a => upd (upd a (o + i) (f1 i)) (o + n + i) (f2 i)) a i =
      if o ≤ i ∧ i < o + k then f1 (i - o) else if o + n ≤ i ∧ i < o + n + k then f2 (i - (o + n)) else a i := by
    intro k
    induction k with
    | zero =>
      intro _ i
      rw [loop_zero, if_neg (by omega), if_neg (by omega)]
    | succ k ih =>
      intro hk i
      rw [loop_succ]
      by_cases h1 : i = o + n + k
      · subst h1
        rw [upd_same, if_neg (by omega), if_pos (by omega)]
        congr 1; omega
      · rw [upd_ne _ _ h1]
        by_cases h2 : i = o + k
        · subst h2
          rw [upd_same, if_pos (by omega)]
          congr 1; omega
        · rw [upd_ne _ _ h2, ih (by omega)]
          have e1 : (o ≤ i ∧ i < o + k) ↔ (o ≤ i ∧ i < o + (k + 1)) := by omega
          have e2 : (o + n ≤ i ∧ i < o + n + k) ↔ (o + n ≤ i ∧ i < o + n + (k + 1)) := by omega
          simp only [e1, e2]
  exact h n (le_refl _) i

/-- the accumulation over softened constraints -/
theorem acc2_val (n o1 o2 : ℕ) (ir : ℕ → ℤ) (w1 w2 : ℕ → K) (a : Vec K) (i : ℕ) :
    loop n (fun ii a => if ir ii ≠ -1 then
        upd (upd a (o1 + (ir ii).toNat) (a (o1 + (ir ii).toNat) + w1 ii)) (o2 + (ir ii).toNat)
          (upd a (o1 + (ir ii).toNat) (a (o1 + (ir ii).toNat) + w1 ii) (o2 + (ir ii).toNat) + w2 ii)
      else a) a i =
      a i + (∑ j ∈ range n, if ir j ≠ -1 ∧ i = o1 + (ir j).toNat then w1 j else 0)
        + (∑ j ∈ range n, if ir j ≠ -1 ∧ i = o2 + (ir j).toNat then w2 j else 0) := by
  induction n with
  | zero => simp
  | succ n ih =>
    rw [loop_succ, sum_range_succ, sum_range_succ]
    set b := loop n (fun ii a => if ir ii ≠ -1 then
        upd (upd a (o1 + (ir ii).toNat) (a (o1 + (ir ii).toNat) + w1 ii)) (o2 + (ir ii).toNat)
          (upd a (o1 + (ir ii).toNat) (a (o1 + (ir ii).toNat) + w1 ii) (o2 + (ir ii).toNat) + w2 ii)
      else a) a with hb
    by_cases h : ir n ≠ -1
    · have h' : (ir n = -1) = False := by simpa using h
      simp only [ne_eq, h', not_false_eq_true, true_and, if_true]
      simp only [ne_eq] at ih
      by_cases h2 : i = o2 + (ir n).toNat
      · simp only [← h2, upd_same, if_true]
        by_cases h1 : i = o1 + (ir n).toNat
        · simp only [← h1, upd_same, if_true, ih]; ring
        · simp only [upd_ne _ _ h1, ih, if_neg h1]; ring
      · simp only [upd_ne _ _ h2, if_neg h2]
        by_cases h1 : i = o1 + (ir n).toNat
        · simp only [← h1, upd_same, if_true, ih]; ring
        · simp only [upd_ne _ _ h1, ih, if_neg h1]; ring
    · have h' : (ir n = -1) = True := by simpa using h
      simp only [ne_eq] at ih
      simp only [ne_eq, h', not_true_eq_false, if_false, false_and, ih]; ring

/-- sum over the constraints softened by slack `s` -/
def slkSum (n : ℕ) (ir : ℕ → ℤ) (w : Vec K) (s : ℕ) : K :=
  ∑ j ∈ range n, if ir j ≠ -1 ∧ s = (ir j).toNat then w j else 0

theorem slkSum_shift (n : ℕ) (ir : ℕ → ℤ) (w : Vec K) (o s : ℕ) :
    (∑ j ∈ range n, if ir j ≠ -1 ∧ o + s = o + (ir j).toNat then w j else 0) = slkSum n ir w s := by
  unfold slkSum
  apply sum_congr rfl
  intro j _
  simp only [Nat.add_left_cancel_iff]

theorem slkSum_none (n ns : ℕ) (ir : ℕ → ℤ) (w : Vec K) (o i : ℕ)
    (hir : ∀ j, j < n → ir j = -1 ∨ (0 ≤ ir j ∧ (ir j).toNat < ns)) (hi : i < o ∨ o + ns ≤ i) :
    (∑ j ∈ range n, if ir j ≠ -1 ∧ i = o + (ir j).toNat then w j else 0) = 0 := by
  apply sum_eq_zero
  intro j hj
  rw [if_neg]
  rintro ⟨h1, h2⟩
  rcases hir j (mem_range.mp hj) with h | h
  · exact h1 h
  · omega

/-- denominators of the slack elimination -/
def slkDen (n ns : ℕ) (ir : ℕ → ℤ) (reg : K) (Z G : Vec K) (i : ℕ) : K :=
  Z i + reg + G (2 * n + i)
    + if i < ns then slkSum n ir G i else slkSum n ir (fun j => G (n + j)) (i - ns)

/-- right-hand sides of the slack elimination -/
def slkRhs (n ns nv : ℕ) (ir : ℕ → ℤ) (rg g : Vec K) (i : ℕ) : K :=
  rg (nv + i) + g (2 * n + i)
    + if i < ns then slkSum n ir g i else slkSum n ir (fun j => g (n + j)) (i - ns)

/-- condensed weight of one side of constraint `j`; `o` selects the side of the slack vectors -/
def slkTh (ir : ℕ → ℤ) (Zs : Vec K) (o : ℕ) (Gj : K) (j : ℕ) : K :=
  if ir j ≠ -1 then Gj - Gj * Zs (o + (ir j).toNat) * Gj else Gj

/-- condensed gradient term of one side of constraint `j` -/
def slkVt (ir : ℕ → ℤ) (Zs rh : Vec K) (o : ℕ) (Gj gj : K) (j : ℕ) : K :=
  if ir j ≠ -1 then gj - Gj * Zs (o + (ir j).toNat) * rh (o + (ir j).toNat) else gj

private theorem du_part (n ns nv : ℕ) (ir : ℕ → ℤ) (rg g du0 : Vec K)
    (hir : ∀ j, j < n → ir j = -1 ∨ (0 ≤ ir j ∧ (ir j).toNat < ns)) (du : Vec K)
    (hdu : du = loop n (fun ii a => if ir ii ≠ -1 then
        upd (upd a (nv + (ir ii).toNat) (a (nv + (ir ii).toNat) + g ii)) (nv + ns + (ir ii).toNat)
          (upd a (nv + (ir ii).toNat) (a (nv + (ir ii).toNat) + g ii) (nv + ns + (ir ii).toNat) + g (n + ii))
      else a) (loop ns (fun idx a => upd (upd a (nv + idx) (rg (nv + idx) + g (2 * n + idx))) (nv + ns + idx)
        (rg (nv + ns + idx) + g (2 * n + ns + idx))) du0)) :
    (∀ i, i < 2 * ns → du (nv + i) = slkRhs n ns nv ir rg g i) ∧ ∀ i, i < nv → du i = du0 i := by
  refine ⟨fun i hi => ?_, fun i hi => ?_⟩
  · rw [hdu, acc2_val n nv (nv + ns) ir g (fun ii => g (n + ii)), set2_val ns nv (fun idx => rg (nv + idx) + g (2 * n + idx))
      (fun idx => rg (nv + ns + idx) + g (2 * n + ns + idx)), slkSum_shift]
    unfold slkRhs
    by_cases h : i < ns
    · rw [if_pos (by omega), if_pos h, slkSum_none n ns ir _ (nv + ns) (nv + i) hir (by omega), add_zero,
        Nat.add_sub_cancel_left]
    · obtain ⟨j, rfl⟩ := Nat.exists_eq_add_of_le (Nat.le_of_not_lt h)
      rw [if_neg (by omega), if_pos (by omega), if_neg h, Nat.add_sub_cancel_left, ← Nat.add_assoc, slkSum_shift]
      have : slkSum n ir g (ns + j) = 0 := by
        have := slkSum_none n ns ir g 0 (ns + j) hir (by omega)
        simpa [slkSum] using this
      rw [this, Nat.add_sub_cancel_left, add_zero]
      simp only [← Nat.add_assoc]
  · rw [hdu, acc2_val n nv (nv + ns) ir g (fun ii => g (n + ii)), set2_val ns nv (fun idx => rg (nv + idx) + g (2 * n + idx))
      (fun idx => rg (nv + ns + idx) + g (2 * n + ns + idx)), slkSum_none n ns ir _ nv i hir (by omega),
      slkSum_none n ns ir _ (nv + ns) i hir (by omega), if_neg (by omega), if_neg (by omega)]
    ring

theorem axpy_zero_in {n : ℕ} (a : K) (x y z : Vec K) (i : ℕ) (h : i < n) : axpy n a x 0 y 0 z 0 i = y i + a * x i := by
  simp [axpy, h]

/-- closed form of COND_SLACKS_FACT_SOLVE -/
theorem condSlacksFS_val (n ns nv : ℕ) (ir : ℕ → ℤ) (reg : K) (Z rg G g : Vec K) (s : SlkSt K)
    (hir : ∀ j, j < n → ir j = -1 ∨ (0 ≤ ir j ∧ (ir j).toNat < ns)) :
    let r := condSlacksFS n ns nv ir reg Z rg G g s
    (∀ i, i < 2 * ns → r.Zs i = 1 / slkDen n ns ir reg Z G i) ∧
    (∀ i, i < 2 * ns → r.du (nv + i) = slkRhs n ns nv ir rg g i) ∧
    (∀ i, i < nv → r.du i = s.du i) ∧
    (∀ j, j < n → r.t0 j = slkTh ir r.Zs 0 (G j) j + slkTh ir r.Zs ns (G (n + j)) j) ∧
    (∀ j, j < n → r.t1 j = slkVt ir r.Zs (fun i => r.du (nv + i)) 0 (G j) (g j) j
      - slkVt ir r.Zs (fun i => r.du (nv + i)) ns (G (n + j)) (g (n + j)) j) := by
  intro r
  -- the four loops
  set s1 := loop ns (fun idx (s : SlkSt K) => { s with
    Zs := upd (upd s.Zs idx (Z idx + reg + G (2 * n + idx))) (ns + idx) (Z (ns + idx) + reg + G (2 * n + ns + idx))
    du := upd (upd s.du (nv + idx) (rg (nv + idx) + g (2 * n + idx))) (nv + ns + idx)
      (rg (nv + ns + idx) + g (2 * n + ns + idx)) }) s with hs1
  set s2 := loop n (fun ii (s : SlkSt K) =>
    if ir ii ≠ -1 then
      { s with
        Zs := upd (upd s.Zs (ir ii).toNat (s.Zs (ir ii).toNat + G ii)) (ns + (ir ii).toNat)
          (upd s.Zs (ir ii).toNat (s.Zs (ir ii).toNat + G ii) (ns + (ir ii).toNat) + G (n + ii))
        du := upd (upd s.du (nv + (ir ii).toNat) (s.du (nv + (ir ii).toNat) + g ii)) (nv + ns + (ir ii).toNat)
          (upd s.du (nv + (ir ii).toNat) (s.du (nv + (ir ii).toNat) + g ii) (nv + ns + (ir ii).toNat) + g (n + ii)) }
    else s) s1 with hs2
  set s3 := loop ns (fun idx (s : SlkSt K) =>
    { s with Zs := upd (upd s.Zs idx (1 / s.Zs idx)) (ns + idx) (1 / upd s.Zs idx (1 / s.Zs idx) (ns + idx)) }) s2 with hs3
  set s4 := loop n (fun ii (s : SlkSt K) =>
    if ir ii ≠ -1 then
      { s with
        t0 := upd s.t0 ii (G ii - G ii * s.Zs (ir ii).toNat * G ii)
        t1 := upd s.t1 ii (G (n + ii) - G (n + ii) * s.Zs (ns + (ir ii).toNat) * G (n + ii))
        t2 := upd s.t2 ii (g ii - G ii * s.Zs (ir ii).toNat * s.du (nv + (ir ii).toNat))
        t3 := upd s.t3 ii (g (n + ii) - G (n + ii) * s.Zs (ns + (ir ii).toNat) * s.du (nv + ns + (ir ii).toNat)) }
    else { s with
        t0 := upd s.t0 ii (G ii)
        t1 := upd s.t1 ii (G (n + ii))
        t2 := upd s.t2 ii (g ii)
        t3 := upd s.t3 ii (g (n + ii)) }) s3 with hs4
  have hr : r = { s4 with
      t0 := axpy n 1 s4.t1 0 s4.t0 0 s4.t0 0
      t1 := axpy n (-1) s4.t3 0 s4.t2 0 s4.t1 0 } := rfl
  -- du
  have hdu4 : s4.du = s3.du := by
    rw [hs4]; apply loop_keep; intro i s _; split_ifs <;> rfl
  have hdu3 : s3.du = s2.du := by
    rw [hs3]; apply loop_keep; intro i s _; rfl
  have hdu2 : s2.du = loop n (fun ii a => if ir ii ≠ -1 then
        upd (upd a (nv + (ir ii).toNat) (a (nv + (ir ii).toNat) + g ii)) (nv + ns + (ir ii).toNat)
          (upd a (nv + (ir ii).toNat) (a (nv + (ir ii).toNat) + g ii) (nv + ns + (ir ii).toNat) + g (n + ii))
      else a) s1.du := by
    rw [hs2]
    apply loop_proj (fun s : SlkSt K => s.du)
    intro i s _; split_ifs <;> rfl
  have hdu1 : s1.du = loop ns (fun idx a => upd (upd a (nv + idx) (rg (nv + idx) + g (2 * n + idx))) (nv + ns + idx)
        (rg (nv + ns + idx) + g (2 * n + ns + idx))) s.du := by
    rw [hs1]
    apply loop_proj (fun s : SlkSt K => s.du)
    intro i s _; rfl
  have hdu := du_part n ns nv ir rg g s.du hir s2.du (by rw [hdu2, hdu1])
  -- Zs
  have hZ1 : s1.Zs = loop ns (fun idx a => upd (upd a (0 + idx) (Z idx + reg + G (2 * n + idx))) (0 + ns + idx)
        (Z (ns + idx) + reg + G (2 * n + ns + idx))) s.Zs := by
    rw [hs1]
    apply loop_proj (fun s : SlkSt K => s.Zs)
    intro i s _; simp only [zero_add]
  have hZ2 : s2.Zs = loop n (fun ii a => if ir ii ≠ -1 then
        upd (upd a (0 + (ir ii).toNat) (a (0 + (ir ii).toNat) + G ii)) (ns + (ir ii).toNat)
          (upd a (0 + (ir ii).toNat) (a (0 + (ir ii).toNat) + G ii) (ns + (ir ii).toNat) + G (n + ii))
      else a) s1.Zs := by
    rw [hs2]
    apply loop_proj (fun s : SlkSt K => s.Zs)
    intro i s _
    simp only [zero_add]
    split_ifs <;> rfl
  have hZ2v : ∀ i, i < 2 * ns → s2.Zs i = slkDen n ns ir reg Z G i := by
    intro i hi
    rw [hZ2, hZ1, acc2_val n 0 ns ir G (fun ii => G (n + ii)), set2_val ns 0 (fun idx => Z idx + reg + G (2 * n + idx))
      (fun idx => Z (ns + idx) + reg + G (2 * n + ns + idx))]
    have h0 : (∑ j ∈ range n, if ir j ≠ -1 ∧ i = 0 + (ir j).toNat then G j else 0) = slkSum n ir G i := by
      simp only [zero_add, slkSum]
    rw [h0]
    unfold slkDen
    by_cases h : i < ns
    · rw [if_pos (by omega), if_pos h, slkSum_none n ns ir _ ns i hir (by omega), add_zero, Nat.sub_zero]
    · obtain ⟨j, rfl⟩ := Nat.exists_eq_add_of_le (Nat.le_of_not_lt h)
      rw [if_neg (by omega), if_pos (by omega), if_neg h, slkSum_shift]
      have : slkSum n ir G (ns + j) = 0 := by
        have := slkSum_none n ns ir G 0 (ns + j) hir (by omega)
        simpa [slkSum] using this
      rw [this, zero_add, Nat.add_sub_cancel_left, add_zero]
      simp only [← Nat.add_assoc]
  have hZ3v : ∀ i, i < 2 * ns → s3.Zs i = 1 / s2.Zs i := by
    have : ∀ k, k ≤ ns → ∀ i, (loop k (fun idx (s : SlkSt K) =>
        { s with Zs := upd (upd s.Zs idx (1 / s.Zs idx)) (ns + idx) (1 / upd s.Zs idx (1 / s.Zs idx) (ns + idx)) }) s2).Zs i =
        if i < k ∨ (ns ≤ i ∧ i < ns + k) then 1 / s2.Zs i else s2.Zs i := by
      intro k
      induction k with
      | zero => intro _ i; rw [loop_zero, if_neg (by omega)]
      | succ k ih =>
        intro hk i
        rw [loop_succ]
        simp only []
        by_cases h1 : i = ns + k
        · subst h1
          rw [upd_same, upd_ne _ _ (by omega), ih (by omega), if_neg (by omega), if_pos (by omega)]
        · rw [upd_ne _ _ h1]
          by_cases h2 : i = k
          · subst h2
            rw [upd_same, ih (by omega), if_neg (by omega), if_pos (by omega)]
          · rw [upd_ne _ _ h2, ih (by omega)]
            by_cases h3 : i < k ∨ (ns ≤ i ∧ i < ns + k)
            · rw [if_pos h3, if_pos (by omega)]
            · rw [if_neg h3, if_neg (by omega)]
    intro i hi
    rw [hs3, this ns (le_refl _) i, if_pos (by omega)]
  have hZ4 : s4.Zs = s3.Zs := by
    rw [hs4]; apply loop_keep; intro i s _; split_ifs <;> rfl
  -- tmp
  have ht : ∀ j, j < n → s4.t0 j = slkTh ir s3.Zs 0 (G j) j ∧ s4.t1 j = slkTh ir s3.Zs ns (G (n + j)) j ∧
      s4.t2 j = slkVt ir s3.Zs (fun i => s3.du (nv + i)) 0 (G j) (g j) j ∧
      s4.t3 j = slkVt ir s3.Zs (fun i => s3.du (nv + i)) ns (G (n + j)) (g (n + j)) j := by
    have := loop_inv (S := SlkSt K) (fun k s => s.Zs = s3.Zs ∧ s.du = s3.du ∧ ∀ j, j < k →
      s.t0 j = slkTh ir s3.Zs 0 (G j) j ∧ s.t1 j = slkTh ir s3.Zs ns (G (n + j)) j ∧
      s.t2 j = slkVt ir s3.Zs (fun i => s3.du (nv + i)) 0 (G j) (g j) j ∧
      s.t3 j = slkVt ir s3.Zs (fun i => s3.du (nv + i)) ns (G (n + j)) (g (n + j)) j) n
      (fun ii (s : SlkSt K) =>
        if ir ii ≠ -1 then
          { s with
            t0 := upd s.t0 ii (G ii - G ii * s.Zs (ir ii).toNat * G ii)
            t1 := upd s.t1 ii (G (n + ii) - G (n + ii) * s.Zs (ns + (ir ii).toNat) * G (n + ii))
            t2 := upd s.t2 ii (g ii - G ii * s.Zs (ir ii).toNat * s.du (nv + (ir ii).toNat))
            t3 := upd s.t3 ii (g (n + ii) - G (n + ii) * s.Zs (ns + (ir ii).toNat) * s.du (nv + ns + (ir ii).toNat)) }
        else { s with
            t0 := upd s.t0 ii (G ii)
            t1 := upd s.t1 ii (G (n + ii))
            t2 := upd s.t2 ii (g ii)
            t3 := upd s.t3 ii (g (n + ii)) }) s3 ⟨rfl, rfl, fun j hj => by omega⟩ (by
        rintro k s hk ⟨h1, h2, h3⟩
        by_cases hc : ir k ≠ -1
        · rw [if_pos hc]
          refine ⟨h1, h2, fun j hj => ?_⟩
          by_cases hjk : j = k
          · subst hjk
            simp only [upd_same, slkTh, slkVt, if_pos hc, h1, h2, zero_add, Nat.add_assoc]
            exact ⟨trivial, trivial, trivial, trivial⟩
          · simp only [upd_ne _ _ hjk]
            exact h3 j (by omega)
        · rw [if_neg hc]
          refine ⟨h1, h2, fun j hj => ?_⟩
          by_cases hjk : j = k
          · subst hjk
            simp only [upd_same, slkTh, slkVt, if_neg hc]
            exact ⟨trivial, trivial, trivial, trivial⟩
          · simp only [upd_ne _ _ hjk]
            exact h3 j (by omega))
    exact this.2.2
  have hrZ : r.Zs = s3.Zs := by rw [hr]; exact hZ4
  have hrd : r.du = s2.du := by rw [hr]; show s4.du = _; rw [hdu4, hdu3]
  refine ⟨fun i hi => ?_, fun i hi => ?_, fun i hi => ?_, fun j hj => ?_, fun j hj => ?_⟩
  · rw [hrZ, hZ3v i hi, hZ2v i hi]
  · rw [hrd, hdu.1 i hi]
  · rw [hrd, hdu.2 i hi]
  · rw [hrZ, hr]
    show axpy n 1 s4.t1 0 s4.t0 0 s4.t0 0 j = _
    rw [axpy_zero_in _ _ _ _ _ hj, (ht j hj).1, (ht j hj).2.1]; ring
  · rw [hrZ, hrd, hr]
    show axpy n (-1) s4.t3 0 s4.t2 0 s4.t1 0 j = _
    rw [axpy_zero_in _ _ _ _ _ hj, (ht j hj).2.2.1, (ht j hj).2.2.2, hdu3]; ring

/-- closed form of COND_SLACKS_SOLVE -/
theorem condSlacksS_val (n ns nv : ℕ) (ir : ℕ → ℤ) (rg G g : Vec K) (s : SlkSt K)
    (hir : ∀ j, j < n → ir j = -1 ∨ (0 ≤ ir j ∧ (ir j).toNat < ns)) :
    let r := condSlacksS n ns nv ir rg G g s
    (∀ i, i < 2 * ns → r.du (nv + i) = slkRhs n ns nv ir rg g i) ∧
    (∀ i, i < nv → r.du i = s.du i) ∧
    (∀ j, j < n → r.t1 j = slkVt ir s.Zs (fun i => r.du (nv + i)) 0 (G j) (g j) j
      - slkVt ir s.Zs (fun i => r.du (nv + i)) ns (G (n + j)) (g (n + j)) j) := by
  intro r
  set s1 := loop ns (fun idx (s : SlkSt K) => { s with
    du := upd (upd s.du (nv + idx) (rg (nv + idx) + g (2 * n + idx))) (nv + ns + idx)
      (rg (nv + ns + idx) + g (2 * n + ns + idx)) }) s with hs1
  set s2 := loop n (fun ii (s : SlkSt K) =>
    if ir ii ≠ -1 then
      { s with
        du := upd (upd s.du (nv + (ir ii).toNat) (s.du (nv + (ir ii).toNat) + g ii)) (nv + ns + (ir ii).toNat)
          (upd s.du (nv + (ir ii).toNat) (s.du (nv + (ir ii).toNat) + g ii) (nv + ns + (ir ii).toNat) + g (n + ii)) }
    else s) s1 with hs2
  set s4 := loop n (fun ii (s : SlkSt K) =>
    if ir ii ≠ -1 then
      { s with
        t2 := upd s.t2 ii (g ii - G ii * s.Zs (ir ii).toNat * s.du (nv + (ir ii).toNat))
        t3 := upd s.t3 ii (g (n + ii) - G (n + ii) * s.Zs (ns + (ir ii).toNat) * s.du (nv + ns + (ir ii).toNat)) }
    else { s with
        t2 := upd s.t2 ii (g ii)
        t3 := upd s.t3 ii (g (n + ii)) }) s2 with hs4
  have hr : r = { s4 with t1 := axpy n (-1) s4.t3 0 s4.t2 0 s4.t1 0 } := rfl
  have hdu4 : s4.du = s2.du := by
    rw [hs4]; apply loop_keep; intro i s _; split_ifs <;> rfl
  have hZ : s2.Zs = s.Zs := by
    have h2 : s2.Zs = s1.Zs := by rw [hs2]; apply loop_keep; intro i s _; split_ifs <;> rfl
    have h1 : s1.Zs = s.Zs := by rw [hs1]; apply loop_keep; intro i s _; rfl
    rw [h2, h1]
  have hdu2 : s2.du = loop n (fun ii a => if ir ii ≠ -1 then
        upd (upd a (nv + (ir ii).toNat) (a (nv + (ir ii).toNat) + g ii)) (nv + ns + (ir ii).toNat)
          (upd a (nv + (ir ii).toNat) (a (nv + (ir ii).toNat) + g ii) (nv + ns + (ir ii).toNat) + g (n + ii))
      else a) s1.du := by
    rw [hs2]
    apply loop_proj (fun s : SlkSt K => s.du)
    intro i s _; split_ifs <;> rfl
  have hdu1 : s1.du = loop ns (fun idx a => upd (upd a (nv + idx) (rg (nv + idx) + g (2 * n + idx))) (nv + ns + idx)
        (rg (nv + ns + idx) + g (2 * n + ns + idx))) s.du := by
    rw [hs1]
    apply loop_proj (fun s : SlkSt K => s.du)
    intro i s _; rfl
  have hdu := du_part n ns nv ir rg g s.du hir s2.du (by rw [hdu2, hdu1])
  have ht : ∀ j, j < n →
      s4.t2 j = slkVt ir s2.Zs (fun i => s2.du (nv + i)) 0 (G j) (g j) j ∧
      s4.t3 j = slkVt ir s2.Zs (fun i => s2.du (nv + i)) ns (G (n + j)) (g (n + j)) j := by
    have := loop_inv (S := SlkSt K) (fun k s => s.Zs = s2.Zs ∧ s.du = s2.du ∧ ∀ j, j < k →
      s.t2 j = slkVt ir s2.Zs (fun i => s2.du (nv + i)) 0 (G j) (g j) j ∧
      s.t3 j = slkVt ir s2.Zs (fun i => s2.du (nv + i)) ns (G (n + j)) (g (n + j)) j) n
      (fun ii (s : SlkSt K) =>
        if ir ii ≠ -1 then
          { s with
            t2 := upd s.t2 ii (g ii - G ii * s.Zs (ir ii).toNat * s.du (nv + (ir ii).toNat))
            t3 := upd s.t3 ii (g (n + ii) - G (n + ii) * s.Zs (ns + (ir ii).toNat) * s.du (nv + ns + (ir ii).toNat)) }
        else { s with
            t2 := upd s.t2 ii (g ii)
            t3 := upd s.t3 ii (g (n + ii)) }) s2 ⟨rfl, rfl, fun j hj => by omega⟩ (by
        rintro k s hk ⟨h1, h2, h3⟩
        by_cases hc : ir k ≠ -1
        · rw [if_pos hc]
          refine ⟨h1, h2, fun j hj => ?_⟩
          by_cases hjk : j = k
          · subst hjk
            simp only [upd_same, slkVt, if_pos hc, h1, h2, zero_add, Nat.add_assoc]
            exact ⟨trivial, trivial⟩
          · simp only [upd_ne _ _ hjk]
            exact h3 j (by omega)
        · rw [if_neg hc]
          refine ⟨h1, h2, fun j hj => ?_⟩
          by_cases hjk : j = k
          · subst hjk
            simp only [upd_same, slkVt, if_neg hc]
            exact ⟨trivial, trivial⟩
          · simp only [upd_ne _ _ hjk]
            exact h3 j (by omega))
    exact this.2.2
  have hrd : r.du = s2.du := by rw [hr]; exact hdu4
  refine ⟨fun i hi => ?_, fun i hi => ?_, fun j hj => ?_⟩
  · rw [hrd, hdu.1 i hi]
  · rw [hrd, hdu.2 i hi]
  · rw [hrd, hr]
    show axpy n (-1) s4.t3 0 s4.t2 0 s4.t1 0 j = _
    rw [axpy_zero_in _ _ _ _ _ hj, (ht j hj).1, (ht j hj).2, hZ]; ring

/-- closed form of EXPAND_SLACKS -/
theorem expandSlacks_val (n ns nv : ℕ) (ir : ℕ → ℤ) (G Zs : Vec K) (du dt : Vec K)
    (hir : ∀ j, j < n → ir j = -1 ∨ (0 ≤ ir j ∧ (ir j).toNat < ns)) :
    let r := expandSlacks n ns nv ir G Zs (du, dt)
    (∀ i, i < 2 * ns → r.1 (nv + i) = -(Zs i) * (du (nv + i) +
      if i < ns then slkSum n ir (fun j => G j * dt j) i else slkSum n ir (fun j => G (n + j) * dt (n + j)) (i - ns))) ∧
    (∀ i, i < nv → r.1 i = du i) ∧
    (∀ j, j < n → r.2 j = dt j + if ir j ≠ -1 then r.1 (nv + (ir j).toNat) else 0) ∧
    (∀ j, j < n → r.2 (n + j) = dt (n + j) + if ir j ≠ -1 then r.1 (nv + ns + (ir j).toNat) else 0) ∧
    (∀ i, i < 2 * ns → r.2 (2 * n + i) = r.1 (nv + i)) := by
  intro r
  set s1 := loop n (fun ii (s : Vec K × Vec K) =>
    if ir ii ≠ -1 then
      (upd (upd s.1 (nv + (ir ii).toNat) (s.1 (nv + (ir ii).toNat) + G ii * s.2 ii)) (nv + ns + (ir ii).toNat)
        (upd s.1 (nv + (ir ii).toNat) (s.1 (nv + (ir ii).toNat) + G ii * s.2 ii) (nv + ns + (ir ii).toNat) + G (n + ii) * s.2 (n + ii)), s.2)
    else s) (du, dt) with hs1
  set body2 := fun idx (s : Vec K × Vec K) =>
    ((upd (upd s.1 (nv + idx) (-(Zs idx) * s.1 (nv + idx))) (nv + ns + idx) (-(Zs (ns + idx)) * upd s.1 (nv + idx) (-(Zs idx) * s.1 (nv + idx)) (nv + ns + idx))),
      upd (upd s.2 (2 * n + idx) ((upd (upd s.1 (nv + idx) (-(Zs idx) * s.1 (nv + idx))) (nv + ns + idx) (-(Zs (ns + idx)) * upd s.1 (nv + idx) (-(Zs idx) * s.1 (nv + idx)) (nv + ns + idx))) (nv + idx)))
        (2 * n + ns + idx) ((upd (upd s.1 (nv + idx) (-(Zs idx) * s.1 (nv + idx))) (nv + ns + idx) (-(Zs (ns + idx)) * upd s.1 (nv + idx) (-(Zs idx) * s.1 (nv + idx)) (nv + ns + idx))) (nv + ns + idx))) with hb2
  set s2 := loop ns body2 s1 with hs2
  set s3 := loop n (fun ii (s : Vec K × Vec K) =>
    if ir ii ≠ -1 then
      (s.1, upd (upd s.2 ii (s.2 ii + s.1 (nv + (ir ii).toNat))) (n + ii)
        (upd s.2 ii (s.2 ii + s.1 (nv + (ir ii).toNat)) (n + ii) + s.1 (nv + ns + (ir ii).toNat)))
    else s) s2 with hs3
  have hr : r = s3 := rfl
  have h12 : s1.2 = dt := by
    rw [hs1]
    exact (loop_keep (fun s : Vec K × Vec K => s.2) n _ (du, dt) (fun i s _ => by split_ifs <;> rfl))
  have h11 : s1.1 = loop n (fun ii a => if ir ii ≠ -1 then
        upd (upd a (nv + (ir ii).toNat) (a (nv + (ir ii).toNat) + (fun j => G j * dt j) ii)) (nv + ns + (ir ii).toNat)
          (upd a (nv + (ir ii).toNat) (a (nv + (ir ii).toNat) + (fun j => G j * dt j) ii) (nv + ns + (ir ii).toNat) + (fun j => G (n + j) * dt (n + j)) ii)
      else a) du := by
    have : ∀ k, k ≤ n → (loop k (fun ii (s : Vec K × Vec K) =>
      if ir ii ≠ -1 then
        (upd (upd s.1 (nv + (ir ii).toNat) (s.1 (nv + (ir ii).toNat) + G ii * s.2 ii)) (nv + ns + (ir ii).toNat)
          (upd s.1 (nv + (ir ii).toNat) (s.1 (nv + (ir ii).toNat) + G ii * s.2 ii) (nv + ns + (ir ii).toNat) + G (n + ii) * s.2 (n + ii)), s.2)
      else s) (du, dt)) = (loop k (fun ii a => if ir ii ≠ -1 then
        upd (upd a (nv + (ir ii).toNat) (a (nv + (ir ii).toNat) + (fun j => G j * dt j) ii)) (nv + ns + (ir ii).toNat)
          (upd a (nv + (ir ii).toNat) (a (nv + (ir ii).toNat) + (fun j => G j * dt j) ii) (nv + ns + (ir ii).toNat) + (fun j => G (n + j) * dt (n + j)) ii)
      else a) du, dt) := by
      intro k
      induction k with
      | zero => intro _; rfl
      | succ k ih =>
        intro hk
        rw [loop_succ, loop_succ, ih (by omega)]
        by_cases h : ir k ≠ -1
        · simp only [if_pos h]
        · simp only [if_neg h]
    rw [hs1, this n (le_refl _)]
  have h1v : ∀ i, i < 2 * ns → s1.1 (nv + i) = du (nv + i) +
      if i < ns then slkSum n ir (fun j => G j * dt j) i else slkSum n ir (fun j => G (n + j) * dt (n + j)) (i - ns) := by
    intro i hi
    rw [h11, acc2_val n nv (nv + ns) ir (fun j => G j * dt j) (fun j => G (n + j) * dt (n + j)), slkSum_shift]
    by_cases h : i < ns
    · rw [if_pos h, slkSum_none n ns ir _ (nv + ns) (nv + i) hir (by omega), add_zero]
    · obtain ⟨j, rfl⟩ := Nat.exists_eq_add_of_le (Nat.le_of_not_lt h)
      have e : slkSum n ir (fun j => G j * dt j) (ns + j) = 0 := by
        have := slkSum_none n ns ir (fun j => G j * dt j) 0 (ns + j) hir (by omega)
        simpa [slkSum] using this
      rw [if_neg h, e, Nat.add_sub_cancel_left, add_zero, ← Nat.add_assoc, slkSum_shift]
  have h1f : ∀ i, i < nv → s1.1 i = du i := by
    intro i hi
    rw [h11, acc2_val n nv (nv + ns) ir (fun j => G j * dt j) (fun j => G (n + j) * dt (n + j)),
      slkSum_none n ns ir _ nv i hir (by omega), slkSum_none n ns ir _ (nv + ns) i hir (by omega)]
    ring
  have h2 : ∀ k, k ≤ ns → (∀ i, i < 2 * ns → (loop k body2 s1).1 (nv + i) =
        if i < k ∨ (ns ≤ i ∧ i < ns + k) then -(Zs i) * s1.1 (nv + i) else s1.1 (nv + i)) ∧
      (∀ i, i < nv → (loop k body2 s1).1 i = s1.1 i) ∧
      (∀ i, i < 2 * ns → (i < k ∨ (ns ≤ i ∧ i < ns + k)) → (loop k body2 s1).2 (2 * n + i) = -(Zs i) * s1.1 (nv + i)) ∧
      (∀ j, j < 2 * n → (loop k body2 s1).2 j = s1.2 j) := by
    intro k
    induction k with
    | zero =>
      intro _
      refine ⟨fun i _ => ?_, fun i _ => rfl, fun i _ hc => by omega, fun j _ => rfl⟩
      rw [loop_zero, if_neg (by omega)]
    | succ k ih =>
      intro hk
      obtain ⟨i1, i2, i3, i4⟩ := ih (by omega)
      rw [loop_succ]
      set a := loop k body2 s1 with ha
      have ak : a.1 (nv + k) = s1.1 (nv + k) := by rw [i1 k (by omega), if_neg (by omega)]
      have ank : a.1 (nv + ns + k) = s1.1 (nv + (ns + k)) := by
        rw [Nat.add_assoc, i1 (ns + k) (by omega), if_neg (by omega)]
      have v1 : (body2 k a).1 (nv + ns + k) = -(Zs (ns + k)) * s1.1 (nv + (ns + k)) := by
        simp only [hb2]
        rw [upd_same, upd_ne _ _ (by omega), ank]
      have v2 : (body2 k a).1 (nv + k) = -(Zs k) * s1.1 (nv + k) := by
        simp only [hb2]
        rw [upd_ne _ _ (by omega), upd_same, ak]
      have v3 : ∀ i, i ≠ nv + k → i ≠ nv + ns + k → (body2 k a).1 i = a.1 i := by
        intro i h1 h2
        simp only [hb2]
        rw [upd_ne _ _ h2, upd_ne _ _ h1]
      have w1 : (body2 k a).2 (2 * n + ns + k) = (body2 k a).1 (nv + ns + k) := by
        simp only [hb2]
        rw [upd_same]
      have w2 : (body2 k a).2 (2 * n + k) = (body2 k a).1 (nv + k) := by
        simp only [hb2]
        rw [upd_ne _ _ (by omega), upd_same]
      have w3 : ∀ i, i ≠ 2 * n + k → i ≠ 2 * n + ns + k → (body2 k a).2 i = a.2 i := by
        intro i h1 h2
        simp only [hb2]
        rw [upd_ne _ _ h2, upd_ne _ _ h1]
      refine ⟨fun i hi => ?_, fun i hi => ?_, fun i hi hc => ?_, fun j hj => ?_⟩
      · by_cases h1 : i = k
        · subst h1; rw [v2, if_pos (by omega)]
        · by_cases h2 : i = ns + k
          · subst h2; rw [← Nat.add_assoc, v1, if_pos (by omega), ← Nat.add_assoc]
          · rw [v3 _ (by omega) (by omega), i1 i hi]
            by_cases h3 : i < k ∨ (ns ≤ i ∧ i < ns + k)
            · rw [if_pos h3, if_pos (by omega)]
            · rw [if_neg h3, if_neg (by omega)]
      · rw [v3 _ (by omega) (by omega), i2 i hi]
      · by_cases h1 : i = k
        · subst h1; rw [w2, v2]
        · by_cases h2 : i = ns + k
          · subst h2; rw [← Nat.add_assoc, w1, v1]
          · rw [w3 _ (by omega) (by omega), i3 i hi (by omega)]
      · rw [w3 _ (by omega) (by omega), i4 j hj]
  obtain ⟨i1, i2, i3, i4⟩ := h2 ns (le_refl _)
  rw [← hs2] at i1 i2 i3 i4
  have h31 : s3.1 = s2.1 := by
    rw [hs3]
    exact (loop_keep (fun s : Vec K × Vec K => s.1) n _ s2 (fun i s _ => by split_ifs <;> rfl))
  have h3 : ∀ k, k ≤ n → ∀ b : Vec K × Vec K, b = loop k (fun ii (s : Vec K × Vec K) =>
      if ir ii ≠ -1 then
        (s.1, upd (upd s.2 ii (s.2 ii + s.1 (nv + (ir ii).toNat))) (n + ii)
          (upd s.2 ii (s.2 ii + s.1 (nv + (ir ii).toNat)) (n + ii) + s.1 (nv + ns + (ir ii).toNat)))
      else s) s2 → b.1 = s2.1 ∧
      (∀ j, j < n → b.2 j = if j < k then s2.2 j + (if ir j ≠ -1 then s2.1 (nv + (ir j).toNat) else 0) else s2.2 j) ∧
      (∀ j, j < n → b.2 (n + j) = if j < k then s2.2 (n + j) + (if ir j ≠ -1 then s2.1 (nv + ns + (ir j).toNat) else 0) else s2.2 (n + j)) ∧
      (∀ i, b.2 (2 * n + i) = s2.2 (2 * n + i)) := by
    intro k
    induction k with
    | zero =>
      intro _ b hb
      rw [loop_zero] at hb
      subst hb
      refine ⟨rfl, fun j _ => ?_, fun j _ => ?_, fun i => rfl⟩ <;> simp
    | succ k ih =>
      intro hk b hb
      rw [loop_succ] at hb
      obtain ⟨j0, j1, j2, j3⟩ := ih (by omega) _ rfl
      set a := loop k (fun ii (s : Vec K × Vec K) =>
        if ir ii ≠ -1 then
          (s.1, upd (upd s.2 ii (s.2 ii + s.1 (nv + (ir ii).toNat))) (n + ii)
            (upd s.2 ii (s.2 ii + s.1 (nv + (ir ii).toNat)) (n + ii) + s.1 (nv + ns + (ir ii).toNat)))
        else s) s2 with ha
      by_cases hc : ir k ≠ -1
      · rw [if_pos hc] at hb
        subst hb
        refine ⟨j0, fun j hj => ?_, fun j hj => ?_, fun i => ?_⟩
        · show upd (upd a.2 k _) (n + k) _ j = _
          rw [upd_ne _ _ (by omega)]
          by_cases hjk : j = k
          · subst hjk
            rw [upd_same, j1 j hj, if_neg (by omega), if_pos (by omega), if_pos hc, j0]
          · rw [upd_ne _ _ hjk, j1 j hj]
            by_cases h' : j < k
            · rw [if_pos h', if_pos (by omega : j < k + 1)]
            · rw [if_neg h', if_neg (by omega : ¬ j < k + 1)]
        · show upd (upd a.2 k _) (n + k) _ (n + j) = _
          by_cases hjk : j = k
          · subst hjk
            rw [upd_same, upd_ne _ _ (by omega), j2 j hj, if_neg (by omega), if_pos (by omega), if_pos hc, j0]
          · rw [upd_ne _ _ (by omega), upd_ne _ _ (by omega), j2 j hj]
            by_cases h' : j < k
            · rw [if_pos h', if_pos (by omega : j < k + 1)]
            · rw [if_neg h', if_neg (by omega : ¬ j < k + 1)]
        · show upd (upd a.2 k _) (n + k) _ (2 * n + i) = _
          rw [upd_ne _ _ (by omega), upd_ne _ _ (by omega), j3 i]
      · rw [if_neg hc] at hb
        subst hb
        refine ⟨j0, fun j hj => ?_, fun j hj => ?_, j3⟩
        · by_cases hjk : j = k
          · subst hjk
            rw [j1 j hj, if_neg (by omega), if_pos (by omega), if_neg hc, add_zero]
          · rw [j1 j hj]
            by_cases h' : j < k
            · rw [if_pos h', if_pos (by omega : j < k + 1)]
            · rw [if_neg h', if_neg (by omega : ¬ j < k + 1)]
        · by_cases hjk : j = k
          · subst hjk
            rw [j2 j hj, if_neg (by omega), if_pos (by omega), if_neg hc, add_zero]
          · rw [j2 j hj]
            by_cases h' : j < k
            · rw [if_pos h', if_pos (by omega : j < k + 1)]
            · rw [if_neg h', if_neg (by omega : ¬ j < k + 1)]
  obtain ⟨_, k1, k2, k3⟩ := h3 n (le_refl _) s3 hs3
  rw [hr]
  refine ⟨fun i hi => ?_, fun i hi => ?_, fun j hj => ?_, fun j hj => ?_, fun i hi => ?_⟩
  · rw [h31, i1 i hi, if_pos (by omega), h1v i hi]
  · rw [h31, i2 i hi, h1f i hi]
  · rw [k1 j hj, if_pos hj, i4 j (by omega), h12, h31]
  · rw [k2 j hj, if_pos hj, i4 (n + j) (by omega), h12, h31]
  · rw [k3 i, i3 i hi (by omega), h31, i1 i hi, if_pos (by omega)]

end
end Hpipm
