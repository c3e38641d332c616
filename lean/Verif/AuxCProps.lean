/-
Properties C06 (zero_memset) and C49 (string comparison).
-/
import Verif.AuxC

namespace Hpipm

/-- `mem` holds, from address 0, the zero-terminated string with characters `cs`; what follows the
terminator is arbitrary. -/
def HoldsStr (mem : ℕ → ℕ) (cs : List ℕ) : Prop :=
  (∀ i (h : i < cs.length), mem i = cs[i]) ∧ mem cs.length = 0 ∧ ∀ c ∈ cs, c ≠ 0

theorem HoldsStr.ne_zero {mem cs} (h : HoldsStr mem cs) {i : ℕ} (hi : i < cs.length) : mem i ≠ 0 := by
  rw [h.1 i hi]; exact h.2.2 _ (List.getElem_mem hi)

theorem strcmpLoop_spec {s t : ℕ → ℕ} {a b : List ℕ} (hs : HoldsStr s a) (ht : HoldsStr t b)
    (fuel i : ℕ) (hfuel : a.length < fuel + i) (hia : i ≤ a.length) (hib : i ≤ b.length)
    (hpre : ∀ j < i, s j = t j) :
    ∃ r, strcmpLoop s t fuel i = some r ∧ r ≤ a.length ∧ r ≤ b.length ∧
      (∀ j < r, s j = t j) ∧ ¬ (s r = t r ∧ s r ≠ 0) := by
  induction fuel generalizing i with
  | zero => omega
  | succ f ih =>
    unfold strcmpLoop
    by_cases h : s i = t i ∧ s i ≠ 0
    · rw [if_pos h]
      have h1 : i ≠ a.length := by rintro rfl; exact h.2 hs.2.1
      have h2 : i ≠ b.length := by rintro rfl; exact h.2 (h.1.trans ht.2.1)
      refine ih (i + 1) (by omega) (by omega) (by omega) ?_
      intro j hj
      rcases Nat.lt_succ_iff_lt_or_eq.mp hj with hj | rfl
      · exact hpre j hj
      · exact h.1
    · rw [if_neg h]
      exact ⟨i, rfl, hia, hib, hpre, h⟩

/-- **C49.**  On any two zero-terminated strings the comparison terminates (any iteration bound above
the first length is enough), returns 1 exactly when the strings are equal and 0 otherwise. -/
theorem strcmp_eq_iff {s t : ℕ → ℕ} {a b : List ℕ} (hs : HoldsStr s a) (ht : HoldsStr t b)
    {fuel : ℕ} (hf : a.length < fuel) : strcmp s t fuel = some (if a = b then 1 else 0) := by
  obtain ⟨r, hr, hra, hrb, hpre, hstop⟩ :=
    strcmpLoop_spec hs ht fuel 0 (by omega) (by omega) (by omega) (by omega)
  simp only [strcmp, hr, Option.map_some]
  by_cases hab : a = b
  · subst hab
    have hst : s r = t r := by
      rcases Nat.lt_or_eq_of_le hra with h | h
      · rw [hs.1 r h, ht.1 r h]
      · rw [h, hs.2.1, ht.2.1]
    simp [hst]
  · have hne : s r ≠ t r := by
      intro heq
      have h0 : s r = 0 := by by_contra h0; exact hstop ⟨heq, h0⟩
      have ha : r = a.length := by
        rcases Nat.lt_or_eq_of_le hra with h | h
        · exact absurd h0 (hs.ne_zero h)
        · exact h
      have hb : r = b.length := by
        rcases Nat.lt_or_eq_of_le hrb with h | h
        · exact absurd (heq ▸ h0) (ht.ne_zero h)
        · exact h
      apply hab
      apply List.ext_getElem (by omega)
      intro i h1 h2
      rw [← hs.1 i h1, ← ht.1 i h2]
      exact hpre i (by omega)
    simp [hab, lt_or_gt_of_ne hne.symm]

/-- **C49 (no overrun).**  The final (largest) index read is inside both strings including their
terminators, so characters after a terminator never matter. -/
theorem strcmp_no_overrun {s t : ℕ → ℕ} {a b : List ℕ} (hs : HoldsStr s a) (ht : HoldsStr t b)
    {fuel : ℕ} (hf : a.length < fuel) :
    ∃ r, strcmpLoop s t fuel 0 = some r ∧ r ≤ a.length ∧ r ≤ b.length := by
  obtain ⟨r, hr, hra, hrb, _⟩ :=
    strcmpLoop_spec hs ht fuel 0 (by omega) (by omega) (by omega) (by omega)
  exact ⟨r, hr, hra, hrb⟩

/-- "nx" against "nx" and against "nxe", with garbage after the terminators -/
example : HoldsStr (fun i => [110, 120, 0, 7].getD i 9) [110, 120] ∧
    HoldsStr (fun i => [110, 120, 101, 0].getD i 3) [110, 120, 101] := by
  refine ⟨⟨?_, rfl, by decide⟩, ⟨?_, rfl, by decide⟩⟩ <;>
    (intro i hi; simp at hi; interval_cases i <;> rfl)

/-! ### zero_memset -/

theorem memsetBlock_spec (base m8 : ℕ) (mem0 : ℕ → ℕ) (hm : 7 < m8) :
    ∀ ii mem, ii ≤ m8 → (∀ a, mem a = if base ≤ a ∧ a < base + 8 * ii then 0 else mem0 a) →
      (memsetBlock base m8 ii mem).1 ≤ m8 ∧
      ∀ a, (memsetBlock base m8 ii mem).2 a =
        if base ≤ a ∧ a < base + 8 * (memsetBlock base m8 ii mem).1 then 0 else mem0 a := by
  intro ii mem hii hmem
  induction ii, mem using memsetBlock.induct (base := base) (m8 := m8) with
  | case1 ii mem h ih =>
    rw [memsetBlock, if_pos h]
    apply ih (by omega)
    intro a
    simp only [storeZeroDouble, hmem]
    by_cases h1 : base ≤ a ∧ a < base + 8 * (ii + 8)
    · rw [if_pos h1]
      split_ifs <;> first | rfl | omega
    · rw [if_neg h1]
      split_ifs <;> first | rfl | omega
  | case2 ii mem h =>
    rw [memsetBlock, if_neg h]
    exact ⟨hii, hmem⟩

theorem memsetTail_spec (base m8 : ℕ) (mem0 : ℕ → ℕ) :
    ∀ ii mem, ii ≤ m8 → (∀ a, mem a = if base ≤ a ∧ a < base + 8 * ii then 0 else mem0 a) →
      (memsetTail base m8 ii mem).1 = m8 ∧
      ∀ a, (memsetTail base m8 ii mem).2 a = if base ≤ a ∧ a < base + 8 * m8 then 0 else mem0 a := by
  intro ii mem hii hmem
  induction ii, mem using memsetTail.induct (base := base) (m8 := m8) with
  | case1 ii mem h ih =>
    rw [memsetTail, if_pos h]
    apply ih (by omega)
    intro a
    simp only [storeZeroDouble, hmem]
    split_ifs <;> first | rfl | omega
  | case2 ii mem h =>
    rw [memsetTail, if_neg h]
    have : ii = m8 := by omega
    subst this
    exact ⟨rfl, hmem⟩

/-- **C06.**  zero_memset sets the bytes of `[base, base+memsize)` to zero and no other byte. -/
theorem zeroMemset_spec (memsize base : ℕ) (mem : ℕ → ℕ) (a : ℕ) :
    zeroMemset memsize base mem a = if base ≤ a ∧ a < base + memsize then 0 else mem a := by
  set m8 := memsize / 8 with hm8
  have hst : (if m8 > 7 then memsetBlock base m8 0 mem else (0, mem)).1 ≤ m8 ∧
      ∀ a, (if m8 > 7 then memsetBlock base m8 0 mem else (0, mem)).2 a =
        if base ≤ a ∧ a < base + 8 * (if m8 > 7 then memsetBlock base m8 0 mem else (0, mem)).1
          then 0 else mem a := by
    by_cases h : m8 > 7
    · simp only [h, if_true]
      exact memsetBlock_spec base m8 mem h 0 mem (by omega) (by intro a; rw [if_neg]; omega)
    · simp only [h, if_false]
      exact ⟨by omega, fun a => by rw [if_neg]; omega⟩
  have h2 := memsetTail_spec base m8 mem _ _ hst.1 hst.2
  unfold zeroMemset
  simp only [← hm8]
  rw [h2.1]
  have := loop_inv (S := ℕ → ℕ)
    (fun i m => ∀ a, m a = if base ≤ a ∧ a < base + 8 * m8 + i then 0 else mem a)
    (memsize % 8) (fun ii m => upd m (base + 8 * m8 + ii) 0)
    (memsetTail base m8 (if m8 > 7 then memsetBlock base m8 0 mem else (0, mem)).1
      (if m8 > 7 then memsetBlock base m8 0 mem else (0, mem)).2).2
    (by simpa using h2.2) (by
      intro i s hi hs a
      unfold upd
      rw [hs a]
      split_ifs <;> first | rfl | omega)
  rw [this a]
  have : 8 * m8 + memsize % 8 = memsize := by omega
  rw [show base + 8 * m8 + memsize % 8 = base + memsize by omega]

example : zeroMemset 75 100 (fun _ => 255) 174 = 0 ∧ zeroMemset 75 100 (fun _ => 255) 175 = 255 := by
  constructor <;> rw [zeroMemset_spec] <;> decide

end Hpipm
