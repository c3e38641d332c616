/-
Model of auxiliary/aux_string.c and auxiliary/aux_mem.c.
-/
import Verif.Blas

namespace Hpipm

/-! ### hpipm_strcmp, auxiliary/aux_string.c:37-45 -/

/-- The while loop of hpipm_strcmp (auxiliary/aux_string.c:39-41) on two memories of characters,
with a bound on the number of iterations; `none` means the bound was hit.  Returns the final `i`. -/
def strcmpLoop (s t : ℕ → ℕ) : ℕ → ℕ → Option ℕ
  | 0, _ => none
  | f + 1, i => if s i = t i ∧ s i ≠ 0 then strcmpLoop s t f (i + 1) else some i

/-- hpipm_strcmp, auxiliary/aux_string.c:37-45: 0 if the characters at the final index differ,
1 otherwise. -/
def strcmp (s t : ℕ → ℕ) (fuel : ℕ) : Option ℕ :=
  (strcmpLoop s t fuel 0).map fun i => if s i > t i ∨ s i < t i then 0 else 1

/-! ### hpipm_zero_memset, auxiliary/aux_mem.c:48-94 (portable branch) -/

/-- storing the double 0.0 at double index `i` of `base`: eight zero bytes -/
def storeZeroDouble (base i : ℕ) (mem : ℕ → ℕ) : ℕ → ℕ :=
  fun a => if base + 8 * i ≤ a ∧ a < base + 8 * i + 8 then 0 else mem a

/-- auxiliary/aux_mem.c:68-80: `for(; ii<memsize_m8-7; ii+=8)` with eight stores per turn. -/
def memsetBlock (base m8 : ℕ) (ii : ℕ) (mem : ℕ → ℕ) : ℕ × (ℕ → ℕ) :=
  if ii < m8 - 7 then
    memsetBlock base m8 (ii + 8)
      (storeZeroDouble base (ii + 7) <| storeZeroDouble base (ii + 6) <|
       storeZeroDouble base (ii + 5) <| storeZeroDouble base (ii + 4) <|
       storeZeroDouble base (ii + 3) <| storeZeroDouble base (ii + 2) <|
       storeZeroDouble base (ii + 1) <| storeZeroDouble base (ii + 0) mem)
  else (ii, mem)
termination_by m8 - ii

/-- auxiliary/aux_mem.c:83-86: `for(; ii<memsize_m8; ii++)`. -/
def memsetTail (base m8 : ℕ) (ii : ℕ) (mem : ℕ → ℕ) : ℕ × (ℕ → ℕ) :=
  if ii < m8 then memsetTail base m8 (ii + 1) (storeZeroDouble base ii mem) else (ii, mem)
termination_by m8 - ii

/-- hpipm_zero_memset, auxiliary/aux_mem.c:48-94. -/
def zeroMemset (memsize base : ℕ) (mem : ℕ → ℕ) : ℕ → ℕ :=
  let m8 := memsize / 8
  let r8 := memsize % 8
  let st := if m8 > 7 then memsetBlock base m8 0 mem else (0, mem)
  let st2 := memsetTail base m8 st.1 st.2
  let cptr := base + 8 * st2.1
  loop r8 (fun ii m => upd m (cptr + ii) 0) st2.2

end Hpipm
