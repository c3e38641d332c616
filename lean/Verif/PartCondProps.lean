/-
Properties C41, C42 (condensing block sizes and dimensions) and C37 (dimensions after the removal of
fixed variables).
-/
import Verif.PartCond

namespace Hpipm
open Finset

theorem loopFrom_self {S : Type*} (a : ℕ) (body : ℕ → S → S) (s : S) : loopFrom a a body s = s := by
  simp [loopFrom]

theorem loopFrom_inv {S : Type*} (P : ℕ → S → Prop) {a b : ℕ} (hab : a ≤ b) (body : ℕ → S → S) (s : S)
    (h0 : P a s) (hs : ∀ i s, a ≤ i → i < b → P i s → P (i + 1) (body i s)) :
    P b (loopFrom a b body s) := by
  have := loop_inv (fun k s => P (a + k) s) (b - a) (fun k s => body (a + k) s) s (by simpa using h0)
    (fun i s hi h => hs (a + i) s (by omega) (by omega) h)
  rw [show a + (b - a) = b by omega] at this
  exact this

theorem loopFrom_upd {α : Type*} {a b : ℕ} (hab : a ≤ b) (v : α) (f : ℕ → α) :
    ∀ j, loopFrom a b (fun ii f => upd f ii v) f j = if a ≤ j ∧ j < b then v else f j := by
  refine loopFrom_inv (S := ℕ → α) (fun i g => ∀ j, g j = if a ≤ j ∧ j < i then v else f j) hab _ f
    ?_ ?_
  · intro j; rw [if_neg (by omega)]
  · intro i g h1 h2 h j
    by_cases hj : j = i
    · subst hj; simp [h1]
    · rw [upd_ne _ _ hj, h]; congr 1; apply propext; omega

/-- **C41.**  Block sizes: whenever the number of blocks is positive (or both are zero), the block
sizes are computed, they sum up to the horizon, the last one is zero, the others are the floor or the
ceiling of `N/N2`, larger blocks first; nothing past index `N2` is written. -/
theorem blockSize_spec {N N2 : ℕ} (h : N2 = 0 → N = 0) (bs : ℕ → ℕ) :
    ∃ r, computeBlockSize N N2 bs = some r ∧ r N2 = 0 ∧ ∑ i ∈ range (N2 + 1), r i = N ∧
      (∀ i, i < N2 → r i = N / N2 ∨ r i = N / N2 + 1) ∧
      (∀ i j, i < j → j < N2 → r j ≤ r i) ∧ (∀ i, N2 < i → r i = bs i) := by
  unfold computeBlockSize
  by_cases h0 : N2 = 0
  · have hN := h h0
    subst h0 hN
    refine ⟨upd bs 0 0, by simp, by simp, by simp, by simp, by simp, ?_⟩
    intro i hi; exact upd_ne _ _ (by omega)
  · rw [if_neg (by tauto), if_neg h0]
    have hdiv : N = N2 * (N / N2) + N % N2 := (Nat.div_add_mod N N2).symm
    have hmod : N % N2 < N2 := Nat.mod_lt _ (by omega)
    have hr : N - N2 * (N / N2) = N % N2 := by omega
    have hval : ∀ i, upd (loopFrom (N - N2 * (N / N2)) N2 (fun ii bs => upd bs ii (N / N2))
        (loopFrom 0 (N - N2 * (N / N2)) (fun ii bs => upd bs ii (N / N2 + 1)) bs)) N2 0 i =
        if i = N2 then 0 else if i < N % N2 then N / N2 + 1 else if i < N2 then N / N2 else bs i := by
      intro i
      rw [hr]
      unfold upd
      split_ifs with h1 h2 h3
      · rfl
      · rw [show (loopFrom (N % N2) N2 (fun ii bs => fun j => if j = ii then N / N2 else bs j) _) =
          loopFrom (N % N2) N2 (fun ii bs => upd bs ii (N / N2)) _ from rfl]
        rw [loopFrom_upd (by omega), if_neg (by omega)]
        exact (loopFrom_upd (Nat.zero_le _) (N / N2 + 1) bs i).trans (if_pos (by omega))
      · exact (loopFrom_upd (by omega : N % N2 ≤ N2) (N / N2) _ i).trans (if_pos (by omega))
      · refine (loopFrom_upd (by omega : N % N2 ≤ N2) (N / N2) _ i).trans ?_
        rw [if_neg (by omega)]
        exact (loopFrom_upd (Nat.zero_le _) (N / N2 + 1) bs i).trans (if_neg (by omega))
    refine ⟨_, rfl, ?_, ?_, ?_, ?_, ?_⟩
    · rw [hval]; simp
    · have hsum : ∀ m, m ≤ N2 → ∑ i ∈ range m, (if i = N2 then 0 else if i < N % N2 then N / N2 + 1 else
          if i < N2 then N / N2 else bs i) = m * (N / N2) + min m (N % N2) := by
        intro m
        induction m with
        | zero => simp
        | succ m ih =>
          intro hm
          rw [sum_range_succ, ih (by omega), if_neg (by omega)]
          have : (m + 1) * (N / N2) = m * (N / N2) + N / N2 := by ring
          split_ifs <;> omega
      simp only [hval]
      rw [sum_range_succ, hsum N2 (le_refl _), if_pos rfl, Nat.min_eq_right (by omega)]
      omega
    · intro i hi; rw [hval, if_neg (by omega)]; split_ifs <;> simp
    · intro i j hij hj
      rw [hval, hval, if_neg (show ¬ j = N2 by omega), if_neg (show ¬ i = N2 by omega)]
      split_ifs <;> omega
    · intro i hi; rw [hval, if_neg (by omega), if_neg (by omega), if_neg (by omega)]

/-- horizon 7 in 3 blocks: 3,2,2,0 -/
example : ∃ r, computeBlockSize 7 3 (fun _ => 9) = some r ∧ r 0 = 3 ∧ r 1 = 2 ∧ r 2 = 2 ∧ r 3 = 0 :=
  ⟨_, rfl, by decide, by decide, by decide, by decide⟩

/-- the code divides by zero for zero blocks and a positive horizon -/
theorem blockSize_undefined {N : ℕ} (h : 0 < N) (bs : ℕ → ℕ) : computeBlockSize N 0 bs = none := by
  unfold computeBlockSize
  rw [if_neg (by omega), if_pos rfl]

/-- effect of condensing one block -/
theorem pcStage_spec (d : Dims) (o len ii : ℕ) (p : Dims) (hlen : 1 ≤ len) :
    let r := pcStage d o len ii p
    r.N = p.N ∧ r.nx = upd p.nx ii (d.nx o) ∧ r.nbx = upd p.nbx ii (d.nbx o) ∧
    r.nu = upd p.nu ii (∑ k ∈ range len, d.nu (o + k)) ∧
    r.nbu = upd p.nbu ii (∑ k ∈ range len, d.nbu (o + k)) ∧
    r.nb = upd p.nb ii (d.nb o + ∑ k ∈ range (len - 1), d.nbu (o + (k + 1))) ∧
    r.ng = upd p.ng ii (d.ng o + ∑ k ∈ range (len - 1), (d.ng (o + (k + 1)) + d.nbx (o + (k + 1)))) ∧
    r.ns = upd p.ns ii (∑ k ∈ range len, d.ns (o + k)) := by
  have hup : ∀ {α : Type} (f : ℕ → α) (v w : α), upd (upd f ii v) ii w = upd f ii w := by
    intro α f v w; funext j; simp only [upd]; split_ifs <;> rfl
  unfold pcStage
  refine loopFrom_inv (S := Dims) (fun m r => r.N = p.N ∧ r.nx = upd p.nx ii (d.nx o) ∧
    r.nbx = upd p.nbx ii (d.nbx o) ∧
    r.nu = upd p.nu ii (∑ k ∈ range m, d.nu (o + k)) ∧
    r.nbu = upd p.nbu ii (∑ k ∈ range m, d.nbu (o + k)) ∧
    r.nb = upd p.nb ii (d.nb o + ∑ k ∈ range (m - 1), d.nbu (o + (k + 1))) ∧
    r.ng = upd p.ng ii (d.ng o + ∑ k ∈ range (m - 1), (d.ng (o + (k + 1)) + d.nbx (o + (k + 1)))) ∧
    r.ns = upd p.ns ii (∑ k ∈ range m, d.ns (o + k))) hlen _ _ ?_ ?_
  · simp
  · rintro m r h1 h2 ⟨a1, a2, a3, a4, a5, a6, a7, a8⟩
    obtain ⟨q, rfl⟩ : ∃ q, m = q + 1 := ⟨m - 1, by omega⟩
    rw [Nat.add_sub_cancel] at a6 a7
    refine ⟨a1, a2, a3, ?_, ?_, ?_, ?_, ?_⟩
    · simp only [a4, upd_same, hup, sum_range_succ]
    · simp only [a5, upd_same, hup, sum_range_succ]
    · simp only [a6, upd_same, hup, Nat.add_sub_cancel, sum_range_succ]; rw [Nat.add_assoc]
    · simp only [a7, upd_same, hup, Nat.add_sub_cancel, sum_range_succ]; rw [Nat.add_assoc]
    · simp only [a8, upd_same, hup, sum_range_succ]

/-- offset of block `i` -/
def blkOff (bs : ℕ → ℕ) (i : ℕ) : ℕ := ∑ k ∈ range i, bs k

/-- the dimensions computed for partial condensing, stage by stage -/
theorem partCondDim_spec (d : Dims) (bs : ℕ → ℕ) (p : Dims) (hbs : ∀ i, i < p.N → 1 ≤ bs i) :
    let r := partCondDim d bs p
    let len := fun i => if i = p.N then bs i + 1 else bs i
    r.N = p.N ∧ ∀ i, i ≤ p.N →
      r.nx i = d.nx (blkOff bs i) ∧ r.nbx i = d.nbx (blkOff bs i) ∧
      r.nu i = ∑ k ∈ range (len i), d.nu (blkOff bs i + k) ∧
      r.nbu i = ∑ k ∈ range (len i), d.nbu (blkOff bs i + k) ∧
      r.nb i = d.nb (blkOff bs i) + ∑ k ∈ range (len i - 1), d.nbu (blkOff bs i + (k + 1)) ∧
      r.ng i = d.ng (blkOff bs i) + ∑ k ∈ range (len i - 1),
        (d.ng (blkOff bs i + (k + 1)) + d.nbx (blkOff bs i + (k + 1))) ∧
      r.ns i = ∑ k ∈ range (len i), d.ns (blkOff bs i + k) := by
  intro r len
  let Q : ℕ → Dims → Prop := fun i r =>
      r.nx i = d.nx (blkOff bs i) ∧ r.nbx i = d.nbx (blkOff bs i) ∧
      r.nu i = ∑ k ∈ range (len i), d.nu (blkOff bs i + k) ∧
      r.nbu i = ∑ k ∈ range (len i), d.nbu (blkOff bs i + k) ∧
      r.nb i = d.nb (blkOff bs i) + ∑ k ∈ range (len i - 1), d.nbu (blkOff bs i + (k + 1)) ∧
      r.ng i = d.ng (blkOff bs i) + ∑ k ∈ range (len i - 1),
        (d.ng (blkOff bs i + (k + 1)) + d.nbx (blkOff bs i + (k + 1))) ∧
      r.ns i = ∑ k ∈ range (len i), d.ns (blkOff bs i + k)
  have step : ∀ ii (s : Dims), 1 ≤ len ii → s.N = p.N → (∀ i, i < ii → Q i s) →
      (pcStage d (blkOff bs ii) (len ii) ii s).N = p.N ∧
      ∀ i, i < ii + 1 → Q i (pcStage d (blkOff bs ii) (len ii) ii s) := by
    intro ii s hl hN hQ
    obtain ⟨b1, b2, b3, b4, b5, b6, b7, b8⟩ := pcStage_spec d (blkOff bs ii) (len ii) ii s hl
    refine ⟨b1.trans hN, ?_⟩
    intro i hi
    show _ ∧ _
    rw [b2, b3, b4, b5, b6, b7, b8]
    by_cases h : i = ii
    · subst h; simp
    · simp only [upd_ne _ _ h]; exact hQ i (by omega)
  have hloop : ∀ n, n ≤ p.N → let q := loop n (fun ii (s : ℕ × Dims) =>
        (s.1 + bs ii, pcStage d s.1 (bs ii) ii s.2)) (0, p)
      q.1 = blkOff bs n ∧ q.2.N = p.N ∧ ∀ i, i < n → Q i q.2 := by
    intro n
    induction n with
    | zero => intro _; exact ⟨by simp [blkOff], rfl, by omega⟩
    | succ n ih =>
      intro hn
      obtain ⟨c1, c2, c3⟩ := ih (by omega)
      rw [loop_succ]
      simp only
      have hl : len n = bs n := if_neg (by omega)
      have := step n _ (by rw [hl]; exact hbs n (by omega)) c2 c3
      rw [hl] at this
      rw [c1]
      refine ⟨by simp [blkOff, sum_range_succ], this.1, this.2⟩
  obtain ⟨c1, c2, c3⟩ := hloop p.N (le_refl _)
  have hl : len p.N = bs p.N + 1 := if_pos rfl
  have hfin := step p.N _ (by rw [hl]; omega) c2 c3
  rw [hl, ← c1] at hfin
  exact ⟨hfin.1, fun i hi => hfin.2 i (by omega)⟩

theorem sum_blocks (f : ℕ → ℕ) (bs : ℕ → ℕ) (n : ℕ) :
    ∑ i ∈ range n, ∑ k ∈ range (bs i), f (blkOff bs i + k) = ∑ k ∈ range (blkOff bs n), f k := by
  induction n with
  | zero => simp [blkOff]
  | succ n ih =>
    rw [sum_range_succ, ih, show blkOff bs (n + 1) = blkOff bs n + bs n by simp [blkOff, sum_range_succ],
      sum_range_add]

theorem sum_blocks_last (f : ℕ → ℕ) (bs : ℕ → ℕ) (n N : ℕ) (hsum : ∑ i ∈ range (n + 1), bs i = N) :
    ∑ i ∈ range (n + 1), ∑ k ∈ range (if i = n then bs i + 1 else bs i), f (blkOff bs i + k) =
      ∑ k ∈ range (N + 1), f k := by
  rw [sum_range_succ, if_pos rfl]
  have : ∑ i ∈ range n, ∑ k ∈ range (if i = n then bs i + 1 else bs i), f (blkOff bs i + k) =
      ∑ k ∈ range (blkOff bs n), f k := by
    rw [← sum_blocks]
    apply sum_congr rfl
    intro i hi
    rw [if_neg (by simp at hi; omega)]
  have hN : N + 1 = blkOff bs n + (bs n + 1) := by
    rw [← hsum, sum_range_succ, blkOff]; omega
  rw [this, hN, sum_range_add f (blkOff bs n)]

/-- **C42 (partial condensing).**  If every block but the last has at least one stage and the block
sizes sum up to the horizon, the partially condensed dimensions contain, over all stages, exactly the
inputs, slacks and inequality constraints of the original problem, and the box constraint count is
consistent at every stage. -/
theorem partCondDim_conserves (d : Dims) (bs : ℕ → ℕ) (p : Dims) (hbs : ∀ i, i < p.N → 1 ≤ bs i)
    (hsum : ∑ i ∈ range (p.N + 1), bs i = d.N) (hnb : ∀ k, k ≤ d.N → d.nb k = d.nbx k + d.nbu k) :
    let r := partCondDim d bs p
    ∑ i ∈ range (p.N + 1), r.nu i = ∑ k ∈ range (d.N + 1), d.nu k ∧
    ∑ i ∈ range (p.N + 1), r.ns i = ∑ k ∈ range (d.N + 1), d.ns k ∧
    ∑ i ∈ range (p.N + 1), r.nbu i = ∑ k ∈ range (d.N + 1), d.nbu k ∧
    ∑ i ∈ range (p.N + 1), (r.nb i + r.ng i) = ∑ k ∈ range (d.N + 1), (d.nb k + d.ng k) ∧
    (∀ i, i ≤ p.N → r.nb i = r.nbx i + r.nbu i) ∧ r.nx 0 = d.nx 0 := by
  intro r
  obtain ⟨hN, hst⟩ := partCondDim_spec d bs p hbs
  have hle : ∀ i, i ≤ p.N → ∀ k, k < (if i = p.N then bs i + 1 else bs i) → blkOff bs i + k ≤ d.N := by
    intro i hi k hk
    have : blkOff bs (p.N + 1) = d.N := hsum
    split_ifs at hk with h
    · subst h
      have : blkOff bs (p.N + 1) = blkOff bs p.N + bs p.N := by simp [blkOff, sum_range_succ]
      omega
    · have h1 : blkOff bs (i + 1) ≤ blkOff bs (p.N + 1) :=
        sum_le_sum_of_subset (by intro x hx; simp at hx ⊢; omega)
      have : blkOff bs (i + 1) = blkOff bs i + bs i := by simp [blkOff, sum_range_succ]
      omega
  have hpos : ∀ i, i ≤ p.N → 1 ≤ (if i = p.N then bs i + 1 else bs i) := by
    intro i hi
    split_ifs with h
    · omega
    · exact hbs i (by omega)
  have hsucc : ∀ (f : ℕ → ℕ) (n o : ℕ), 1 ≤ n →
      ∑ k ∈ range n, f (o + k) = f o + ∑ k ∈ range (n - 1), f (o + (k + 1)) := by
    intro f n o hn
    obtain ⟨m, rfl⟩ : ∃ m, n = m + 1 := ⟨n - 1, by omega⟩
    rw [sum_range_succ', Nat.add_sub_cancel]
    simp [Nat.add_comm]
  refine ⟨?_, ?_, ?_, ?_, ?_, ?_⟩
  · rw [← sum_blocks_last d.nu bs p.N d.N hsum]
    exact sum_congr rfl fun i hi => (hst i (by simp at hi; omega)).2.2.1
  · rw [← sum_blocks_last d.ns bs p.N d.N hsum]
    exact sum_congr rfl fun i hi => (hst i (by simp at hi; omega)).2.2.2.2.2.2
  · rw [← sum_blocks_last d.nbu bs p.N d.N hsum]
    exact sum_congr rfl fun i hi => (hst i (by simp at hi; omega)).2.2.2.1
  · rw [← sum_blocks_last (fun k => d.nb k + d.ng k) bs p.N d.N hsum]
    refine sum_congr rfl fun i hi => ?_
    have hi' : i ≤ p.N := by simp at hi; omega
    obtain ⟨_, _, _, _, h5, h6, _⟩ := hst i hi'
    rw [hsucc (fun k => d.nb k + d.ng k) _ _ (hpos i hi')]
    have : ∑ k ∈ range ((if i = p.N then bs i + 1 else bs i) - 1),
        (d.nb (blkOff bs i + (k + 1)) + d.ng (blkOff bs i + (k + 1))) =
        ∑ k ∈ range ((if i = p.N then bs i + 1 else bs i) - 1),
        (d.nbu (blkOff bs i + (k + 1)) + (d.ng (blkOff bs i + (k + 1)) + d.nbx (blkOff bs i + (k + 1)))) := by
      apply sum_congr rfl
      intro k hk
      simp only [mem_range] at hk
      rw [hnb _ (hle i hi' _ (by omega))]
      ring
    show r.nb i + r.ng i = _
    rw [this, sum_add_distrib, show r.nb i = _ from h5, show r.ng i = _ from h6]
    ring
  · intro i hi
    obtain ⟨_, h2, _, h4, h5, _, _⟩ := hst i hi
    show r.nb i = r.nbx i + r.nbu i
    rw [show r.nb i = _ from h5, show r.nbx i = _ from h2, show r.nbu i = _ from h4,
      hsucc d.nbu _ _ (hpos i hi), hnb _ (by simpa using hle i hi 0 (by have := hpos i hi; omega))]
    ring
  · have := (hst 0 (Nat.zero_le _)).1
    simpa [blkOff] using this

/-- horizon 3 condensed into blocks of 2 and 1 (plus the last): hypotheses of C42 hold -/
example : ∃ (d p : Dims) (bs : ℕ → ℕ), (∀ i, i < p.N → 1 ≤ bs i) ∧
    ∑ i ∈ range (p.N + 1), bs i = d.N ∧ (∀ k, k ≤ d.N → d.nb k = d.nbx k + d.nbu k) ∧
    (partCondDim d bs p).nu 0 = 6 ∧ (partCondDim d bs p).ng 0 = 2 :=
  ⟨⟨3, fun _ => 2, fun _ => 3, fun _ => 5, fun _ => 2, fun _ => 3, fun _ => 0, fun _ => 0,
      fun _ => 0, fun _ => 0, fun _ => 0⟩,
    ⟨2, fun _ => 0, fun _ => 0, fun _ => 0, fun _ => 0, fun _ => 0, fun _ => 0, fun _ => 0,
      fun _ => 0, fun _ => 0, fun _ => 0⟩,
    fun i => if i = 0 then 2 else if i = 1 then 1 else 0, by decide, by decide, by simp, by decide, by decide⟩

/-- With an inner block of size zero (more blocks than stages) the stage is counted twice: the
condensed problem has more inputs than the original. -/
theorem partCondDim_zero_block_duplicates :
    ∃ (d p : Dims) (bs : ℕ → ℕ), computeBlockSize d.N p.N (fun _ => 0) = some bs ∧
      ∑ k ∈ range (d.N + 1), d.nu k < ∑ i ∈ range (p.N + 1), (partCondDim d bs p).nu i :=
  ⟨⟨1, fun _ => 1, fun _ => 1, fun _ => 0, fun _ => 0, fun _ => 0, fun _ => 0, fun _ => 0,
      fun _ => 0, fun _ => 0, fun _ => 0⟩,
    ⟨2, fun _ => 0, fun _ => 0, fun _ => 0, fun _ => 0, fun _ => 0, fun _ => 0, fun _ => 0,
      fun _ => 0, fun _ => 0, fun _ => 0⟩, _, rfl, by decide⟩

/-- **C42 (full condensing).**  The dense problem has the initial state and all inputs as variables, no
equality constraints, and as many inequality constraints and slacks as the OCP QP; bounds on the
states after the first become general constraints. -/
theorem condDim_conserves (d : Dims) (hnb : ∀ k, k ≤ d.N → d.nb k = d.nbx k + d.nbu k) :
    let c := condDim d
    c.nv = d.nx 0 + ∑ k ∈ range (d.N + 1), d.nu k ∧ c.ne = 0 ∧
    c.nb = d.nbx 0 + ∑ k ∈ range (d.N + 1), d.nbu k ∧
    c.nb + c.ng = ∑ k ∈ range (d.N + 1), (d.nb k + d.ng k) ∧
    c.ns = ∑ k ∈ range (d.N + 1), d.ns k := by
  have h : let c := condDim d
      c.nv = d.nx 0 + ∑ k ∈ range (d.N + 1), d.nu k ∧ c.ne = 0 ∧
      c.nb = d.nbx 0 + ∑ k ∈ range (d.N + 1), d.nbu k ∧
      c.nb + c.ng = ∑ k ∈ range (d.N + 1), (d.nbx k + d.nbu k + d.ng k) ∧
      c.ns = ∑ k ∈ range (d.N + 1), d.ns k := by
    unfold condDim
    refine loopFrom_inv (S := DenseDims) (fun m c => c.nv = d.nx 0 + ∑ k ∈ range m, d.nu k ∧ c.ne = 0 ∧
      c.nb = d.nbx 0 + ∑ k ∈ range m, d.nbu k ∧
      c.nb + c.ng = ∑ k ∈ range m, (d.nbx k + d.nbu k + d.ng k) ∧
      c.ns = ∑ k ∈ range m, d.ns k) (by omega) _ _ (by simp) ?_
    rintro m c h1 h2 ⟨a1, a2, a3, a4, a5⟩
    simp only [sum_range_succ]
    refine ⟨by omega, a2, by omega, by omega, by omega⟩
  intro c
  obtain ⟨a1, a2, a3, a4, a5⟩ := h
  refine ⟨a1, a2, a3, ?_, a5⟩
  rw [show c.nb + c.ng = _ from a4]
  exact sum_congr rfl fun k hk => by rw [hnb k (by simp at hk; omega)]

example : (condDim ⟨2, fun _ => 4, fun _ => 3, fun _ => 5, fun _ => 2, fun _ => 3, fun _ => 1, fun _ => 0,
    fun _ => 0, fun _ => 0, fun _ => 0⟩).nv = 13 := by decide

/-- **C37.**  Dimensions of the QP with the fixed variables removed. -/
theorem dimReduce_spec (d r : Dims) :
    let q := dimReduce d r
    ∀ k, k ≤ d.N →
      q.nu k + min (d.nu k) (d.nbue k) = d.nu k ∧
      q.nx k + (if k = 0 then min (d.nx k) (d.nbxe k) else 0) = d.nx k ∧
      q.nbu k = d.nbu k - d.nbue k ∧ q.nbx k = d.nbx k - (if k = 0 then d.nbxe 0 else 0) ∧
      q.nb k = q.nbx k + q.nbu k ∧ q.nbue k = 0 ∧ q.nbxe k = (if k = 0 then 0 else d.nbxe k) ∧
      q.ng k = d.ng k ∧ q.ns k = d.ns k ∧ q.nge k = d.nge k := by
  unfold dimReduce
  intro q k hk
  have := loopFrom_inv (S := Dims) (fun m q => ∀ k, k < m →
      q.nu k + min (d.nu k) (d.nbue k) = d.nu k ∧
      q.nx k + (if k = 0 then min (d.nx k) (d.nbxe k) else 0) = d.nx k ∧
      q.nbu k = d.nbu k - d.nbue k ∧ q.nbx k = d.nbx k - (if k = 0 then d.nbxe 0 else 0) ∧
      q.nb k = q.nbx k + q.nbu k ∧ q.nbue k = 0 ∧ q.nbxe k = (if k = 0 then 0 else d.nbxe k) ∧
      q.ng k = d.ng k ∧ q.ns k = d.ns k ∧ q.nge k = d.nge k)
    (show 1 ≤ d.N + 1 by omega) (fun ii r => { r with
    nu := upd r.nu ii (d.nu ii - d.nbue ii), nx := upd r.nx ii (d.nx ii),
    nbu := upd r.nbu ii (d.nbu ii - d.nbue ii), nbx := upd r.nbx ii (d.nbx ii),
    nb := upd r.nb ii ((d.nbu ii - d.nbue ii) + d.nbx ii),
    ng := upd r.ng ii (d.ng ii), ns := upd r.ns ii (d.ns ii),
    nbue := upd r.nbue ii 0, nbxe := upd r.nbxe ii (d.nbxe ii), nge := upd r.nge ii (d.nge ii) })
    { r with
    nu := upd r.nu 0 (d.nu 0 - d.nbue 0), nx := upd r.nx 0 (d.nx 0 - d.nbxe 0),
    nbu := upd r.nbu 0 (d.nbu 0 - d.nbue 0), nbx := upd r.nbx 0 (d.nbx 0 - d.nbxe 0),
    nb := upd r.nb 0 ((d.nbu 0 - d.nbue 0) + (d.nbx 0 - d.nbxe 0)),
    ng := upd r.ng 0 (d.ng 0), ns := upd r.ns 0 (d.ns 0),
    nbue := upd r.nbue 0 0, nbxe := upd r.nbxe 0 0, nge := upd r.nge 0 (d.nge 0) } ?_ ?_ k (by omega)
  · exact this
  · intro k hk
    have : k = 0 := by omega
    subst this
    simp only [upd_same, if_true, true_and, and_true]
    omega
  · intro i q h1 h2 h k hk
    by_cases hki : k = i
    · subst hki
      have h0 : k ≠ 0 := by omega
      simp only [upd_same, if_neg h0, true_and, and_true]
      omega
    · simp only [upd_ne _ _ hki]; exact h k (by omega)

/-- one input fixed out of two at stage 1 -/
example : let q := dimReduce ⟨1, fun _ => 2, fun _ => 2, fun _ => 2, fun _ => 0, fun _ => 2, fun _ => 1,
    fun _ => 0, fun _ => 0, fun _ => 1, fun _ => 0⟩ ⟨1, fun _ => 0, fun _ => 0, fun _ => 0, fun _ => 0,
    fun _ => 0, fun _ => 0, fun _ => 0, fun _ => 0, fun _ => 0, fun _ => 0⟩
    q.nu 1 = 1 ∧ q.nb 1 = 1 := by decide

end Hpipm
