/-
Closed forms of the reduction routines (intermediate results; the user-level statements are in
RedProps.lean).
-/
import Verif.RedSpec

namespace Hpipm
open Finset
set_option linter.unusedSectionVars false

/-- invariant rule for the compression loops -/
theorem sqLoop_inv {S : Type*} (n : ℕ) (mask : ℕ → ℕ) (body : ℕ → ℕ → S → S) (s : S) (p : ℕ → Prop) [DecidablePred p]
    (hp : ∀ j, j < n → (mask j = 0 ↔ p j)) (P : ℕ → S → Prop) (h0 : P 0 s)
    (hk : ∀ j s, j < n → p j → P j s → P (j + 1) (body j (Nat.count p j) s))
    (hs : ∀ j s, j < n → ¬ p j → P j s → P (j + 1) s) : P n (sqLoop n mask body s) := by
  have h := loop_inv (fun m (q : ℕ × S) => q.1 = Nat.count p m ∧ P m q.2) n
    (fun jj (p : ℕ × S) => if mask jj = 0 then (p.1 + 1, body jj p.1 p.2) else p) (0, s) ⟨by simp, h0⟩ ?_
  · exact h.2
  · rintro j ⟨c, s⟩ hj ⟨h1, h2⟩
    simp only at h1 h2
    subst h1
    by_cases hm : mask j = 0
    · have hpj := (hp j hj).mp hm
      simp only [if_pos hm]
      exact ⟨by rw [Nat.count_succ, if_pos hpj], hk j s hj hpj h2⟩
    · have hpj : ¬ p j := fun h => hm ((hp j hj).mpr h)
      simp only [if_neg hm]
      exact ⟨by rw [Nat.count_succ, if_neg hpj]; rfl, hs j s hj hpj h2⟩

theorem count_lt_of {p : ℕ → Prop} [DecidablePred p] {i j : ℕ} (hi : p i) (h : i < j) : Nat.count p i < Nat.count p j :=
  Nat.count_strict_mono hi h

theorem sqVec_val {α : Type*} (n : ℕ) (mask : ℕ → ℕ) (x y : ℕ → α) (p : ℕ → Prop) [DecidablePred p]
    (hp : ∀ j, j < n → (mask j = 0 ↔ p j)) :
    (∀ j, j < n → p j → sqVec n mask x y (Nat.count p j) = x j) ∧
    ∀ i, Nat.count p n ≤ i → sqVec n mask x y i = y i := by
  refine sqLoop_inv n mask _ y p hp (fun m z => (∀ j, j < m → p j → z (Nat.count p j) = x j) ∧
    ∀ i, Nat.count p m ≤ i → z i = y i) ⟨fun j hj => by omega, fun i _ => rfl⟩ ?_ ?_
  · rintro j s hj hpj ⟨h1, h2⟩
    refine ⟨fun i hi hpi => ?_, fun i hi => ?_⟩
    · by_cases hij : i = j
      · subst hij; simp
      · have : i < j := by omega
        rw [upd_ne _ _ (by have := count_lt_of hpi this; omega)]
        exact h1 i this hpi
    · rw [Nat.count_succ, if_pos hpj] at hi
      rw [upd_ne _ _ (by omega)]; exact h2 i (by omega)
  · rintro j s hj hpj ⟨h1, h2⟩
    refine ⟨fun i hi hpi => h1 i ?_ hpi, fun i hi => h2 i ?_⟩
    · rcases Nat.lt_succ_iff_lt_or_eq.mp hi with h | h
      · exact h
      · subst h; exact absurd hpi hpj
    · rw [Nat.count_succ, if_neg hpj] at hi; omega

section
variable {K : Type*} [Field K]

theorem sqBox_val (nb off offr : ℕ) (mask : ℕ → ℕ) (x y : Vec K) (p : ℕ → Prop) [DecidablePred p]
    (hp : ∀ j, j < nb → (mask j = 0 ↔ p j)) (ho : Nat.count p nb ≤ offr) :
    (∀ j, j < nb → p j → sqBox nb off offr mask x y (Nat.count p j) = x j ∧
      sqBox nb off offr mask x y (offr + Nat.count p j) = x (off + j)) := by
  refine sqLoop_inv nb mask _ y p hp (fun m z => ∀ j, j < m → p j → z (Nat.count p j) = x j ∧
      z (offr + Nat.count p j) = x (off + j)) (fun j hj => by omega) ?_ ?_
  · intro j s hj hpj h1 i hi hpi
    have hcj : Nat.count p j < Nat.count p nb := count_lt_of hpj hj
    by_cases hij : i = j
    · subst hij
      refine ⟨?_, by simp⟩
      rw [upd_ne _ _ (by omega)]; simp
    · have hlt : i < j := by omega
      have hc := count_lt_of hpi hlt
      obtain ⟨a, b⟩ := h1 i hlt hpi
      refine ⟨?_, ?_⟩
      · rw [upd_ne _ _ (by omega), upd_ne _ _ (by omega)]; exact a
      · rw [upd_ne _ _ (by omega), upd_ne _ _ (by omega)]; exact b
  · intro j s hj hpj h1 i hi hpi
    rcases Nat.lt_succ_iff_lt_or_eq.mp hi with h | h
    · exact h1 i h hpi
    · subst h; exact absurd hpi hpj

theorem sqRows_val (n nc : ℕ) (mask : ℕ → ℕ) (A B : Mat K) (p : ℕ → Prop) [DecidablePred p]
    (hp : ∀ j, j < n → (mask j = 0 ↔ p j)) :
    ∀ j, j < n → p j → ∀ c, c < nc → sqRows n nc mask A B (Nat.count p j) c = A j c := by
  refine sqLoop_inv n mask _ B p hp (fun m z => ∀ j, j < m → p j → ∀ c, c < nc → z (Nat.count p j) c = A j c)
    (fun j hj => by omega) ?_ ?_
  · intro j s hj hpj h1 i hi hpi c hc
    by_cases hij : i = j
    · subst hij
      simp [gecp, hc]
    · have hlt : i < j := by omega
      have hcc := count_lt_of hpi hlt
      have : ¬ (Nat.count p j ≤ Nat.count p i) := by omega
      simp only [gecp, this, false_and, if_false]
      exact h1 i hlt hpi c hc
  · intro j s hj hpj h1 i hi hpi
    rcases Nat.lt_succ_iff_lt_or_eq.mp hi with h | h
    · exact h1 i h hpi
    · subst h; exact absurd hpi hpj

theorem upd2_same {α : Type*} (M : ℕ → ℕ → α) (i j : ℕ) (v : α) : upd2 M i j v i j = v := by simp [upd2]
theorem upd2_col {α : Type*} (M : ℕ → ℕ → α) (i j r c : ℕ) (v : α) (h : c ≠ j) : upd2 M i j v r c = M r c := by
  unfold upd2 upd; split
  · rename_i h'; subst h'; simp [h]
  · rfl
theorem upd2_row {α : Type*} (M : ℕ → ℕ → α) (i j r c : ℕ) (v : α) (h : r ≠ i) : upd2 M i j v r c = M r c := by
  simp [upd2, upd, h]

theorem sqCol_val (n : ℕ) (mask : ℕ → ℕ) (A B : Mat K) (p : ℕ → Prop) [DecidablePred p]
    (hp : ∀ j, j < n → (mask j = 0 ↔ p j)) (jj : ℕ) (hj : jj < n) :
    let M := (loopFrom jj n (fun kk (q : ℕ × Mat K) =>
      if mask kk = 0 then (q.1 + 1, upd2 q.2 q.1 (Nat.count p jj) (A kk jj)) else q) (Nat.count p jj, B)).2
    (∀ i, jj ≤ i → i < n → p i → M (Nat.count p i) (Nat.count p jj) = A i jj) ∧
    (∀ r c, c ≠ Nat.count p jj → M r c = B r c) := by
  have h := loop_inv (fun m (q : ℕ × Mat K) => q.1 = Nat.count p (jj + m) ∧
      (∀ i, jj ≤ i → i < jj + m → p i → q.2 (Nat.count p i) (Nat.count p jj) = A i jj) ∧
      (∀ r c, c ≠ Nat.count p jj → q.2 r c = B r c)) (n - jj)
    (fun k (q : ℕ × Mat K) =>
      if mask (jj + k) = 0 then (q.1 + 1, upd2 q.2 q.1 (Nat.count p jj) (A (jj + k) jj)) else q)
    (Nat.count p jj, B) ⟨rfl, fun i h1 h2 => by omega, fun _ _ _ => rfl⟩ ?_
  · refine ⟨fun i h1 h2 h3 => h.2.1 i h1 (by omega) h3, h.2.2⟩
  · rintro m ⟨c, M⟩ hm ⟨h1, h2, h3⟩
    simp only at h1 h2 h3
    subst h1
    have hlt : jj + m < n := by omega
    by_cases hk : mask (jj + m) = 0
    · have hpk := (hp _ hlt).mp hk
      simp only [if_pos hk]
      refine ⟨by rw [← add_assoc, Nat.count_succ, if_pos hpk], fun i a b hpi => ?_, fun r c hc => ?_⟩
      · by_cases him : i = jj + m
        · subst him; rw [upd2_same]
        · have : i < jj + m := by omega
          have hcc := count_lt_of hpi this
          rw [upd2_row _ _ _ _ _ _ (by omega)]
          exact h2 i a this hpi
      · rw [upd2_col _ _ _ _ _ _ hc]; exact h3 r c hc
    · have hpk : ¬ p (jj + m) := fun h => hk ((hp _ hlt).mpr h)
      simp only [if_neg hk]
      refine ⟨by rw [← add_assoc, Nat.count_succ, if_neg hpk]; rfl, fun i a b hpi => ?_, h3⟩
      rcases Nat.lt_succ_iff_lt_or_eq.mp (show i < jj + m + 1 by omega) with h | h
      · exact h2 i a h hpi
      · subst h; exact absurd hpi hpk

theorem sqSym_val (n : ℕ) (mask : ℕ → ℕ) (A B : Mat K) (p : ℕ → Prop) [DecidablePred p]
    (hp : ∀ j, j < n → (mask j = 0 ↔ p j)) :
    ∀ j, j < n → p j → ∀ i, j ≤ i → i < n → p i → sqSym n mask A B (Nat.count p i) (Nat.count p j) = A i j := by
  refine sqLoop_inv n mask _ B p hp (fun m z => ∀ j, j < m → p j → ∀ i, j ≤ i → i < n → p i →
    z (Nat.count p i) (Nat.count p j) = A i j) (fun j hj => by omega) ?_ ?_
  · intro j s hj hpj h1 i hi hpi r hr hrn hpr
    have hv := sqCol_val n mask A s p hp j hj
    by_cases hij : i = j
    · subst hij; exact hv.1 r hr hrn hpr
    · have hlt : i < j := by omega
      have hcc := count_lt_of hpi hlt
      refine (hv.2 _ _ (by omega)).trans (h1 i hlt hpi r hr hrn hpr)
  · intro j s hj hpj h1 i hi hpi
    rcases Nat.lt_succ_iff_lt_or_eq.mp hi with h | h
    · exact h1 i h hpi
    · subst h; exact absurd hpi hpj

theorem symL_sqSym (n : ℕ) (mask : ℕ → ℕ) (A B : Mat K) (p : ℕ → Prop) [DecidablePred p]
    (hp : ∀ j, j < n → (mask j = 0 ↔ p j)) (i j : ℕ) (hi : i < n) (hj : j < n) (pi : p i) (pj : p j) :
    symL (sqSym n mask A B) 0 0 (Nat.count p i) (Nat.count p j) = symL A 0 0 i j := by
  have hm := @Nat.count_monotone p _
  by_cases h : j ≤ i
  · have := hm h
    simp only [symL, Nat.zero_add, if_pos h, if_pos this]
    exact sqSym_val n mask A B p hp j hj pj i h hi pi
  · have h' : i < j := by omega
    have := count_lt_of pi h'
    have hn : ¬ Nat.count p j ≤ Nat.count p i := by omega
    simp only [symL, Nat.zero_add, if_neg h, if_neg hn]
    exact sqSym_val n mask A B p hp i hi pi j (by omega) hj pj

/-- sums over kept entries -/
theorem sum_count (p : ℕ → Prop) [DecidablePred p] (n : ℕ) (f : ℕ → K) :
    ∑ i ∈ range (Nat.count p n), f i = ∑ j ∈ range n, if p j then f (Nat.count p j) else 0 := by
  induction n with
  | zero => simp
  | succ n ih =>
    rw [sum_range_succ, Nat.count_succ, ← ih]
    by_cases h : p n
    · rw [if_pos h, if_pos h, sum_range_succ]
    · rw [if_neg h, if_neg h]; simp

/-- counting the kept entries when the removed ones are the image of an injective list -/
theorem count_image (g : ℕ → ℕ) (t n : ℕ) (hinj : ∀ e e', e < t → e' < t → g e = g e' → e = e')
    (p : ℕ → Prop) [DecidablePred p] (hp : ∀ j, p j ↔ ∀ e, e < t → g e ≠ j) :
    Nat.count p n + ((range t).filter (fun e => g e < n)).card = n := by
  have h1 : ((range t).filter (fun e => g e < n)).card = ((range n).filter (fun j => ¬ p j)).card := by
    rw [← Finset.card_image_of_injOn (f := g) (s := (range t).filter (fun e => g e < n))]
    · congr 1
      ext j
      simp only [mem_image, mem_filter, mem_range, hp]
      push Not
      constructor
      · rintro ⟨e, ⟨a, b⟩, rfl⟩; exact ⟨b, e, a, rfl⟩
      · rintro ⟨a, e, b, rfl⟩; exact ⟨e, ⟨b, a⟩, rfl⟩
    · intro a ha b hb hab
      simp only [coe_filter, mem_range, Set.mem_ofPred_eq] at ha hb
      exact hinj a b ha.1 hb.1 hab
  rw [h1, Nat.count_eq_card_filter_range]
  have := Finset.card_filter_add_card_filter_not (s := range n) (p := p)
  rw [this]; simp


/-! ### masks and fixed values -/

/-- the vector with the fixed values at the removed variables and zeros elsewhere -/
def fixv (qp : OcpQp K) (fix : Vec K) (k : ℕ) : Vec K :=
  loop (neThr qp.dim k) (fun e a => upd a (qp.idxb k (qp.idxe k e)) (fix (qp.idxe k e))) (fun _ => 0)

theorem fixv_kept (qp : OcpQp K) (fix : Vec K) (k j : ℕ) (h : Kept qp k j) : fixv qp fix k j = 0 := by
  unfold fixv
  refine loop_inv (fun _ (a : Vec K) => a j = 0) _ _ _ rfl ?_
  intro e a he ha
  simp only [upd_ne _ _ (fun hh => h e he hh.symm)]
  exact ha

theorem fixv_at (qp : OcpQp K) (hq : EqOk qp) (fix : Vec K) (k e : ℕ) (hk : k ≤ qp.dim.N) (he : e < neThr qp.dim k) :
    fixv qp fix k (qp.idxb k (qp.idxe k e)) = fix (qp.idxe k e) := by
  have h := loop_inv (fun m (a : Vec K) => e < m → a (qp.idxb k (qp.idxe k e)) = fix (qp.idxe k e)) (neThr qp.dim k)
    (fun e a => upd a (qp.idxb k (qp.idxe k e)) (fix (qp.idxe k e))) (fun _ => 0) (by omega) ?_
  · exact h he
  · intro e' a he' ha hlt
    by_cases hee : qp.idxb k (qp.idxe k e) = qp.idxb k (qp.idxe k e')
    · have := hq.inj k e e' hk he he' hee
      subst this; simp
    · beta_reduce
      rw [upd_ne _ _ hee]
      exact ha (by rcases Nat.lt_succ_iff_lt_or_eq.mp hlt with h | h
                   · exact h
                   · subst h; exact absurd rfl hee)

theorem not_kept (qp : OcpQp K) (k j : ℕ) (h : ¬ Kept qp k j) :
    ∃ e, e < neThr qp.dim k ∧ qp.idxb k (qp.idxe k e) = j := by
  unfold Kept at h; push Not at h; exact h

/-- a point with fixed removed variables, split into kept and fixed part -/
theorem split_fixed (qp : OcpQp K) (hq : EqOk qp) (fix v : ℕ → Vec K) (hf : AtFixed qp fix v) (k j : ℕ) (hk : k ≤ qp.dim.N) :
    v k j = (if Kept qp k j then v k j else 0) + fixv qp (fix k) k j := by
  by_cases h : Kept qp k j
  · rw [if_pos h, fixv_kept qp _ k j h, add_zero]
  · obtain ⟨e, he, rfl⟩ := not_kept qp k j h
    rw [if_neg h, zero_add, fixv_at qp hq _ k e hk he]
    exact hf k e hk he

theorem zero_mask (n : ℕ) (a : ℕ → ℕ) (j : ℕ) (hj : j < n) : loop n (fun jj a => upd a jj 0) a j = 0 := by
  have := loop_upd n (fun _ => 0) a
  rw [this, mix_lt _ _ hj]

theorem mask_list (g : ℕ → ℕ) (t : ℕ) (a : ℕ → ℕ) (j : ℕ) (h0 : a j = 0) :
    loop t (fun e a => upd a (g e) 1) a j = 0 ↔ ∀ e, e < t → g e ≠ j := by
  induction t with
  | zero => simp [h0]
  | succ t ih =>
    rw [loop_succ]
    by_cases hg : g t = j
    · subst hg
      simp only [upd_same, one_ne_zero, false_iff]
      exact fun h => h t (by omega) rfl
    · rw [upd_ne _ _ (Ne.symm hg), ih]
      exact ⟨fun h e he => by
        rcases Nat.lt_succ_iff_lt_or_eq.mp he with h' | h'
        · exact h e h'
        · subst h'; exact hg, fun h e he => h e (by omega)⟩

theorem redMask_val (qp : OcpQp K) (hq : EqOk qp) (k : ℕ) (hk : k ≤ qp.dim.N) (fix : Vec K) (ws : RedWs K) :
    (∀ j, j < qp.dim.nu k + qp.dim.nx k → ((redMask qp k fix ws).imux j = 0 ↔ Kept qp k j)) ∧
    (∀ j, j < qp.dim.nb k → ((redMask qp k fix ws).imd j = 0 ↔ KeptBox qp k j)) ∧
    (∀ j, j < qp.dim.nu k + qp.dim.nx k → (redMask qp k fix ws).tmp0 j = fixv qp fix k j) := by
  have h : ∀ t, let w := (loop t (fun jj (ws : RedWs K) => { ws with
      tmp0 := upd ws.tmp0 (qp.idxb k (qp.idxe k jj)) (fix (qp.idxe k jj))
      imux := upd ws.imux (qp.idxb k (qp.idxe k jj)) 1
      imd := upd ws.imd (qp.idxe k jj) 1 })
       { ws with
      tmp0 := vecse (qp.dim.nu k + qp.dim.nx k) 0 ws.tmp0 0
      imux := loop (qp.dim.nu k + qp.dim.nx k) (fun jj a => upd a jj 0) ws.imux
      imd := loop (qp.dim.nbu k + qp.dim.nbx k) (fun jj a => upd a jj 0) ws.imd });
    w.imux = loop t (fun e a => upd a (qp.idxb k (qp.idxe k e)) 1) (loop (qp.dim.nu k + qp.dim.nx k) (fun jj a => upd a jj 0) ws.imux) ∧
    w.imd = loop t (fun e a => upd a (qp.idxe k e) 1) (loop (qp.dim.nbu k + qp.dim.nbx k) (fun jj a => upd a jj 0) ws.imd) ∧
    ∀ j, j < qp.dim.nu k + qp.dim.nx k → w.tmp0 j =
      loop t (fun e (a : Vec K) => upd a (qp.idxb k (qp.idxe k e)) (fix (qp.idxe k e))) (fun _ => 0) j := by
    intro t
    induction t with
    | zero => exact ⟨rfl, rfl, fun j hj => by simp [loop_zero, vecse, hj]⟩
    | succ t ih =>
      obtain ⟨a, b, c⟩ := ih
      simp only [loop_succ] at a b c ⊢
      refine ⟨by rw [a], by rw [b], fun j hj => ?_⟩
      by_cases hg : j = qp.idxb k (qp.idxe k t)
      · subst hg; simp
      · rw [upd_ne _ _ hg, upd_ne _ _ hg]; exact c j hj
  obtain ⟨a, b, c⟩ := h (neThr qp.dim k)
  refine ⟨fun j hj => ?_, fun j hj => ?_, fun j hj => c j hj⟩
  · refine Iff.trans (Eq.to_iff (congrArg (fun f => f j = 0) a)) ?_
    rw [mask_list _ _ _ _ (zero_mask _ _ _ hj)]; rfl
  · refine Iff.trans (Eq.to_iff (congrArg (fun f => f j = 0) b)) ?_
    rw [mask_list _ _ _ _ (zero_mask _ _ _ (by rw [← hq.dim k hk]; exact hj))]; rfl

theorem redMaskSol_val (qp : OcpQp K) (k : ℕ) (ws : RedWs K) :
    (∀ j, j < qp.dim.nu k + qp.dim.nx k → ((redMaskSol qp k ws).imux j = 0 ↔ Kept qp k j)) ∧
    (∀ j, j < qp.dim.nb k → ((redMaskSol qp k ws).imd j = 0 ↔ KeptBox qp k j)) := by
  have h : ∀ t, let w := (loop t (fun jj (ws : RedWs K) => { ws with
      imux := upd ws.imux (qp.idxb k (qp.idxe k jj)) 1
      imd := upd ws.imd (qp.idxe k jj) 1 })
       { ws with
      tmp0 := vecse (qp.dim.nu k + qp.dim.nx k) 0 ws.tmp0 0
      imux := loop (qp.dim.nu k + qp.dim.nx k) (fun jj a => upd a jj 0) ws.imux
      imd := loop (qp.dim.nb k) (fun jj a => upd a jj 0) ws.imd });
    w.imux = loop t (fun e a => upd a (qp.idxb k (qp.idxe k e)) 1) (loop (qp.dim.nu k + qp.dim.nx k) (fun jj a => upd a jj 0) ws.imux) ∧
    w.imd = loop t (fun e a => upd a (qp.idxe k e) 1) (loop (qp.dim.nb k) (fun jj a => upd a jj 0) ws.imd) := by
    intro t
    induction t with
    | zero => exact ⟨rfl, rfl⟩
    | succ t ih =>
      obtain ⟨a, b⟩ := ih
      simp only [loop_succ] at a b ⊢
      exact ⟨by rw [a], by rw [b]⟩
  obtain ⟨a, b⟩ := h (neThr qp.dim k)
  refine ⟨fun j hj => ?_, fun j hj => ?_⟩
  · refine Iff.trans (Eq.to_iff (congrArg (fun f => f j = 0) a)) ?_
    rw [mask_list _ _ _ _ (zero_mask _ _ _ hj)]; rfl
  · refine Iff.trans (Eq.to_iff (congrArg (fun f => f j = 0) b)) ?_
    rw [mask_list _ _ _ _ (zero_mask _ _ _ hj)]; rfl

/-! ### sizes -/

theorem neThr_pos0 {D : QpDim} : neThr D 0 = D.nbue 0 + D.nbxe 0 := by simp [neThr]
theorem neThr_pos {D : QpDim} {k : ℕ} (h : k ≠ 0) : neThr D k = D.nbue k := by simp [neThr, h]

/-- removed variables are in range -/
theorem removed_lt (qp : OcpQp K) (hq : EqOk qp) (k e : ℕ) (hk : k ≤ qp.dim.N) (he : e < neThr qp.dim k) :
    qp.idxb k (qp.idxe k e) < qp.dim.nu k + qp.dim.nx k := by
  by_cases h : e < qp.dim.nbue k
  · have := hq.input k e hk h; omega
  · by_cases h0 : k = 0
    · subst h0; rw [neThr_pos0] at he
      exact (hq.state e (by omega) he).2
    · rw [neThr_pos h0] at he; exact absurd he h

theorem newPos_all (qp : OcpQp K) (hq : EqOk qp) (k : ℕ) (hk : k ≤ qp.dim.N) :
    newPos qp k (qp.dim.nu k + qp.dim.nx k) + neThr qp.dim k = qp.dim.nu k + qp.dim.nx k := by
  have h := count_image (fun e => qp.idxb k (qp.idxe k e)) (neThr qp.dim k) (qp.dim.nu k + qp.dim.nx k)
    (fun e e' h1 h2 h3 => hq.inj k e e' hk h1 h2 h3) (Kept qp k) (fun j => Iff.rfl)
  rw [Finset.filter_true_of_mem (fun e he => removed_lt qp hq k e hk (mem_range.mp he)), card_range] at h
  exact h

theorem newBox_all (qp : OcpQp K) (hq : EqOk qp) (k : ℕ) (hk : k ≤ qp.dim.N) :
    newBox qp k (qp.dim.nb k) + neThr qp.dim k = qp.dim.nb k := by
  have h := count_image (fun e => qp.idxe k e) (neThr qp.dim k) (qp.dim.nb k)
    (fun e e' h1 h2 h3 => hq.injBox k e e' hk h1 h2 h3) (KeptBox qp k) (fun j => Iff.rfl)
  rw [Finset.filter_true_of_mem (fun e he => hq.box k e hk (mem_range.mp he)), card_range] at h
  exact h

/-- states keep their order behind the remaining inputs (stages after the first) -/
theorem newPos_state (qp : OcpQp K) (hq : EqOk qp) (k i : ℕ) (hk : k ≤ qp.dim.N) (h0 : k ≠ 0) :
    newPos qp k (qp.dim.nu k + i) + qp.dim.nbue k = qp.dim.nu k + i := by
  have h := count_image (fun e => qp.idxb k (qp.idxe k e)) (neThr qp.dim k) (qp.dim.nu k + i)
    (fun e e' h1 h2 h3 => hq.inj k e e' hk h1 h2 h3) (Kept qp k) (fun j => Iff.rfl)
  rw [Finset.filter_true_of_mem (fun e he => ?_), card_range, neThr_pos h0] at h
  · exact h
  · have he := mem_range.mp he
    rw [neThr_pos h0] at he
    have := hq.input k e hk he; omega

theorem kept_state (qp : OcpQp K) (hq : EqOk qp) (k i : ℕ) (hk : k ≤ qp.dim.N) (h0 : k ≠ 0) : Kept qp k (qp.dim.nu k + i) := by
  intro e he
  rw [neThr_pos h0] at he
  have := hq.input k e hk he; omega

theorem newPos_inputs (qp : OcpQp K) (hq : EqOk qp) (k : ℕ) (hk : k ≤ qp.dim.N) :
    newPos qp k (qp.dim.nu k) + qp.dim.nbue k = qp.dim.nu k := by
  have h := count_image (fun e => qp.idxb k (qp.idxe k e)) (neThr qp.dim k) (qp.dim.nu k)
    (fun e e' h1 h2 h3 => hq.inj k e e' hk h1 h2 h3) (Kept qp k) (fun j => Iff.rfl)
  have hle : qp.dim.nbue k ≤ neThr qp.dim k := by unfold neThr; split <;> omega
  have hf : ((range (neThr qp.dim k)).filter (fun e => qp.idxb k (qp.idxe k e) < qp.dim.nu k)) = range (qp.dim.nbue k) := by
    ext e
    simp only [mem_filter, mem_range]
    constructor
    · rintro ⟨a, b⟩
      by_contra hc
      by_cases h0 : k = 0
      · subst h0; rw [neThr_pos0] at a
        have := (hq.state e (by omega) a).1; omega
      · rw [neThr_pos h0] at a; exact hc a
    · intro a; exact ⟨by omega, hq.input k e hk a⟩
  rw [hf, card_range] at h
  exact h

/-- sizes of the reduced stage -/
theorem red_sizes (qp : OcpQp K) (hq : EqOk qp) (Dr : QpDim) (hd : RedDim qp.dim Dr) (k : ℕ) (hk : k ≤ qp.dim.N) :
    newPos qp k (qp.dim.nu k) = Dr.nu k ∧ newPos qp k (qp.dim.nu k + qp.dim.nx k) = Dr.nu k + Dr.nx k ∧
    newBox qp k (qp.dim.nb k) = Dr.nb k := by
  have h1 := newPos_inputs qp hq k hk
  have h2 := newPos_all qp hq k hk
  have h3 := newBox_all qp hq k hk
  have h4 := hd.nu k hk
  have h5 := hq.dim k hk
  have h6 := hq.nbue k hk
  have hm := @Nat.count_monotone (Kept qp k) _ _ _ (show qp.dim.nu k ≤ qp.dim.nu k + qp.dim.nx k by omega)
  have hm' : newPos qp k (qp.dim.nu k) ≤ newPos qp k (qp.dim.nu k + qp.dim.nx k) := hm
  by_cases h0 : k = 0
  · subst h0
    have a := hd.nx0; have b := hd.nb0; have c := hq.nbxe
    rw [neThr_pos0] at h2 h3
    refine ⟨by omega, by omega, by omega⟩
  · have a := hd.nx k hk h0; have b := hd.nb k hk h0
    rw [neThr_pos h0] at h2 h3
    refine ⟨by omega, by omega, by omega⟩

/-- without removed variables nothing moves -/
theorem kept_triv (qp : OcpQp K) (k : ℕ) (h : neThr qp.dim k = 0) :
    (∀ j, Kept qp k j) ∧ (∀ j, KeptBox qp k j) ∧ (∀ j, newPos qp k j = j) ∧ (∀ j, newBox qp k j = j) := by
  have a : ∀ j, Kept qp k j := fun j e he => by omega
  have b : ∀ j, KeptBox qp k j := fun j e he => by omega
  exact ⟨a, b, fun j => Nat.count_of_forall (fun i _ => a i), fun j => Nat.count_of_forall (fun i _ => b i)⟩

end
end Hpipm
