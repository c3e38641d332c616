/-
C91: INCONS_EQ is reported only for inconsistent equality constraints (threshold zero).
-/
import Verif.LinDepProps

namespace Hpipm
open Finset
set_option linter.unusedSectionVars false

section
variable {K : Type*} [Field K] [LinearOrder K] [IsStrictOrderedRing K]

/-- `∑_{c >= s} W[r][c] x[c]` -/
def tailSum (nv : ℕ) (x : Vec K) (w : Vec K) (s : ℕ) : K := ∑ c ∈ range nv, if s ≤ c then w c * x c else 0

theorem tailSum_congr {nv : ℕ} {x w w' : Vec K} {s : ℕ} (h : ∀ c, s ≤ c → c < nv → w c = w' c) : tailSum nv x w s = tailSum nv x w' s := by
  unfold tailSum
  refine sum_congr rfl (fun c hc => ?_)
  split_ifs with hs
  · rw [h c hs (mem_range.mp hc)]
  · rfl

theorem tailSum_add (nv : ℕ) (x w w' : Vec K) (a : K) (s : ℕ) :
    tailSum nv x (fun c => w c + a * w' c) s = tailSum nv x w s + a * tailSum nv x w' s := by
  unfold tailSum
  rw [mul_sum, ← sum_add_distrib]
  refine sum_congr rfl (fun c _ => ?_)
  split_ifs <;> ring

theorem tailSum_skip {nv : ℕ} {x w : Vec K} {s s' : ℕ} (hs : s ≤ s') (h : ∀ c, s ≤ c → c < s' → c < nv → w c = 0) :
    tailSum nv x w s = tailSum nv x w s' := by
  unfold tailSum
  refine sum_congr rfl (fun c hc => ?_)
  by_cases h1 : s' ≤ c
  · rw [if_pos h1, if_pos (by omega)]
  · rw [if_neg h1]
    split_ifs with h2
    · rw [h c h2 (by omega) (mem_range.mp hc), zero_mul]
    · rfl

theorem tailSum_head {nv : ℕ} {x w : Vec K} {s : ℕ} (hs : s < nv) : tailSum nv x w s = w s * x s + tailSum nv x w (s + 1) := by
  unfold tailSum
  have e : ∀ f : ℕ → K, ∑ c ∈ range nv, f c = f s + ∑ c ∈ (range nv).erase s, f c := fun f =>
    (add_sum_erase _ _ (mem_range.mpr hs)).symm
  rw [e, e (fun c => if s + 1 ≤ c then w c * x c else 0)]
  rw [if_pos le_rfl, if_neg (by omega), zero_add]
  congr 1
  refine sum_congr rfl (fun c hc => ?_)
  have := (mem_erase.mp hc).1
  by_cases h : s ≤ c
  · rw [if_pos h, if_pos (by omega)]
  · rw [if_neg h, if_neg (by omega)]

/-! ### the LU factorisation -/

theorem colMax_max (m : ℕ) (W : Mat K) (j i : ℕ) (h1 : j ≤ i) (h2 : i < m) : |W i j| ≤ |W (colMax m W j) j| := by
  unfold colMax
  have := loop_inv (fun (k : ℕ) (b : ℕ) => ∀ i, j ≤ i → i < j + k → |W i j| ≤ |W b j|) (m - j)
    (fun k best => if |W best j| < |W (j + k) j| then j + k else best) j (fun i h1 h2 => by omega) (fun k b hk hb => by
      intro i h1 h2
      by_cases e : i = j + k
      · subst e
        split_ifs with hc
        · exact le_rfl
        · exact not_lt.mp hc
      · split_ifs with hc
        · exact (hb i h1 (by omega)).trans hc.le
        · exact hb i h1 (by omega))
  exact this i h1 (by omega)

/-- rows of the partially factorised system hold at `x` -/
def LuInv (m nv : ℕ) (x : Vec K) (j : ℕ) (W : Mat K) : Prop := ∀ r, r < m → tailSum nv x (W r) (min r j) = W r nv

theorem luStep_inv (m nv : ℕ) (hm : m ≤ nv + 1) (x : Vec K) (j : ℕ) (hj : j < m) (s : Mat K × (ℕ → ℕ)) (h : LuInv m nv x j s.1) :
    LuInv m nv x (j + 1) (luStep m (nv + 1) j s).1 := by
  obtain ⟨hp1, hp2⟩ := colMax_mem m s.1 j hj
  have hmax := colMax_max m s.1 j
  unfold luStep
  extract_lets p W
  have hrow : ∀ r, W r = if r = p then s.1 j else if r = j then s.1 p else s.1 r := fun r => swapAt_val _ _ _ _
  have hW : LuInv m nv x j W := by
    intro r hr
    rw [hrow r]
    split_ifs with e1 e2
    · have := h j hj; rw [min_self] at this; rw [e1, min_eq_right hp1]; exact this
    · have := h p hp2; rw [min_eq_right hp1] at this; rw [e2, min_self]; exact this
    · exact h r hr
  have hjj : W j j = s.1 p j := by
    rw [hrow j]
    by_cases e : j = p
    · rw [if_pos e, ← e]
    · rw [if_neg e, if_pos rfl]
  intro r hr
  dsimp only
  by_cases hrj : j < r
  · have hjn : j < nv := by omega
    rw [min_eq_right (by omega)]
    have hr' := hW r hr
    rw [min_eq_right hrj.le, tailSum_head hjn] at hr'
    by_cases h0 : W j j ≠ 0
    · have hj' := hW j hj
      rw [min_self, tailSum_head hjn] at hj'
      rw [if_pos ⟨hrj, hr, h0⟩, if_neg (by omega), if_pos ⟨by omega, by omega⟩]
      have e : tailSum nv x (fun c => if j < r ∧ r < m ∧ W j j ≠ 0 then
          (if c = j then W r j / W j j else if j < c ∧ c < nv + 1 then W r c - W r j / W j j * W j c else W r c) else W r c) (j + 1) =
          tailSum nv x (fun c => W r c + (-(W r j / W j j)) * W j c) (j + 1) := by
        refine tailSum_congr (fun c hc hc' => ?_)
        rw [if_pos ⟨hrj, hr, h0⟩, if_neg (by omega), if_pos ⟨by omega, by omega⟩]; ring
      rw [e, tailSum_add]
      have e1 : tailSum nv x (W r) (j + 1) = W r nv - W r j * x j := by rw [← hr']; ring
      have e2 : tailSum nv x (W j) (j + 1) = W j nv - W j j * x j := by rw [← hj']; ring
      have e3 : W r j / W j j * W j j = W r j := div_mul_cancel₀ _ h0
      rw [e1, e2]
      linear_combination x j * e3
    · have hz : W r j = 0 := by
        have h0 : W j j = 0 := not_not.mp h0
        rw [hjj] at h0
        have hb : ∀ i, j ≤ i → i < m → s.1 i j = 0 := by
          intro i a b
          have := hmax i a b
          rw [show s.1 (colMax m s.1 j) j = 0 from h0, abs_zero] at this
          exact abs_nonpos_iff.mp this
        rw [hrow r]
        split_ifs
        · exact hb j le_rfl hj
        · exact hb p hp1 hp2
        · exact hb r hrj.le hr
      have e : ∀ c, (if j < r ∧ r < m ∧ W j j ≠ 0 then
          (if c = j then W r j / W j j else if j < c ∧ c < nv + 1 then W r c - W r j / W j j * W j c else W r c) else W r c) = W r c :=
        fun c => if_neg (fun hh => h0 hh.2.2)
      simp only [e]
      rw [hz, zero_mul, zero_add] at hr'
      exact hr'
  · have e : ∀ c, (if j < r ∧ r < m ∧ W j j ≠ 0 then
        (if c = j then W r j / W j j else if j < c ∧ c < nv + 1 then W r c - W r j / W j j * W j c else W r c) else W r c) = W r c :=
      fun c => if_neg (fun hh => hrj hh.1)
    simp only [e]
    rw [min_eq_left (by omega)]
    have := hW r hr
    rwa [min_eq_left (by omega)] at this

theorem getrf_inv (m nv : ℕ) (hm : m ≤ nv + 1) (x : Vec K) (W : Mat K) (ip : ℕ → ℕ)
    (h : ∀ r, r < m → ∑ c ∈ range nv, W r c * x c = W r nv) (r : ℕ) (hr : r < m) :
    tailSum nv x ((getrfRp m (nv + 1) W ip).1 r) r = (getrfRp m (nv + 1) W ip).1 r nv := by
  unfold getrfRp
  rw [min_eq_left hm]
  have := loop_inv (fun (k : ℕ) (s : Mat K × (ℕ → ℕ)) => LuInv m nv x k s.1) m (luStep m (nv + 1)) (W, ip)
    (fun r hr => by
      rw [Nat.min_zero]
      refine Eq.trans ?_ (h r hr)
      unfold tailSum
      exact sum_congr rfl (fun c _ => if_pos (Nat.zero_le _)))
    (fun k s hk hs => luStep_inv m nv hm x k hk s hs)
  have h2 := this r hr
  rw [min_eq_left hr.le] at h2
  exact h2

/-! ### the main loop -/

theorem ldClear_val (nv ne ii jj : ℕ) (W : Mat K) : ∃ t : ℕ → K, ∀ i c, ldClear nv ne ii jj W i c =
    if (ii < i ∧ i < min ne (jj + 1)) ∧ jj ≤ c ∧ c < nv + 1 then W i c + t i * W ii c else W i c := by
  unfold ldClear
  have := loop_inv (fun (k : ℕ) (M : Mat K) => ∃ t : ℕ → K, ∀ i c, M i c =
      if (ii < i ∧ i < ii + 1 + k) ∧ jj ≤ c ∧ c < nv + 1 then W i c + t i * W ii c else W i c) (min ne (jj + 1) - (ii + 1))
    (fun k M => let tmp := |M (ii + 1 + k) jj|
      if tmp ≠ 0 then gead 1 (nv + 1 - jj) (-tmp / W ii jj) M ii jj M (ii + 1 + k) jj else M) W
    ⟨fun _ => 0, fun i c => by rw [if_neg (by omega)]⟩ (fun k M hk ⟨t, ht⟩ => by
      dsimp only
      have hnew : ∀ c, M (ii + 1 + k) c = W (ii + 1 + k) c := fun c => by rw [ht, if_neg (by omega)]
      have hii : ∀ c, M ii c = W ii c := fun c => by rw [ht, if_neg (by omega)]
      by_cases h0 : |M (ii + 1 + k) jj| ≠ 0
      · rw [if_pos h0]
        refine ⟨upd t (ii + 1 + k) (-|M (ii + 1 + k) jj| / W ii jj), fun i c => ?_⟩
        unfold gead
        by_cases e : i = ii + 1 + k
        · subst e
          rw [upd_same]
          by_cases hc : jj ≤ c ∧ c < nv + 1
          · rw [if_pos (by omega), if_pos (by omega), hnew]
            congr 2
            rw [Nat.sub_self, Nat.add_zero, hii]
            congr 1; omega
          · rw [if_neg (by omega), if_neg (by tauto), hnew]
        · rw [upd_ne _ _ e, if_neg (by omega), ht]
          by_cases hc : (ii < i ∧ i < ii + 1 + k) ∧ jj ≤ c ∧ c < nv + 1
          · rw [if_pos hc, if_pos (by omega)]
          · rw [if_neg hc, if_neg (by omega)]
      · rw [if_neg h0]
        refine ⟨upd t (ii + 1 + k) 0, fun i c => ?_⟩
        by_cases e : i = ii + 1 + k
        · subst e
          rw [upd_same, hnew, zero_mul, add_zero, ite_self]
        · rw [upd_ne _ _ e, ht]
          by_cases hc : (ii < i ∧ i < ii + 1 + k) ∧ jj ≤ c ∧ c < nv + 1
          · rw [if_pos hc, if_pos (by omega)]
          · rw [if_neg hc, if_neg (by omega)])
  obtain ⟨t, ht⟩ := this
  refine ⟨t, fun i c => ?_⟩
  rw [ht]
  by_cases hc : (ii < i ∧ i < min ne (jj + 1)) ∧ jj ≤ c ∧ c < nv + 1
  · rw [if_pos hc, if_pos (by omega)]
  · rw [if_neg hc, if_neg (by omega)]

/-- the remaining rows hold at `x` and vanish left of the frontier -/
def ElInv (nv ne : ℕ) (x : Vec K) (ii jj0 : ℕ) (W : Mat K) : Prop :=
  ∀ r, ii ≤ r → r < ne → (∀ c, r ≤ c → c < jj0 → c < nv → W r c = 0) ∧ tailSum nv x (W r) r = W r nv

theorem ldPivot_inv {nv ne : ℕ} {A : Mat K} {b : Vec K} {x : Vec K} {ii r0 c0 : ℕ} {s : LdS K} (h : ElInv nv ne x ii s.jj0 s.W)
    (hd : s.W ii ii = 0) (hii : ii < ne) (hf : ldSearch 0 ne ii s.W (nv - ldStart ii s.jj0) (ldStart ii s.jj0) = some (r0, c0)) :
    ElInv nv ne x (ii + 1) (ldPivot nv ne A b ii r0 c0 s).jj0 (ldPivot nv ne A b ii r0 c0 s).W := by
  obtain ⟨⟨a1, a2, a3, -⟩, a5, a6, a7⟩ := ldSearch_some hf
  have hc0 : c0 < nv := by omega
  have hst : s.jj0 ≤ ldStart ii s.jj0 ∧ ii + 1 ≤ ldStart ii s.jj0 ∧ (ldStart ii s.jj0 = s.jj0 ∨ ldStart ii s.jj0 = ii + 1) := by
    unfold ldStart; split_ifs <;> omega
  -- everything left of the pivot column vanishes
  have hz : ∀ r, ii ≤ r → r < ne → ∀ c, r ≤ c → c < c0 → s.W r c = 0 := by
    intro r h1 h2 c h3 h4
    by_cases hj : c < s.jj0
    · exact (h r h1 h2).1 c h3 hj (by omega)
    · by_cases hs : ldStart ii s.jj0 ≤ c
      · exact abs_nonpos_iff.mp (a7 c hs h4 r h1 h2 h3)
      · have e1 : c = ii := by omega
        have e2 : r = ii := by omega
        rw [e1, e2]; exact hd
  have hjj : (ldPivot nv ne A b ii r0 c0 s).jj0 = c0 := by
    unfold ldPivot
    by_cases e : r0 ≠ ii
    · simp only [if_pos e]; rfl
    · simp only [if_neg e]; rfl
  obtain ⟨W1, hW1, hv⟩ : ∃ W1 : Mat K, (ldPivot nv ne A b ii r0 c0 s).W = ldClear nv ne ii c0 W1 ∧
      ∀ i c, W1 i c = if c0 ≤ c ∧ c < nv + 1 then (if i = ii then s.W r0 c else if i = r0 then s.W ii c else s.W i c) else s.W i c := by
    unfold ldPivot
    by_cases e : r0 ≠ ii
    · simp only [if_pos e]; exact ⟨_, rfl, fun i c => rfl⟩
    · simp only [if_neg e]
      refine ⟨_, rfl, fun i c => ?_⟩
      have e : r0 = ii := not_not.mp e
      subst e
      show s.W i c = _
      split_ifs with h1 h2
      · rw [h2]
      · rfl
      · rfl
  rw [hjj, hW1]
  obtain ⟨t, ht⟩ := ldClear_val nv ne ii c0 W1
  have base : ∀ r, ii ≤ r → r < ne → r ≤ c0 → tailSum nv x (s.W r) c0 = s.W r nv := by
    intro r h1 h2 h3
    rw [← tailSum_skip h3 (fun c a b _ => hz r h1 h2 c a b)]; exact (h r h1 h2).2
  have base1 : ∀ r, ii ≤ r → r < ne → r ≤ c0 → tailSum nv x (W1 r) c0 = W1 r nv := by
    intro r h1 h2 h3
    have ev : W1 r nv = if r = ii then s.W r0 nv else if r = r0 then s.W ii nv else s.W r nv := by rw [hv, if_pos ⟨by omega, by omega⟩]
    have et : tailSum nv x (W1 r) c0 = tailSum nv x (fun c => if r = ii then s.W r0 c else if r = r0 then s.W ii c else s.W r c) c0 :=
      tailSum_congr (fun c a b => by rw [hv, if_pos ⟨a, by omega⟩])
    rw [ev, et]
    by_cases e1 : r = ii
    · simp only [if_pos e1]; exact base r0 a1 a2 a3
    · simp only [if_neg e1]
      by_cases e2 : r = r0
      · simp only [if_pos e2]; exact base ii le_rfl hii (by omega)
      · simp only [if_neg e2]; exact base r h1 h2 h3
  intro r h1 h2
  have zero : ∀ c, r ≤ c → c < c0 → ldClear nv ne ii c0 W1 r c = 0 := by
    intro c h3 h4
    rw [ht, if_neg (by omega), hv, if_neg (by omega)]
    exact hz r (by omega) h2 c h3 h4
  refine ⟨fun c h3 h4 _ => zero c h3 h4, ?_⟩
  by_cases hr : r ≤ c0
  · rw [tailSum_skip hr (fun c a b _ => zero c a b)]
    have e1 : tailSum nv x (ldClear nv ne ii c0 W1 r) c0 = tailSum nv x (fun c => W1 r c + t r * W1 ii c) c0 :=
      tailSum_congr (fun c a b => by rw [ht, if_pos ⟨⟨by omega, by omega⟩, a, by omega⟩])
    rw [e1, tailSum_add, base1 r (by omega) h2 hr, base1 ii le_rfl hii (by omega), ht, if_pos ⟨⟨by omega, by omega⟩, by omega, by omega⟩]
  · have e : ∀ c, ldClear nv ne ii c0 W1 r c = s.W r c := by
      intro c
      rw [ht, if_neg (by omega), hv]
      split_ifs <;> first | rfl | omega
    have : ldClear nv ne ii c0 W1 r = s.W r := funext e
    rw [this]; exact (h r (by omega) h2).2

theorem ldLoop_cons (nv ne : ℕ) (A : Mat K) (b : Vec K) (x : Vec K) (n ii : ℕ) (s : LdS K) (hn : ii + n = ne)
    (h : ElInv nv ne x ii s.jj0 s.W) : (ldLoop 0 nv ne A b n ii s).1 = false := by
  induction n generalizing ii s with
  | zero => rfl
  | succ n ih =>
    unfold ldLoop
    split
    · rename_i hd
      have hd : s.W ii ii = 0 := abs_nonpos_iff.mp hd
      split
      · rename_i rc hsr
        exact ih _ _ (by omega) (ldPivot_inv h hd (by omega) hsr)
      · rename_i hsr
        have hn' := ldSearch_none hsr
        have hst : s.jj0 ≤ ldStart ii s.jj0 ∧ ii + 1 ≤ ldStart ii s.jj0 ∧ (ldStart ii s.jj0 = s.jj0 ∨ ldStart ii s.jj0 = ii + 1) := by
          unfold ldStart; split_ifs <;> omega
        have hz : ∀ r, ii ≤ r → r < ne → s.W r nv = 0 := by
          intro r h1 h2
          rw [← (h r h1 h2).2]
          unfold tailSum
          refine sum_eq_zero (fun c hc => ?_)
          have hc := mem_range.mp hc
          split_ifs with hrc
          · have : s.W r c = 0 := by
              by_cases hj : c < s.jj0
              · exact (h r h1 h2).1 c hrc hj hc
              · by_cases hs : ldStart ii s.jj0 ≤ c
                · exact abs_nonpos_iff.mp (hn' c hs (by omega) r h1 h2 hrc)
                · have e1 : c = ii := by omega
                  have e2 : r = ii := by omega
                  rw [e1, e2]; exact hd
            rw [this, zero_mul]
          · rfl
        dsimp only
        refine loop_inv (fun (k : ℕ) (inc : Bool) => inc = false) (ne - ii) _ false rfl (fun k inc hk hi => ?_)
        rw [hi, Bool.false_or, decide_eq_false_iff_not, hz (ii + k) (by omega) (by omega), abs_zero]
        exact lt_irrefl _
    · exact ih _ _ (by omega) (fun r h1 h2 => h r (by omega) h2)

/-- **C91** With threshold zero INCONS_EQ is reported only if no point satisfies the equality constraints, and then the QP is
untouched. -/
theorem remove_incons_sound (qp qp' : DenseQp K) (ws ws' : LdWs K) (h : removeLinDep 0 qp ws = some (qp', ws')) (hi : ws'.incons = true) :
    (∀ x, ¬ EqSat qp x) ∧ qp' = qp := by
  unfold removeLinDep at h
  extract_lets nv ne ws1 W W1 lu r ws2 at h
  split at h
  · obtain ⟨rfl, rfl⟩ := Prod.mk.inj (Option.some.inj h); exact absurd hi Bool.false_ne_true
  · split at h
    · exact nomatch h
    · split at h
      · rename_i hne hle hinc
        refine ⟨fun x hx => ?_, (Prod.mk.inj (Option.some.inj h)).1.symm⟩
        have hr : r.1 = false := by
          refine ldLoop_cons nv ne qp.A qp.b x ne 0 _ (by omega) (fun i h1 h2 => ⟨fun c _ hc => by
            have : c < 0 := hc
            omega, ?_⟩)
          refine getrf_inv ne nv (by omega) x W1 ws1.ipiv_e (fun i hi => ?_) i h2
          have e1 : ∀ c, c < nv → W1 i c = qp.A i c := by
            intro c hc
            show colin ne qp.b 0 W 0 nv i c = _
            unfold colin
            rw [if_neg (by omega)]
            show gecp ne nv qp.A 0 0 ws1.Ab_LU 0 0 i c = _
            unfold gecp
            rw [if_pos (by omega)]; simp
          have e2 : W1 i nv = qp.b i := by
            show colin ne qp.b 0 W 0 nv i nv = _
            unfold colin
            rw [if_pos (by omega)]; simp
          rw [e2, ← hx i hi]
          exact sum_congr rfl (fun c hc => by rw [e1 c (mem_range.mp hc)])
        rw [hr] at hinc
        exact absurd hinc (by decide)
      · split at h
        · obtain ⟨rfl, rfl⟩ := Prod.mk.inj (Option.some.inj h); exact absurd hi Bool.false_ne_true
        · obtain ⟨rfl, rfl⟩ := Prod.mk.inj (Option.some.inj h); exact absurd hi Bool.false_ne_true

end
end Hpipm
