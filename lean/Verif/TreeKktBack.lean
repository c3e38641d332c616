/-
The backward recursion of the tree KKT solver (intermediate results for C80).
-/
import Verif.TreeKkt
import Verif.TreeResProps
import Verif.KktConv

namespace Hpipm
open Finset
set_option linter.unusedSectionVars false

section
variable {K : Type*} [Field K] [LinearOrder K] [IsStrictOrderedRing K]

/-- products of the rows of `AL` of a kid, in terms of the cost to go of the kid -/
theorem kid_prod (nv nu1 n1 : ℕ) (L1 BA BA' : Mat K) (hBA : ∀ i a, i < nv → a < n1 → BA' i a = BA i a) (b : Vec K)
    (AL : Mat K) (tm0 Pb0 : Vec K) :
    let A0 := trmm_rlnn (nv + 1) n1 1 L1 nu1 nu1 (rowin n1 1 b 0 BA' nv 0) 0 0 AL 0 0
    let A := gead 1 n1 1 L1 (nu1 + n1) nu1 A0 nv 0
    (∀ i j, i < nv → j ≤ i → ∑ q ∈ range n1, A i q * A j q =
      ∑ a ∈ range n1, ∑ c ∈ range n1, BA i a * sqP nu1 n1 L1 a c * BA j c) ∧
    (∀ j, j < nv → ∑ q ∈ range n1, A nv q * A j q =
      ∑ a ∈ range n1, BA j a * (∑ c ∈ range n1, sqP nu1 n1 L1 a c * b c + sqp nu1 n1 L1 a)) ∧
    (∀ a, a < n1 → trmv_lnn n1 L1 nu1 nu1 (rowex n1 1 A0 nv 0 tm0 0) 0 Pb0 0 a = ∑ c ∈ range n1, sqP nu1 n1 L1 a c * b c) := by
  intro A0 A
  obtain ⟨a1, a2, a3⟩ := sqAL_in nv nu1 n1 L1 BA' AL b
  have a1' : ∀ i a, i < nv → a < n1 → A i a = ∑ l ∈ range n1, BA i l * low L1 (nu1 + l) (nu1 + a) := by
    intro i a hi ha
    refine (a1 i a hi ha).trans ?_
    exact sum_congr rfl (fun l hl => by rw [hBA i l hi (mem_range.mp hl)])
  refine ⟨fun i j hi hj => ?_, fun j hj => ?_, fun a ha => ?_⟩
  · simp only [sqP]
    rw [← sq_prod n1 (BA i) (BA j) (fun l a => low L1 (nu1 + l) (nu1 + a))]
    apply sum_congr rfl
    intro q hq
    rw [a1' i q hi (mem_range.mp hq), a1' j q (by omega) (mem_range.mp hq)]
  · have := sq_prod_row n1 b (fun q => L1 (nu1 + n1) (nu1 + q)) (BA j) (fun l a => low L1 (nu1 + l) (nu1 + a))
    simp only [sqP, sqp]
    rw [← this]
    apply sum_congr rfl
    intro q hq
    have a2' : A nv q = _ := a2 q (mem_range.mp hq)
    rw [a2', a1' j q hj (mem_range.mp hq)]
  · have : ∀ j, j < n1 → rowex n1 1 A0 nv 0 tm0 0 j = ∑ l ∈ range n1, b l * low L1 (nu1 + l) (nu1 + j) := by
      intro j hj
      rw [rowex, if_pos (by omega), ← a3 j hj]
      simp [A0]
    rw [trmv_lnn, if_pos (by omega)]
    simp only [Nat.sub_zero, zero_add, sqP, sum_mul]
    rw [sum_comm]
    apply sum_congr rfl
    intro j hj
    rw [this j (mem_range.mp hj)]
    by_cases h : j ≤ a
    · rw [if_pos h, mul_sum]
      apply sum_congr rfl
      intro l _
      have : low L1 (nu1 + a) (nu1 + j) = L1 (nu1 + a) (nu1 + j) := by
        rw [low, if_pos (by omega)]
      rw [this]; ring
    · rw [if_neg h]
      symm
      apply sum_eq_zero
      intro l _
      have : low L1 (nu1 + a) (nu1 + j) = 0 := by
        rw [low, if_neg (by omega)]
      rw [this]; ring

/-- cost to go of a node from its factor -/
def tP (t : TreeQp K) (L : ℕ → Mat K) (c : ℕ) : Mat K := sqP (t.qp.dim.nu c) (t.qp.dim.nx c) (L c)
def tp (t : TreeQp K) (L : ℕ → Mat K) (c : ℕ) : Vec K := sqp (t.qp.dim.nu c) (t.qp.dim.nx c) (L c)

/-- Hessian contribution of kid `c` to its parent -/
def kidM (t : TreeQp K) (P : ℕ → Mat K) (c i j : ℕ) : K :=
  ∑ a ∈ range (t.qp.dim.nx c), ∑ d ∈ range (t.qp.dim.nx c), t.qp.BAbt (c - 1) i a * P c a d * t.qp.BAbt (c - 1) j d

/-- gradient contribution of kid `c` to its parent -/
def kidm (t : TreeQp K) (P : ℕ → Mat K) (p : ℕ → Vec K) (c j : ℕ) : K :=
  ∑ a ∈ range (t.qp.dim.nx c), t.qp.BAbt (c - 1) j a * (∑ d ∈ range (t.qp.dim.nx c), P c a d * t.qp.b (c - 1) d + p c a)

/-- Hessian and gradient of a node with the cost to go of its kids -/
def tM (t : TreeQp K) (dr : ℕ → ℕ → K) (reg : K) (G : ℕ → Vec K) (P : ℕ → Mat K) (k i j : ℕ) : K :=
  kH t.qp dr reg G k i j + ∑ jj ∈ range (t.nkids k), kidM t P (t.kids k jj) i j
def tm (t : TreeQp K) (reg : K) (G g : ℕ → Vec K) (P : ℕ → Mat K) (p : ℕ → Vec K) (k j : ℕ) : K :=
  kg t.qp reg G g k j + ∑ jj ∈ range (t.nkids k), kidm t P p (t.kids k jj) j

theorem kidM_sym (t : TreeQp K) (P : ℕ → Mat K) (hP : ∀ c i j, P c i j = P c j i) (c i j : ℕ) : kidM t P c i j = kidM t P c j i := by
  unfold kidM
  rw [sum_comm]
  exact sum_congr rfl (fun a _ => sum_congr rfl (fun d _ => by rw [hP c d a]; ring))

theorem tM_sym (t : TreeQp K) (dr : ℕ → ℕ → K) (reg : K) (G : ℕ → Vec K) (P : ℕ → Mat K) (hP : ∀ c i j, P c i j = P c j i)
    (k i j : ℕ) : tM t dr reg G P k i j = tM t dr reg G P k j i := by
  unfold tM
  rw [kH_sym]
  congr 1
  exact sum_congr rfl (fun jj _ => kidM_sym t P hP _ _ _)

/-- state after `n` kids of node `k` -/
structure TKids (t : TreeQp K) (k n : ℕ) (st0 st : KktSt K) : Prop where
  Lo : ∀ q, q ≠ k → st.L q = st0.L q
  Lk : ∀ i j, i < t.qp.dim.nu k + t.qp.dim.nx k → j ≤ i →
    st.L k i j = st0.L k i j + ∑ jj ∈ range n, kidM t (tP t st0.L) (t.kids k jj) i j
  Lr : ∀ j, j < t.qp.dim.nu k + t.qp.dim.nx k → st.L k (t.qp.dim.nu k + t.qp.dim.nx k) j =
    st0.L k (t.qp.dim.nu k + t.qp.dim.nx k) j + ∑ jj ∈ range n, kidm t (tP t st0.L) (tp t st0.L) (t.kids k jj) j
  pb : ∀ jj, jj < n → ∀ a, a < t.qp.dim.nx (t.kids k jj) → st.Pb (t.kids k jj - 1) a =
    ∑ d ∈ range (t.qp.dim.nx (t.kids k jj)), tP t st0.L (t.kids k jj) a d * t.qp.b (t.kids k jj - 1) d
  pbo : ∀ e, (∀ jj, jj < n → t.kids k jj - 1 ≠ e) → st.Pb e = st0.Pb e
  Zs : st.Zs = st0.Zs
  ux : st.ux = st0.ux

theorem tkids_val (t : TreeQp K) (ht : t.TreeOk) (k : ℕ) (hk : k ≤ t.qp.dim.N) (st0 : KktSt K) :
    TKids t k (t.nkids k) st0 (loop (t.nkids k) (fun jj st => tkKid t k (t.kids k jj) st) st0) := by
  have h := loop_inv (fun n s => n ≤ t.nkids k → TKids t k n st0 s) (t.nkids k)
    (fun jj st => tkKid t k (t.kids k jj) st) st0
    (fun _ => ⟨fun _ _ => rfl, fun i j _ _ => by simp, fun j _ => by simp, fun jj h => by omega, fun _ _ => rfl, rfl, rfl⟩)
    (fun n s hn hs _ => ?_) (le_refl _)
  · exact h
  have hs := hs (by omega)
  obtain ⟨hc1, hc2, hc3⟩ := ht.kid k n hk hn
  have hck : t.kids k n ≠ k := by omega
  have hLc := hs.Lo _ hck
  have hp := kid_prod (t.qp.dim.nu k + t.qp.dim.nx k) (t.qp.dim.nu (t.kids k n)) (t.qp.dim.nx (t.kids k n)) (s.L (t.kids k n))
    (t.qp.BAbt (t.kids k n - 1))
    (gecp (t.qp.dim.nu k + t.qp.dim.nx k) (t.qp.dim.nx (t.kids k n)) (t.qp.BAbt (t.kids k n - 1)) 0 0 s.AL0 0 0)
    (fun i a hi ha => by simp only [gecp]; rw [if_pos (by omega)]; simp) (t.qp.b (t.kids k n - 1))
    (rowin (t.qp.dim.nx (t.kids k n)) 1 (t.qp.b (t.kids k n - 1)) 0
      (gecp (t.qp.dim.nu k + t.qp.dim.nx k) (t.qp.dim.nx (t.kids k n)) (t.qp.BAbt (t.kids k n - 1)) 0 0 s.AL0 0 0)
      (t.qp.dim.nu k + t.qp.dim.nx k) 0) s.tmpN (s.Pb (t.kids k n - 1))
  simp only [] at hp
  rw [hLc] at hp
  obtain ⟨p1, p2, p3⟩ := hp
  refine ⟨fun q hq => ?_, fun i j hi hj => ?_, fun j hj => ?_, fun jj hjj a ha => ?_, fun e he => ?_, hs.Zs, hs.ux⟩
  · simp only [tkKid, upd_ne _ _ hq]; exact hs.Lo q hq
  · simp only [tkKid, upd_same, syrk_ln_mn]
    rw [if_pos (by omega)]
    simp only [Nat.sub_zero, zero_add, one_mul]
    rw [hs.Lk i j hi hj, sum_range_succ, add_assoc, hLc]
    congr 2
    exact p1 i j hi hj
  · simp only [tkKid, upd_same, syrk_ln_mn]
    rw [if_pos (by omega)]
    simp only [Nat.sub_zero, zero_add, one_mul]
    rw [hs.Lr j hj, sum_range_succ, add_assoc, hLc]
    congr 2
    exact p2 j hj
  · by_cases hjn : jj = n
    · subst hjn
      simp only [tkKid, upd_same]
      rw [hLc]
      exact p3 a ha
    · have hne : t.kids k jj - 1 ≠ t.kids k n - 1 := by
        intro he
        obtain ⟨g1, _, _⟩ := ht.kid k jj hk (by omega)
        exact hjn (ht.inj k jj n hk (by omega) hn (by omega))
      simp only [tkKid, upd_ne _ _ hne]
      exact hs.pb jj (by omega) a ha
  · have hne : e ≠ t.kids k n - 1 := fun h => he n (by omega) h.symm
    simp only [tkKid, upd_ne _ _ hne]
    exact hs.pbo e (fun jj hjj => he jj (by omega))

/-- node `k` is factorised -/
structure TNodeOk (sq : K → K) (t : TreeQp K) (dr : ℕ → ℕ → K) (reg : K) (G g : ℕ → Vec K) (k : ℕ) (st : KktSt K) : Prop where
  slk : StSlk t.qp reg G g k st
  pb : ∀ jj, jj < t.nkids k → ∀ a, a < t.qp.dim.nx (t.kids k jj) → st.Pb (t.kids k jj - 1) a =
    ∑ d ∈ range (t.qp.dim.nx (t.kids k jj)), tP t st.L (t.kids k jj) a d * t.qp.b (t.kids k jj - 1) d
  fac : ∃ C L0, st.L k = potrf_l_mn sq (t.qp.dim.nu k + t.qp.dim.nx k + 1) (t.qp.dim.nu k + t.qp.dim.nx k) C L0 ∧
    CMat (t.qp.dim.nu k + t.qp.dim.nx k) C (tM t dr reg G (tP t st.L) k) (tm t reg G g (tP t st.L) (tp t st.L) k)

theorem kids_congr (t : TreeQp K) (ht : t.TreeOk) (dr : ℕ → ℕ → K) (reg : K) (G g : ℕ → Vec K) (L L' : ℕ → Mat K) (k : ℕ)
    (hk : k ≤ t.qp.dim.N) (h : ∀ q, k < q → L' q = L q) :
    tM t dr reg G (tP t L') k = tM t dr reg G (tP t L) k ∧
    tm t reg G g (tP t L') (tp t L') k = tm t reg G g (tP t L) (tp t L) k := by
  have e : ∀ jj, jj < t.nkids k → L' (t.kids k jj) = L (t.kids k jj) := fun jj hjj => h _ (ht.kid k jj hk hjj).1
  constructor
  · funext i j
    simp only [tM, kidM, tP]
    congr 1
    exact sum_congr rfl (fun jj hjj => by rw [e jj (mem_range.mp hjj)])
  · funext j
    simp only [tm, kidm, tP, tp]
    congr 1
    exact sum_congr rfl (fun jj hjj => by rw [e jj (mem_range.mp hjj)])

/-- what a node changes -/
structure TNFrame (t : TreeQp K) (k : ℕ) (st st' : KktSt K) : Prop where
  L : ∀ q, q ≠ k → st'.L q = st.L q
  Zs : ∀ q, q ≠ k → st'.Zs q = st.Zs q
  ux : ∀ q, q ≠ k → st'.ux q = st.ux q
  pb : ∀ e, (∀ jj, jj < t.nkids k → t.kids k jj - 1 ≠ e) → st'.Pb e = st.Pb e

theorem tkNode_val (sq : K → K) (t : TreeQp K) (ht : t.TreeOk) (hwf : t.qp.WF) (reg : K) (G g : ℕ → Vec K) (k : ℕ)
    (hk : k ≤ t.qp.dim.N) (st : KktSt K) :
    TNFrame t k st (tkNode sq t reg G g k st) ∧ TNodeOk sq t (fun _ _ => reg) reg G g k (tkNode sq t reg G g k st) := by
  set s1 := loop (t.nkids k) (fun jj st => tkKid t k (t.kids k jj) st) (tkInit t reg k st) with hs1
  have hK : TKids t k (t.nkids k) (tkInit t reg k st) s1 := tkids_val t ht k hk _
  have hinit : ∀ q, q ≠ k → (tkInit t reg k st).L q = st.L q := fun q hq => by simp only [tkInit, upd_ne _ _ hq]
  have hLi : ∀ q, q ≠ k → s1.L q = st.L q := fun q hq => (hK.Lo q hq).trans (hinit q hq)
  obtain ⟨z, u, t0, t1, t2, t3, he, h1, h2, h3, h4, h5⟩ := condStage_val t.qp hwf reg G g k hk s1
  set nv := t.qp.dim.nu k + t.qp.dim.nx k with hnv
  set L2 := (if t.qp.dim.nb k > 0 then rowad_sp (t.qp.dim.nb k) 1 t1 0 (t.qp.idxb k)
    (if t.qp.dim.nb k > 0 then diaad_sp (t.qp.dim.nb k) 1 t0 0 (t.qp.idxb k) (s1.L k) 0 0 else s1.L k) nv 0
    else (if t.qp.dim.nb k > 0 then diaad_sp (t.qp.dim.nb k) 1 t0 0 (t.qp.idxb k) (s1.L k) 0 0 else s1.L k)) with hL2
  have hda : ∀ L : Mat K, ∀ i j, (if t.qp.dim.nb k > 0 then diaad_sp (t.qp.dim.nb k) 1 t0 0 (t.qp.idxb k) L 0 0 else L) i j =
      L i j + ∑ l ∈ range (t.qp.dim.nb k), if t.qp.idxb k l = i ∧ t.qp.idxb k l = j then kTh t.qp reg G k l else 0 := by
    intro L i j
    by_cases hn : t.qp.dim.nb k > 0
    · simp only [if_pos hn, diaad_sp, zero_add, one_mul]
      congr 1
      apply sum_congr rfl
      intro l hl
      rw [h4 l (by have := mem_range.mp hl; omega)]
    · have : t.qp.dim.nb k = 0 := by omega
      simp only [this, gt_iff_lt, lt_irrefl, if_false, range_zero, sum_empty, add_zero]
  have hra : ∀ L : Mat K, ∀ i j, (if t.qp.dim.nb k > 0 then rowad_sp (t.qp.dim.nb k) 1 t1 0 (t.qp.idxb k) L nv 0 else L) i j =
      L i j + ∑ l ∈ range (t.qp.dim.nb k), if i = nv ∧ t.qp.idxb k l = j then kVt t.qp reg G g k l else 0 := by
    intro L i j
    by_cases hn : t.qp.dim.nb k > 0
    · simp only [if_pos hn, rowad_sp, zero_add, one_mul]
      congr 1
      apply sum_congr rfl
      intro l hl
      rw [h5 l (by have := mem_range.mp hl; omega)]
    · have : t.qp.dim.nb k = 0 := by omega
      simp only [this, gt_iff_lt, lt_irrefl, if_false, range_zero, sum_empty, add_zero]
  -- the matrix without the cost to go
  set X : Mat K := fun i j => if i = nv then ∑ jj ∈ range (t.nkids k), kidm t (tP t st.L) (tp t st.L) (t.kids k jj) j
    else ∑ jj ∈ range (t.nkids k), kidM t (tP t st.L) (t.kids k jj) i j with hX
  have hkc := kids_congr t ht (fun _ _ => reg) reg G g (tkInit t reg k st).L st.L k hk (fun q hq => (hinit q (by omega)).symm)
  have hMs : ∀ i j, ∑ jj ∈ range (t.nkids k), kidM t (tP t (tkInit t reg k st).L) (t.kids k jj) i j =
      ∑ jj ∈ range (t.nkids k), kidM t (tP t st.L) (t.kids k jj) i j := by
    intro i j
    have := congrFun (congrFun hkc.1 i) j
    simp only [tM, add_right_inj] at this
    exact this.symm
  have hms : ∀ j, ∑ jj ∈ range (t.nkids k), kidm t (tP t (tkInit t reg k st).L) (tp t (tkInit t reg k st).L) (t.kids k jj) j =
      ∑ jj ∈ range (t.nkids k), kidm t (tP t st.L) (tp t st.L) (t.kids k jj) j := by
    intro j
    have := congrFun hkc.2 j
    simp only [tm, add_right_inj] at this
    exact this.symm
  have h6 : ∀ i j, i < nv → j ≤ i → L2 i j - X i j = symL (t.qp.RSQrq k) 0 0 i j + (if i = j then reg else 0)
        + ∑ l ∈ range (t.qp.dim.nb k), if t.qp.idxb k l = i ∧ t.qp.idxb k l = j then kTh t.qp reg G k l else 0 := by
    intro i j hi hj
    rw [hL2, hra, hda, hX]
    simp only []
    have e0 : (∑ l ∈ range (t.qp.dim.nb k), if i = nv ∧ t.qp.idxb k l = j then kVt t.qp reg G g k l else 0) = 0 :=
      sum_eq_zero (fun l _ => if_neg (fun hc => by omega))
    rw [e0, hK.Lk i j hi hj, if_neg (by omega), hMs]
    have e1 : (tkInit t reg k st).L k i j = symL (t.qp.RSQrq k) 0 0 i j + (if i = j then reg else 0) := by
      simp only [tkInit, upd_same]
      rw [rowin, if_neg (by omega)]
      refine (diare_drOk _ _ _ i j hi hj).trans ?_
      congr 1
      simp only [trcp_l]
      rw [if_pos (by omega), symL, if_pos hj]
      simp only [Nat.sub_zero, zero_add]
    rw [e1]; ring
  have h7 : ∀ j, j < nv → L2 nv j - X nv j = t.qp.rqz k j
        + ∑ l ∈ range (t.qp.dim.nb k), if t.qp.idxb k l = j then kVt t.qp reg G g k l else 0 := by
    intro j hj
    rw [hL2, hra, hda, hX]
    simp only [if_true]
    have e0 : (∑ l ∈ range (t.qp.dim.nb k), if t.qp.idxb k l = nv ∧ t.qp.idxb k l = j then kTh t.qp reg G k l else 0) = 0 :=
      sum_eq_zero (fun l hl => if_neg (fun hc => by
        have := hwf.1 k l hk (mem_range.mp hl)
        omega))
    rw [e0, hK.Lr j hj, hms]
    have e1 : (tkInit t reg k st).L k nv j = t.qp.rqz k j := by
      simp only [tkInit, upd_same, ← hnv]
      rw [rowin, if_pos (by omega)]; simp
    have e2 : (∑ l ∈ range (t.qp.dim.nb k), if True ∧ t.qp.idxb k l = j then kVt t.qp reg G g k l else 0) =
        ∑ l ∈ range (t.qp.dim.nb k), if t.qp.idxb k l = j then kVt t.qp reg G g k l else 0 :=
      sum_congr rfl (fun l _ => by simp)
    rw [e1, e2]; ring
  have hg := gen_ok t.qp (fun _ _ => reg) reg G g k 0 (fun i j => L2 i j - X i j) s1.AL0 t0 t1 h4 h5 h6 h7
  have hC : CMat nv (fun i j => L2 i j + ∑ l ∈ range (t.qp.dim.ng k),
        genAL nv (t.qp.dim.ng k) (t.qp.DCt k) t0 t1 (t.qp.dim.nb k) 0 s1.AL0 i (0 + l) * t.qp.DCt k j l)
      (tM t (fun _ _ => reg) reg G (tP t st.L) k) (tm t reg G g (tP t st.L) (tp t st.L) k) := by
    refine ⟨fun i j hi hj => ?_, fun j hj => ?_⟩
    · simp only [tM]
      rw [← hg.1 i j hi hj]
      simp only [hX]
      rw [if_neg (by omega)]
      ring
    · simp only [tm]
      rw [← hg.2 j hj]
      simp only [hX, if_true, hnv]
      ring
  have hkc2 : ∀ L' : Mat K, (∀ q, q ≠ k → upd s1.L k L' q = st.L q) := fun L' q hq => by
    rw [upd_ne _ _ hq]; exact hLi q hq
  have hpb : ∀ jj, jj < t.nkids k → ∀ a, a < t.qp.dim.nx (t.kids k jj) → s1.Pb (t.kids k jj - 1) a =
      ∑ d ∈ range (t.qp.dim.nx (t.kids k jj)), tP t st.L (t.kids k jj) a d * t.qp.b (t.kids k jj - 1) d := by
    intro jj hjj a ha
    rw [hK.pb jj hjj a ha]
    simp only [tP]
    rw [hinit _ (by have := (ht.kid k jj hk hjj).1; omega)]
  have hstep : ∃ AL0' C L0, tkNode sq t reg G g k st =
      { s1 with
        Zs := upd s1.Zs k z
        ux := upd s1.ux k u
        t0 := t0
        t1 := t1
        t2 := t2
        t3 := t3
        AL0 := AL0'
        L := upd s1.L k (potrf_l_mn sq (nv + 1) nv C L0) } ∧
      CMat nv C (tM t (fun _ _ => reg) reg G (tP t st.L) k) (tm t reg G g (tP t st.L) (tp t st.L) k) := by
    by_cases hn : t.qp.dim.ng k > 0
    · refine ⟨genAL nv (t.qp.dim.ng k) (t.qp.DCt k) t0 t1 (t.qp.dim.nb k) 0 s1.AL0, _, L2, ?_, hC⟩
      unfold tkNode
      rw [← hs1]
      simp only [tkCons, he, if_pos hn, syrk_potrf_ln_mn, ← hL2, ← hnv, genAL, zero_add]
    · have hn0 : t.qp.dim.ng k = 0 := by omega
      simp only [hn0, range_zero, sum_empty, add_zero] at hC
      refine ⟨s1.AL0, _, L2, ?_, hC⟩
      unfold tkNode
      rw [← hs1]
      simp only [tkCons, he, if_neg hn, ← hL2, ← hnv]
  obtain ⟨AL0', C, L0, hst, hCM⟩ := hstep
  rw [hst]
  have hkc3 := kids_congr t ht (fun _ _ => reg) reg G g st.L (upd s1.L k (potrf_l_mn sq (nv + 1) nv C L0)) k hk
    (fun q hq => hkc2 _ q (by omega))
  refine ⟨⟨fun q hq => hkc2 _ q hq, fun q hq => ?_, fun q hq => ?_, fun e he => ?_⟩, ⟨⟨fun i hi => ?_, fun i hi => ?_⟩, ?_, C, L0, ?_, ?_⟩⟩
  · simp only [upd_ne _ _ hq, hK.Zs]; rfl
  · simp only [upd_ne _ _ hq, hK.ux]; rfl
  · exact hK.pbo e he
  · simp only [upd_same]; exact h1 i hi
  · simp only [upd_same]; exact h2 i hi
  · intro jj hjj a ha
    simp only [tP]
    rw [hkc2 _ _ (by have := (ht.kid k jj hk hjj).1; omega)]
    exact hpb jj hjj a ha
  · simp only [upd_same, hnv]
  · simp only []
    rw [hkc3.1, hkc3.2]
    exact hCM

theorem TNodeOk.frame {sq : K → K} {t : TreeQp K} (ht : t.TreeOk) {dr : ℕ → ℕ → K} {reg : K} {G g : ℕ → Vec K} {k q : ℕ}
    {st st' : KktSt K} (h : TNodeOk sq t dr reg G g q st) (hq : q ≤ t.qp.dim.N) (hk : k ≤ t.qp.dim.N) (hf : TNFrame t k st st')
    (hlt : k < q) : TNodeOk sq t dr reg G g q st' := by
  have hkc := kids_congr t ht dr reg G g st.L st'.L q hq (fun p hp => hf.L p (by omega))
  refine ⟨⟨fun i hi => ?_, fun i hi => ?_⟩, fun jj hjj a ha => ?_, ?_⟩
  · rw [hf.Zs q (by omega)]; exact h.slk.Zs i hi
  · rw [hf.ux q (by omega)]; exact h.slk.ux i hi
  · obtain ⟨h1, h2, h3⟩ := ht.kid q jj hq hjj
    rw [hf.pb, h.pb jj hjj a ha]
    · simp only [tP]; rw [hf.L _ (by omega)]
    · intro j2 hj2 he
      obtain ⟨g1, g2, g3⟩ := ht.kid k j2 hk hj2
      have : t.kids k j2 = t.kids q jj := by omega
      rw [this, h3] at g3
      omega
  · obtain ⟨C, L0, h1, h2⟩ := h.fac
    refine ⟨C, L0, by rw [hf.L q (by omega), h1], ?_⟩
    rw [hkc.1, hkc.2]; exact h2

/-- the backward recursion factorises every node -/
theorem tkBack_ok (sq : K → K) (t : TreeQp K) (ht : t.TreeOk) (hwf : t.qp.WF) (reg : K) (G g : ℕ → Vec K) (st : KktSt K) :
    ∀ k, k ≤ t.qp.dim.N → TNodeOk sq t (fun _ _ => reg) reg G g k (tkBack sq t reg G g st) := by
  have h := loop_inv (fun n s => n ≤ t.qp.dim.N + 1 → ∀ k, k ≤ t.qp.dim.N → t.qp.dim.N + 1 ≤ k + n → TNodeOk sq t (fun _ _ => reg) reg G g k s)
    (t.qp.dim.N + 1) (fun ss st => tkNode sq t reg G g (t.qp.dim.N - ss) st) st (fun _ k hk hk2 => by omega)
    (fun n s hn hs _ k hk hk2 => ?_) (le_refl _)
  · intro k hk; exact h k hk (by omega)
  obtain ⟨hf, ho⟩ := tkNode_val sq t ht hwf reg G g (t.qp.dim.N - n) (by omega) s
  by_cases hkn : k = t.qp.dim.N - n
  · rw [hkn]; exact ho
  · exact (hs (by omega) k hk (by omega)).frame ht hk (by omega) hf (by omega)

end
end Hpipm
