/-
Properties C48 (scenario tree) and C50 (integer power).
-/
import Verif.Tree
import Mathlib.Algebra.Ring.GeomSum

namespace Hpipm
open Finset

theorem ipowGo_eq (r b : ℤ) (e : ℕ) : ipowGo r b e = r * b ^ e := by
  induction r, b, e using ipowGo.induct with
  | case1 r b e h ih =>
    simp only [dite_eq_ite] at ih
    rw [ipowGo, if_pos h, ih]
    have he : e = 2 * (e / 2) + e % 2 := by omega
    have hb : (b * b) ^ (e / 2) = b ^ (2 * (e / 2)) := by rw [pow_mul, pow_two]
    rcases Nat.mod_two_eq_zero_or_one e with h0 | h1
    · rw [if_neg (by omega), hb]; congr 2; omega
    · rw [if_pos h1, hb]
      conv_rhs => rw [he, h1, pow_succ]
      ring
  | case2 r b e h =>
    have : e = 0 := by omega
    subst this
    rw [ipowGo]; simp

/-- **C50.**  The square-and-multiply routine returns the power. -/
theorem ipow_eq (b : ℤ) (e : ℕ) : ipow b e = b ^ e := by rw [ipow, ipowGo_eq, one_mul]

example : ipow 3 5 = 243 := by rw [ipow_eq]; norm_num

/-- specification: number of nodes of a tree at stage `j`: the tree branches `md`-fold during the
first `Nr` stages only -/
def cntN (md Nr j : ℕ) : ℕ := md ^ min j Nr
/-- specification: number of nodes at stages below `j` -/
def startN (md Nr j : ℕ) : ℕ := ∑ i ∈ range j, cntN md Nr i

theorem startN_succ (md Nr j : ℕ) : startN md Nr (j + 1) = startN md Nr j + cntN md Nr j := by
  simp [startN, sum_range_succ]

theorem startN_mono {md Nr a b : ℕ} (h : a ≤ b) : startN md Nr a ≤ startN md Nr b := by
  induction h with
  | refl => exact le_refl _
  | step _ ih => rw [startN_succ]; omega

theorem cntN_pos {md Nr j : ℕ} (h : 1 ≤ md) : 1 ≤ cntN md Nr j := Nat.one_le_pow _ _ h

theorem startN_flat (md Nr j : ℕ) : startN md Nr (Nr + 1 + j) = startN md Nr (Nr + 1) + j * md ^ Nr := by
  induction j with
  | zero => simp
  | succ j ih =>
    rw [← Nat.add_assoc, startN_succ, ih, cntN, Nat.min_eq_right (by omega)]; ring

theorem startN_geom (md Nr : ℕ) (j : ℕ) (hj : j ≤ Nr + 1) :
    startN md Nr j = ∑ i ∈ range j, md ^ i := by
  unfold startN cntN
  apply sum_congr rfl
  intro i hi
  rw [Nat.min_eq_left (by simp at hi; omega)]

/-- **C48 (node count).**  The number computed in advance is the number of nodes of the tree. -/
theorem sctreeNodeNumber_eq {md Nr Nh : ℕ} (hmd : 1 ≤ md) (hN : Nr ≤ Nh) :
    sctreeNodeNumber md Nr Nh = startN md Nr (Nh + 1) := by
  unfold sctreeNodeNumber
  by_cases h1 : md = 1
  · subst h1; simp [startN, cntN]
  · rw [if_neg h1]
    obtain ⟨k, rfl⟩ := Nat.exists_eq_add_of_le hN
    rw [show Nr + k + 1 = Nr + 1 + k by omega, startN_flat, startN_geom _ _ _ (le_refl _)]
    have hm : ((md : ℤ) - 1) ≠ 0 := by
      have : (2 : ℤ) ≤ md := by exact_mod_cast (show 2 ≤ md by omega)
      omega
    have hg : ((∑ i ∈ range (Nr + 1), md ^ i : ℕ) : ℤ) * ((md : ℤ) - 1) = (md : ℤ) ^ (Nr + 1) - 1 := by
      push_cast
      exact geom_sum_mul (md : ℤ) (Nr + 1)
    rw [ipow_eq, ipow_eq, ← hg, Int.mul_tdiv_cancel _ hm]
    push_cast
    ring

/-- specification: number of kids of a node at a given stage -/
def kidsAt (md Nr Nh j : ℕ) : ℕ := if j < Nr then md else if j < Nh then 1 else 0

theorem cntN_succ {md Nr Nh j : ℕ} (hN : Nr ≤ Nh) (hj : j < Nh) :
    cntN md Nr (j + 1) = cntN md Nr j * kidsAt md Nr Nh j := by
  unfold cntN kidsAt
  by_cases h : j < Nr
  · rw [if_pos h, Nat.min_eq_left (by omega), Nat.min_eq_left (by omega), pow_succ]
  · rw [if_neg h, if_pos hj, Nat.min_eq_right (by omega), Nat.min_eq_right (by omega), mul_one]

/-- effect of creating `k` kids in a row -/
theorem kidsLoop_spec (Nn idx stage off : ℕ) (real : ℕ → ℤ) (s0 : TreeSt) (nk : ℕ)
    (hok : s0.ok = true) (h1 : s0.idxkid + nk < Nn) (h2 : off + nk ≤ Nn) :
    let s := loop nk (fun ii s => mkKid Nn idx stage off ii (real ii) s) s0
    s.ok = true ∧ s.idxkid = s0.idxkid + nk ∧ s.tkids = s0.tkids ∧
    (∀ j, s.kidsArr j = if off ≤ j ∧ j < off + nk then s0.idxkid + (j - off) + 1 else s0.kidsArr j) ∧
    (∀ n, s.node n = if s0.idxkid < n ∧ n ≤ s0.idxkid + nk then
        { s0.node n with idx := n, stage := stage + 1, dad := idx, real := real (n - s0.idxkid - 1),
                         idxkid := n - s0.idxkid - 1 } else s0.node n) := by
  refine loop_inv (S := TreeSt) (fun k s =>
    s.ok = true ∧ s.idxkid = s0.idxkid + k ∧ s.tkids = s0.tkids ∧
    (∀ j, s.kidsArr j = if off ≤ j ∧ j < off + k then s0.idxkid + (j - off) + 1 else s0.kidsArr j) ∧
    (∀ n, s.node n = if s0.idxkid < n ∧ n ≤ s0.idxkid + k then
        { s0.node n with idx := n, stage := stage + 1, dad := idx, real := real (n - s0.idxkid - 1),
                         idxkid := n - s0.idxkid - 1 } else s0.node n))
    nk _ s0 ⟨hok, rfl, rfl, ?_, ?_⟩ ?_
  · intro j; rw [if_neg (by omega)]
  · intro n; rw [if_neg (by omega)]
  · rintro k s hk ⟨hok', hik, htk, hka, hnode⟩
    refine ⟨?_, ?_, ?_, ?_, ?_⟩
    · simp only [mkKid, hok', Bool.true_and, Bool.and_eq_true, decide_eq_true_eq]; omega
    · simp only [mkKid]; omega
    · simp only [mkKid]; exact htk
    · intro j
      simp only [mkKid, upd, hka]
      split_ifs <;> omega
    · intro n
      simp only [mkKid, upd, hnode, hik]
      by_cases hn : n = s0.idxkid + k + 1
      · subst hn
        rw [if_pos rfl, if_neg (by omega), if_pos (by omega)]
        have : s0.idxkid + k + 1 - s0.idxkid - 1 = k := by omega
        simp [this]
      · rw [if_neg hn]
        by_cases h : s0.idxkid < n ∧ n ≤ s0.idxkid + k
        · rw [if_pos h, if_pos (by omega)]
        · rw [if_neg h, if_neg (by omega)]

/-- loop invariant of `sctree_create` -/
structure TInv (md Nr Nh : ℕ) (idx : ℕ) (s : TreeSt) : Prop where
  ok : s.ok = true
  tk : s.tkids = s.idxkid
  ka : ∀ j, j < s.tkids → s.kidsArr j = j + 1
  pos : ∃ sg i, sg ≤ Nh ∧ idx = startN md Nr sg + i ∧ (i < cntN md Nr sg ∨ sg = Nh ∧ i = cntN md Nr sg) ∧
    s.idxkid + 1 = startN md Nr (sg + 1) + i * kidsAt md Nr Nh sg
  st : ∀ n, n ≤ s.idxkid → ∀ j, startN md Nr j ≤ n → n < startN md Nr (j + 1) → (s.node n).stage = j
  ix : ∀ n, n ≤ s.idxkid → (s.node n).idx = n
  dad : ∀ n, 1 ≤ n → n ≤ s.idxkid → ∃ m, m < idx ∧ m < n ∧ (s.node n).dad = m ∧
    (s.node m).kids + (s.node n).idxkid + 1 = n ∧ (s.node n).idxkid < (s.node m).nkids ∧
    (s.node n).stage = (s.node m).stage + 1
  nk : ∀ m, m < idx → (s.node m).nkids = kidsAt md Nr Nh (s.node m).stage
  kd : ∀ m, m < idx → ∀ j, j < (s.node m).nkids → (s.node m).kids + j < s.tkids ∧
    (s.node ((s.node m).kids + j + 1)).dad = m ∧ (s.node ((s.node m).kids + j + 1)).idxkid = j
  root : (s.node 0).dad = -1 ∧ (s.node 0).stage = 0

/-- the node loop body as one uniform loop over the kids -/
theorem treeBody_eq (md Nr Nh Nn idx : ℕ) (s : TreeSt) :
    treeBody md Nr Nh Nn idx s =
      (let stage := (s.node idx).stage
       let nk := kidsAt md Nr Nh stage
       let s1 : TreeSt := { s with
          node := upd s.node idx { s.node idx with
            nkids := nk, kids := if nk > 0 then s.tkids else (s.node idx).kids }
          ok := s.ok && decide (idx < Nn), tkids := s.tkids + nk }
       loop nk (fun ii s' => mkKid Nn idx stage s.tkids ii
          (if nk > 1 then ii else (s.node idx).real) s') s1) := by
  unfold treeBody
  simp only []
  rw [show (if (s.node idx).stage < Nr then md else if (s.node idx).stage < Nh then 1 else 0)
    = kidsAt md Nr Nh (s.node idx).stage from rfl]
  generalize kidsAt md Nr Nh (s.node idx).stage = nk
  have hupd : ∀ (a : ℕ → Node) (v w : Node), upd (upd a idx v) idx w = upd a idx w := by
    intro a v w; funext j; simp only [upd]; split_ifs <;> rfl
  rcases Nat.lt_trichotomy nk 1 with h | h | h
  · have : nk = 0 := by omega
    subst this
    simp
  · subst h
    simp only [gt_iff_lt, Nat.lt_one_iff, if_true, lt_irrefl, if_false, upd_same, hupd]
    rfl
  · have h0 : nk > 0 := by omega
    simp only [h0, if_true, gt_iff_lt, h, upd_same, hupd]

theorem stage_exists {md Nr : ℕ} (n : ℕ) : ∀ J, n < startN md Nr J →
    ∃ j, j < J ∧ startN md Nr j ≤ n ∧ n < startN md Nr (j + 1) := by
  intro J
  induction J with
  | zero => intro h; simp [startN] at h
  | succ J ih =>
    intro h
    by_cases h2 : n < startN md Nr J
    · obtain ⟨j, hj, h3⟩ := ih h2; exact ⟨j, by omega, h3⟩
    · exact ⟨J, by omega, by omega, h⟩

theorem stage_unique {md Nr n a b : ℕ} (ha : startN md Nr a ≤ n) (ha' : n < startN md Nr (a + 1))
    (hb : startN md Nr b ≤ n) (hb' : n < startN md Nr (b + 1)) : a = b := by
  rcases Nat.lt_trichotomy a b with h | h | h
  · have := startN_mono (md := md) (Nr := Nr) (show a + 1 ≤ b by omega); omega
  · exact h
  · have := startN_mono (md := md) (Nr := Nr) (show b + 1 ≤ a by omega); omega

theorem TInv.step {md Nr Nh idx : ℕ} {s : TreeSt} (hmd : 1 ≤ md) (hN : Nr ≤ Nh)
    (hidx : idx < startN md Nr (Nh + 1)) (h : TInv md Nr Nh idx s) :
    TInv md Nr Nh (idx + 1) (treeBody md Nr Nh (startN md Nr (Nh + 1)) idx s) := by
  obtain ⟨sg, i, hsg, hi, hi2, hik⟩ := h.pos
  have hilt : i < cntN md Nr sg := by
    rcases hi2 with h2 | ⟨rfl, h2⟩
    · exact h2
    · rw [startN_succ] at hidx; omega
  have hidxle : idx ≤ s.idxkid := by
    have := startN_succ md Nr sg
    have h3 : i * kidsAt md Nr Nh sg ≥ 0 := Nat.zero_le _
    omega
  have hstage : (s.node idx).stage = sg :=
    h.st idx hidxle sg (by omega) (by rw [startN_succ]; omega)
  set nk := kidsAt md Nr Nh sg with hnk
  -- room for the kids
  have hroom : s.idxkid + nk < startN md Nr (Nh + 1) := by
    rcases Nat.lt_or_ge sg Nh with hlt | hge
    · have h1 : startN md Nr (sg + 2) ≤ startN md Nr (Nh + 1) := startN_mono (by omega)
      rw [startN_succ _ _ (sg + 1), cntN_succ hN hlt] at h1
      have h2 : (i + 1) * nk ≤ cntN md Nr sg * nk := Nat.mul_le_mul_right _ hilt
      rw [Nat.add_mul, Nat.one_mul] at h2
      rw [← hnk] at h1
      omega
    · have hs : sg = Nh := by omega
      have : nk = 0 := by rw [hnk, hs]; unfold kidsAt; rw [if_neg (by omega), if_neg (by omega)]
      rw [this] at hik ⊢
      rw [hs] at hik
      omega
  set s1 : TreeSt := { s with
      node := upd s.node idx { s.node idx with
        nkids := nk, kids := if nk > 0 then s.tkids else (s.node idx).kids }
      ok := s.ok && decide (idx < startN md Nr (Nh + 1)), tkids := s.tkids + nk } with hs1
  have hs1ok : s1.ok = true := by simp [hs1, h.ok, hidx]
  have hs1ik : s1.idxkid = s.idxkid := rfl
  obtain ⟨kok, kik, ktk, kka, knode⟩ := kidsLoop_spec (startN md Nr (Nh + 1)) idx sg s.tkids
    (fun ii => if nk > 1 then (ii : ℤ) else (s.node idx).real) s1 nk hs1ok
    (by rw [hs1ik]; exact hroom) (by rw [h.tk]; omega)
  set s2 := loop nk (fun ii s' => mkKid (startN md Nr (Nh + 1)) idx sg s.tkids ii
    (if nk > 1 then (ii : ℤ) else (s.node idx).real) s') s1 with hs2
  have hbody : treeBody md Nr Nh (startN md Nr (Nh + 1)) idx s = s2 := by
    rw [treeBody_eq]
    simp only [hstage, ← hnk, hs2, hs1]
  rw [hbody]
  clear_value s2
  rw [hs1ik] at kik knode
  have ktk' : s2.tkids = s.tkids + nk := ktk
  -- node values after the step
  have node_idx : s2.node idx = { s.node idx with
        nkids := nk, kids := if nk > 0 then s.tkids else (s.node idx).kids } := by
    rw [knode, if_neg (by omega)]; simp [hs1]
  have node_old : ∀ n, n ≤ s.idxkid → n ≠ idx → s2.node n = s.node n := by
    intro n hn hne
    rw [knode, if_neg (by omega)]; simp [hs1, upd, hne]
  have node_new : ∀ n, s.idxkid < n → n ≤ s.idxkid + nk →
      (s2.node n).idx = n ∧ (s2.node n).stage = sg + 1 ∧ (s2.node n).dad = idx ∧
      (s2.node n).idxkid = n - s.idxkid - 1 := by
    intro n h1 h2
    rw [knode, if_pos ⟨h1, h2⟩]; simp
  have stage_old : ∀ n, n ≤ s.idxkid → (s2.node n).stage = (s.node n).stage := by
    intro n hn
    by_cases hne : n = idx
    · subst hne; rw [node_idx]
    · rw [node_old n hn hne]
  have dad_old : ∀ n, n ≤ s.idxkid → (s2.node n).dad = (s.node n).dad ∧
      (s2.node n).idxkid = (s.node n).idxkid ∧ (s2.node n).idx = (s.node n).idx := by
    intro n hn
    by_cases hne : n = idx
    · subst hne; rw [node_idx]; simp
    · rw [node_old n hn hne]; simp
  refine ⟨kok, by rw [ktk', kik, h.tk], ?_, ?_, ?_, ?_, ?_, ?_, ?_, ?_⟩
  · intro j hj
    rw [ktk'] at hj
    rw [kka]
    by_cases hj2 : s.tkids ≤ j
    · rw [if_pos ⟨hj2, hj⟩, hs1ik]; have := h.tk; omega
    · rw [if_neg (by omega)]; exact h.ka j (by omega)
  · -- position
    by_cases hnext : i + 1 < cntN md Nr sg ∨ sg = Nh
    · refine ⟨sg, i + 1, hsg, by omega, ?_, ?_⟩
      · rcases hnext with h3 | h3
        · exact Or.inl h3
        · by_cases h4 : i + 1 < cntN md Nr sg
          · exact Or.inl h4
          · exact Or.inr ⟨h3, by omega⟩
      · rw [kik, Nat.add_mul, Nat.one_mul, ← hnk]; omega
    · push_neg at hnext
      have hlt : sg < Nh := lt_of_le_of_ne hsg hnext.2
      have hc : i + 1 = cntN md Nr sg := by omega
      refine ⟨sg + 1, 0, hlt, by rw [startN_succ]; omega, Or.inl (cntN_pos hmd), ?_⟩
      rw [kik, startN_succ _ _ (sg + 1), cntN_succ hN hlt, ← hc, ← hnk, Nat.add_mul, Nat.one_mul]
      omega
  · -- stages
    intro n hn j hj1 hj2
    rw [kik] at hn
    by_cases hn2 : n ≤ s.idxkid
    · rw [stage_old n hn2]; exact h.st n hn2 j hj1 hj2
    · rw [(node_new n (by omega) hn).2.1]
      -- new nodes lie at stage sg+1
      have hnk0 : 0 < nk := by omega
      have hlt : sg < Nh := by
        by_contra hge
        have : nk = 0 := by rw [hnk]; unfold kidsAt; rw [if_neg (by omega), if_neg (by omega)]
        omega
      have h2 : (i + 1) * nk ≤ cntN md Nr sg * nk := Nat.mul_le_mul_right _ hilt
      rw [Nat.add_mul, Nat.one_mul] at h2
      apply stage_unique (md := md) (Nr := Nr) (n := n) _ _ hj1 hj2
      · omega
      · rw [startN_succ _ _ (sg + 1), cntN_succ hN hlt, ← hnk]; omega
  · intro n hn
    rw [kik] at hn
    by_cases hn2 : n ≤ s.idxkid
    · rw [(dad_old n hn2).2.2]; exact h.ix n hn2
    · exact (node_new n (by omega) hn).1
  · -- dad
    intro n hn1 hn
    rw [kik] at hn
    by_cases hn2 : n ≤ s.idxkid
    · obtain ⟨m, hm1, hm2, hm3, hm4, hm5, hm6⟩ := h.dad n hn1 hn2
      have hmm : s2.node m = s.node m := node_old m (by omega) (by omega)
      refine ⟨m, by omega, hm2, ?_, ?_, ?_, ?_⟩
      · rw [(dad_old n hn2).1]; exact hm3
      · rw [hmm, (dad_old n hn2).2.1]; exact hm4
      · rw [hmm, (dad_old n hn2).2.1]; exact hm5
      · rw [hmm, stage_old n hn2]; exact hm6
    · obtain ⟨_, e2, e3, e4⟩ := node_new n (by omega) hn
      have hnk0 : 0 < nk := by omega
      refine ⟨idx, by omega, by omega, e3, ?_, ?_, ?_⟩
      · rw [node_idx, e4]; simp only [gt_iff_lt, hnk0, if_true]; have := h.tk; omega
      · rw [node_idx, e4]; simp only; omega
      · rw [node_idx, e2]; simp only; rw [hstage]
  · -- number of kids
    intro m hm
    by_cases hmi : m = idx
    · subst hmi; rw [node_idx]; simp only; rw [hstage]
    · rw [node_old m (by omega) hmi]; exact h.nk m (by omega)
  · -- kids point back
    intro m hm j hj
    by_cases hmi : m = idx
    · subst hmi
      rw [node_idx] at hj ⊢
      simp only at hj ⊢
      have hnk0 : nk > 0 := by omega
      simp only [hnk0, if_true]
      obtain ⟨_, _, e3, e4⟩ := node_new (s.tkids + j + 1) (by have := h.tk; omega)
        (by have := h.tk; omega)
      refine ⟨by omega, e3, by rw [e4]; have := h.tk; omega⟩
    · have hmm := node_old m (by omega) hmi
      rw [hmm] at hj ⊢
      obtain ⟨a1, a2, a3⟩ := h.kd m (by omega) j hj
      have htk := h.tk
      have hd := dad_old ((s.node m).kids + j + 1) (by omega)
      exact ⟨by omega, by rw [hd.1]; exact a2, by rw [hd.2.1]; exact a3⟩
  · have hd := dad_old 0 (by omega)
    exact ⟨by rw [hd.1]; exact h.root.1, by rw [stage_old 0 (by omega)]; exact h.root.2⟩

theorem TInv.init (md Nr Nh : ℕ) (hmd : 1 ≤ md) (node0 : ℕ → Node) (kids0 : ℕ → ℕ) :
    TInv md Nr Nh 0 (treeInit node0 kids0) := by
  refine ⟨rfl, rfl, ?_, ⟨0, 0, Nat.zero_le _, by simp [startN], Or.inl (cntN_pos hmd), ?_⟩,
    ?_, ?_, ?_, ?_, ?_, ?_⟩
  · intro j hj; simp [treeInit] at hj
  · simp [treeInit, startN, cntN]
  · intro n hn j hj1 hj2
    have hn0 : n = 0 := by simpa [treeInit] using hn
    subst hn0
    have : j = 0 := by
      apply stage_unique (md := md) (Nr := Nr) (n := 0) hj1 hj2 (by simp [startN])
      rw [startN_succ]; have := cntN_pos (Nr := Nr) (j := 0) hmd; omega
    simp [treeInit, this]
  · intro n hn
    have hn0 : n = 0 := by simpa [treeInit] using hn
    subst hn0; simp [treeInit]
  · intro n h1 h2
    have hn0 : n = 0 := by simpa [treeInit] using h2
    omega
  · intro m hm; omega
  · intro m hm; omega
  · simp [treeInit]

theorem sctreeCreate_inv {md Nr Nh : ℕ} (hmd : 1 ≤ md) (hN : Nr ≤ Nh) (node0 : ℕ → Node)
    (kids0 : ℕ → ℕ) :
    TInv md Nr Nh (startN md Nr (Nh + 1)) (sctreeCreate md Nr Nh node0 kids0) := by
  unfold sctreeCreate
  rw [sctreeNodeNumber_eq hmd hN, Int.toNat_natCast]
  exact loop_inv (fun i s => TInv md Nr Nh i s) _ _ _ (TInv.init md Nr Nh hmd node0 kids0)
    (fun i s hi h => h.step hmd hN hi)

/-- **C48.**  For every branching factor `md ≥ 1` and robust horizon `Nr ≤ Nh`, and whatever the memory
contained before, creation of the scenario tree
* never touches memory outside the two arrays of `Nn` entries,
* creates exactly `Nn` nodes (the last node created has index `Nn-1`),
* numbers nodes stage by stage, with `md^min(j,Nr)` nodes at stage `j ≤ Nh`,
* makes every non-root node `n` the `idxkid`-th kid of its dad, which has a smaller index (no cycles)
  and the previous stage, and every kid listed by a node points back to it,
* gives a node `md` kids before stage `Nr`, one kid before stage `Nh` and none at stage `Nh`. -/
theorem sctree_wellformed {md Nr Nh : ℕ} (hmd : 1 ≤ md) (hN : Nr ≤ Nh) (node0 : ℕ → Node)
    (kids0 : ℕ → ℕ) :
    let T := sctreeCreate md Nr Nh node0 kids0
    let Nn := startN md Nr (Nh + 1)
    (sctreeNodeNumber md Nr Nh = Nn) ∧ T.ok = true ∧ T.idxkid + 1 = Nn ∧
    (∀ n j, j ≤ Nh → startN md Nr j ≤ n → n < startN md Nr (j + 1) → (T.node n).stage = j) ∧
    (T.node 0).dad = -1 ∧
    (∀ n, 0 < n → n < Nn → ∃ m, m < n ∧ (T.node n).dad = m ∧
      (T.node n).idxkid < (T.node m).nkids ∧
      T.kidsArr ((T.node m).kids + (T.node n).idxkid) = n ∧
      (T.node n).stage = (T.node m).stage + 1) ∧
    (∀ m, m < Nn → (T.node m).idx = m ∧ (T.node m).nkids = kidsAt md Nr Nh (T.node m).stage ∧
      ∀ j, j < (T.node m).nkids → T.kidsArr ((T.node m).kids + j) < Nn ∧
        (T.node (T.kidsArr ((T.node m).kids + j))).dad = m) := by
  intro T Nn
  have h := sctreeCreate_inv hmd hN node0 kids0
  have hlast : T.idxkid + 1 = Nn := by
    obtain ⟨sg, i, hsg, hi, hi2, hik⟩ := h.pos
    have hc := startN_succ md Nr sg
    rcases hi2 with h2 | ⟨rfl, h2⟩
    · have h3 := startN_mono (md := md) (Nr := Nr) (show sg + 1 ≤ Nh + 1 by omega); omega
    · have : kidsAt md Nr sg sg = 0 := by
        unfold kidsAt; rw [if_neg (by omega), if_neg (by omega)]
      rw [this] at hik
      simpa using hik
  refine ⟨sctreeNodeNumber_eq hmd hN, h.ok, hlast, ?_, h.root.1, ?_, ?_⟩
  all_goals have hlast' : (sctreeCreate md Nr Nh node0 kids0).idxkid + 1 = startN md Nr (Nh + 1) := hlast
  · intro n j hj h1 h2
    have h3 := startN_mono (md := md) (Nr := Nr) (show j + 1 ≤ Nh + 1 by omega)
    exact h.st n (by omega) j h1 h2
  · intro n hn1 hn2
    obtain ⟨m, hm1, hm2, hm3, hm4, hm5, hm6⟩ := h.dad n hn1 (by omega)
    refine ⟨m, hm2, hm3, hm5, ?_, hm6⟩
    rw [h.ka _ (h.kd m hm1 _ hm5).1]; exact hm4
  · intro m hm
    refine ⟨h.ix m (by omega), h.nk m hm, ?_⟩
    intro j hj
    obtain ⟨a1, a2, _⟩ := h.kd m hm j hj
    rw [h.ka _ a1]
    exact ⟨by have := h.tk; omega, a2⟩

/-- a tree with md=2, Nr=2, Nh=3: 1+2+4+4 = 11 nodes -/
example : startN 2 2 4 = 11 ∧ (1 ≤ 2 ∧ 2 ≤ 3) := by decide

/-- outside the contract (`Nr > Nh`) creation runs past the node array -/
theorem sctree_overrun_if_Nr_gt_Nh (node0 : ℕ → Node) (kids0 : ℕ → ℕ) :
    (sctreeCreate 2 2 1 node0 kids0).ok = false := by
  have hn : (sctreeNodeNumber 2 2 1).toNat = 3 := by
    simp only [sctreeNodeNumber, ipow_eq]; norm_num; rfl
  simp [sctreeCreate, hn, loop_succ, treeBody, treeInit, mkKid, upd]

end Hpipm
