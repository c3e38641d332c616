/-
Values computed by the residual routines of the tree QP.
-/
import Verif.TreeQp
import Verif.ResProps
import Verif.CondAdj

namespace Hpipm
open Finset
set_option linter.unusedSectionVars false
variable {K : Type*} [Field K] [LinearOrder K] [IsStrictOrderedRing K]

/-- the QP seen by a single node -/
def cutQp (qp : OcpQp K) (k : ℕ) : OcpQp K := { qp with dim := { qp.dim with N := k } }

/-- the QP without coupling between the nodes -/
def freeQp (qp : OcpQp K) : OcpQp K := { qp with BAbt := fun _ _ _ => 0 }

theorem cutQp_wf (qp : OcpQp K) (hwf : qp.WF) (k : ℕ) (hk : k ≤ qp.dim.N) : (cutQp qp k).WF := by
  exact ⟨fun l j hl => hwf.1 l j (le_trans hl hk), fun l j hl => hwf.2 l j (le_trans hl hk)⟩

theorem cutQp_mask (qp : OcpQp K) (mask : Bool) (hm : MaskOk qp mask) (k : ℕ) (hk : k ≤ qp.dim.N) :
    MaskOk (cutQp qp k) mask := by
  exact hm.imp id (fun h l j hl => h l j (le_trans hl hk))

theorem axpy_swap (n : ℕ) (x x' : Vec K) (z : Vec K) (h : ∀ j, j < n + n → x j = x' j) :
    axpy n (-1) x 0 x n z 0 = axpy n (-1) x' 0 x' n z 0 := by
  funext i
  simp only [axpy]
  split_ifs with hi
  · rw [h _ (by omega), h _ (by omega)]
  · rfl

theorem dot_swap (n : ℕ) (d x x' : Vec K) (h : ∀ j, j < n → x j = x' j) :
    dot n d 0 x 0 = dot n d 0 x' 0 := by
  simp only [dot, Nat.zero_add]
  exact sum_congr rfl fun j hj => by rw [h j (mem_range.mp hj)]

theorem tresNode_eq (t : TreeQp K) (sol : Sol K) (mask : Bool) (hm : MaskOk t.qp mask)
    (hl : LamMasked t.qp sol.lam) (ii : ℕ) (hi : ii ≤ t.qp.dim.N) (st : ResSt K) :
    tresNode t sol mask ii st =
      let s := resStage (cutQp t.qp ii) sol mask ii st
      let kd := tresKids t sol ii (s.res.res_g ii, st.res.res_b, s.res.dual_gap)
      { s with res := { s.res with
          res_g := upd st.res.res_g ii kd.1
          res_b := kd.2.1
          dual_gap := kd.2.2 } } := by
  have htl : ∀ j, j < nct t.qp.dim ii → sol.lam ii j = (if mask then vecmul (nct t.qp.dim ii) (sol.lam ii) 0 (t.qp.d_mask ii) 0 st.ws.tmp_lam_mask 0
    else veccp (nct t.qp.dim ii) (sol.lam ii) 0 st.ws.tmp_lam_mask 0) j := by
    intro j hj
    rw [tl_val t.qp sol mask hm ii hi _ j hj, lamM, hl ii j hi hj]
  have h1 := axpy_swap (t.qp.dim.nb ii + t.qp.dim.ng ii) _ _ st.ws.tmp0 (fun j hj => htl j (by
    simp only [nct]; omega))
  have h2 := dot_swap _ (t.qp.d ii) _ _ htl
  simp only [tresNode]
  rw [h1, h2]
  simp only [resStage, cutQp, lt_irrefl, decide_false, if_false, Bool.false_eq_true, upd_same]
  rfl

/-! ### the loop over the kids -/

/-- gradient of the node, packed form -/
def tG (t : TreeQp K) (sol : Sol K) (lm : Vec K) (k i : ℕ) : K :=
  vG (freeQp t.qp) sol lm k i
    + if i < t.qp.dim.nu k + t.qp.dim.nx k then
        ∑ jj ∈ range (t.nkids k), ∑ j ∈ range (t.qp.dim.nx (t.kids k jj)), t.qp.BAbt (t.kids k jj - 1) i j * sol.pi (t.kids k jj - 1) j
      else 0

/-- defect of the dynamics of an edge, packed form -/
def tB (t : TreeQp K) (sol : Sol K) (e i : ℕ) : K :=
  t.qp.b e i - sol.ux (e + 1) (t.qp.dim.nu (e + 1) + i)
    + ∑ j ∈ range (t.qp.dim.nu (t.dad (e + 1)) + t.qp.dim.nx (t.dad (e + 1))), t.qp.BAbt e j i * sol.ux (t.dad (e + 1)) j

theorem tresKids_val (t : TreeQp K) (ht : t.TreeOk) (sol : Sol K) (ii : ℕ) (hi : ii ≤ t.qp.dim.N)
    (s0 : Vec K × (ℕ → Vec K) × K) :
    let r := tresKids t sol ii s0
    (∀ i, r.1 i = s0.1 i + if i < t.qp.dim.nu ii + t.qp.dim.nx ii then
        ∑ jj ∈ range (t.nkids ii), ∑ j ∈ range (t.qp.dim.nx (t.kids ii jj)), t.qp.BAbt (t.kids ii jj - 1) i j * sol.pi (t.kids ii jj - 1) j
      else 0) ∧
    (∀ jj, jj < t.nkids ii → ∀ i, i < t.qp.dim.nx (t.kids ii jj) → r.2.1 (t.kids ii jj - 1) i = tB t sol (t.kids ii jj - 1) i) ∧
    (∀ e, (∀ jj, jj < t.nkids ii → t.kids ii jj - 1 ≠ e) → r.2.1 e = s0.2.1 e) ∧
    r.2.2 = s0.2.2 - ∑ jj ∈ range (t.nkids ii), ∑ j ∈ range (t.qp.dim.nx (t.kids ii jj)),
      t.qp.b (t.kids ii jj - 1) j * sol.pi (t.kids ii jj - 1) j := by
  intro r
  refine loop_inv (fun m (r : Vec K × (ℕ → Vec K) × K) =>
    (∀ i, r.1 i = s0.1 i + if i < t.qp.dim.nu ii + t.qp.dim.nx ii then
        ∑ jj ∈ range m, ∑ j ∈ range (t.qp.dim.nx (t.kids ii jj)), t.qp.BAbt (t.kids ii jj - 1) i j * sol.pi (t.kids ii jj - 1) j
      else 0) ∧
    (∀ jj, jj < m → ∀ i, i < t.qp.dim.nx (t.kids ii jj) → r.2.1 (t.kids ii jj - 1) i = tB t sol (t.kids ii jj - 1) i) ∧
    (∀ e, (∀ jj, jj < m → t.kids ii jj - 1 ≠ e) → r.2.1 e = s0.2.1 e) ∧
    r.2.2 = s0.2.2 - ∑ jj ∈ range m, ∑ j ∈ range (t.qp.dim.nx (t.kids ii jj)),
      t.qp.b (t.kids ii jj - 1) j * sol.pi (t.kids ii jj - 1) j) (t.nkids ii) _ s0 ?_ ?_
  · exact ⟨fun i => by simp, fun jj h => absurd h (by omega), fun e _ => rfl, by simp⟩
  · intro m s hm ⟨h1, h2, h3, h4⟩
    obtain ⟨hk1, hk2, hk3⟩ := ht.kid ii m hi hm
    have hc : t.kids ii m - 1 + 1 = t.kids ii m := by omega
    refine ⟨fun i => ?_, fun jj hjj i hx => ?_, fun e he => ?_, ?_⟩
    · simp only [gemv_n, Nat.zero_add, Nat.sub_zero, Nat.zero_le, true_and, one_mul]
      split_ifs with hv
      · rw [h1 i, if_pos hv, sum_range_succ, add_assoc]
      · rw [h1 i, if_neg hv]
    · by_cases hj : jj = m
      · subst hj
        simp only [upd_same]
        rw [gemv_t_in (by omega), Nat.zero_add, Nat.sub_zero, axpy_in (by omega), tB, hc, hk3]
        simp only [Nat.zero_add, Nat.sub_zero]; ring
      · have hne : t.kids ii jj - 1 ≠ t.kids ii m - 1 := by
          obtain ⟨hj1, _, _⟩ := ht.kid ii jj hi (by omega)
          intro he
          exact hj (ht.inj ii jj m hi (by omega) hm (by omega))
        simp only [upd_ne _ _ hne]
        exact h2 jj (by omega) i hx
    · have := he m (by omega)
      simp only [upd_ne _ _ (Ne.symm this)]
      exact h3 e (fun jj hjj => he jj (by omega))
    · simp only [dot, Nat.zero_add]
      rw [h4, sum_range_succ]; ring

/-- sums over the kids of all nodes are sums over the edges -/
theorem sum_kids (t : TreeQp K) (ht : t.TreeOk) (G : ℕ → ℕ → K) :
    ∑ k ∈ range (t.qp.dim.N + 1), ∑ jj ∈ range (t.nkids k), G k (t.kids k jj - 1) =
    ∑ e ∈ range t.qp.dim.N, G (t.dad (e + 1)) e := by
  rw [sum_sigma']
  refine sum_bij (fun p _ => t.kids p.1 p.2 - 1) ?_ ?_ ?_ ?_
  · intro p hp
    simp only [mem_sigma, mem_range] at hp ⊢
    obtain ⟨h1, h2, _⟩ := ht.kid p.1 p.2 (by omega) hp.2
    omega
  · intro p hp q hq he
    simp only [mem_sigma, mem_range] at hp hq
    obtain ⟨h1, h2, h3⟩ := ht.kid p.1 p.2 (by omega) hp.2
    obtain ⟨g1, g2, g3⟩ := ht.kid q.1 q.2 (by omega) hq.2
    have hkk : t.kids p.1 p.2 = t.kids q.1 q.2 := by
      have he' : t.kids p.1 p.2 - 1 = t.kids q.1 q.2 - 1 := he
      omega
    have e1 : p.1 = q.1 := by rw [← h3, ← g3, hkk]
    obtain ⟨k, j⟩ := p
    obtain ⟨k', j'⟩ := q
    simp only at e1 hkk hp hq
    subst e1
    rw [ht.inj k j j' (by omega) hp.2 hq.2 hkk]
  · intro e he
    have he := mem_range.mp he
    obtain ⟨h1, j, h2, h3⟩ := ht.all (e + 1) (by omega) (by omega)
    refine ⟨⟨t.dad (e + 1), j⟩, ?_, ?_⟩
    · simp only [mem_sigma, mem_range]; omega
    · simp only [h3]; omega
  · intro p hp
    simp only [mem_sigma, mem_range] at hp
    obtain ⟨h1, h2, h3⟩ := ht.kid p.1 p.2 (by omega) hp.2
    rw [show t.kids p.1 p.2 - 1 + 1 = t.kids p.1 p.2 by omega, h3]

/-! ### all nodes -/

theorem vG_cut (qp : OcpQp K) (sol : Sol K) (lm : Vec K) (k i : ℕ) :
    vG (cutQp qp k) sol lm k i = vG (freeQp qp) sol lm k i := by
  simp only [vG, cutQp, freeQp, lt_irrefl, if_false, zero_mul, sum_const_zero, ite_self]
  rfl

/-- gap of a node without the contribution of the dynamics, packed form -/
def nodeGap (qp : OcpQp K) (sol : Sol K) (k : ℕ) : K := vGap (cutQp qp k) sol k

/-- what TREE_OCP_QP_RES_COMPUTE establishes after `n` nodes -/
structure TDone (t : TreeQp K) (sol : Sol K) (n : ℕ) (s : ResSt K) : Prop where
  g : ∀ k, k < n → ∀ i, i < nvt t.qp.dim k → s.res.res_g k i = tG t sol (lamM t.qp sol k) k i
  b : ∀ e, e < t.qp.dim.N → t.dad (e + 1) < n → ∀ i, i < t.qp.dim.nx (e + 1) → s.res.res_b e i = tB t sol e i
  d : ∀ k, k < n → ∀ j, j < nct t.qp.dim k → s.res.res_d k j = t.qp.d_mask k j * vD t.qp sol k j
  m : ∀ k, k < n → ∀ j, j < nct t.qp.dim k → s.res.res_m k j = vM t.qp sol k j
  obj : s.res.obj = ∑ k ∈ range n, vObj t.qp sol k
  gap : s.res.dual_gap = ∑ k ∈ range n, (nodeGap t.qp sol k
    - ∑ jj ∈ range (t.nkids k), ∑ j ∈ range (t.qp.dim.nx (t.kids k jj)),
      t.qp.b (t.kids k jj - 1) j * sol.pi (t.kids k jj - 1) j)
  mu : s.mu = ∑ k ∈ range n, ∑ j ∈ range (nct t.qp.dim k), |vM t.qp sol k j|

theorem tresNode_done (t : TreeQp K) (ht : t.TreeOk) (hwf : t.qp.WF) (sol : Sol K) (mask : Bool)
    (hm : MaskOk t.qp mask) (hl : LamMasked t.qp sol.lam) (n : ℕ) (hn : n ≤ t.qp.dim.N) (s : ResSt K)
    (h : TDone t sol n s) : TDone t sol (n + 1) (tresNode t sol mask n s) := by
  rw [tresNode_eq t sol mask hm hl n hn s]
  have hm' := cutQp_mask t.qp mask hm n hn
  have hok := resStage_ok (cutQp t.qp n) (cutQp_wf t.qp hwf n hn) sol mask hm' n (le_refl _) s
  obtain ⟨k1, k2, k3, k4⟩ := tresKids_val t ht sol n hn ((resStage (cutQp t.qp n) sol mask n s).res.res_g n, s.res.res_b,
    (resStage (cutQp t.qp n) sol mask n s).res.dual_gap)
  refine ⟨fun k hk i hi => ?_, fun e he hd i hi => ?_, fun k hk j hj => ?_, fun k hk j hj => ?_, ?_, ?_, ?_⟩
  · by_cases hkn : k = n
    · subst hkn
      dsimp only
      rw [upd_same, k1 i]
      dsimp only
      rw [hok.g i hi, vG_cut]
      rfl
    · dsimp only
      rw [upd_ne _ _ hkn]
      exact h.g k (by omega) i hi
  · show (tresKids t sol n _).2.1 e i = _
    obtain ⟨hd1, jj, hj1, hj2⟩ := ht.all (e + 1) (by omega) (by omega)
    by_cases hdn : t.dad (e + 1) = n
    · rw [hdn] at hj1 hj2
      have := k2 jj hj1 i (by rw [hj2]; exact hi)
      rw [hj2, Nat.add_sub_cancel] at this
      exact this
    · rw [k3 e]
      · exact h.b e he (by omega) i hi
      · intro j hj hje
        obtain ⟨c1, c2, c3⟩ := ht.kid n j hn hj
        apply hdn
        rw [← c3]
        congr 1
        omega
  · by_cases hkn : k = n
    · subst hkn; exact hok.d j hj
    · show (resStage (cutQp t.qp n) sol mask n s).res.res_d k j = _
      rw [(resStage_frame (cutQp t.qp n) sol mask n k hkn s).2.2.1]
      exact h.d k (by omega) j hj
  · by_cases hkn : k = n
    · subst hkn; exact resStage_m (cutQp t.qp k) sol mask hm' k (le_refl _) s j hj
    · show (resStage (cutQp t.qp n) sol mask n s).res.res_m k j = _
      rw [(resStage_frame (cutQp t.qp n) sol mask n k hkn s).2.2.2]
      exact h.m k (by omega) j hj
  · show (resStage (cutQp t.qp n) sol mask n s).res.obj = _
    rw [resStage_obj, h.obj, sum_range_succ]
    rfl
  · show (tresKids t sol n _).2.2 = _
    rw [k4, resStage_gap (cutQp t.qp n) sol mask hm' n (le_refl _), h.gap, sum_range_succ]
    simp only [nodeGap]; ring
  · show (resStage (cutQp t.qp n) sol mask n s).mu = _
    rw [resStage_mu (cutQp t.qp n) sol mask hm' n (le_refl _), h.mu, sum_range_succ]
    rfl

/-- all closed forms of TREE_OCP_QP_RES_COMPUTE -/
structure TVal (t : TreeQp K) (sol : Sol K) (r : Res K) : Prop where
  g : ∀ k, k ≤ t.qp.dim.N → ∀ i, i < nvt t.qp.dim k → r.res_g k i = tG t sol (lamM t.qp sol k) k i
  b : ∀ e, e < t.qp.dim.N → ∀ i, i < t.qp.dim.nx (e + 1) → r.res_b e i = tB t sol e i
  d : ∀ k, k ≤ t.qp.dim.N → ∀ j, j < nct t.qp.dim k → r.res_d k j = t.qp.d_mask k j * vD t.qp sol k j
  m : ∀ k, k ≤ t.qp.dim.N → ∀ j, j < nct t.qp.dim k → r.res_m k j = vM t.qp sol k j
  obj : r.obj = ∑ k ∈ range (t.qp.dim.N + 1), vObj t.qp sol k
  gap : r.dual_gap = ∑ k ∈ range (t.qp.dim.N + 1), vGap t.qp sol k
  mu : r.res_mu_sum = ∑ k ∈ range (t.qp.dim.N + 1), ∑ j ∈ range (nct t.qp.dim k), |vM t.qp sol k j|

theorem gap_edges (t : TreeQp K) (ht : t.TreeOk) (sol : Sol K) :
    ∑ k ∈ range (t.qp.dim.N + 1), (nodeGap t.qp sol k
    - ∑ jj ∈ range (t.nkids k), ∑ j ∈ range (t.qp.dim.nx (t.kids k jj)),
      t.qp.b (t.kids k jj - 1) j * sol.pi (t.kids k jj - 1) j) = ∑ k ∈ range (t.qp.dim.N + 1), vGap t.qp sol k := by
  have e : ∀ k, vGap t.qp sol k = nodeGap t.qp sol k
      - (if k < t.qp.dim.N then ∑ j ∈ range (t.qp.dim.nx (k + 1)), t.qp.b k j * sol.pi k j else 0) := by
    intro k
    simp only [nodeGap, vGap, cutQp, lt_irrefl, if_false, sub_zero]
    rfl
  rw [sum_congr rfl (fun k _ => e k), sum_sub_distrib, sum_sub_distrib]
  congr 1
  rw [sum_range_succ (fun k => if k < t.qp.dim.N then _ else _), if_neg (lt_irrefl _), add_zero]
  have h := sum_kids t ht (fun _ e => ∑ j ∈ range (t.qp.dim.nx (e + 1)), t.qp.b e j * sol.pi e j)
  rw [sum_congr rfl (fun e he => (if_pos (mem_range.mp he)).symm :
    ∀ e ∈ range t.qp.dim.N, (∑ j ∈ range (t.qp.dim.nx (e + 1)), t.qp.b e j * sol.pi e j) = _)] at h
  rw [← h]
  apply sum_congr rfl; intro k hk; apply sum_congr rfl; intro jj hjj
  obtain ⟨h1, _, _⟩ := ht.kid k jj (by have := mem_range.mp hk; omega) (mem_range.mp hjj)
  rw [show t.kids k jj - 1 + 1 = t.kids k jj by omega]

theorem tresCompute_val (t : TreeQp K) (ht : t.TreeOk) (hwf : t.qp.WF) (sol : Sol K)
    (hl : LamMasked t.qp sol.lam) (res : Res K) (ws : ResWs K) (hws : ws.Ok t.qp) :
    TVal t sol (tresCompute t sol res ws) := by
  have h := loop_inv (fun n s => n ≤ t.qp.dim.N + 1 → TDone t sol n s) (t.qp.dim.N + 1) (tresNode t sol (maskSel t.qp ws).1)
    { res := { res with
        obj := 0
        dual_gap := 0 }
      ws := ws
      mu := 0 } (fun _ => ⟨fun k hk => by omega, fun e _ hd => by omega, fun k hk => by omega, fun k hk => by omega,
        by simp, by simp, by simp⟩)
    (fun n s hn hs _ => tresNode_done t ht hwf sol _ (maskSel_ok t.qp ws hws) hl n (by omega) s (hs (by omega))) (le_refl _)
  refine ⟨fun k hk => h.g k (by omega), fun e he => h.b e he ?_, fun k hk => h.d k (by omega), fun k hk => h.m k (by omega),
    h.obj, h.gap.trans (gap_edges t ht sol), h.mu⟩
  have := (ht.all (e + 1) (by omega) (by omega)).1
  omega

end Hpipm
