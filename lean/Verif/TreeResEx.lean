/-
C79 continued: norms, the linear residuals (Newton system), setters, trees made by the tree creator, examples,
and the defect of masked multipliers.
-/
import Verif.TreeResProps

namespace Hpipm
open Finset
set_option linter.unusedSectionVars false
variable {K : Type*} [Field K] [LinearOrder K] [IsStrictOrderedRing K]

/-- **C79 (norms).**  The four reported norms bound every component of their residual group over all
nodes (edges), and are attained unless zero. -/
theorem tres_norms (D : QpDim) (res : Res K) :
    let r := tresInfNorm D res
    ((∀ k i, k ≤ D.N → i < D.nu k + D.nx k + 2 * D.ns k → |res.res_g k i| ≤ r.1) ∧
      (r.1 = 0 ∨ ∃ k i, k ≤ D.N ∧ i < D.nu k + D.nx k + 2 * D.ns k ∧ r.1 = |res.res_g k i|)) ∧
    ((∀ k i, k < D.N → i < D.nx (k + 1) → |res.res_b k i| ≤ r.2.1) ∧
      (r.2.1 = 0 ∨ ∃ k i, k < D.N ∧ i < D.nx (k + 1) ∧ r.2.1 = |res.res_b k i|)) ∧
    ((∀ k i, k ≤ D.N → i < 2 * D.nb k + 2 * D.ng k + 2 * D.ns k → |res.res_d k i| ≤ r.2.2.1) ∧
      (r.2.2.1 = 0 ∨ ∃ k i, k ≤ D.N ∧ i < 2 * D.nb k + 2 * D.ng k + 2 * D.ns k ∧ r.2.2.1 = |res.res_d k i|)) ∧
    ((∀ k i, k ≤ D.N → i < 2 * D.nb k + 2 * D.ng k + 2 * D.ns k → |res.res_m k i| ≤ r.2.2.2) ∧
      (r.2.2.2 = 0 ∨ ∃ k i, k ≤ D.N ∧ i < 2 * D.nb k + 2 * D.ng k + 2 * D.ns k ∧ r.2.2.2 = |res.res_m k i|)) := by
  have e : tresInfNorm D res = resInfNorm D res := by
    rw [resInfNorm_eq]
    have a1 := loop_sum_off (nvt D) (D.N + 1)
    have a2 := loop_sum_off (nct D) (D.N + 1)
    have a3 := loop_sum_off (fun k => D.nx (k + 1)) D.N
    simp only [nvt, nct] at a1 a2 a3
    simp only [tresInfNorm, Nat.add_sub_cancel, a1, a2, a3]
  rw [e]
  exact res_norms D res

/-! ### the linear residuals -/

/-- closed forms of TREE_OCP_QP_RES_COMPUTE_LIN -/
structure TLin (t : TreeQp K) (sol step : Sol K) (n : ℕ) (r : Res K) : Prop where
  g : ∀ k, k < n → ∀ i, i < nvt t.qp.dim k → r.res_g k i = tG t step (lamM t.qp step k) k i
  b : ∀ e, e < t.qp.dim.N → t.dad (e + 1) < n → ∀ i, i < t.qp.dim.nx (e + 1) → r.res_b e i = tB t step e i
  d : ∀ k, k < n → ∀ j, j < nct t.qp.dim k → r.res_d k j = t.qp.d_mask k j * vD t.qp step k j
  m : ∀ k, k < n → ∀ j, j < nct t.qp.dim k → r.res_m k j = vML t.qp sol step k j

theorem tresLin_done (t : TreeQp K) (ht : t.TreeOk) (hwf : t.qp.WF) (sol step : Sol K) (mask : Bool)
    (hm : MaskOk t.qp mask) (n : ℕ) (hn : n ≤ t.qp.dim.N) (s : ResSt K)
    (h : TLin t sol step n s.res) : TLin t sol step (n + 1) (tresLinNode t sol step mask n s).res := by
  have hm' := cutQp_mask t.qp mask hm n hn
  have hok := resLinStage_ok (cutQp t.qp n) (cutQp_wf t.qp hwf n hn) sol step mask hm' n (le_refl _) s
  have hfr := fun k (hk : k ≠ n) => resLinStage_frame (cutQp t.qp n) sol step mask n k hk s
  obtain ⟨k1, k2, k3, _⟩ := tresKids_val t ht step n hn ((resLinStage (cutQp t.qp n) sol step mask n s).res.res_g n, s.res.res_b, 0)
  have hdef : (tresLinNode t sol step mask n s).res =
      { (resLinStage (cutQp t.qp n) sol step mask n s).res with
        res_g := upd (resLinStage (cutQp t.qp n) sol step mask n s).res.res_g n
          (tresKids t step n ((resLinStage (cutQp t.qp n) sol step mask n s).res.res_g n, s.res.res_b, 0)).1
        res_b := (tresKids t step n ((resLinStage (cutQp t.qp n) sol step mask n s).res.res_g n, s.res.res_b, 0)).2.1 } := rfl
  rw [hdef]
  refine ⟨fun k hk i hi => ?_, fun e he hd i hi => ?_, fun k hk j hj => ?_, fun k hk j hj => ?_⟩
  · by_cases hkn : k = n
    · subst hkn
      dsimp only
      rw [upd_same, k1 i]
      dsimp only
      rw [hok.g i hi, vG_cut]
      rfl
    · dsimp only
      rw [upd_ne _ _ hkn, (hfr k hkn).1]
      exact h.g k (by omega) i hi
  · dsimp only
    obtain ⟨hd1, jj, hj1, hj2⟩ := ht.all (e + 1) (by omega) (by omega)
    by_cases hdn : t.dad (e + 1) = n
    · rw [hdn] at hj1 hj2
      have := k2 jj hj1 i (by rw [hj2]; exact hi)
      rw [hj2, Nat.add_sub_cancel] at this
      exact this
    · rw [k3 e]
      · exact h.b e he (by omega) i hi
      · intro j hj hje
        obtain ⟨c1, c2, c3⟩ := ht.kid n j hn hj
        apply hdn
        rw [← c3]
        congr 1
        omega
  · by_cases hkn : k = n
    · subst hkn; exact hok.d j hj
    · dsimp only
      rw [(hfr k hkn).2.2.1]
      exact h.d k (by omega) j hj
  · by_cases hkn : k = n
    · subst hkn; exact resLinStage_m (cutQp t.qp k) sol step mask hm' k (le_refl _) s j hj
    · dsimp only
      rw [(hfr k hkn).2.2.2]
      exact h.m k (by omega) j hj

theorem tresComputeLin_val (t : TreeQp K) (ht : t.TreeOk) (hwf : t.qp.WF) (sol step : Sol K)
    (res : Res K) (ws : ResWs K) (hws : ws.Ok t.qp) :
    TLin t sol step (t.qp.dim.N + 1) (tresComputeLin t sol step res ws) :=
  loop_inv (fun n s => n ≤ t.qp.dim.N + 1 → TLin t sol step n s.res) (t.qp.dim.N + 1)
    (tresLinNode t sol step (maskSel t.qp ws).1) _
    (fun _ => ⟨fun k hk => by omega, fun e _ hd => by omega, fun k hk => by omega, fun k hk => by omega⟩)
    (fun n s hn hs _ => tresLin_done t ht hwf sol step _ (maskSel_ok t.qp ws hws) n (by omega) s (hs (by omega))) (le_refl _)

/-- the QP without gradient -/
def zqp (qp : OcpQp K) : OcpQp K := { qp with rqz := fun _ _ => 0 }

theorem vG_grad_split (qp : OcpQp K) (sol : Sol K) (lm : Vec K) (k i : ℕ) :
    vG qp sol lm k i = qp.rqz k i + vG (zqp qp) sol lm k i := by
  have e1 : ∀ v, hmul (zqp qp) k v i = hmul qp k v i := fun v => rfl
  have e2 : ∀ v, cvalT (zqp qp) k v i = cvalT qp k v i := fun v => rfl
  have e3 : ∀ v s, slkT (zqp qp) k v s = slkT qp k v s := fun v s => rfl
  simp only [zqp] at e1 e2 e3
  simp only [vG, zqp, e1, e2, e3]
  by_cases hi : i < qp.dim.nu k + qp.dim.nx k
  · rw [if_pos hi, if_pos hi]; 
    have a : ∀ a b c d e : K, a + b - c + d + e = b + (a + 0 - c + d + e) := by intros; ring
    exact a _ _ _ _ _
  · rw [if_neg hi, if_neg hi]; ring

/-- the Newton system of the tree QP -/
def tstepQp (t : TreeQp K) (r : Res K) : TreeQp K := { t with qp := stepQp t.qp r }

theorem tG_step (t : TreeQp K) (sol step : Sol K) (lm dlm : Vec K) (r : Res K) (k i : ℕ) (hi : i < nvt t.qp.dim k)
    (hr : r.res_g k i = tG t sol lm k i) :
    tG t (sol.add step) (fun j => lm j + dlm j) k i = tG (tstepQp t r) step dlm k i := by
  have hv := vG_step (freeQp t.qp) sol step lm dlm { r with res_g := fun _ _ => vG (freeQp t.qp) sol lm k i } k i hi rfl
  rw [vG_grad_split (stepQp _ _)] at hv
  have hk1 : (∑ jj ∈ range (t.nkids k), ∑ j ∈ range (t.qp.dim.nx (t.kids k jj)),
        t.qp.BAbt (t.kids k jj - 1) i j * (sol.add step).pi (t.kids k jj - 1) j) =
      (∑ jj ∈ range (t.nkids k), ∑ j ∈ range (t.qp.dim.nx (t.kids k jj)),
        t.qp.BAbt (t.kids k jj - 1) i j * sol.pi (t.kids k jj - 1) j)
      + ∑ jj ∈ range (t.nkids k), ∑ j ∈ range (t.qp.dim.nx (t.kids k jj)),
        t.qp.BAbt (t.kids k jj - 1) i j * step.pi (t.kids k jj - 1) j := by
    simp only [Sol.add, mul_add, sum_add_distrib]
  have e1 : tG (tstepQp t r) step dlm k i = (r.res_g k i + vG (zqp (freeQp (tstepQp t r).qp)) step dlm k i)
      + if i < t.qp.dim.nu k + t.qp.dim.nx k then ∑ jj ∈ range (t.nkids k), ∑ j ∈ range (t.qp.dim.nx (t.kids k jj)),
        t.qp.BAbt (t.kids k jj - 1) i j * step.pi (t.kids k jj - 1) j else 0 := by
    unfold tG
    rw [vG_grad_split (freeQp _)]
    rfl
  rw [e1, hr]
  unfold tG
  rw [hv, hk1]
  have e2 : vG (zqp (freeQp (tstepQp t r).qp)) step dlm k i =
    vG (zqp (stepQp (freeQp t.qp) { r with res_g := fun _ _ => vG (freeQp t.qp) sol lm k i })) step dlm k i := rfl
  rw [e2]
  simp only [stepQp]
  split_ifs <;> ring

theorem tB_step (t : TreeQp K) (sol step : Sol K) (r : Res K) (e i : ℕ) (hr : r.res_b e i = tB t sol e i) :
    tB t (sol.add step) e i = tB (tstepQp t r) step e i := by
  have e1 : tB (tstepQp t r) step e i = r.res_b e i + tlinB t step.ux e i := tB_lin (tstepQp t r) step e i
  have e2 : tB t (sol.add step) e i = t.qp.b e i + (tlinB t sol.ux e i + tlinB t step.ux e i) := by
    rw [tB_lin, ← tlinB_add]; rfl
  rw [e1, e2, hr, tB_lin]; ring

/-- **C79 (Newton system).**  After the full step along a direction, the stationarity, dynamics and inequality
residuals of the tree QP are the linear residuals of the direction, and the complementarity residual is the linear one
plus the second order term. -/
theorem tresLin_full_step (t : TreeQp K) (ht : t.TreeOk) (hwf : t.qp.WF) (hm : Mask01 t.qp) (sol step : Sol K)
    (hl : LamMasked t.qp sol.lam) (hl' : LamMasked t.qp step.lam)
    (res res1 res2 : Res K) (ws ws1 ws2 : ResWs K) (hws : ws.Ok t.qp) (hws1 : ws1.Ok t.qp) (hws2 : ws2.Ok t.qp) :
    let D := t.qp.dim
    let r := tresCompute t sol res ws
    let l := tresComputeLin (tstepQp t r) sol step res1 ws1
    let r' := tresCompute t (sol.add step) res2 ws2
    (∀ k i, k ≤ D.N → i < D.nu k + D.nx k + 2 * D.ns k → r'.res_g k i = l.res_g k i) ∧
    (∀ e i, e < D.N → i < D.nx (e + 1) → r'.res_b e i = l.res_b e i) ∧
    (∀ k j, k ≤ D.N → j < 2 * D.nb k + 2 * D.ng k + 2 * D.ns k → r'.res_d k j = l.res_d k j) ∧
    (∀ k j, k ≤ D.N → j < 2 * D.nb k + 2 * D.ng k + 2 * D.ns k →
      r'.res_m k j = l.res_m k j + t.qp.d_mask k j * (step.lam k j * step.t k j)) := by
  intro D r l r'
  have hla : LamMasked t.qp (sol.add step).lam := by
    intro k j hk hj
    show t.qp.d_mask k j * (sol.lam k j + step.lam k j) = _
    rw [mul_add, hl k j hk hj, hl' k j hk hj]; rfl
  have hts : (tstepQp t r).TreeOk := ⟨ht.kid, ht.inj, ht.all⟩
  have hr := tresCompute_val t ht hwf sol hl res ws hws
  have hr' := tresCompute_val t ht hwf (sol.add step) hla res2 ws2 hws2
  have hlin := tresComputeLin_val (tstepQp t r) hts ⟨hwf.1, hwf.2⟩ sol step res1 ws1 hws1
  refine ⟨fun k i hk hi => ?_, fun e i he hi => ?_, fun k j hk hj => ?_, fun k j hk hj => ?_⟩
  · rw [hr'.g k hk i hi, hlin.g k (Nat.lt_succ_of_le hk) i hi]
    have e : lamM t.qp (sol.add step) k = fun j => lamM t.qp sol k j + lamM (tstepQp t r).qp step k j := by
      funext j; simp only [lamM, Sol.add, tstepQp, stepQp]; ring
    rw [e]
    exact tG_step t sol step _ _ r k i hi (hr.g k hk i hi)
  · have hde := (ht.all (e + 1) (by omega) (Nat.succ_le_of_lt he)).1
    have hde' : (tstepQp t r).dad (e + 1) < (tstepQp t r).qp.dim.N + 1 := lt_of_lt_of_le hde (by
      have h1 : (tstepQp t r).qp.dim.N = D.N := rfl
      omega)
    rw [hr'.b e he i hi, hlin.b e he hde' i hi]
    exact tB_step t sol step r e i (hr.b e he i hi)
  · rw [hr'.d k hk j hj, hlin.d k (Nat.lt_succ_of_le hk) j hj, vD_lin, vD_lin]
    simp only [Sol.add]
    rw [linD_add]
    have e1 : (tstepQp t r).qp.d k j = r.res_d k j := rfl
    have e2 : linD (tstepQp t r).qp step.ux k j = linD t.qp step.ux k j := rfl
    have e3 : (tstepQp t r).qp.d_mask k j = t.qp.d_mask k j := rfl
    rw [e1, e2, e3, hr.d k hk j hj, vD_lin]
    rcases hm k j hk hj with h | h <;> rw [h] <;> ring
  · rw [hr'.m k hk j hj, hlin.m k (Nat.lt_succ_of_le hk) j hj]
    have h3 := hr.m k hk j hj
    simp only [vM, vML, lamM, Sol.add] at h3 ⊢
    have e1 : (tstepQp t r).qp.m k j = r.res_m k j := rfl
    have e3 : (tstepQp t r).qp.d_mask k j = t.qp.d_mask k j := rfl
    rw [e1, e3, h3]
    rcases hm k j hk hj with h | h <;> rw [h] <;> ring

/-! ### setters and the tree creator -/

/-- **C79 (setters).**  The edge data written by `set_A`, `set_B`, `set_b` is the data of the tree QP: column-major
arrays for the matrices. -/
theorem tree_set_A (t : TreeQp K) (e : ℕ) (A : ℕ → K) (i j : ℕ) (hi : i < t.qp.dim.nx (e + 1))
    (hj : j < t.qp.dim.nx (t.dad (e + 1))) :
    (tview (t.setA e A)).A e i j = A (i + t.qp.dim.nx (e + 1) * j) := by
  simp only [tview, TreeQp.setA, upd_same, packTranMat]
  rw [if_pos (by omega)]
  congr 1; rw [show t.qp.dim.nu (t.dad (e + 1)) + j - t.qp.dim.nu (t.dad (e + 1)) = j by omega, Nat.sub_zero]

theorem tree_set_B (t : TreeQp K) (e : ℕ) (B : ℕ → K) (i j : ℕ) (hi : i < t.qp.dim.nx (e + 1))
    (hj : j < t.qp.dim.nu (t.dad (e + 1))) :
    (tview (t.setB e B)).B e i j = B (i + t.qp.dim.nx (e + 1) * j) := by
  simp only [tview, TreeQp.setB, upd_same, packTranMat]
  rw [if_pos (by omega)]
  simp

theorem tree_set_b (t : TreeQp K) (e : ℕ) (b : ℕ → K) (i : ℕ) (hi : i < t.qp.dim.nx (e + 1)) :
    (tview (t.setBvec e b)).b e i = b i := by
  have h : (tview (t.setBvec e b)).b e i = (view (t.setBvec e b).qp).b e i := rfl
  have h2 := view_b (t.setBvec e b).qp e i hi
  rw [h, h2]
  simp only [TreeQp.setBvec, upd_same, packVec, veccp]
  rw [if_pos (by omega)]
  simp

/-- setting the data of an edge does not change the data of the other edges or the other data of the edge -/
theorem tree_set_frame (t : TreeQp K) (e : ℕ) (v : ℕ → K) (e' i j : ℕ) :
    ((e' ≠ e → (tview (t.setA e v)).A e' i j = (tview t).A e' i j ∧ (tview (t.setA e v)).B e' i j = (tview t).B e' i j) ∧
     (j < t.qp.dim.nu (t.dad (e + 1)) → (tview (t.setA e v)).B e i j = (tview t).B e i j)) ∧
    ((e' ≠ e → (tview (t.setB e v)).A e' i j = (tview t).A e' i j ∧ (tview (t.setB e v)).B e' i j = (tview t).B e' i j) ∧
     (tview (t.setB e v)).A e i j = (tview t).A e i j) ∧
    ((j < t.qp.dim.nx (t.dad (e' + 1)) → (tview (t.setBvec e v)).A e' i j = (tview t).A e' i j) ∧
     (j < t.qp.dim.nu (t.dad (e' + 1)) → (tview (t.setBvec e v)).B e' i j = (tview t).B e' i j)) := by
  refine ⟨⟨fun h => ⟨?_, ?_⟩, fun h => ?_⟩, ⟨fun h => ⟨?_, ?_⟩, ?_⟩, fun h => ?_, fun h => ?_⟩
  · simp only [tview, TreeQp.setA, upd_ne _ _ h]
  · simp only [tview, TreeQp.setA, upd_ne _ _ h]
  · simp only [tview, TreeQp.setA, upd_same, packTranMat]; rw [if_neg (by omega)]
  · simp only [tview, TreeQp.setB, upd_ne _ _ h]
  · simp only [tview, TreeQp.setB, upd_ne _ _ h]
  · simp only [tview, TreeQp.setB, upd_same, packTranMat]; rw [if_neg (by omega)]
  · by_cases he : e' = e
    · subst he; simp only [tview, TreeQp.setBvec, upd_same, packTranMat]; rw [if_neg (by omega)]
    · simp only [tview, TreeQp.setBvec, upd_ne _ _ he]
  · by_cases he : e' = e
    · subst he; simp only [tview, TreeQp.setBvec, upd_same, packTranMat]; rw [if_neg (by omega)]
    · simp only [tview, TreeQp.setBvec, upd_ne _ _ he]

/-- a tree QP on the tree made by `sctree_create` (sctree_cast_to_tree, scenario_tree.c:172-182, copies the pointers): the kids
of a node are `kids[0..nkids)` -/
def TreeQp.ofScenario (qp : OcpQp K) (T : TreeSt) : TreeQp K where
  qp := qp
  dad := fun n => (T.node n).dad.toNat
  nkids := fun n => (T.node n).nkids
  kids := fun n j => T.kidsArr ((T.node n).kids + j)

/-- **C79 (trees).**  Every tree made by the scenario tree creator meets what the routines need. -/
theorem scenario_treeOk {md Nr Nh : ℕ} (hmd : 1 ≤ md) (hN : Nr ≤ Nh) (node0 : ℕ → Node) (kids0 : ℕ → ℕ) (qp : OcpQp K)
    (hn : (sctreeNodeNumber md Nr Nh).toNat = qp.dim.N + 1) :
    (TreeQp.ofScenario qp (sctreeCreate md Nr Nh node0 kids0)).TreeOk := by
  obtain ⟨w1, _, w3, _, _, w6, w7⟩ := sctree_wellformed hmd hN node0 kids0
  have hinv := sctreeCreate_inv hmd hN node0 kids0
  rw [w1, Int.toNat_natCast] at hn
  have hkid : ∀ k j, k ≤ qp.dim.N → j < ((sctreeCreate md Nr Nh node0 kids0).node k).nkids →
      let c := (sctreeCreate md Nr Nh node0 kids0).kidsArr (((sctreeCreate md Nr Nh node0 kids0).node k).kids + j)
      c = ((sctreeCreate md Nr Nh node0 kids0).node k).kids + j + 1 ∧
      c ≤ qp.dim.N ∧ ((sctreeCreate md Nr Nh node0 kids0).node c).dad = k := by
    intro k j hk hj
    obtain ⟨a1, a2, _⟩ := hinv.kd k (by omega) j hj
    obtain ⟨_, _, b⟩ := w7 k (by omega)
    obtain ⟨b1, b2⟩ := b j hj
    exact ⟨hinv.ka _ a1, by omega, b2⟩
  refine ⟨fun k j hk hj => ?_, fun k j j' hk hj hj' he => ?_, fun c hc hcN => ?_⟩
  · obtain ⟨a1, a2, a3⟩ := hkid k j hk hj
    refine ⟨?_, a2, ?_⟩
    · obtain ⟨m, hm1, hm2, _⟩ := w6 _ (show 0 < (sctreeCreate md Nr Nh node0 kids0).kidsArr
        (((sctreeCreate md Nr Nh node0 kids0).node k).kids + j) by rw [a1]; omega)
        (lt_of_le_of_lt a2 (by omega))
      rw [a3] at hm2
      have : k = m := by exact_mod_cast hm2
      show k < (sctreeCreate md Nr Nh node0 kids0).kidsArr (((sctreeCreate md Nr Nh node0 kids0).node k).kids + j)
      omega
    · show ((sctreeCreate md Nr Nh node0 kids0).node _).dad.toNat = k
      have := congrArg Int.toNat a3
      rw [Int.toNat_natCast] at this
      exact this
  · have h1 := (hkid k j hk hj).1
    have h2 := (hkid k j' hk hj').1
    have he' : (sctreeCreate md Nr Nh node0 kids0).kidsArr (((sctreeCreate md Nr Nh node0 kids0).node k).kids + j) =
      (sctreeCreate md Nr Nh node0 kids0).kidsArr (((sctreeCreate md Nr Nh node0 kids0).node k).kids + j') := he
    rw [h1, h2] at he'
    omega
  · obtain ⟨m, hm1, hm2, hm3, hm4, _⟩ := w6 c hc (by
      have : c < startN md Nr (Nh + 1) := by rw [hn]; exact Nat.lt_succ_of_le hcN
      exact this)
    have e : (TreeQp.ofScenario qp (sctreeCreate md Nr Nh node0 kids0)).dad c = m := by
      show ((sctreeCreate md Nr Nh node0 kids0).node c).dad.toNat = m
      rw [hm2]; simp
    rw [e]
    exact ⟨hm1, _, hm3, hm4⟩

/-! ### examples -/

section Concrete

/-- a root with one input and two kids with one state each; the input is bounded, the upper bound is masked -/
def exTDim : QpDim where
  N := 2
  nx := fun k => if k = 0 then 0 else 1
  nu := fun k => if k = 0 then 1 else 0
  nb := fun k => if k = 0 then 1 else 0
  nbx := fun _ => 0
  nbu := fun k => if k = 0 then 1 else 0
  ng := fun _ => 0
  ns := fun _ => 0
  nbxe := fun _ => 0
  nbue := fun _ => 0
  nge := fun _ => 0

def exTQp : OcpQp ℚ where
  dim := exTDim
  BAbt := fun e _ _ => if e = 0 then 1 else 2
  RSQrq := fun _ i j => if i = 0 ∧ j = 0 then 1 else 0
  DCt := fun _ _ _ => 0
  b := fun e _ => if e = 0 then 1 else 0
  rqz := fun _ _ => 0
  d := fun _ _ => -5
  d_mask := fun _ j => if j = 1 then 0 else 1
  m := fun _ _ => 0
  Z := fun _ _ => 0
  idxb := fun _ _ => 0
  idxs_rev := fun _ _ => -1
  idxe := fun _ _ => 0
  diag_H_flag := fun _ => 0

def exTree : TreeQp ℚ where
  qp := exTQp
  dad := fun _ => 0
  nkids := fun k => if k = 0 then 2 else 0
  kids := fun _ j => j + 1

/-- its solution -/
def exTSol : Sol ℚ where
  ux := fun k _ => if k = 0 then -1 / 6 else if k = 1 then 5 / 6 else -1 / 3
  pi := fun e _ => if e = 0 then 5 / 6 else -1 / 3
  lam := fun _ _ => 0
  t := fun _ j => if j = 0 then 29 / 6 else 7

/-- the same with a nonzero multiplier of the masked upper bound -/
def exTBad : Sol ℚ := { exTSol with lam := fun _ j => if j = 1 then 3 else 0 }

theorem exTree_ok : exTree.TreeOk := by
  refine ⟨fun k j hk hj => ?_, fun k j j' _ _ _ h => ?_, fun c hc hcN => ?_⟩
  · have h0 : k = 0 := by
      by_contra h
      simp [exTree, h] at hj
    subst h0
    have hj' : j < 2 := hj
    refine ⟨?_, ?_, rfl⟩
    · show 0 < j + 1; omega
    · show j + 1 ≤ 2; omega
  · have h' : j + 1 = j' + 1 := h
    omega
  · have hc2 : c ≤ 2 := hcN
    refine ⟨hc, c - 1, ?_, ?_⟩
    · show c - 1 < 2; omega
    · show c - 1 + 1 = c; omega

theorem exTree_wf : exTree.qp.WF := by
  constructor
  · intro k j hk hj
    have h0 : k = 0 := by
      by_contra h
      simp [exTree, exTQp, exTDim, h] at hj
    subst h0
    exact (by decide : 0 < 1 + 0)
  · intro k j _ _; left; rfl

theorem exTree_mask : Mask01 exTree.qp := by
  intro k j _ _
  by_cases h : j = 1
  · left; simp [exTree, exTQp, h]
  · right; simp [exTree, exTQp, h]

theorem exTSol_masked : LamMasked exTree.qp exTSol.lam := by intro k j _ _; simp [exTSol]

theorem exTWs_ok : exWs.Ok exTree.qp := by intro h; cases h

theorem exTree_cvx : (tview exTree).Cvx := by
  intro p
  have e : (tview exTree).costQuad p = 1 / 2 * p.u 0 0 ^ 2 + 1 / 2 * p.x 1 0 ^ 2 + 1 / 2 * p.x 2 0 ^ 2 := by
    have hN : (tview exTree).N = 2 := rfl
    simp only [TUser.costQuad, UserQp.quad, hN, sum_range_succ, sum_range_zero]
    have r0 : (view exTQp).R 0 0 0 = 1 := by decide +kernel
    have q1 : (view exTQp).Q 1 0 0 = 1 := by decide +kernel
    have q2 : (view exTQp).Q 2 0 0 = 1 := by decide +kernel
    have hv : (tview exTree).toUserQp.stageQuad p = (view exTQp).stageQuad p := rfl
    rw [hv]
    have n0 : (view exTQp).nu 0 = 1 ∧ (view exTQp).nx 0 = 0 ∧ (view exTQp).ns 0 = 0 := by decide
    have n1 : (view exTQp).nu 1 = 0 ∧ (view exTQp).nx 1 = 1 ∧ (view exTQp).ns 1 = 0 := by decide
    have n2 : (view exTQp).nu 2 = 0 ∧ (view exTQp).nx 2 = 1 ∧ (view exTQp).ns 2 = 0 := by decide
    simp only [UserQp.stageQuad, n0, n1, n2, sum_range_succ, sum_range_zero, UserQp.sym, r0, q1, q2, le_refl, if_true]
    ring
  rw [e]; positivity

/-- all residuals of the example are zero: the hypotheses of `tres_zero_optimal` hold -/
theorem exTRes_zero : (∀ k, k ≤ exTree.qp.dim.N → ∀ i, i < nvt exTree.qp.dim k → (tresCompute exTree exTSol exRes exWs).res_g k i = 0) ∧
    (∀ e, e < exTree.qp.dim.N → ∀ i, i < exTree.qp.dim.nx (e + 1) → (tresCompute exTree exTSol exRes exWs).res_b e i = 0) ∧
    (∀ k, k ≤ exTree.qp.dim.N → ∀ j, j < nct exTree.qp.dim k → (tresCompute exTree exTSol exRes exWs).res_d k j = 0) ∧
    (∀ k, k ≤ exTree.qp.dim.N → ∀ j, j < nct exTree.qp.dim k → (tresCompute exTree exTSol exRes exWs).res_m k j = 0) := by
  decide +kernel

example : (tview exTree).IsOpt (ptOf exTree.qp.dim exTSol.ux) :=
  tres_zero_optimal exTree exTree_ok exTree_wf exTree_mask exTree_cvx exTSol exTSol_masked exRes exWs exTWs_ok
    (fun k i hk hi => exTRes_zero.1 k hk i hi) (fun k i hk hi => exTRes_zero.2.1 k hk i hi)
    (fun k i hk hi => exTRes_zero.2.2.1 k hk i hi) (fun k i hk hi => ⟨exTRes_zero.2.2.2 k hk i hi, rfl⟩)
    (fun k j hk hj _ => ⟨le_refl _, by simp only [exTSol]; split_ifs <;> norm_num⟩)

/-- the example is not degenerate: the objective is 5/12, and at another point residuals are nonzero -/
example : (tresCompute exTree exTSol exRes exWs).obj = 5 / 12 ∧
    (tresCompute exTree { exTSol with ux := fun _ _ => 1 } exRes exWs).res_b 0 0 = 1 ∧
    (tresCompute exTree { exTSol with ux := fun _ _ => 1 } exRes exWs).res_b 1 0 = 1 ∧
    (tresCompute exTree { exTSol with ux := fun _ _ => 1 } exRes exWs).res_g 0 0 = 7 / 6 := by decide +kernel

/-- the Newton step theorem applies to the example, and the step is not trivial: from the doubled solution the step back
to the solution -/
example : let sol : Sol ℚ := exTSol.add exTSol
    let step : Sol ℚ := { exTSol with
      ux := fun k i => - exTSol.ux k i
      pi := fun k i => - exTSol.pi k i
      t := fun k i => - exTSol.t k i }
    (∀ k i, k ≤ 2 → i < exTDim.nu k + exTDim.nx k + 2 * exTDim.ns k →
      (tresCompute exTree (sol.add step) exRes exWs).res_g k i =
      (tresComputeLin (tstepQp exTree (tresCompute exTree sol exRes exWs)) sol step exRes exWs).res_g k i) ∧
    (tresCompute exTree sol exRes exWs).res_b 0 0 = -1 :=
  ⟨(tresLin_full_step exTree exTree_ok exTree_wf exTree_mask _ _ (by intro k j _ _; simp [Sol.add, exTSol])
    (by intro k j _ _; simp [exTSol]) exRes exRes exRes exWs exWs exWs exTWs_ok exTWs_ok exTWs_ok).1, by decide +kernel⟩

/-- the setters on the example -/
example : (tview (exTree.setB 1 (fun _ => 9))).B 1 0 0 = 9 ∧ (tview (exTree.setBvec 1 (fun _ => 8))).b 1 0 = 8 :=
  ⟨tree_set_B exTree 1 _ 0 0 (by decide) (by decide), tree_set_b exTree 1 _ 0 (by decide)⟩

/-- a scenario tree with 11 nodes -/
example (qp : OcpQp ℚ) (h : qp.dim.N = 10) (node0 : ℕ → Node) (kids0 : ℕ → ℕ) :
    (TreeQp.ofScenario qp (sctreeCreate 2 2 3 node0 kids0)).TreeOk :=
  scenario_treeOk (by omega) (by omega) node0 kids0 qp (by rw [h, sctreeNodeNumber_eq (by omega) (by omega)]; decide)

/-- **C79, the defect.**  The multiplier of a masked-out constraint is not ignored: with the upper bound of the example
masked, its multiplier changes the stationarity residual of the root and the duality gap (the OCP routine ignores it,
`res_masked`), so `LamMasked` is needed in the theorems above. -/
theorem tres_masked_lam_leaks :
    exTree.qp.d_mask 0 1 = 0 ∧ (∀ k j, j ≠ 1 → exTBad.lam k j = exTSol.lam k j) ∧
    (tresCompute exTree exTSol exRes exWs).res_g 0 0 = 0 ∧ (tresCompute exTree exTBad exRes exWs).res_g 0 0 = 3 ∧
    (tresCompute exTree exTSol exRes exWs).dual_gap = 0 ∧ (tresCompute exTree exTBad exRes exWs).dual_gap = 15 ∧
    (resCompute exTQp exTBad exRes exWs).res_g 0 0 = (resCompute exTQp exTSol exRes exWs).res_g 0 0 := by
  refine ⟨by decide +kernel, fun k j h => by simp [exTBad, exTSol, h], ?_⟩
  decide +kernel

end Concrete

end Hpipm
