/-
The QP matrices during a solve: the KKT solver works in place on the caller's `BAbt` and `RSQrq`, but writes only
into the extra rows that no getter reads.
-/
import Verif.IpmFrame
import Verif.View
import Verif.KktSolve

namespace Hpipm
set_option linter.unusedSectionVars false

section
variable {K : Type*} [Field K] [LinearOrder K] [IsStrictOrderedRing K]

/-- the first `nu+nx` rows of the shared matrices are the same -/
structure MKeep (D : QpDim) (st st' : KktSt K) : Prop where
  R : ∀ k i j, i < D.nu k + D.nx k → st'.RSQrq k i j = st.RSQrq k i j
  B : ∀ k i j, i < D.nu k + D.nx k → st'.BAbt k i j = st.BAbt k i j

theorem MKeep.refl (D : QpDim) (st : KktSt K) : MKeep D st st := ⟨fun _ _ _ _ => rfl, fun _ _ _ _ => rfl⟩

theorem MKeep.trans {D : QpDim} {a b c : KktSt K} (h : MKeep D a b) (h' : MKeep D b c) : MKeep D a c :=
  ⟨fun k i j hi => (h'.R k i j hi).trans (h.R k i j hi), fun k i j hi => (h'.B k i j hi).trans (h.B k i j hi)⟩

/-- same matrices -/
theorem MKeep.of_eq {D : QpDim} {a b : KktSt K} (h : b.RSQrq = a.RSQrq) (h' : b.BAbt = a.BAbt) : MKeep D a b :=
  ⟨fun k i j _ => by rw [h], fun k i j _ => by rw [h']⟩

theorem MKeep.loop {D : QpDim} {n : ℕ} {f : ℕ → KktSt K → KktSt K} {st : KktSt K} (h : ∀ i s, MKeep D s (f i s)) :
    MKeep D st (Hpipm.loop n f st) :=
  loop_inv (S := KktSt K) (fun _ s => MKeep D st s) n f st (MKeep.refl D st) (fun i s _ ih => ih.trans (h i s))

/-- `rowin` into row `nu+nx` -/
theorem rowin_keep (D : QpDim) (M : ℕ → Mat K) (x : Vec K) (n k0 : ℕ) (a : K) (xi aj : ℕ) :
    ∀ k i j, i < D.nu k + D.nx k → upd M k0 (rowin n a x xi (M k0) (D.nu k0 + D.nx k0) aj) k i j = M k i j := by
  intro k i j hi
  by_cases e : k = k0
  · subst e
    rw [upd_same]
    unfold rowin
    rw [if_neg (by omega)]
  · rw [upd_ne _ _ e]

variable (sq : K → K) (qp : OcpQp K) (dual : Bool) (reg preg : K) (G g : ℕ → Vec K)

theorem condStage_mkeep (k : ℕ) (st : KktSt K) : MKeep qp.dim st (condStage qp reg G g k st) := by
  unfold condStage
  simp only
  split
  · exact MKeep.of_eq rfl rfl
  · split <;> exact MKeep.of_eq rfl rfl

theorem augStage_mkeep (dr : Mat K → Mat K) (k : ℕ) (st : KktSt K) : MKeep qp.dim st (augStage qp reg dr G g k st) :=
  MKeep.trans (condStage_mkeep qp reg G g k st) (MKeep.of_eq rfl rfl)

theorem sqLast_mkeep (st : KktSt K) : MKeep qp.dim st (sqLast sq qp reg preg G g st) := by
  refine MKeep.trans (augStage_mkeep qp reg G g (fun L => diare (qp.dim.nu qp.dim.N + qp.dim.nx qp.dim.N) preg L 0 0) qp.dim.N st) ?_
  unfold sqLast
  simp only
  split <;> exact MKeep.of_eq rfl rfl

theorem sqMid_mkeep (k : ℕ) (st : KktSt K) : MKeep qp.dim st (sqMid sq qp reg preg G g k st) := by
  unfold sqMid
  extract_lets D nv nu1 nx1 BA AL0 tmpN Pb AL0' s1 s2
  have h1 : MKeep qp.dim st s1 := ⟨fun _ _ _ _ => rfl, rowin_keep qp.dim st.BAbt (qp.b k) nx1 k 1 0 0⟩
  have h2 : MKeep qp.dim st s2 := h1.trans (augStage_mkeep qp reg G g _ k s1)
  split
  · exact h2.trans (MKeep.of_eq rfl rfl)
  · exact h2.trans (MKeep.of_eq rfl rfl)

theorem clLast_mkeep (st : KktSt K) : MKeep qp.dim st (clLast sq qp reg preg G g st) := by
  unfold clLast
  extract_lets D k nv s1 A0 A1 s2
  have h1 : MKeep qp.dim st s1 := augStage_mkeep qp reg G g _ k st
  have h2 : MKeep qp.dim st s2 := by
    refine h1.trans ?_
    simp only [s2]
    split <;> exact MKeep.of_eq rfl rfl
  exact h2.trans (MKeep.of_eq rfl rfl)

theorem clProp_mkeep (k : ℕ) (st : KktSt K) : MKeep qp.dim st (clProp qp k st) :=
  ⟨fun _ _ _ _ => rfl, rowin_keep qp.dim st.BAbt (qp.b k) (qp.dim.nx (k + 1)) k 1 0 0⟩

theorem clAug_mkeep (dr : Mat K → Mat K) (k : ℕ) (st : KktSt K) : MKeep qp.dim st (clAug qp reg dr G g k st) := by
  unfold clAug
  extract_lets D nv nx1 s1
  have h1 : MKeep qp.dim st s1 := augStage_mkeep qp reg G g dr k st
  split
  · exact h1.trans (MKeep.of_eq rfl rfl)
  · exact h1

theorem clMid_mkeep (k : ℕ) (st : KktSt K) : MKeep qp.dim st (clMid sq qp reg preg G g k st) :=
  ((clProp_mkeep qp k st).trans (clAug_mkeep qp reg G g (drUX qp.dim reg preg k) k _)).trans (MKeep.of_eq rfl rfl)

theorem clFirst_mkeep (k : ℕ) (st : KktSt K) : MKeep qp.dim st (clFirst sq qp reg preg G g k st) :=
  ((clProp_mkeep qp k st).trans (clAug_mkeep qp reg G g (fun L => diare _ preg L 0 0) k _)).trans (MKeep.of_eq rfl rfl)

theorem sqBack_mkeep (st : KktSt K) : MKeep qp.dim st (sqBack sq qp reg preg G g st).2 := by
  unfold sqBack
  extract_lets D s1
  have h1 : MKeep qp.dim st s1 := sqLast_mkeep sq qp reg preg G g st
  refine loop_inv (S := Bool × KktSt K) (fun _ s => MKeep qp.dim st s.2) _ _ _ h1 ?_
  intro i s _ ih
  split
  · exact ih
  · exact ih.trans (sqMid_mkeep sq qp reg preg G g _ _)

theorem clBack_mkeep (st : KktSt K) : MKeep qp.dim st (clBack sq qp reg preg G g st).2 := by
  unfold clBack
  extract_lets D s1 s2
  have h1 : MKeep qp.dim st s1 := clLast_mkeep sq qp reg preg G g st
  have h2 : MKeep qp.dim st s2.2 := by
    refine loop_inv (S := Bool × KktSt K) (fun _ s => MKeep qp.dim st s.2) _ _ _ h1 ?_
    intro i s _ ih
    split
    · exact ih
    · extract_lets ss st'
      have h : MKeep qp.dim st st' := ih.trans (clMid_mkeep sq qp reg preg G g _ _)
      split
      · exact h
      · exact h.trans (MKeep.of_eq rfl rfl)
  split
  · exact h2
  · split
    · exact h2.trans (clFirst_mkeep sq qp reg preg G g _ _)
    · exact h2

theorem kktMain_mkeep (pl : K) (fuel : ℕ) : ∀ (preg : K) (init sqr : Bool) (st : KktSt K) (r : K × Bool × Bool × KktSt K),
    kktMain sq qp reg pl G g fuel preg init sqr st = some r → MKeep qp.dim st r.2.2.2 := by
  induction fuel with
  | zero =>
    intro preg init sqr st r h
    unfold kktMain at h
    extract_lets s at h
    have hb : MKeep qp.dim st s.2 := by
      simp only [s]
      split
      · exact sqBack_mkeep sq qp reg preg G g st
      · exact clBack_mkeep sq qp reg preg G g st
    by_cases hs : s.1 = true
    · rw [if_pos hs] at h; cases h
    · rw [if_neg hs] at h; cases h; exact hb
  | succ fuel ih =>
    intro preg init sqr st r h
    unfold kktMain at h
    extract_lets s at h
    have hb : MKeep qp.dim st s.2 := by
      simp only [s]
      split
      · exact sqBack_mkeep sq qp reg preg G g st
      · exact clBack_mkeep sq qp reg preg G g st
    by_cases hs : s.1 = true
    · rw [if_pos hs] at h; exact hb.trans (ih _ _ _ _ _ h)
    · rw [if_neg hs] at h; cases h; exact hb

theorem fwd_mkeep (sqr : Bool) (st : KktSt K) : MKeep qp.dim st (fwd qp dual sqr st) := by
  have hs : ∀ n k s, MKeep qp.dim s (if sqr then sqFwd qp dual n k s else clFwd qp dual n k s) := by
    intro n k s
    split <;> exact MKeep.of_eq rfl rfl
  unfold fwd
  extract_lets D step s1 s2
  have h1 : MKeep qp.dim st s1 := hs _ 0 st
  have h2 : MKeep qp.dim s1 s2 := MKeep.loop fun i s => hs _ (i + 1) s
  exact (h1.trans h2).trans (MKeep.of_eq rfl rfl)

theorem kktTail_mkeep (c : Core K) (st : KktSt K) : MKeep qp.dim st (kktTail qp G c st) := by
  unfold kktTail
  extract_lets D s1 s2 s3 s4 r
  have h1 : MKeep qp.dim st s1 := MKeep.loop fun i s => MKeep.of_eq rfl rfl
  have h2 : MKeep qp.dim s1 s2 := MKeep.loop fun i s => MKeep.of_eq rfl rfl
  have h3 : MKeep qp.dim s2 s3 := MKeep.loop fun i s => MKeep.of_eq rfl rfl
  have h4 : MKeep qp.dim s3 s4 := MKeep.loop fun i s => by
    split
    · exact MKeep.of_eq rfl rfl
    · exact MKeep.refl _ _
  exact (((h1.trans h2).trans h3).trans h4).trans (MKeep.of_eq rfl rfl)

theorem factSolve_mkeep (fuel : ℕ) (sqr : Bool) (pl : K) (c : Core K) (st : KktSt K) (o : KktOut K)
    (h : factSolveKktStep sq fuel qp dual sqr reg pl c st = some o) : MKeep qp.dim st o.st := by
  unfold factSolveKktStep at h
  simp only at h
  split at h
  · cases h
  · rename_i e
    cases h
    have h1 := kktMain_mkeep sq qp reg _ _ _ _ _ _ _ _ _ e
    exact (h1.trans (fwd_mkeep qp dual _ _)).trans (kktTail_mkeep qp _ _ _)

theorem rhsStage_mkeep (k : ℕ) (st : KktSt K) : MKeep qp.dim st (rhsStage qp G g k st) := by
  unfold rhsStage
  extract_lets D n nv s1 c1 s2
  have h2 : MKeep qp.dim st s2 := by
    simp only [s2]
    split
    · exact MKeep.of_eq rfl rfl
    · split <;> exact MKeep.of_eq rfl rfl
  exact h2.trans (MKeep.of_eq rfl rfl)

theorem bwdSub_mkeep (sqr useP : Bool) (n k : ℕ) (st : KktSt K) : MKeep qp.dim st (bwdSub qp sqr useP G g n k st) :=
  (rhsStage_mkeep qp G g k st).trans (MKeep.of_eq rfl rfl)

theorem solveKkt_mkeep (sqr useP : Bool) (c : Core K) (st : KktSt K) :
    MKeep qp.dim st (solveKktStep qp dual sqr useP c st).2 := by
  unfold solveKktStep
  extract_lets D c' G g N s1 s2 s3 s4 s5 s6 s7
  have h1 : MKeep qp.dim st s1 := rhsStage_mkeep qp G g N st
  have h2 : MKeep qp.dim s1 s2 := MKeep.of_eq rfl rfl
  have h3 : MKeep qp.dim s2 s3 := MKeep.loop fun i s => bwdSub_mkeep qp G g _ _ _ _ s
  have h4 : MKeep qp.dim s3 s4 := bwdSub_mkeep qp G g _ _ _ _ s3
  have h5 : MKeep qp.dim s4 s5 := MKeep.of_eq rfl rfl
  have h6 : MKeep qp.dim s5 s6 := MKeep.loop fun i s => MKeep.of_eq rfl rfl
  have h7 : MKeep qp.dim s6 s7 := MKeep.of_eq rfl rfl
  exact ((((((h1.trans h2).trans h3).trans h4).trans h5).trans h6).trans h7).trans (kktTail_mkeep qp G c' s7)

/-- in-place regularisation and its removal around a factorisation, exact arithmetic -/
theorem reg_keep (D : QpDim) (M : ℕ → Mat K) (x : Vec K) (n m k0 : ℕ) (hm : m ≤ D.nu k0 + D.nx k0) (r : K) :
    ∀ k i j, i < D.nu k + D.nx k →
      upd M k0 (diare m (-r) (diare m r (rowin n 1 x 0 (M k0) (D.nu k0 + D.nx k0) 0) 0 0) 0 0) k i j = M k i j := by
  intro k i j hi
  by_cases e : k = k0
  · subst e
    rw [upd_same]
    unfold diare rowin
    by_cases h1 : (0 ≤ i ∧ i < 0 + m) ∧ 0 ≤ j ∧ i - 0 = j - 0
    · simp only [if_pos h1]
      rw [if_neg (by omega)]
      ring
    · simp only [if_neg h1]
      rw [if_neg (by omega)]
  · rw [upd_ne _ _ e]

theorem unSqLast_mkeep (st : KktSt K) : MKeep qp.dim st (unSqLast sq qp reg st) :=
  ⟨reg_keep qp.dim st.RSQrq _ _ _ _ (le_refl _) reg, fun _ _ _ _ => rfl⟩

theorem unSqMid_mkeep (k : ℕ) (st : KktSt K) : MKeep qp.dim st (unSqMid sq qp reg k st) :=
  ⟨reg_keep qp.dim st.RSQrq _ _ _ _ (le_refl _) reg, rowin_keep qp.dim st.BAbt (qp.b k) (qp.dim.nx (k + 1)) k 1 0 0⟩

theorem unClLast_mkeep (st : KktSt K) : MKeep qp.dim st (unClLast sq qp reg st) :=
  ⟨reg_keep qp.dim st.RSQrq _ _ _ _ (Nat.le_add_right _ _) reg, fun _ _ _ _ => rfl⟩

theorem unClMid_mkeep (k : ℕ) (st : KktSt K) : MKeep qp.dim st (unClMid sq qp reg k st) := by
  refine ⟨?_, rowin_keep qp.dim st.BAbt (qp.b k) (qp.dim.nx (k + 1)) k 1 0 0⟩
  intro k' i j hi
  have h := reg_keep qp.dim st.RSQrq (qp.rqz k) (qp.dim.nu k + qp.dim.nx k) (qp.dim.nu k) k (Nat.le_add_right _ _) reg k' i j hi
  unfold unClMid unClProp schurStage
  simp only [upd_same, upd_upd]
  exact h

theorem unClFirst_mkeep (k : ℕ) (st : KktSt K) : MKeep qp.dim st (unClFirst sq qp reg k st) := by
  refine ⟨?_, rowin_keep qp.dim st.BAbt (qp.b k) (qp.dim.nx (k + 1)) k 1 0 0⟩
  intro k' i j hi
  have h := reg_keep qp.dim st.RSQrq (qp.rqz k) (qp.dim.nu k + qp.dim.nx k) (qp.dim.nu k) k (Nat.le_add_right _ _) reg k' i j hi
  unfold unClFirst unClProp
  simp only [upd_same, upd_upd]
  exact h

theorem unconstr_mkeep (sqr : Bool) (st : KktSt K) : MKeep qp.dim st (unconstr sq qp dual sqr reg st) := by
  unfold unconstr
  extract_lets N a1 a2 b1 b2 b3
  have h1 : MKeep qp.dim st a1 := unSqLast_mkeep sq qp reg st
  have h2 : MKeep qp.dim a1 a2 := MKeep.loop fun i s => unSqMid_mkeep sq qp reg _ s
  have k1 : MKeep qp.dim st b1 := unClLast_mkeep sq qp reg st
  have k2 : MKeep qp.dim b1 b2 := MKeep.loop fun i s => unClMid_mkeep sq qp reg _ s
  have k3 : MKeep qp.dim b2 b3 := by
    simp only [b3]
    split
    · exact unClFirst_mkeep sq qp reg _ _
    · exact MKeep.refl _ _
  split
  · exact (h1.trans h2).trans (fwd_mkeep qp dual true _)
  · exact ((k1.trans k2).trans k3).trans (fwd_mkeep qp dual false _)

/-! ### the user's view of the QP -/

theorem unpackTran_congr (m n : ℕ) (M M' : Mat K) (ai aj : ℕ) (v : Vec K) (l : ℕ)
    (h : ∀ i j, i < m → M' (ai + i) (aj + j) = M (ai + i) (aj + j)) :
    unpackTranMat m n M' ai aj v l = unpackTranMat m n M ai aj v l := by
  funext p
  unfold unpackTranMat
  split
  · rename_i hp; exact h _ _ hp.2
  · rfl

theorem unpackMat_congr (m n : ℕ) (M M' : Mat K) (ai aj : ℕ) (v : Vec K) (l : ℕ)
    (h : ∀ i j, i < m → M' (ai + i) (aj + j) = M (ai + i) (aj + j)) :
    unpackMat m n M' ai aj v l = unpackMat m n M ai aj v l := by
  funext p
  unfold unpackMat
  split
  · rename_i hp; exact h _ _ hp.1
  · rfl

/-- The getters read only the first `nu+nx` rows of the shared matrices. -/
theorem getR_rows (q : OcpQp K) (B R : ℕ → Mat K)
    (hB : ∀ k i j, i < q.dim.nu k + q.dim.nx k → B k i j = q.BAbt k i j)
    (hR : ∀ k i j, i < q.dim.nu k + q.dim.nx k → R k i j = q.RSQrq k i j) (f : RField) (k : ℕ) (out : Vec K) :
    OcpQp.getR f k { q with
      BAbt := B
      RSQrq := R } out = OcpQp.getR f k q out := by
  cases f <;> first
    | rfl
    | (refine unpackTran_congr _ _ _ _ _ _ _ _ fun i j hi => hB k _ _ ?_
       simp only at hi ⊢
       omega)
    | (refine unpackTran_congr _ _ _ _ _ _ _ _ fun i j hi => hR k _ _ ?_
       simp only at hi ⊢
       omega)
    | (refine unpackMat_congr _ _ _ _ _ _ _ _ fun i j hi => hR k _ _ ?_
       simp only at hi ⊢
       omega)

theorem view_rows (q : OcpQp K) (B R : ℕ → Mat K)
    (hB : ∀ k i j, i < q.dim.nu k + q.dim.nx k → B k i j = q.BAbt k i j)
    (hR : ∀ k i j, i < q.dim.nu k + q.dim.nx k → R k i j = q.RSQrq k i j) :
    view { q with
      BAbt := B
      RSQrq := R } = view q := by
  unfold view got
  simp only [getR_rows q B R hB hR]

/-! ### the phases of a solve -/

variable (E : Env K)

/-- the oracles of the environment (LQ factorisation, factorisation at exit) write, as the modelled routines do, only
outside the first `nu+nx` rows: x_ocp_qp_kkt.c:1897-2296 and 879-1108 contain no other write to `BAbt`, `RSQrq` -/
structure Env.Keeps (E : Env K) : Prop where
  lq : ∀ q p c st o, E.lq q p c st = some o → MKeep E.qp.dim st o.1
  fo : ∀ q c st, MKeep E.qp.dim st (E.factOnly q c st)

/-- same rows of the shared matrices in two solver states -/
abbrev MK (s s' : Ipm K) : Prop := MKeep E.qp.dim s.kkt s'.kkt

theorem qpStep_dim' (s : Ipm K) : (qpStep E s).dim = E.qp.dim := qpStep_dim E s

theorem MK.ofEq {s s' : Ipm K} (h : s'.kkt = s.kkt) : MK E s s' := by unfold MK; rw [h]; exact MKeep.refl _ _

theorem putG_mk (kk col : ℕ) (x : K) (s : Ipm K) : MK E s (putG E kk col x s) := MK.ofEq E (putG_kkt E kk col x s)
theorem putG4_mk (kk col : ℕ) (x : K × K × K × K) (s : Ipm K) : MK E s (putG4 E kk col x s) := MK.ofEq E (putG4_kkt E kk col x s)

theorem maskResM_mk (s : Ipm K) : MK E s (maskResM E s) := by
  unfold maskResM
  split <;> exact MKeep.refl _ _

theorem maskResM_kkt (s : Ipm K) : (maskResM E s).kkt = s.kkt := by
  unfold maskResM
  split <;> rfl

theorem maskLam_kkt (s : Ipm K) : (maskLam E s).kkt = s.kkt := by
  unfold maskLam
  split <;> rfl

theorem maskStep_mk (s : Ipm K) : MK E s (maskStep E s) := by
  unfold maskStep
  split
  · exact MKeep.of_eq rfl rfl
  · exact MKeep.refl _ _

theorem factStep_mk (s s' : Ipm K) (h : factStep E s = some s') : MK E s s' := by
  unfold factStep at h
  obtain ⟨o, ho, rfl⟩ := Option.map_eq_some_iff.mp h
  have := factSolve_mkeep _ _ _ _ _ _ _ _ _ _ ho
  rw [qpStep_dim] at this
  exact this

theorem lqStep_mk (hE : E.Keeps) (s s' : Ipm K) (h : lqStep E s = some s') : MK E s s' := by
  unfold lqStep at h
  simp only at h
  obtain ⟨o, ho, rfl⟩ := Option.map_eq_some_iff.mp h
  exact hE.lq _ _ _ _ _ ho

theorem solveStep_mk (s : Ipm K) : MK E s (solveStep E s) := by
  have := solveKkt_mkeep (qpStep E s) (dualF E) E.sqr true s.core s.kkt
  rw [qpStep_dim] at this
  exact this

theorem solveItref_mk (s : Ipm K) : MK E s (solveItref E s) := by
  have := solveKkt_mkeep (qpItref E s) (dualF E) E.sqr false s.core { s.kkt with
      ux := s.itr.ux
      pi := s.itr.pi
      lam := s.itr.lam
      t := s.itr.t }
  exact ⟨this.R, this.B⟩

theorem linRes_mk (s : Ipm K) : MK E s (linRes E s).1 := MKeep.refl _ _

theorem addItref_mk (a : K) (s : Ipm K) : MK E s (addItref E a s) := MKeep.of_eq rfl rfl

theorem itrefLoop_mk (kk : ℕ) (sh : Bool) : ∀ (n cnt : ℕ) (did : Bool) (x : K × K × K × K) (mx : K) (s : Ipm K),
    MK E s (itrefLoop E kk sh n cnt did x mx s).s := by
  intro n
  induction n with
  | zero => intro cnt did x mx s; exact MKeep.refl _ _
  | succ n ih =>
    intro cnt did x mx s
    unfold itrefLoop
    split
    · exact MKeep.refl _ _
    · extract_lets s1 r s2 mx'
      have h1 : MK E s s1 := ((solveItref_mk E s).trans (maskStep_mk E _)).trans (addItref_mk E 1 _)
      have h2 : MK E s s2 := (h1.trans (linRes_mk E s1)).trans (putG4_mk E kk 16 _ _)
      split
      · exact (h2.trans (addItref_mk E (-1) _)).trans (putG4_mk E kk 16 _ _)
      · exact h2.trans (ih _ _ _ _ _)

theorem itref_mk (kk : ℕ) (sh : Bool) (mx : ℤ) (s : Ipm K) : MK E s (itref E kk sh mx s).s := by
  unfold itref
  exact ((linRes_mk E s).trans (putG4_mk E kk 16 _ _)).trans (itrefLoop_mk E kk sh _ _ _ _ _ _)

theorem alphaStep_mk (kk col : ℕ) (s : Ipm K) : MK E s (alphaStep E kk col s) := by
  unfold alphaStep
  exact MK.ofEq E (by simp only [putG_kkt])

theorem affineRhs_mk (s : Ipm K) : MK E s (affineRhs E s) := by
  unfold affineRhs
  exact MK.ofEq E (maskResM_kkt E _)

theorem factPhase_mk (hE : E.Keeps) (kk : ℕ) (s s' : Ipm K) (h : factPhase E kk s = some s') : MK E s s' := by
  unfold factPhase at h
  split at h
  · obtain ⟨o, ho, rfl⟩ := Option.map_eq_some_iff.mp h
    exact ((factStep_mk E s o ho).trans (maskStep_mk E _)).trans (putG_mk E kk 13 _ _)
  · split at h
    · obtain ⟨o, ho, h⟩ := Option.bind_eq_some_iff.mp h
      simp only at h
      have h1 : MK E s (putG E kk 13 (if (linRes E (maskStep E o)).1.lastLq then 1 else 0) (linRes E (maskStep E o)).1) :=
        (((factStep_mk E s o ho).trans (maskStep_mk E _)).trans (linRes_mk E _)).trans (putG_mk E kk 13 _ _)
      split at h
      · obtain ⟨o', ho', rfl⟩ := Option.map_eq_some_iff.mp h
        exact ((h1.trans (lqStep_mk E hE _ o' ho')).trans (maskStep_mk E _)).trans (putG_mk E kk 13 _ _)
      · cases h; exact h1
    · obtain ⟨o, ho, rfl⟩ := Option.map_eq_some_iff.mp h
      exact ((lqStep_mk E hE s o ho).trans (maskStep_mk E _)).trans (putG_mk E kk 13 _ _)

theorem predPhase_mk (kk : ℕ) (s : Ipm K) : MK E s (predPhase E kk s) := by
  unfold predPhase
  extract_lets o
  have h : MK E s o.s := by
    simp only [o]
    split
    · exact putG4_mk E kk 16 _ _
    · exact itref_mk E kk _ _ _
  exact ((h.trans (putG_mk E kk 14 _ _)).trans (putG_mk E kk 20 _ _)).trans (alphaStep_mk E kk 0 _)

theorem sigmaStep_mk (kk : ℕ) (s : Ipm K) : MK E s (sigmaStep E kk s) := by
  unfold sigmaStep
  exact MK.ofEq E (by simp only [putG_kkt])

theorem corrPhase_mk (kk : ℕ) (s : Ipm K) : MK E s (corrPhase E kk s) := by
  unfold corrPhase
  extract_lets s1 s2 s3 mu0 s4 s5
  have h2 : MK E s s2 := (sigmaStep_mk E kk s).trans (MK.ofEq E (maskResM_kkt E _))
  have h3 : MK E s s3 := ((h2.trans (solveStep_mk E _)).trans (maskStep_mk E _)).trans (alphaStep_mk E kk 4 _)
  have h4 : MK E s s4 := h3
  have h5 : MK E s s5 := h4.trans (MK.ofEq E (maskResM_kkt E _))
  split
  · split
    · exact ((h5.trans (solveStep_mk E _)).trans (maskStep_mk E _)).trans (alphaStep_mk E kk 4 _)
    · exact h4
  · exact h3

theorem corrItref_mk (kk : ℕ) (s : Ipm K) : MK E s (corrItref E kk s).s := by
  unfold corrItref
  split
  · extract_lets o
    have h : MK E s o.s := itref_mk E kk _ _ _
    split
    · exact h.trans (alphaStep_mk E kk 4 _)
    · exact h
  · exact MKeep.refl _ _

theorem maskLam_mk (s : Ipm K) : MK E s (maskLam E s) := by
  unfold maskLam
  split <;> exact MKeep.refl _ _

theorem updStep_mk (s : Ipm K) : MK E s (updStep E s) := by
  unfold updStep
  exact MK.ofEq E (maskLam_kkt E _)

theorem deltaStep_mk (hE : E.Keeps) (kk : ℕ) (s s' : Ipm K) (h : deltaStep E kk s = some s') : MK E s s' := by
  unfold deltaStep at h
  obtain ⟨s0, h0, rfl⟩ := Option.map_eq_some_iff.mp h
  have k0 : MK E s s0 := (affineRhs_mk E s).trans (factPhase_mk E hE kk _ _ h0)
  extract_lets s1 o s2
  have k1 : MK E s s1 := k0.trans (predPhase_mk E kk s0)
  have k2 : MK E s o.s := by
    simp only [o]
    split
    · exact (k1.trans (corrPhase_mk E kk _)).trans (corrItref_mk E kk _)
    · exact k1
  have k3 : MK E s s2 := by
    simp only [s2]
    split
    · exact k2.trans (putG4_mk E kk 16 _ _)
    · exact k2
  exact (k3.trans (putG_mk E kk 15 _ _)).trans (updStep_mk E _)

theorem subSol_mk (s : Ipm K) : MK E s (subSol E s) := MKeep.of_eq rfl rfl

theorem absCorr_mk (kk : ℕ) (s : Ipm K) : MK E s (absCorr E kk s) := by
  unfold absCorr
  extract_lets s1 s2 s3 mu0 s4 s5
  have h2 : MK E s s2 := (sigmaStep_mk E kk s).trans (MK.ofEq E (maskResM_kkt E _))
  have h3 : MK E s s3 := (((h2.trans (solveStep_mk E _)).trans (subSol_mk E _)).trans (maskStep_mk E _)).trans (alphaStep_mk E kk 4 _)
  have h4 : MK E s s4 := h3
  have h5 : MK E s s5 := h4.trans (MK.ofEq E (maskResM_kkt E _))
  split
  · split
    · exact (((h5.trans (solveStep_mk E _)).trans (subSol_mk E _)).trans (maskStep_mk E _)).trans (alphaStep_mk E kk 4 _)
    · exact h4
  · exact h3

theorem absStep_mk (kk : ℕ) (s s' : Ipm K) (h : absStep E kk s = some s') : MK E s s' := by
  unfold absStep at h
  simp only at h
  obtain ⟨s0, h0, rfl⟩ := Option.map_eq_some_iff.mp h
  have k0 : MK E s s0 := by
    refine MKeep.trans ?_ ((affineRhs_mk E _).trans (factStep_mk E _ _ h0))
    exact MKeep.refl _ _
  refine MKeep.trans ?_ (updStep_mk E _)
  have k1 := ((((k0.trans (subSol_mk E _)).trans (maskStep_mk E _)).trans (putG_mk E kk 20 (if (maskStep E (subSol E s0)).npd then 1 else 0) _)).trans
    (alphaStep_mk E kk 0 _))
  split
  · exact k1.trans (absCorr_mk E kk _)
  · exact k1

theorem resStep_mk (s : Ipm K) : MK E s (resStep E s) := MKeep.refl _ _

theorem relBody_mk (hE : E.Keeps) (kk : ℕ) (s s' : Ipm K) (h : relBody E kk s = some s') : MK E s s' := by
  unfold relBody at h
  obtain ⟨s0, h0, rfl⟩ := Option.map_eq_some_iff.mp h
  refine (deltaStep_mk E hE kk _ _ h0).trans ?_
  refine MK.ofEq E ?_
  simp only [putG_kkt, putG4_kkt]
  rfl

theorem absMu_mk (s : Ipm K) : MK E s (absMu E s) := by
  unfold absMu
  extract_lets c rm rm' s1
  have h : MK E s s1 := MK.ofEq E (maskResM_kkt E _)
  exact h

theorem absBody_mk (kk : ℕ) (s s' : Ipm K) (h : absBody E kk s = some s') : MK E s s' := by
  unfold absBody at h
  obtain ⟨s0, h0, rfl⟩ := Option.map_eq_some_iff.mp h
  exact ((absStep_mk E kk _ _ h0).trans (absMu_mk E _)).trans (putG_mk E kk 6 _ _)

theorem put_mk (i : ℕ) (x : K) (s : Ipm K) : MK E s (put E i x s) := MKeep.refl _ _

theorem relStart_kkt (s : Ipm K) : (relStart E s).kkt = s.kkt := by
  unfold relStart
  extract_lets s1 s2
  split <;> rfl

/-- **C52** After a solve, every getter of the QP object returns what it returned before. -/
theorem solve_keeps_rows (hE : E.Keeps) (lf : ℕ) (sol : Sol K) (s : Ipm K) (o : SolveOut K)
    (h : ipmSolve E lf sol s = some o) (k i j : ℕ) (hi : i < E.qp.dim.nu k + E.qp.dim.nx k) :
    o.s.kkt.RSQrq k i j = E.qp.RSQrq k i j ∧ o.s.kkt.BAbt k i j = E.qp.BAbt k i j := by
  have hp : ∀ s' : Ipm K, MK E (prologue E sol s) s' → s'.kkt.RSQrq k i j = E.qp.RSQrq k i j ∧ s'.kkt.BAbt k i j = E.qp.BAbt k i j :=
    fun s' hs => ⟨hs.R k i j hi, hs.B k i j hi⟩
  apply hp
  have hi' : MK E (prologue E sol s) (ipmInit E (prologue E sol s)) := by
    unfold ipmInit
    extract_lets D s1
    show MK E _ s1
    exact MK.ofEq E (maskLam_kkt E _)
  have hep : ∀ r : ℕ × Ipm K, MK E r.2 (epilogue E (obsRel E) r).s := by
    intro r
    unfold epilogue
    simp only
    split
    · exact hE.fo _ _ _
    · exact MKeep.refl _ _
  unfold ipmSolve at h
  simp only at h
  split at h
  · cases h
    unfold solveUnc
    refine MKeep.trans (b := (unconstr E.sq E.qp (dualF E) E.sqr (E.arg.r .reg_prim) { (prologue E sol s).kkt with
        ux := (solOf E.qp.dim (prologue E sol s).core).ux
        pi := (solOf E.qp.dim (prologue E sol s).core).pi
        lam := (solOf E.qp.dim (prologue E sol s).core).lam
        t := (solOf E.qp.dim (prologue E sol s).core).t })) ?_ ?_
    · have := unconstr_mkeep E.sq E.qp (dualF E) (E.arg.r .reg_prim) E.sqr { (prologue E sol s).kkt with
        ux := (solOf E.qp.dim (prologue E sol s).core).ux
        pi := (solOf E.qp.dim (prologue E sol s).core).pi
        lam := (solOf E.qp.dim (prologue E sol s).core).lam
        t := (solOf E.qp.dim (prologue E sol s).core).t }
      exact ⟨this.R, this.B⟩
    · simp only
      split
      · split <;> exact MKeep.of_eq rfl rfl
      · exact MKeep.of_eq rfl rfl
  · split at h
    · obtain ⟨r, hr, rfl⟩ := Option.map_eq_some_iff.mp h
      have h0 := ipmLoop_inv _ _ _ (fun x => MK E (prologue E sol s) x) (fun kk a b ha hb => ha.trans (absBody_mk E kk a b hb)) lf _ r
        (hi'.trans (absMu_mk E _)) hr
      refine (MKeep.trans h0 ?_).trans (hep _)
      unfold absEnd
      simp only
      split
      · split <;> exact MKeep.refl _ _
      · exact MKeep.refl _ _
    · obtain ⟨r, hr, rfl⟩ := Option.map_eq_some_iff.mp h
      refine MKeep.trans ?_ (hep _)
      refine ipmLoop_inv _ _ _ (fun x => MK E (prologue E sol s) x) (fun kk a b ha hb => ha.trans (relBody_mk E hE kk a b hb)) lf _ r ?_ hr
      exact MKeep.trans hi' (MK.ofEq E (relStart_kkt E _))

/-- the QP object after a solve -/
def qpAfter (o : SolveOut K) : OcpQp K := qpNow E o.s

/-- **C52** After a solve, every getter of the QP object returns what it returned before the solve, in any formulation, with
any arguments, whether or not the problem is constrained, although the solver works in place on the matrices. -/
theorem solve_getters (hE : E.Keeps) (lf : ℕ) (sol : Sol K) (s : Ipm K) (o : SolveOut K)
    (h : ipmSolve E lf sol s = some o) (f : RField) (k : ℕ) (out : Vec K) :
    OcpQp.getR f k (qpAfter E o) out = OcpQp.getR f k E.qp out :=
  getR_rows E.qp _ _ (fun k i j hi => (solve_keeps_rows E hE lf sol s o h k i j hi).2)
    (fun k i j hi => (solve_keeps_rows E hE lf sol s o h k i j hi).1) f k out

/-- **C52** in terms of the problem seen by the user -/
theorem solve_view (hE : E.Keeps) (lf : ℕ) (sol : Sol K) (s : Ipm K) (o : SolveOut K)
    (h : ipmSolve E lf sol s = some o) : view (qpAfter E o) = view E.qp :=
  view_rows E.qp _ _ (fun k i j hi => (solve_keeps_rows E hE lf sol s o h k i j hi).2)
    (fun k i j hi => (solve_keeps_rows E hE lf sol s o h k i j hi).1)

end
end Hpipm
