/-
Re-solving with the stored factorisation of a tree QP, TREE_OCP_QP_SOLVE_KKT_STEP (property C80).
-/
import Verif.TreeKktStep
import Verif.KktSolve

namespace Hpipm
open Finset
set_option linter.unusedSectionVars false

section
variable {K : Type*} [Field K] [LinearOrder K] [IsStrictOrderedRing K]

/-- the gradient of the cost to go, as the backward substitution leaves it in the solution vector -/
def tpx (t : TreeQp K) (ux : ℕ → Vec K) (c : ℕ) : Vec K := fun a => ux c (t.qp.dim.nu c + a)

/-- state after `n` kids of node `k` in the backward substitution -/
structure TSKids (t : TreeQp K) (k n : ℕ) (st0 st : KktSt K) : Prop where
  eq : ∃ u tm, st = { st0 with ux := upd st0.ux k u, tmpN := tm }
  ux : ∀ i, i < t.qp.dim.nu k + t.qp.dim.nx k → st.ux k i = st0.ux k i
    + ∑ jj ∈ range n, kidm t (tP t st0.L) (tpx t st0.ux) (t.kids k jj) i
  uxr : ∀ i, t.qp.dim.nu k + t.qp.dim.nx k ≤ i → st.ux k i = st0.ux k i

theorem tsKids_val (t : TreeQp K) (ht : t.TreeOk) (useP : Bool) (k : ℕ) (hk : k ≤ t.qp.dim.N) (st0 : KktSt K)
    (hPb : useP = true → ∀ jj, jj < t.nkids k → ∀ a, a < t.qp.dim.nx (t.kids k jj) → st0.Pb (t.kids k jj - 1) a =
      ∑ d ∈ range (t.qp.dim.nx (t.kids k jj)), tP t st0.L (t.kids k jj) a d * t.qp.b (t.kids k jj - 1) d) :
    TSKids t k (t.nkids k) st0 (loop (t.nkids k) (fun jj st => tsKid t useP k (t.kids k jj) st) st0) := by
  have h := loop_inv (fun n s => n ≤ t.nkids k → TSKids t k n st0 s) (t.nkids k)
    (fun jj st => tsKid t useP k (t.kids k jj) st) st0
    (fun _ => ⟨⟨st0.ux k, st0.tmpN, by rw [upd_self]⟩, fun i _ => by simp, fun i _ => rfl⟩)
    (fun n s hn hs _ => ?_) (le_refl _)
  · exact h
  have hs := hs (by omega)
  obtain ⟨u, tm, he⟩ := hs.eq
  have hck : t.kids k n ≠ k := by have := (ht.kid k n hk hn).1; omega
  have hu := hs.ux
  have hr := hs.uxr
  rw [he] at hu hr ⊢
  simp only [upd_same] at hu hr
  refine ⟨⟨(tsKid t useP k (t.kids k n) { st0 with ux := upd st0.ux k u, tmpN := tm }).ux k,
    (tsKid t useP k (t.kids k n) { st0 with ux := upd st0.ux k u, tmpN := tm }).tmpN, ?_⟩, fun i hi => ?_, fun i hi => ?_⟩
  · simp only [tsKid, upd_upd, upd_same]
  · simp only [tsKid, upd_same, upd_ne _ _ hck]
    rw [gemv_n_in (by omega)]
    simp only [Nat.sub_zero, zero_add, one_mul]
    rw [hu i hi, sum_range_succ, add_assoc]
    congr 2
    simp only [kidm]
    apply sum_congr rfl
    intro a ha
    have ha' := mem_range.mp ha
    congr 1
    by_cases hP : useP = true
    · rw [if_pos hP, axpy_in (by omega)]
      simp only [Nat.sub_zero, zero_add, one_mul, tpx]
      rw [hPb hP n hn a ha']
    · rw [if_neg hP, axpy_in (by omega)]
      simp only [Nat.sub_zero, zero_add, one_mul, tpx, tP]
      rw [sq_mul _ _ _ _ _ _ _ _ ha']
      simp only [zero_add]
  · simp only [tsKid, upd_same, upd_ne _ _ hck]
    rw [gemv_n_out (by omega)]
    exact hr i hi

theorem condSlacksS_congr (n ns nv : ℕ) (ir : ℕ → ℤ) (rg rg' G g : Vec K) (s : SlkSt K)
    (h : ∀ i, nv ≤ i → rg' i = rg i) : condSlacksS n ns nv ir rg' G g s = condSlacksS n ns nv ir rg G g s := by
  unfold condSlacksS
  have e1 : ∀ idx, rg' (nv + idx) = rg (nv + idx) := fun idx => h _ (by omega)
  have e2 : ∀ idx, rg' (nv + ns + idx) = rg (nv + ns + idx) := fun idx => h _ (by omega)
  simp only [e1, e2]

/-- the gradient of node `k` replaced -/
def gradQp (qp : OcpQp K) (k : ℕ) (u : Vec K) : OcpQp K :=
  { qp with rqz := upd qp.rqz k (fun i => if i < qp.dim.nu k + qp.dim.nx k then u i else qp.rqz k i) }

theorem tsNode_eq (t : TreeQp K) (useP : Bool) (G g : ℕ → Vec K) (k : ℕ) (st s1 : KktSt K)
    (hs1 : s1 = loop (t.nkids k) (fun jj st => tsKid t useP k (t.kids k jj) st)
      { st with ux := upd st.ux k (veccp (t.qp.dim.nu k + t.qp.dim.nx k) (t.qp.rqz k) 0 (st.ux k) 0) }) :
    tsNode t useP G g k st =
      let s2 := rhsStage (gradQp t.qp k (s1.ux k)) G g k s1
      { s2 with ux := upd s2.ux k (trsv_lnn_mn (t.qp.dim.nu k + t.qp.dim.nx k) (tkN t k) (s2.L k) (s2.ux k)) } := by
  have e1 : veccp (t.qp.dim.nu k + t.qp.dim.nx k) ((gradQp t.qp k (s1.ux k)).rqz k) 0 (s1.ux k) 0 = s1.ux k := by
    funext i
    rw [veccp]
    split_ifs with h
    · simp only [gradQp, upd_same, Nat.sub_zero, zero_add]
      rw [if_pos (by omega)]
    · rfl
  have e2 : ∀ s, condSlacksS (t.qp.dim.nb k + t.qp.dim.ng k) (t.qp.dim.ns k) (t.qp.dim.nu k + t.qp.dim.nx k) (t.qp.idxs_rev k)
      ((gradQp t.qp k (s1.ux k)).rqz k) (G k) (g k) s = condSlacksS (t.qp.dim.nb k + t.qp.dim.ng k) (t.qp.dim.ns k)
        (t.qp.dim.nu k + t.qp.dim.nx k) (t.qp.idxs_rev k) (t.qp.rqz k) (G k) (g k) s := by
    intro s
    apply condSlacksS_congr
    intro i hi
    simp only [gradQp, upd_same]
    rw [if_neg (by omega)]
  have e3 : rhsStage (gradQp t.qp k (s1.ux k)) G g k s1 =
      (let st := if t.qp.dim.ns k > 0 then
          let s := condSlacksS (t.qp.dim.nb k + t.qp.dim.ng k) (t.qp.dim.ns k) (t.qp.dim.nu k + t.qp.dim.nx k) (t.qp.idxs_rev k) (t.qp.rqz k) (G k) (g k)
            { Zs := s1.Zs k, du := s1.ux k, t0 := s1.t0, t1 := s1.t1, t2 := s1.t2, t3 := s1.t3 }
          { s1 with
            ux := upd s1.ux k s.du
            t1 := s.t1
            t2 := s.t2
            t3 := s.t3 }
        else if t.qp.dim.nb k + t.qp.dim.ng k > 0 then { s1 with t1 := axpy (t.qp.dim.nb k + t.qp.dim.ng k) (-1) (g k) (t.qp.dim.nb k + t.qp.dim.ng k) (g k) 0 s1.t1 0 }
        else s1
      let du := st.ux k
      let du := if t.qp.dim.nb k > 0 then vecad_sp (t.qp.dim.nb k) 1 st.t1 0 (t.qp.idxb k) du 0 else du
      let du := if t.qp.dim.ng k > 0 then gemv_n (t.qp.dim.nu k + t.qp.dim.nx k) (t.qp.dim.ng k) 1 (t.qp.DCt k) 0 0 st.t1 (t.qp.dim.nb k) 1 du 0 du 0 else du
      { st with ux := upd st.ux k du }) := by
    show rhsStage { t.qp with rqz := (gradQp t.qp k (s1.ux k)).rqz } G g k s1 = _
    simp only [rhsStage]
    rw [e1, upd_self]
    simp only [e2]
  rw [e3]
  simp only [tsNode]
  rw [← hs1]
  simp only [upd_same, upd_upd]

/-- what the backward substitution at node `k` changes -/
structure TSFrame (k : ℕ) (st st' : KktSt K) : Prop where
  L : st'.L = st.L
  Zs : st'.Zs = st.Zs
  Pb : st'.Pb = st.Pb
  BAbt : st'.BAbt = st.BAbt
  ux : ∀ q, q ≠ k → st'.ux q = st.ux q

theorem kRh_grad (qp : OcpQp K) (g : ℕ → Vec K) (k : ℕ) (u : Vec K) : kRh (gradQp qp k u) g k = kRh qp g k := by
  funext j
  unfold kRh
  simp only [gradQp, upd_same, slkRhs]
  rw [if_neg (by omega : ¬ qp.dim.nu k + qp.dim.nx k + j < qp.dim.nu k + qp.dim.nx k)]
  rfl

theorem kg_grad (qp : OcpQp K) (reg : K) (G g : ℕ → Vec K) (k : ℕ) (u : Vec K) (i : ℕ) (hi : i < qp.dim.nu k + qp.dim.nx k) :
    kg (gradQp qp k u) reg G g k i = kg qp reg G g k i - qp.rqz k i + u i := by
  have h1 := kRh_grad qp g k u
  have h2 : kVt (gradQp qp k u) reg G g k = kVt qp reg G g k := by
    funext j
    unfold kVt kVtZ
    rw [h1]; rfl
  have h3 : ∀ v, cvalT (gradQp qp k u) k v i = cvalT qp k v i := fun v => rfl
  unfold kg
  rw [h2, h3]
  simp only [gradQp, upd_same, if_pos hi]
  ring

theorem tsNode_ok (t : TreeQp K) (ht : t.TreeOk) (hwf : t.qp.WF) (useP : Bool) (reg : K) (G g : ℕ → Vec K) (k : ℕ)
    (hk : k ≤ t.qp.dim.N) (st : KktSt K)
    (hz : ∀ i, i < 2 * t.qp.dim.ns k → st.Zs k i = kZs t.qp reg G k i)
    (hp : ∀ j, j < tkN t k → st.L k j j ≠ 0)
    (hPb : useP = true → ∀ jj, jj < t.nkids k → ∀ a, a < t.qp.dim.nx (t.kids k jj) → st.Pb (t.kids k jj - 1) a =
      ∑ d ∈ range (t.qp.dim.nx (t.kids k jj)), tP t st.L (t.kids k jj) a d * t.qp.b (t.kids k jj - 1) d) :
    TSFrame k st (tsNode t useP G g k st) ∧
    SubOk t.qp (tkN t k) (st.L k) (tm t reg G g (tP t st.L) (tpx t st.ux) k) (kRh t.qp g k) k ((tsNode t useP G g k st).ux k) := by
  set st1 : KktSt K := { st with ux := upd st.ux k (veccp (t.qp.dim.nu k + t.qp.dim.nx k) (t.qp.rqz k) 0 (st.ux k) 0) } with hst1
  set s1 := loop (t.nkids k) (fun jj st => tsKid t useP k (t.kids k jj) st) st1 with hs1
  have hK := tsKids_val t ht useP k hk st1 hPb
  rw [← hs1] at hK
  obtain ⟨uk, tmk, hks⟩ := hK.eq
  have hN := tsNode_eq t useP G g k st s1 hs1
  rw [hN]
  have hsZ : s1.Zs = st.Zs := by rw [hks]
  have hsL : s1.L = st.L := by rw [hks]
  have hsP : s1.Pb = st.Pb := by rw [hks]
  have hsB : s1.BAbt = st.BAbt := by rw [hks]
  have hsu : ∀ q, q ≠ k → s1.ux q = st.ux q := fun q hq => by
    rw [hks]
    simp only [hst1]
    rw [upd_ne _ _ hq, upd_ne _ _ hq]
  have hRh := kRh_grad t.qp g k (s1.ux k)
  obtain ⟨u, t1, t2, t3, he, h1, h2⟩ := rhsStage_val (gradQp t.qp k (s1.ux k)) ⟨hwf.1, hwf.2⟩ reg G g k hk s1
    (fun i hi => by rw [hsZ]; exact hz i hi)
  simp only [he, upd_same, upd_upd]
  refine ⟨⟨hsL, hsZ, hsP, hsB, fun q hq => (upd_ne _ _ hq).trans (hsu q hq)⟩, ?_⟩
  rw [hsL]
  refine subOk_trsv t.qp (tkN t k) k (tkN_le t k) _ _ _ _ hp (fun i hi => ?_) (fun i hi => ?_)
  · rw [h1 i hi, kg_grad _ _ _ _ _ _ _ hi, hK.ux i hi]
    have e4 : st1.ux k i = t.qp.rqz k i := by
      simp only [hst1, upd_same]
      rw [veccp, if_pos (by omega)]; simp
    have e5 : ∀ jj, jj < t.nkids k → kidm t (tP t st1.L) (tpx t st1.ux) (t.kids k jj) i =
        kidm t (tP t st.L) (tpx t st.ux) (t.kids k jj) i := by
      intro jj hjj
      have hne : t.kids k jj ≠ k := by have := (ht.kid k jj hk hjj).1; omega
      have : st1.ux (t.kids k jj) = st.ux (t.kids k jj) := upd_ne _ _ hne
      simp only [kidm, tpx, this]
      rfl
    rw [e4, tm, sum_congr rfl (fun jj hjj => e5 jj (mem_range.mp hjj))]
    ring
  · have := h2 i hi
    rw [hRh] at this
    exact this

/-- a factorisation of the KKT matrix of the tree QP with barrier weights `G` is stored -/
structure TFactored (t : TreeQp K) (dr : ℕ → ℕ → K) (reg : K) (G : ℕ → Vec K) (st : KktSt K) : Prop where
  fac : ∀ k, 0 < k → k ≤ t.qp.dim.N → RicFac (t.qp.dim.nu k) (t.qp.dim.nx k) (tM t dr reg G (tP t st.L) k) (st.L k) (tP t st.L k)
  root : RicFac (t.qp.dim.nu 0 + t.qp.dim.nx 0) 0 (tM t dr reg G (tP t st.L) 0) (st.L 0) (fun _ _ => 0)
  zs : ∀ k i, k ≤ t.qp.dim.N → i < 2 * t.qp.dim.ns k → st.Zs k i = kZs t.qp reg G k i

theorem TFactored.piv {t : TreeQp K} {dr : ℕ → ℕ → K} {reg : K} {G : ℕ → Vec K} {st : KktSt K} (h : TFactored t dr reg G st)
    (k : ℕ) (hk : k ≤ t.qp.dim.N) (j : ℕ) (hj : j < tkN t k) : st.L k j j ≠ 0 := by
  unfold tkN at hj
  split_ifs at hj with h0
  · exact (h.fac k h0 hk).piv j hj
  · have : k = 0 := by omega
    subst this
    exact h.root.piv j hj

/-- result of the backward substitution down to node `q0` -/
structure TSBack (t : TreeQp K) (reg : K) (G g : ℕ → Vec K) (q0 : ℕ) (st0 st : KktSt K) : Prop where
  L : st.L = st0.L
  Zs : st.Zs = st0.Zs
  Pb : st.Pb = st0.Pb
  BAbt : st.BAbt = st0.BAbt
  sub : ∀ q, q0 ≤ q → q ≤ t.qp.dim.N → SubOk t.qp (tkN t q) (st0.L q) (tm t reg G g (tP t st0.L) (tpx t st.ux) q) (kRh t.qp g q) q (st.ux q)

theorem tm_congr (t : TreeQp K) (ht : t.TreeOk) (reg : K) (G g : ℕ → Vec K) (P : ℕ → Mat K) (u u' : ℕ → Vec K) (k : ℕ)
    (hk : k ≤ t.qp.dim.N) (h : ∀ q, k < q → u' q = u q) : tm t reg G g P (tpx t u') k = tm t reg G g P (tpx t u) k := by
  funext i
  simp only [tm]
  congr 1
  apply sum_congr rfl
  intro jj hjj
  simp only [kidm, tpx]
  rw [h _ (ht.kid k jj hk (mem_range.mp hjj)).1]

theorem tsBack_ok (t : TreeQp K) (ht : t.TreeOk) (hwf : t.qp.WF) (useP : Bool) (dr : ℕ → ℕ → K) (reg : K) (G g : ℕ → Vec K)
    (st0 : KktSt K) (hF : TFactored t dr reg G st0)
    (hPb : useP = true → ∀ e a, e < t.qp.dim.N → a < t.qp.dim.nx (e + 1) → st0.Pb e a =
      ∑ d ∈ range (t.qp.dim.nx (e + 1)), tP t st0.L (e + 1) a d * t.qp.b e d) :
    TSBack t reg G g 0 st0 (loop (t.qp.dim.N + 1) (fun ss st => tsNode t useP G g (t.qp.dim.N - ss) st) st0) := by
  have h := loop_inv (fun n s => n ≤ t.qp.dim.N + 1 → TSBack t reg G g (t.qp.dim.N + 1 - n) st0 s)
    (t.qp.dim.N + 1) (fun ss st => tsNode t useP G g (t.qp.dim.N - ss) st) st0
    (fun _ => ⟨rfl, rfl, rfl, rfl, fun q hq hqN => by omega⟩)
    (fun n s hn hs _ => ?_) (le_refl _)
  · rw [Nat.sub_self] at h; exact h
  have hs := hs (by omega)
  have hkN : t.qp.dim.N - n ≤ t.qp.dim.N := by omega
  obtain ⟨hf, hsub⟩ := tsNode_ok t ht hwf useP reg G g (t.qp.dim.N - n) hkN s
    (fun i hi => by rw [hs.Zs]; exact hF.zs _ i hkN hi)
    (fun j hj => by rw [hs.L]; exact hF.piv _ hkN j hj)
    (fun hu jj hjj a ha => by
      obtain ⟨g1, g2, g3⟩ := ht.kid _ jj hkN hjj
      obtain ⟨e, he⟩ : ∃ e, t.kids (t.qp.dim.N - n) jj = e + 1 := ⟨t.kids (t.qp.dim.N - n) jj - 1, by omega⟩
      rw [hs.Pb, hs.L, he, Nat.add_sub_cancel]
      rw [he] at ha
      exact hPb hu e a (by omega) ha)
  refine ⟨by rw [hf.L, hs.L], by rw [hf.Zs, hs.Zs], by rw [hf.Pb, hs.Pb], by rw [hf.BAbt, hs.BAbt], fun q hq hqN => ?_⟩
  by_cases hqk : q = t.qp.dim.N - n
  · rw [hqk]
    rw [hs.L] at hsub
    rw [tm_congr t ht reg G g _ s.ux _ _ hkN (fun p hp => hf.ux p (by omega))]
    exact hsub
  · rw [tm_congr t ht reg G g _ s.ux _ _ hqN (fun p hp => hf.ux p (by omega)), hf.ux q hqk]
    exact hs.sub q (by omega) hqN

/-! ### forward -/

/-- the part of a forward node before its kids -/
def tsHead (t : TreeQp K) (k : ℕ) (st : KktSt K) : KktSt K :=
  { st with ux := upd st.ux k (trsv_ltn_mn (t.qp.dim.nu k + t.qp.dim.nx k) (tkN t k) (st.L k) (vecsc (tkN t k) (-1) (st.ux k) 0)) }

theorem tsHead_ok (t : TreeQp K) (k : ℕ) (st : KktSt K) (hp : ∀ j, j < tkN t k → st.L k j j ≠ 0) :
    TFHead t k (st.ux k) st (tsHead t k st) := by
  refine ⟨⟨rfl, rfl, rfl⟩, rfl, fun q hq => ?_, fun i hi => ?_, fun j hj => ?_⟩
  · simp only [tsHead, upd_ne _ _ hq]
  · simp only [tsHead, upd_same]
    rw [trsv_ltn_mn_out _ _ _ _ _ hi, vecsc, if_neg (by omega)]
  · simp only [tsHead, upd_same]
    rw [trsv_ltn_mn_spec _ _ (tkN_le t k) _ _ hp j hj, vecsc, if_pos (by omega)]
    simp

theorem tsFwdKid_ok (t : TreeQp K) (dual : Bool) (k c : ℕ) (hkc : k ≠ c) (st : KktSt K) :
    TFKid t dual k c (tP t st.L c) (tpx t st.ux c) st (tsFwdKid t dual k c st) := by
  refine ⟨⟨rfl, rfl, rfl⟩, fun q hq => ?_, fun i hi => ?_, fun a ha => ?_, fun hd a ha => ?_, fun e he => ?_⟩
  · simp only [tsFwdKid, upd_ne _ _ hq]
  · simp only [tsFwdKid, upd_same]
    rw [gemv_t, if_neg (by omega)]
  · simp only [tsFwdKid, upd_same]
    rw [gemv_t, if_pos (by omega)]
    simp only [Nat.add_sub_cancel_left, zero_add, one_mul]
    ring
  · simp only [tsFwdKid, hd, if_true, upd_same]
    rw [axpy_in (by omega)]
    simp only [Nat.sub_zero, zero_add, one_mul]
    rw [sq_mul _ _ _ _ _ _ _ _ ha, veccp, if_pos (by omega)]
    simp only [Nat.sub_zero, tP, tpx]
    rw [add_comm]
    congr 1
    apply sum_congr rfl
    intro d hd'
    congr 1
    rw [veccp, if_pos (by have := mem_range.mp hd'; omega)]
    simp
  · simp only [tsFwdKid]
    split_ifs
    · rw [upd_ne _ _ he]
    · rfl

theorem tsFwd_done (t : TreeQp K) (ht : t.TreeOk) (dual : Bool) (st : KktSt K)
    (hp : ∀ k, k ≤ t.qp.dim.N → ∀ j, j < tkN t k → st.L k j j ≠ 0) :
    TFDone t dual st.ux (tP t st.L) (tpx t st.ux) st
      (loop (t.qp.dim.N + 1) (fun ss st => tsFwdNode t dual ss st) st) := by
  refine tfwd t ht dual _ _ _ st (tsHead t) (tsFwdKid t dual) (fun k hk s hf hu => ?_) (fun k jj hk hjj s hf hu => ?_)
  · have := tsHead_ok t k s (by rw [hf.L]; exact hp k hk)
    refine ⟨this.fr, this.pi, this.uxo, this.uxr, fun j hj => ?_⟩
    rw [this.solve j hj, hu j hj]
  · have := tsFwdKid_ok t dual k (t.kids k jj) (by have := (ht.kid k jj hk hjj).1; omega) s
    rw [hf.L] at this
    have e : tpx t s.ux (t.kids k jj) = tpx t st.ux (t.kids k jj) := by
      funext a; simp only [tpx]; rw [hu]
    rw [e] at this
    exact this

/-- core quantities of an iterate, and the re-solve -/
theorem tsolve_newton (t : TreeQp K) (ht : t.TreeOk) (hwf : t.qp.WF) (hu : Unshared t.qp) (sol : Sol K)
    (reg : K) (useP : Bool) (c : Core K) (hc : CoreFac t.qp sol c) (st : KktSt K)
    (hF : TFactored t (fun _ _ => reg) reg (stView t.qp.dim c.Gamma) st)
    (hPb : useP = true → ∀ e a, e < t.qp.dim.N → a < t.qp.dim.nx (e + 1) → st.Pb e a =
      ∑ d ∈ range (t.qp.dim.nx (e + 1)), tP t st.L (e + 1) a d * t.qp.b e d)
    (hden : ∀ k i, k ≤ t.qp.dim.N → i < 2 * t.qp.dim.ns k → slackCurv t.qp reg sol k i ≠ 0) :
    TNewton t sol reg (stepOf (tsolveStep t true useP c st).2) ∧
    TFactored t (fun _ _ => reg) reg (stView t.qp.dim (tsolveStep t true useP c st).1.Gamma) (tsolveStep t true useP c st).2 ∧
    CoreFac t.qp sol (tsolveStep t true useP c st).1 := by
  obtain ⟨gm, hcg, hgm⟩ := computeGamma_fields (stFlat (nct t.qp.dim) t.qp.d (t.qp.dim.N + 1)) (stFlat (nct t.qp.dim) t.qp.m (t.qp.dim.N + 1)) c
  set g := stView t.qp.dim gm with hg
  set G := stView t.qp.dim c.Gamma with hG
  have hcs : CoreStep t.qp sol { c with gamma := gm } G g := by
    refine ⟨⟨hc.of.nc, hc.of.lam, hc.of.t, hc.of.pos⟩, hc.ti, hc.G, fun k j hk hj => ?_⟩
    have hlt : stOff (nct t.qp.dim) k + j < c.nc := by rw [hc.of.nc]; exact stOff_lt hk hj
    simp only [hg, stView]
    rw [hgm _ hlt, hc.ti k j hk hj, hc.of.lam k j hk hj, stFlat_at _ _ _ _ _ (by omega) hj, stFlat_at _ _ _ _ _ (by omega) hj, wg]
  have hr : tsolveStep t true useP c st = ({ c with gamma := gm }, kktTail t.qp G { c with gamma := gm }
      (loop (t.qp.dim.N + 1) (fun ss st => tsFwdNode t true ss st)
        (loop (t.qp.dim.N + 1) (fun ss st => tsNode t useP G g (t.qp.dim.N - ss) st) st))) := by
    unfold tsolveStep
    simp only [hcg]
    rfl
  rw [hr]
  have hb := tsBack_ok t ht hwf useP (fun _ _ => reg) reg G g st hF hPb
  set st0 := loop (t.qp.dim.N + 1) (fun ss st => tsNode t useP G g (t.qp.dim.N - ss) st) st with hst0
  have hf := tsFwd_done t ht true st0 (by rw [hb.L]; exact hF.piv)
  set st1 := loop (t.qp.dim.N + 1) (fun ss st => tsFwdNode t true ss st) st0 with hst1
  have hT := kktTail_ok t.qp hwf G { c with gamma := gm } hc.of.nc st1
  have eL := hT.L.trans (hf.fr.L.trans hb.L)
  have eZ := hT.Zs.trans (hf.fr.Zs.trans hb.Zs)
  refine ⟨?_, ⟨fun k h0 hk => ?_, ?_, fun k i hk hi => ?_⟩, ⟨hcs.of, hc.ti, hc.G⟩⟩
  · have hS : TSolves t (fun _ _ => reg) reg G g st1.ux st1.pi := by
      refine tsolves t ht (fun _ _ => reg) reg G g _ _ _ st0 st1 (tP_sym t st0.L) hf (fun k h0 hk => ?_) ?_
      · have h1 := hF.fac k h0 hk
        have h2 := hb.sub k (Nat.zero_le _) hk
        rw [hb.L]
        have hn : tkN t k = t.qp.dim.nu k := if_pos h0
        rw [hn] at h2
        exact ⟨h1.fac, h2.ell, h1.schur, fun i hi => h2.p _ (by omega) (by omega), h1.piv⟩
      · have h1 := hF.root
        have h2 := hb.sub 0 (Nat.zero_le _) (Nat.zero_le _)
        rw [hb.L]
        have hn : tkN t 0 = t.qp.dim.nu 0 + t.qp.dim.nx 0 := if_neg (by omega)
        rw [hn] at h2
        exact ⟨h1.fac, h2.ell, h1.schur, fun i hi => by omega, h1.piv⟩
    exact tree_step_newton t ht hwf hu sol reg G g _ hcs st0 st1 hf.fr.Zs hf.uxs hS
      (fun k hk => ⟨fun i hi => by rw [hb.Zs]; exact hF.zs k i hk hi, fun i hi => (hb.sub k (Nat.zero_le _) hk).slk i hi⟩) hden
  · simp only []
    rw [eL]; exact hF.fac k h0 hk
  · simp only []
    rw [eL]; exact hF.root
  · simp only []
    rw [eZ]; exact hF.zs k i hk hi

/-- the factorise-and-solve routine leaves a factorisation behind -/
theorem tkkt_factored (sq : K → K) (hsq : ∀ x, 0 < x → sq x * sq x = x) (t : TreeQp K) (ht : t.TreeOk) (hwf : t.qp.WF)
    (dual : Bool) (sol : Sol K) (reg : K) (c : Core K) (hc : CoreOf t.qp sol c) (hmin : c.t_lam_min ≠ 1) (st : KktSt K)
    (hp : ∀ k, k ≤ t.qp.dim.N → ∀ j, j < t.qp.dim.nu k + t.qp.dim.nx k → (tkktStep sq t dual reg c st).2.L k j j ≠ 0) :
    TFactored t (fun _ _ => reg) reg (stView t.qp.dim (tkktStep sq t dual reg c st).1.Gamma) (tkktStep sq t dual reg c st).2 ∧
    CoreFac t.qp sol (tkktStep sq t dual reg c st).1 ∧
    (∀ e a, e < t.qp.dim.N → a < t.qp.dim.nx (e + 1) → (tkktStep sq t dual reg c st).2.Pb e a =
      ∑ d ∈ range (t.qp.dim.nx (e + 1)), tP t (tkktStep sq t dual reg c st).2.L (e + 1) a d * t.qp.b e d) := by
  have hcs := coreStep_gammaGamma t.qp sol c hc hmin
  simp only [] at hcs
  unfold tkktStep at hp ⊢
  simp only [] at hp ⊢
  set c' := computeGammaGamma (stFlat (nct t.qp.dim) t.qp.d (t.qp.dim.N + 1)) (stFlat (nct t.qp.dim) t.qp.m (t.qp.dim.N + 1)) c with hc'
  have hok := tkBack_ok sq t ht hwf reg (stView t.qp.dim c'.Gamma) (stView t.qp.dim c'.gamma) st
  set st0 := tkBack sq t reg (stView t.qp.dim c'.Gamma) (stView t.qp.dim c'.gamma) st with hst0
  have hL1 : (loop (t.qp.dim.N + 1) (fun ss st => tkFwdNode t dual ss st) st0).L = st0.L := tkFwd_L t dual st0
  have hT := kktTail_ok t.qp hwf (stView t.qp.dim c'.Gamma) c' hcs.of.nc (loop (t.qp.dim.N + 1) (fun ss st => tkFwdNode t dual ss st) st0)
  have hL := hT.L.trans hL1
  rw [hL] at hp
  have hZ1 : (loop (t.qp.dim.N + 1) (fun ss st => tkFwdNode t dual ss st) st0).Zs = st0.Zs := by
    refine loop_inv (fun _ (s : KktSt K) => s.Zs = st0.Zs) _ _ _ rfl (fun n s _ hs => ?_)
    simp only [tkFwdNode]
    exact loop_inv (fun _ (s : KktSt K) => s.Zs = st0.Zs) _ _ _ hs (fun m s' _ hs' => hs')
  have hP1 : (loop (t.qp.dim.N + 1) (fun ss st => tkFwdNode t dual ss st) st0).Pb = st0.Pb := by
    refine loop_inv (fun _ (s : KktSt K) => s.Pb = st0.Pb) _ _ _ rfl (fun n s _ hs => ?_)
    simp only [tkFwdNode]
    exact loop_inv (fun _ (s : KktSt K) => s.Pb = st0.Pb) _ _ _ hs (fun m s' _ hs' => hs')
  refine ⟨⟨fun k h0 hk => ?_, ?_, fun k i hk hi => ?_⟩, ⟨hcs.of, hcs.ti, hcs.G⟩, fun e a he ha => ?_⟩
  · rw [hL]; exact ((hok k hk).ric hsq (hp k hk)).1.toFac
  · rw [hL]; exact ((hok 0 (Nat.zero_le _)).ric hsq (hp 0 (Nat.zero_le _))).2.toFac
  · rw [hT.Zs, hZ1]; exact (hok k hk).slk.Zs i hi
  · rw [hT.Pb, hP1, hL]
    obtain ⟨h1, jj, hjj, hkj⟩ := ht.all (e + 1) (by omega) (by omega)
    have := (hok (t.dad (e + 1)) (by omega)).pb jj hjj a (by rw [hkj]; exact ha)
    rw [hkj, Nat.add_sub_cancel] at this
    exact this

/-- the tree QP with other right-hand sides -/
def twithRhs (t : TreeQp K) (rqz b d m : ℕ → Vec K) : TreeQp K := { t with qp := withRhs t.qp rqz b d m }

/-- **C80.**  After the factorise-and-solve routine at an iterate, the re-solve routine computes the Newton step of any other
right-hand side: gradient, dynamics offsets, bounds and complementarity targets; the stored products of cost-to-go matrix and
dynamics offset may be used if the offsets are the same. -/
theorem tree_resolve_newton (sq : K → K) (hsq : ∀ x, 0 < x → sq x * sq x = x) (t : TreeQp K) (ht : t.TreeOk) (hwf : t.qp.WF)
    (hu : Unshared t.qp) (dual : Bool) (sol : Sol K) (hint : Interior t.qp sol) (reg : K)
    (hsc : StrictlyConvex t.qp (fun _ _ => reg) reg) (c : Core K) (hc : CoreOf t.qp sol c) (hmin : c.t_lam_min ≠ 1) (st : KktSt K)
    (rqz b d m : ℕ → Vec K) (useP : Bool)
    (hb : useP = true → ∀ e i, e < t.qp.dim.N → i < t.qp.dim.nx (e + 1) → b e i = t.qp.b e i) :
    let f := tkktStep sq t dual reg c st
    TNewton (twithRhs t rqz b d m) sol reg (stepOf (tsolveStep (twithRhs t rqz b d m) true useP f.1 f.2).2) := by
  intro f
  obtain ⟨hF, hcf, hpb⟩ := tkkt_factored sq hsq t ht hwf dual sol reg c hc hmin st (tkkt_piv sq hsq t ht hwf dual sol hint reg hsc c hc hmin st)
  refine (tsolve_newton (twithRhs t rqz b d m) ⟨ht.kid, ht.inj, ht.all⟩ ⟨hwf.1, hwf.2⟩ hu sol reg useP f.1
    ⟨⟨hcf.of.nc, hcf.of.lam, hcf.of.t, hcf.of.pos⟩, hcf.ti, hcf.G⟩ f.2 ⟨hF.fac, hF.root, hF.zs⟩ ?_
    (fun k i hk hi => ne_of_gt (slackCurv_pos hsc sol hint k i hk hi))).1
  intro hup e a he ha
  refine (hpb e a he ha).trans (sum_congr rfl (fun i hi => ?_))
  exact congrArg (fun x => tP t f.2.L (e + 1) a i * x) (hb hup e i he (mem_range.mp hi)).symm

end
end Hpipm
