/-
The primal part of a search direction of the tree solver (intermediate results for C88): whatever the quality of the
factorisation, the direction returned by the tree KKT routines satisfies the linearised dynamics of every edge and the
linearised inequality constraints of every node exactly.
-/
import Verif.KktPrim
import Verif.IpmDir
import Verif.TreeKktSolve
import Verif.TreeResProps
import Verif.TreeResEx
import Verif.TreeIpmProps

namespace Hpipm
open Finset
set_option linter.unusedSectionVars false

section
variable {K : Type*} [Field K] [LinearOrder K] [IsStrictOrderedRing K]

/-! ### forward sweeps, without assumption on the pivots -/

/-- state after the nodes `< n` -/
structure TDInv (t : TreeQp K) (n : ℕ) (st : KktSt K) : Prop where
  dyn : ∀ e, e < t.qp.dim.N → t.dad (e + 1) < n → ∀ a, a < t.qp.dim.nx (e + 1) → st.ux (e + 1) (t.qp.dim.nu (e + 1) + a) =
    (∑ j ∈ range (t.qp.dim.nu (t.dad (e + 1)) + t.qp.dim.nx (t.dad (e + 1))), t.qp.BAbt e j a * st.ux (t.dad (e + 1)) j) + t.qp.b e a

theorem tfwd_dyn (t : TreeQp K) (ht : t.TreeOk) (P : ℕ → KktSt K → Mat K) (p : ℕ → KktSt K → Vec K) (dual : Bool) (st0 : KktSt K)
    (head : ℕ → KktSt K → KktSt K) (kid : ℕ → ℕ → KktSt K → KktSt K)
    (ho : ∀ k st q, q ≠ k → (head k st).ux q = st.ux q)
    (hr : ∀ k st i, tkN t k ≤ i → (head k st).ux k i = st.ux k i)
    (hkid : ∀ k c, k ≠ c → ∀ st, TFKid t dual k c (P c st) (p c st) st (kid k c st)) :
    TDInv t (t.qp.dim.N + 1) (loop (t.qp.dim.N + 1) (fun k st =>
      loop (t.nkids k) (fun jj st => kid k (t.kids k jj) st) (head k st)) st0) := by
  refine loop_inv (fun n s => n ≤ t.qp.dim.N + 1 → TDInv t n s) (t.qp.dim.N + 1) (fun k st =>
      loop (t.nkids k) (fun jj st => kid k (t.kids k jj) st) (head k st)) st0
    (fun _ => ⟨fun e _ he => by omega⟩) (fun n s hn hs _ => ?_) (le_refl _)
  have hs := hs (by omega)
  have hnN : n ≤ t.qp.dim.N := by omega
  set s1 := head n s with hs1
  -- the kids
  have hKs := loop_inv (fun m (x : KktSt K) => m ≤ t.nkids n →
      (∀ q, (∀ jj, jj < m → q ≠ t.kids n jj) → x.ux q = s1.ux q) ∧
      (∀ jj, jj < m → ∀ a, a < t.qp.dim.nx (t.kids n jj) → x.ux (t.kids n jj) (t.qp.dim.nu (t.kids n jj) + a) =
        (∑ j ∈ range (t.qp.dim.nu n + t.qp.dim.nx n), t.qp.BAbt (t.kids n jj - 1) j a * s1.ux n j) + t.qp.b (t.kids n jj - 1) a))
    (t.nkids n) (fun jj st => kid n (t.kids n jj) st) s1 (fun _ => ⟨fun _ _ => rfl, fun jj h => by omega⟩)
    (fun m x hm hx _ => by
      obtain ⟨x1, x2⟩ := hx (by omega)
      have hne : ∀ jj, jj < m → t.kids n m ≠ t.kids n jj := fun jj hjj he => by
        have := ht.inj n m jj hnN hm (by omega) he
        omega
      have hck : n ≠ t.kids n m := by have := (ht.kid n m hnN hm).1; omega
      have hk := hkid n (t.kids n m) hck x
      refine ⟨fun q hq => ?_, fun jj hjj a ha => ?_⟩
      · rw [hk.uxo q (hq m (by omega))]
        exact x1 q (fun jj hjj => hq jj (by omega))
      · by_cases hjn : jj = m
        · subst hjn
          rw [hk.dyn a ha, x1 n (fun j hj => by have := (ht.kid n j hnN (by omega)).1; omega)]
        · rw [hk.uxo _ (fun h => hne jj (by omega) h.symm)]
          exact x2 jj (by omega) a ha) (le_refl _)
  set s2 := loop (t.nkids n) (fun jj st => kid n (t.kids n jj) st) s1 with hs2
  obtain ⟨k1, k2⟩ := hKs
  have hkidd : ∀ q, q ≤ t.qp.dim.N → (q = 0 ∨ t.dad q ≠ n) → ∀ jj, jj < t.nkids n → q ≠ t.kids n jj := by
    intro q hq hd jj hjj he
    obtain ⟨g1, g2, g3⟩ := ht.kid n jj hnN hjj
    subst he
    rcases hd with hd | hd
    · omega
    · exact hd g3
  have hnk : ∀ jj, jj < t.nkids n → n ≠ t.kids n jj := fun jj hjj => by have := (ht.kid n jj hnN hjj).1; omega
  have hold : ∀ q, q < n → s2.ux q = s.ux q := by
    intro q hq
    rw [k1 q (fun jj hjj => by have := (ht.kid n jj hnN hjj).1; omega), ho n s q (by omega)]
  have hkeep : ∀ q, q ≤ t.qp.dim.N → q ≠ n → (q = 0 ∨ t.dad q ≠ n) → s2.ux q = s.ux q := by
    intro q hq hqn hd
    rw [k1 q (hkidd q hq hd), ho n s q hqn]
  have hn_x : ∀ i, t.qp.dim.nu n ≤ i → n ≠ 0 → s2.ux n i = s.ux n i := by
    intro i hi h0
    rw [k1 n hnk, hr n s i (by unfold tkN; rw [if_pos (by omega)]; exact hi)]
  refine ⟨fun e he hd a ha => ?_⟩
  by_cases hdn : t.dad (e + 1) = n
  · obtain ⟨h1, jj, hjj, hkj⟩ := ht.all (e + 1) (by omega) (by omega)
    rw [hdn] at hjj hkj h1 ⊢
    have := k2 jj hjj a (by rw [hkj]; exact ha)
    rw [hkj, Nat.add_sub_cancel] at this
    rw [this, k1 n hnk]
  · have h1 := (ht.all (e + 1) (by omega) (by omega)).1
    rw [hold (t.dad (e + 1)) (by omega)]
    have hx : s2.ux (e + 1) (t.qp.dim.nu (e + 1) + a) = s.ux (e + 1) (t.qp.dim.nu (e + 1) + a) := by
      by_cases hen : e + 1 = n
      · rw [hen]; exact hn_x _ (by omega) (by omega)
      · rw [hkeep (e + 1) (by omega) hen (Or.inr hdn)]
    rw [hx]
    exact hs.dyn e he (by omega) a ha

/-- a direction whose primal part satisfies the linearised constraints of the tree problem -/
structure TPrim (t : TreeQp K) (b d ux s : ℕ → Vec K) : Prop where
  dyn : ∀ e i, e < t.qp.dim.N → i < t.qp.dim.nx (e + 1) → b e i + tlinB t ux e i = 0
  con : ∀ k j, k ≤ t.qp.dim.N → j < nct t.qp.dim k → t.qp.d_mask k j * (d k j + s k j + linD t.qp ux k j) = 0

theorem tlinB_val (t : TreeQp K) (u : ℕ → Vec K) (e i : ℕ) : tlinB t u e i = - u (e + 1) (t.qp.dim.nu (e + 1) + i)
    + ∑ j ∈ range (t.qp.dim.nu (t.dad (e + 1)) + t.qp.dim.nx (t.dad (e + 1))), t.qp.BAbt e j i * u (t.dad (e + 1)) j := by
  simp only [tlinB, linB, freeQp, zero_mul, sum_const_zero]; ring

theorem tlinB_smul (t : TreeQp K) (c : K) (v : ℕ → Vec K) (k i : ℕ) : tlinB t (fun k i => c * v k i) k i = c * tlinB t v k i := by
  simp only [tlinB_val, mul_add, mul_sum]
  congr 1
  · ring
  · exact sum_congr rfl (fun i _ => by ring)

theorem tlinB_congr (t : TreeQp K) (ht : t.TreeOk) (u w : ℕ → Vec K) (e i : ℕ) (he : e < t.qp.dim.N) (hi : i < t.qp.dim.nx (e + 1))
    (h : ∀ k i, k ≤ t.qp.dim.N → i < nvt t.qp.dim k → u k i = w k i) : tlinB t u e i = tlinB t w e i := by
  unfold nvt at h
  have hd := (ht.all (e + 1) (by omega) (by omega)).1
  rw [tlinB_val, tlinB_val, h (e + 1) _ (by omega) (by omega)]
  congr 1
  exact sum_congr rfl (fun j hj => by have := mem_range.mp hj; rw [h _ j (by omega) (by omega)])

theorem ttail_prim (t : TreeQp K) (ht : t.TreeOk) (hwf : t.qp.WF) (G : ℕ → Vec K) (c : Core K)
    (hnc : c.nc = stOff (nct t.qp.dim) (t.qp.dim.N + 1)) (st : KktSt K) (hd : TDInv t (t.qp.dim.N + 1) st) :
    TPrim t t.qp.b t.qp.d (kktTail t.qp G c st).ux (kktTail t.qp G c st).t := by
  have h := kktTail_ok t.qp hwf G c hnc st
  refine ⟨fun e i he hi => ?_, fun k j hk hj => ?_⟩
  · have hdd := (ht.all (e + 1) (by omega) (by omega)).1
    rw [tlinB_val, h.uxv (e + 1) _ (by omega) (by omega), hd.dyn e he (by omega) i hi]
    have e1 : ∑ j ∈ range (t.qp.dim.nu (t.dad (e + 1)) + t.qp.dim.nx (t.dad (e + 1))), t.qp.BAbt e j i * (kktTail t.qp G c st).ux (t.dad (e + 1)) j =
        ∑ j ∈ range (t.qp.dim.nu (t.dad (e + 1)) + t.qp.dim.nx (t.dad (e + 1))), t.qp.BAbt e j i * st.ux (t.dad (e + 1)) j :=
      sum_congr rfl (fun j hj => by rw [h.uxv _ j (by omega) (mem_range.mp hj)])
    rw [e1]
    ring
  · rw [h.t k j hk hj, wval_lin]; ring

/-- the direction of TREE_OCP_QP_FACT_SOLVE_KKT_STEP -/
theorem tkkt_prim (sq : K → K) (t : TreeQp K) (ht : t.TreeOk) (hwf : t.qp.WF) (dual : Bool) (reg : K) (c : Core K)
    (hnc : c.nc = stOff (nct t.qp.dim) (t.qp.dim.N + 1)) (st : KktSt K) :
    TPrim t t.qp.b t.qp.d (tkktStep sq t dual reg c st).2.ux (tkktStep sq t dual reg c st).2.t := by
  unfold tkktStep
  dsimp only
  refine ttail_prim t ht hwf _ _ ?_ _ ?_
  · rw [computeGammaGamma_nc]; exact hnc
  · refine tfwd_dyn t ht (fun c st => tP t st.L c) (fun c st => tp t st.L c) dual _ (tkHead t) (tkFwdKid t dual)
      (fun k st q hq => ?_) (fun k st i hi => ?_) (fun k c hkc st => tkFwdKid_ok t dual k c hkc st)
    · simp only [tkHead, upd_ne _ _ hq]
    · simp only [tkHead, upd_same]
      rw [trsv_ltn_mn_out _ _ _ _ _ hi, rowex, if_neg (by omega)]

/-- the direction of TREE_OCP_QP_SOLVE_KKT_STEP -/
theorem tsolve_prim (t : TreeQp K) (ht : t.TreeOk) (hwf : t.qp.WF) (dual useP : Bool) (c : Core K)
    (hnc : c.nc = stOff (nct t.qp.dim) (t.qp.dim.N + 1)) (st : KktSt K) :
    TPrim t t.qp.b t.qp.d (tsolveStep t dual useP c st).2.ux (tsolveStep t dual useP c st).2.t := by
  unfold tsolveStep
  dsimp only
  refine ttail_prim t ht hwf _ _ ?_ _ ?_
  · rw [computeGamma_nc]; exact hnc
  · refine tfwd_dyn t ht (fun c st => tP t st.L c) (fun c st => tpx t st.ux c) dual _ (tsHead t) (tsFwdKid t dual)
      (fun k st q hq => ?_) (fun k st i hi => ?_) (fun k c hkc st => tsFwdKid_ok t dual k c hkc st)
    · simp only [tsHead, upd_ne _ _ hq]
    · simp only [tsHead, upd_same]
      rw [trsv_ltn_mn_out _ _ _ _ _ hi, vecsc, if_neg (by omega)]

/-! ### the directions of the solver -/

variable (T : TEnv K)

theorem tqpStep_linB (s : Ipm K) (u : ℕ → Vec K) (k i : ℕ) : tlinB (tqpStep T s) u k i = tlinB T.t u k i := by
  rw [tlinB_val, tlinB_val]; unfold tqpStep; dsimp only; split <;> rfl

theorem tqpStep_linD (s : Ipm K) (u : ℕ → Vec K) (k j : ℕ) : linD (tqpStep T s).qp u k j = linD T.t.qp u k j := by
  unfold tqpStep; dsimp only; split <;> rfl

theorem tqpStep_mask (s : Ipm K) : (tqpStep T s).qp.d_mask = T.t.qp.d_mask := by unfold tqpStep; dsimp only; split <;> rfl

theorem tqpStep_wf (hwf : T.t.qp.WF) (s : Ipm K) : (tqpStep T s).qp.WF := by
  unfold tqpStep; dsimp only; split <;> exact hwf

theorem tqpStep_tree (ht : T.t.TreeOk) (s : Ipm K) : (tqpStep T s).TreeOk := by
  refine ⟨fun k j hk hj => ?_, fun k j j' hk => ?_, fun c h0 hc => ?_⟩ <;> rw [tqpStep_dim] at *
  · exact ht.kid k j hk hj
  · exact ht.inj k j j' hk
  · exact ht.all c h0 hc

theorem tqpStep_ok (s : Ipm K) (ws : ResWs K) (h : ws.Ok T.t.qp) : ws.Ok (tqpStep T s).qp := by
  unfold ResWs.Ok MaskOk at *
  rw [tqpStep_mask, tqpStep_dim]; exact h

theorem tqpStep_bd {s s' : Ipm K} (h : s'.res = s.res) : (tqpStep T s').qp.b = (tqpStep T s).qp.b ∧ (tqpStep T s').qp.d = (tqpStep T s).qp.d := by
  unfold tqpStep
  dsimp only
  split
  · exact ⟨rfl, rfl⟩
  · rw [h]; exact ⟨rfl, rfl⟩

/-- the primal part of the step of a state solves the linearised constraints of the step problem -/
def TDir (s : Ipm K) : Prop := TPrim T.t (tqpStep T s).qp.b (tqpStep T s).qp.d s.kkt.ux s.kkt.t

/-- states whose steps agree, up to the slack entries of masked constraints -/
structure TSame (s s' : Ipm K) : Prop where
  ux : ∀ k i, k ≤ T.t.qp.dim.N → i < nvt T.t.qp.dim k → s'.kkt.ux k i = s.kkt.ux k i
  t : ∀ k j, k ≤ T.t.qp.dim.N → j < nct T.t.qp.dim k → T.t.qp.d_mask k j * s'.kkt.t k j = T.t.qp.d_mask k j * s.kkt.t k j
  keep : Keep s s'

theorem TSame.trans {a b c : Ipm K} (h : TSame T a b) (h' : TSame T b c) : TSame T a c :=
  ⟨fun k i hk hi => (h'.ux k i hk hi).trans (h.ux k i hk hi), fun k i hk hi => (h'.t k i hk hi).trans (h.t k i hk hi), h.keep.trans h'.keep⟩

theorem SameLin.tree {s s' : Ipm K} (h : SameLin T.env s s') : TSame T s s' := ⟨h.ux, h.t, h.keep⟩

theorem TSame.ofEq {s s' : Ipm K} (e : s'.kkt = s.kkt) (hk : Keep s s') : TSame T s s' :=
  ⟨fun _ _ _ _ => by rw [e], fun _ _ _ _ => by rw [e], hk⟩

theorem TPrim.congr {t : TreeQp K} (ht : t.TreeOk) (hwf : t.qp.WF) {b d ux s ux' s' : ℕ → Vec K} (h : TPrim t b d ux s)
    (hu : ∀ k i, k ≤ t.qp.dim.N → i < nvt t.qp.dim k → ux' k i = ux k i)
    (hs : ∀ k j, k ≤ t.qp.dim.N → j < nct t.qp.dim k → t.qp.d_mask k j * s' k j = t.qp.d_mask k j * s k j) : TPrim t b d ux' s' := by
  refine ⟨fun k i hk hi => ?_, fun k j hk hj => ?_⟩
  · rw [tlinB_congr t ht ux' ux k i hk hi hu]; exact h.dyn k i hk hi
  · rw [linD_congr (N := t.qp.dim.N) ⟨hwf.1, hwf.2⟩ hk (fun i hi => hu k i hk hi) j hj]
    linear_combination h.con k j hk hj + hs k j hk hj

theorem TDir.same (ht : T.t.TreeOk) (hwf : T.t.qp.WF) {s s' : Ipm K} (h : TDir T s) (hs : TSame T s s') : TDir T s' := by
  obtain ⟨e1, e2⟩ := tqpStep_bd T hs.keep.res
  unfold TDir
  rw [e1, e2]
  exact TPrim.congr ht hwf h hs.ux hs.t

theorem TPrim.ofStep {s : Ipm K} {b d ux x : ℕ → Vec K} (h : TPrim (tqpStep T s) b d ux x) : TPrim T.t b d ux x := by
  have hd := tqpStep_dim T s
  refine ⟨fun k i hk hi => ?_, fun k j hk hj => ?_⟩
  · rw [← tqpStep_linB T s]; exact h.dyn k i (by rw [hd]; exact hk) (by rw [hd]; exact hi)
  · rw [← tqpStep_linD T s, ← tqpStep_mask T s]; exact h.con k j (by rw [hd]; exact hk) (by rw [hd]; exact hj)

/-- what the factorisation assumed for `lq_fact > 0` (not modelled) is taken to do: its forward sweep has the text of the
modelled one (x_tree_ocp_qp_kkt.c:789-845) -/
def TLqPrim : Prop := ∀ q c st, q.qp.dim = T.t.qp.dim → TPrim q q.qp.b q.qp.d (T.lq q c st).ux (T.lq q c st).t

/-- what the search direction computations need -/
structure TPre (s : Ipm K) : Prop where
  nc : s.core.nc = stOff (nct T.t.qp.dim) (T.t.qp.dim.N + 1)
  ws : s.rws.Ok T.t.qp

theorem TPre.keep {s s' : Ipm K} (h : TPre T s) (hk : Keep s s') : TPre T s' :=
  ⟨hk.core.nc.trans h.nc, by rw [hk.rws]; exact h.ws⟩

/-- what is known about a computed step -/
structure TIt (s : Ipm K) : Prop where
  pre : TPre T s
  sync : Sync T.env s
  dir : TDir T s

variable {T}
variable (ht : T.t.TreeOk) (hwf : T.t.qp.WF)
include ht hwf

theorem TIt.same {s s' : Ipm K} (h : TIt T s) (hs : TSame T s s') (hy : Sync T.env s') : TIt T s' :=
  ⟨h.pre.keep T hs.keep, hy, h.dir.same T ht hwf hs⟩

theorem tfactStep_it {s : Ipm K} (hp : TPre T s) : TIt T (tfactStep T s) := by
  refine ⟨hp.keep T (tfactStep_keep T s), sync_step T.env _, ?_⟩
  obtain ⟨e1, e2⟩ := tqpStep_bd T (tfactStep_keep T s).res
  unfold TDir
  rw [e1, e2]
  exact TPrim.ofStep T (tkkt_prim T.sq (tqpStep T s) (tqpStep_tree T ht s) (tqpStep_wf T hwf s) _ _ s.core
    (by rw [tqpStep_dim]; exact hp.nc) s.kkt)

theorem tsolStep_it {s : Ipm K} (hp : TPre T s) : TIt T (tsolStep T s) := by
  refine ⟨hp.keep T (tsolStep_keep T s), sync_step T.env _, ?_⟩
  obtain ⟨e1, e2⟩ := tqpStep_bd T (tsolStep_keep T s).res
  unfold TDir
  rw [e1, e2]
  exact TPrim.ofStep T (tsolve_prim (tqpStep T s) (tqpStep_tree T ht s) (tqpStep_wf T hwf s) _ _ s.core
    (by rw [tqpStep_dim]; exact hp.nc) s.kkt)

omit ht hwf in
theorem tlqStep_it (hlq : TLqPrim T) {s : Ipm K} (hp : TPre T s) : TIt T (tlqStep T s) := by
  refine ⟨hp.keep T (tlqStep_keep T s), sync_step T.env _, ?_⟩
  obtain ⟨e1, e2⟩ := tqpStep_bd T (tlqStep_keep T s).res
  unfold TDir
  rw [e1, e2]
  exact TPrim.ofStep T (hlq (tqpStep T s) _ s.kkt (tqpStep_dim T s))

omit ht hwf in
theorem seq_sync {s s' : Ipm K} (h : Sync T.env s) (e : SEq s s') : Sync T.env s' :=
  h.of_eq T.env (by rw [e.core]) (by rw [e.core]) (by rw [e.core]) (by rw [e.core]) (by rw [e.kkt]) (by rw [e.kkt]) (by rw [e.kkt]) (by rw [e.kkt])

theorem TIt.put {s : Ipm K} (kk col : ℕ) (hc : col < 20) (x : K) (h : TIt T s) : TIt T (tputG T kk col x s) :=
  have e := tputG_seq T kk col x s
  h.same ht hwf (TSame.ofEq T e.kkt (tputG_keep T kk col hc x s)) (seq_sync h.sync e)

theorem TIt.put4 {s : Ipm K} (kk col : ℕ) (hc : col + 3 < 20) (x : K × K × K × K) (h : TIt T s) : TIt T (tputG4 T kk col x s) :=
  have e := tputG4_seq T kk col x s
  h.same ht hwf (TSame.ofEq T e.kkt (tputG4_keep T kk col hc x s)) (seq_sync h.sync e)

omit ht hwf in
theorem talpha_core (kk col : ℕ) (s : Ipm K) : (talphaStep T kk col s).core = computeAlpha T.sq s.core ∧ (talphaStep T kk col s).kkt = s.kkt := by
  unfold talphaStep
  extract_lets s1
  have e : SEq s1 (tputG T kk (col + 1) s1.core.alpha_dual (tputG T kk col s1.core.alpha_prim s1)) :=
    (tputG_seq T _ _ _ _).trans (tputG_seq T _ _ _ _)
  exact ⟨e.core, e.kkt⟩

omit ht hwf in
theorem talpha_sync (kk col : ℕ) {s : Ipm K} (h : Sync T.env s) : Sync T.env (talphaStep T kk col s) := by
  obtain ⟨e1, e2⟩ := talpha_core (T := T) kk col s
  obtain ⟨-, h1, h2, h3, h4⟩ := computeAlpha_frame T.sq s.core
  refine h.of_eq T.env ?_ ?_ ?_ ?_ ?_ ?_ ?_ ?_ <;> first | rw [e1]; assumption | rw [e2]

theorem TIt.alpha {s : Ipm K} (kk col : ℕ) (hc : col + 1 < 20) (h : TIt T s) : TIt T (talphaStep T kk col s) :=
  h.same ht hwf (TSame.ofEq T (talpha_core kk col s).2 (talphaStep_keep T kk col hc s)) (talpha_sync kk col h.sync)

theorem TIt.mask (hm : Mask01 T.t.qp) {s : Ipm K} (h : TIt T s) : TIt T (maskStep T.env s) :=
  h.same ht hwf (SameLin.tree T (mask_same T.env hm h.sync h.pre.nc)) (sync_mask T.env h.sync)

omit ht hwf in
theorem talphaFor_step (kk col : ℕ) (s : Ipm K) : AlphaFor T.env (talphaStep T kk col s) := by
  obtain ⟨-, h1, h2, h3, h4⟩ := computeAlpha_frame T.sq s.core
  have hk := computeAlpha_keep T.sq s.core
  refine ⟨s.core, ?_, ?_, ?_, ?_, ?_, ?_, ?_, ?_, ?_⟩ <;> rw [(talpha_core kk col s).1]
  exacts [hk.nc.symm, hk.t.symm, hk.lam.symm, h4.symm, h3.symm, hk.m_zero.symm, hk.split_step.symm, rfl, rfl]

/-! ### iterative refinement -/

omit ht hwf in
/-- the Newton residual held for the refinement has no constraint part -/
def TItZero (T : TEnv K) (s : Ipm K) : Prop :=
  (∀ k i, k < T.t.qp.dim.N → i < T.t.qp.dim.nx (k + 1) → s.resIt.res_b k i = 0) ∧
  ∀ k j, k ≤ T.t.qp.dim.N → j < nct T.t.qp.dim k → s.resIt.res_d k j = 0

theorem tlinRes_zero {s : Ipm K} (hws : s.rws.Ok T.t.qp) (h : TDir T s) : TItZero T (tlinRes T s).1 := by
  have hd := tqpStep_dim T s
  have v := tresComputeLin_val (tqpStep T s) (tqpStep_tree T ht s) (tqpStep_wf T hwf s) (solOf T.t.qp.dim s.core) (stepOf s.kkt) s.resIt s.rws
    (tqpStep_ok T s _ hws)
  refine ⟨fun k i hk hi => ?_, fun k j hk hj => ?_⟩
  · have hdd := (ht.all (k + 1) (by omega) (by omega)).1
    have hdad : (tqpStep T s).dad = T.t.dad := rfl
    have e := v.b k (by rw [hd]; exact hk) (by rw [hd, hdad]; omega) i (by rw [hd]; exact hi)
    refine e.trans ?_
    rw [tB_lin, tqpStep_linB]
    exact h.dyn k i hk hi
  · have e := v.d k (by rw [hd]; omega) j (by rw [hd]; exact hj)
    refine e.trans ?_
    rw [vD_lin, tqpStep_linD, tqpStep_mask]
    exact h.con k j hk hj

theorem tsolItref_hom {s : Ipm K} (hnc : s.core.nc = stOff (nct T.t.qp.dim) (T.t.qp.dim.N + 1)) (hz : TItZero T s) :
    TPrim T.t (fun _ _ => 0) (fun _ _ => 0) (tsolItref T s).itr.ux (tsolItref T s).itr.t := by
  have h := tsolve_prim (tqpItref T s) ⟨ht.1, ht.2, ht.3⟩ hwf (dualF T.env) false s.core hnc
    { s.kkt with
      ux := s.itr.ux
      pi := s.itr.pi
      lam := s.itr.lam
      t := s.itr.t }
  refine ⟨fun k i hk hi => ?_, fun k j hk hj => ?_⟩
  · have e := h.dyn k i hk hi
    have e2 : (tqpItref T s).qp.b k i = 0 := hz.1 k i hk hi
    rw [e2] at e
    exact e
  · have e := h.con k j hk hj
    have e2 : (tqpItref T s).qp.d k j = 0 := hz.2 k j hk hj
    rw [e2] at e
    exact e

theorem taddItref_dir (a : K) {s : Ipm K} (h : TDir T s)
    (hh : TPrim T.t (fun _ _ => 0) (fun _ _ => 0) s.itr.ux s.itr.t) : TDir T (addItref T.env a s) := by
  obtain ⟨a1, -, -, a4⟩ := addItref_val T.env a s
  obtain ⟨e1, e2⟩ := tqpStep_bd T (addItref_keep T.env a s).res
  unfold TDir
  rw [e1, e2]
  refine TPrim.congr ht hwf (ux := fun k i => s.kkt.ux k i + a * s.itr.ux k i) (s := fun k i => s.kkt.t k i + a * s.itr.t k i) ?_ a1
    (fun k j hk hj => by rw [a4 k j hk hj])
  refine ⟨fun k i hk hi => ?_, fun k j hk hj => ?_⟩
  · rw [tlinB_add, tlinB_smul]
    linear_combination h.dyn k i hk hi + a * hh.dyn k i hk hi
  · rw [linD_add, linD_smul]
    linear_combination h.con k j hk hj + a * hh.con k j hk hj

omit ht hwf in
theorem tsolItref_same (s : Ipm K) : TSame T s (tsolItref T s) := ⟨fun _ _ _ _ => rfl, fun _ _ _ _ => rfl, tsolItref_keep T s⟩

omit ht hwf in
theorem tsolItref_sync {s : Ipm K} (h : Sync T.env s) : Sync T.env (tsolItref T s) := by
  have hg : ∃ g, (tsolItref T s).core = { s.core with gamma := g } := by
    unfold tsolItref tsolveStep
    dsimp only
    unfold computeGamma
    refine loop_inv (fun _ (c : Core K) => ∃ g, c = { s.core with gamma := g }) _ _ _ ⟨s.core.gamma, rfl⟩ ?_
    rintro i c - ⟨g, rfl⟩
    exact ⟨_, rfl⟩
  obtain ⟨g, hg⟩ := hg
  exact h.of_eq T.env (by rw [hg]) (by rw [hg]) (by rw [hg]) (by rw [hg]) rfl rfl rfl rfl

theorem titrefLoop_it (hm : Mask01 T.t.qp) (kk : ℕ) (sh : Bool) :
    ∀ (n cnt : ℕ) (did : Bool) (x : K × K × K × K) (mx : K) (s : Ipm K), TIt T s → TItZero T s →
      TIt T (titrefLoop T kk sh n cnt did x mx s).s ∧ ((titrefLoop T kk sh n cnt did x mx s).did = false →
        did = false ∧ (titrefLoop T kk sh n cnt did x mx s).s = s) := by
  intro n
  induction n with
  | zero => intro cnt did x mx s h _; exact ⟨h, fun h => ⟨h, rfl⟩⟩
  | succ n ih =>
    intro cnt did x mx s h hz
    unfold titrefLoop
    split
    · exact ⟨h, fun h => ⟨h, rfl⟩⟩
    · extract_lets s1 r s2 mx'
      have h1 : TIt T (maskStep T.env (tsolItref T s)) := (h.same ht hwf (tsolItref_same s) (tsolItref_sync h.sync)).mask ht hwf hm
      have hi : (maskStep T.env (tsolItref T s)).itr = (tsolItref T s).itr := maskStep_itr T.env _
      have hh : TPrim T.t (fun _ _ => 0) (fun _ _ => 0) (maskStep T.env (tsolItref T s)).itr.ux (maskStep T.env (tsolItref T s)).itr.t := by
        rw [hi]; exact tsolItref_hom ht hwf h.pre.nc hz
      have hs1 : TIt T s1 := ⟨h1.pre.keep T (addItref_keep T.env 1 _), addItref_sync T.env 1 _, taddItref_dir ht hwf 1 h1.dir hh⟩
      have hr : TIt T r.1 := hs1.same ht hwf (TSame.ofEq T rfl (tlinRes_keep T s1)) (hs1.sync.of_eq T.env rfl rfl rfl rfl rfl rfl rfl rfl)
      have hzr : TItZero T r.1 := tlinRes_zero ht hwf hs1.pre.ws hs1.dir
      have hs2 : TIt T s2 := hr.put4 ht hwf kk 16 (by omega) _
      have e2 : SEq r.1 s2 := tputG4_seq T kk 16 _ _
      have hz2 : TItZero T s2 := by unfold TItZero; rw [e2.resIt]; exact hzr
      split
      · refine ⟨TIt.put4 ht hwf kk 16 (by omega) _ ⟨hs2.pre.keep T (addItref_keep T.env (-1) _), addItref_sync T.env (-1) _,
          taddItref_dir ht hwf (-1) hs2.dir ?_⟩, fun h => by cases h⟩
        rw [e2.itr]
        exact hh
      · refine ⟨(ih _ _ _ _ _ hs2 hz2).1, fun h => absurd ((ih _ _ _ _ _ hs2 hz2).2 h).1 (by decide)⟩

theorem titref_it (hm : Mask01 T.t.qp) (kk : ℕ) (sh : Bool) (mx : ℤ) {s : Ipm K} (h : TIt T s) :
    TIt T (titref T kk sh mx s).s ∧ ((titref T kk sh mx s).did = false → (titref T kk sh mx s).s.core = s.core) := by
  unfold titref
  dsimp only
  have h1 : TIt T (tlinRes T s).1 := h.same ht hwf (TSame.ofEq T rfl (tlinRes_keep T s)) (h.sync.of_eq T.env rfl rfl rfl rfl rfl rfl rfl rfl)
  have h2 := h1.put4 ht hwf kk 16 (by omega) (tlinRes T s).2
  have e := tputG4_seq T kk 16 (tlinRes T s).2 (tlinRes T s).1
  have hz : TItZero T (tputG4 T kk 16 (tlinRes T s).2 (tlinRes T s).1) := by
    have := tlinRes_zero ht hwf h.pre.ws h.dir
    unfold TItZero
    rw [e.resIt]; exact this
  obtain ⟨l1, l2⟩ := titrefLoop_it ht hwf hm kk sh mx.toNat 0 false (tlinRes T s).2 (max4 (tlinRes T s).2) _ h2 hz
  refine ⟨l1, fun hd => ?_⟩
  rw [(l2 hd).2, e.core]; rfl

/-! ### the phases of an iteration -/

/-- what is known when the iterate is updated -/
structure TEnd (T : TEnv K) (s : Ipm K) : Prop where
  it : TIt T s
  al : AlphaFor T.env s

theorem tfactPhase_it (hm : Mask01 T.t.qp) (hlq : T.lqf = 0 ∨ TLqPrim T) (kk : ℕ) {s : Ipm K} (hp : TPre T s) : TIt T (tfactPhase T kk s) := by
  unfold tfactPhase
  split
  · exact ((tfactStep_it ht hwf hp).mask ht hwf hm).put ht hwf kk 13 (by omega) _
  · rename_i h0
    have hlq := hlq.resolve_left h0
    split
    · extract_lets r s1
      have h1 := (tfactStep_it ht hwf hp).mask ht hwf hm
      have hr : TIt T r.1 := h1.same ht hwf (TSame.ofEq T rfl (tlinResMask_keep T _)) (h1.sync.of_eq T.env rfl rfl rfl rfl rfl rfl rfl rfl)
      have hs1 : TIt T s1 := hr.put ht hwf kk 13 (by omega) _
      split
      · exact ((tlqStep_it hlq hs1.pre).mask ht hwf hm).put ht hwf kk 13 (by omega) _
      · exact hs1
    · exact ((tlqStep_it hlq hp).mask ht hwf hm).put ht hwf kk 13 (by omega) _

theorem tpredPhase_it (hm : Mask01 T.t.qp) (kk : ℕ) {s : Ipm K} (h : TIt T s) : TEnd T (tpredPhase T kk s) := by
  unfold tpredPhase
  extract_lets o
  refine ⟨(TIt.put ht hwf kk 14 (by omega) _ ?_).alpha ht hwf kk 0 (by omega), talphaFor_step _ _ _⟩
  show TIt T o.s
  by_cases h0 : T.arg.i .itref_pred_max = 0
  · simp only [o, if_pos h0]; exact h.put4 ht hwf kk 16 (by omega) _
  · simp only [o, if_neg h0]; exact (titref_it ht hwf hm kk true _ h).1

theorem tcorrPhase_it (hm : Mask01 T.t.qp) (kk : ℕ) {s : Ipm K} (h : TPre T s) : TEnd T (tcorrPhase T kk s) := by
  unfold tcorrPhase
  extract_lets s1 s2 s3 m0 s4 s5
  have p1 : TPre T s1 := h.keep T (tsigmaStep_keep T kk s)
  have p2 : TPre T s2 := p1.keep T ((Keep.ofCore (computeCenteringCorrection_keep s1.core)).trans (maskResM_keep T.env _))
  have d3 : TIt T s3 := ((tsolStep_it ht hwf p2).mask ht hwf hm).alpha ht hwf kk 4 (by omega)
  have a3 : AlphaFor T.env s3 := talphaFor_step kk 4 _
  split
  · have d4 : TIt T s4 := ⟨⟨d3.pre.nc, d3.pre.ws⟩, d3.sync.of_eq T.env rfl rfl rfl rfl rfl rfl rfl rfl, d3.dir⟩
    split
    · refine ⟨((tsolStep_it ht hwf ?_).mask ht hwf hm).alpha ht hwf kk 4 (by omega), talphaFor_step kk 4 _⟩
      exact d4.pre.keep T ((Keep.ofCore (computeCentering_keep s4.core)).trans (maskResM_keep T.env _))
    · exact ⟨d4, a3.muAff T.env⟩
  · exact ⟨d3, a3⟩

theorem tcorrItref_it (hm : Mask01 T.t.qp) (kk : ℕ) {s : Ipm K} (h : TEnd T s) : TEnd T (tcorrItref T kk s).s := by
  unfold tcorrItref
  split
  · extract_lets o
    obtain ⟨hd, hn⟩ := titref_it ht hwf hm kk false (T.arg.i .itref_corr_max) h.it
    split
    · exact ⟨hd.alpha ht hwf kk 4 (by omega), talphaFor_step kk 4 _⟩
    · rename_i hf
      exact ⟨hd, h.al.core T.env (hn (by simpa using hf))⟩
  · exact h

theorem tdeltaStep_end (hm : Mask01 T.t.qp) (hlq : T.lqf = 0 ∨ TLqPrim T) (kk : ℕ) {s : Ipm K} (hp : TPre T s) :
    ∃ s1, Keep s s1 ∧ tdeltaStep T kk s = updStep T.env s1 ∧ TEnd T s1 := by
  have k0 := (affineRhs_keep T.env s).trans (tfactPhase_keep T kk (affineRhs T.env s))
  have d0 : TIt T (tfactPhase T kk (affineRhs T.env s)) := tfactPhase_it ht hwf hm hlq kk (hp.keep T (affineRhs_keep T.env s))
  have e1 := tpredPhase_it ht hwf hm kk d0
  have k1 := k0.trans (tpredPhase_keep T kk _)
  unfold tdeltaStep
  extract_lets s1 o s2
  have ke : Keep s o.s ∧ TEnd T o.s := by
    simp only [o]
    split
    · exact ⟨(k1.trans (tcorrPhase_keep T kk _)).trans (tcorrItref_keep T kk _), tcorrItref_it ht hwf hm kk (tcorrPhase_it ht hwf hm kk e1.it.pre)⟩
    · exact ⟨k1, e1⟩
  obtain ⟨k2, e2⟩ := ke
  have ks : Keep s s2 ∧ TEnd T s2 := by
    simp only [s2]
    split
    · exact ⟨k2.trans (tputG4_keep T _ _ (by omega) _ _), e2.it.put4 ht hwf kk 16 (by omega) _, e2.al.core T.env (tputG4_seq T _ _ _ _).core⟩
    · exact ⟨k2, e2⟩
  exact ⟨_, ks.1.trans (tputG_keep T kk 15 (by omega) _ _), rfl, ks.2.it.put ht hwf kk 15 (by omega) _,
    ks.2.al.core T.env (tputG_seq T _ _ _ _).core⟩

end
end Hpipm
