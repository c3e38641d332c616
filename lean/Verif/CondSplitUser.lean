/-
Split condensing: COND_QP_COND_LHS once, then COND_QP_COND_RHS for a sequence of problems that share the matrices.
-/
import Verif.CondSplitCon
import Verif.CondFullUser

namespace Hpipm
open Finset
set_option linter.unusedSectionVars false

section
variable {K : Type*} [Field K] [LinearOrder K] [IsStrictOrderedRing K]
variable {sq : K → K} {P : OcpQp K} {dq D : DenseQp K} {arg : CondArg}

/-! ### a dense QP with the condensed data, whoever wrote it -/

theorem tgt_condensed (h : CondCall P dq arg) (hd : D.dim = dq.dim) (T : TgtOk P P.dim.N (denseTgt D)) :
    CondensedBy P (cview D (P.dim.nx 0)) (fun _ => P.dim.N + 1) := by
  obtain ⟨s1, s2, s3, s4, s5⟩ := cond_sizes h
  rw [← hd] at s1 s2 s3 s4 s5
  refine ⟨fun _ _ => by omega, ?_, ?_, fun ii hi => absurd hi (Nat.not_lt_zero _)⟩
  · show stOff (fun _ => P.dim.N + 1) (0 + 1) = _
    rw [stOff_succ]
    show 0 + (P.dim.N + 1) = _
    omega
  · intro ii hi
    have h0 : ii = 0 := Nat.le_zero.mp hi
    subst h0
    show BlockOf (cview D (P.dim.nx 0)) 0 (shiftQp P 0) (P.dim.N + 1 - 1)
    rw [shift_zero, Nat.add_sub_cancel]
    have enu : D.dim.nv - P.dim.nx 0 = nuAll P.dim P.dim.N := by rw [s1]; unfold nvCond; omega
    refine ⟨enu, rfl, s3, s4, s5, ?_, fun k j hk hj => ?_, T.rev, fun k i hk hi => ?_⟩
    · obtain ⟨c, hc⟩ := T.cost
      refine ⟨c, fun v => ?_⟩
      rw [hc v]
      congr 1
      have e : (cview D (P.dim.nx 0)).dim.nu 0 + (cview D (P.dim.nx 0)).dim.nx 0 = nvCond P P.dim.N := by
        show D.dim.nv - P.dim.nx 0 + P.dim.nx 0 = _
        rw [enu]; rfl
      unfold stageCost
      rw [e]
      rfl
    · obtain ⟨t0, f⟩ := T.con k j hk hj
      exact ⟨t0, ⟨f.lo, f.up, f.ml, f.mu, f.tl, f.tu, f.rev, f.ix⟩⟩
    · have f := T.slack k i hk hi
      exact ⟨f.1, f.2, f.3, f.4, f.5, f.6, f.7, f.8, f.9, f.10⟩

theorem expand_any (h : CondCall P dq arg) (ha : ExpandAll arg) (ws : CondWs K) (ds : DqSol K) (sol : Sol K) :
    SolExpands P (cview D (P.dim.nx 0)) (fun _ => P.dim.N + 1) (csol ds) (condQpExpand P arg ws ds sol).2 := by
  have V := expandSol_val P arg ws ⟨ds.v, ds.pi, ds.lam, ds.t⟩ sol _ (cond_top h) ha.prim ha.eq ha.ineq
  have V' : Expanded P P.dim.N arg.cond_last_stage ⟨ds.v, ds.pi, ds.lam, ds.t⟩ sol (condQpExpand P arg ws ds sol).2 := V
  rw [h.cls] at V'
  generalize (condQpExpand P arg ws ds sol).2 = s at V'
  have W := V'.self (by omega) (fun _ => rfl) (fun _ _ => rfl) (fun _ _ => rfl) (fun _ _ => rfl) (fun _ _ => rfl)
  have B : ∀ ii, ii ≤ (cview (D) (P.dim.nx 0)).dim.N →
      BlkExp (P) (csol ds) (fun _ => P.dim.N) (cview (D) (P.dim.nx 0)).dim.N s ii := by
    intro ii hi
    have h0 : ii = 0 := Nat.le_zero.mp hi
    subst h0
    have eb : blockQp (P) 0 P.dim.N = P := by
      exact block_zero P
    have esol : shiftSol s 0 = s := by unfold shiftSol; simp only [Nat.zero_add]
    show Expanded (blockQp (P) 0 P.dim.N) (blkLen (fun _ => P.dim.N) 0 0 - 1) true ⟨ds.v, ds.pi, ds.lam, ds.t⟩
      (shiftSol s 0) (shiftSol s 0)
    rw [eb, esol]
    have el : blkLen (fun _ => P.dim.N) 0 0 - 1 = P.dim.N := by unfold blkLen; rw [if_pos rfl]; exact Nat.add_sub_cancel _ _
    rw [el]
    exact W
  have S := solExpands_of_blocks (P := P) (P2 := cview (D) (P.dim.nx 0)) (bs := fun _ => P.dim.N)
    (sol2 := csol ds) (sol := s) (by
      show stOff (fun _ => P.dim.N) (0 + 1) = _
      rw [stOff_succ]
      show 0 + P.dim.N = _
      omega) (fun ii hi => absurd hi (Nat.not_lt_zero _)) B
  have el : ∀ ii, ii ≤ 0 → blkLen (fun _ => P.dim.N) 0 ii = P.dim.N + 1 := by
    intro ii hi
    have h0 : ii = 0 := Nat.le_zero.mp hi
    subst h0
    unfold blkLen
    rw [if_pos rfl]
  have S' : SolExpands (P) (cview (D) (P.dim.nx 0)) (blkLen (fun _ => P.dim.N) 0) (csol ds) s := S
  refine ⟨fun ii l j hi => ?_, fun ii l j hi => ?_, fun ii l j hi => ?_, fun ii l i hi => ?_, fun ii i hi => absurd hi (Nat.not_lt_zero _)⟩
  all_goals
    have h0 : ii = 0 := Nat.le_zero.mp hi
    subst h0
  · have := S'.ux 0 l j (le_refl _); rw [el 0 (le_refl _)] at this; exact this
  · have := S'.lam 0 l j (le_refl _); rw [el 0 (le_refl _)] at this; exact this
  · have := S'.t 0 l j (le_refl _); rw [el 0 (le_refl _)] at this; exact this
  · have := S'.inn 0 l i (le_refl _); rw [el 0 (le_refl _)] at this; exact this

theorem tgt_nx0 (h : CondCall P dq arg) (hd : D.dim = dq.dim) : P.dim.nx 0 ≤ D.dim.nv := by
  rw [hd, (cond_sizes h).1]
  unfold nvCond
  omega

theorem tgt_wf (h : CondCall P dq arg) (hd : D.dim = dq.dim) (T : TgtOk P P.dim.N (denseTgt D)) : D.WF := by
  have W := cb_wf (tgt_condensed h hd T) h.wf
  refine ⟨fun j hj => ?_, fun j hj => W.2 0 j (Nat.zero_le _) hj⟩
  have := W.1 0 j (Nat.zero_le _) hj
  rw [cview_nv _ _ (tgt_nx0 h hd)] at this
  exact this

theorem tgt_objective (h : CondCall P dq arg) (hd : D.dim = dq.dim) (T : TgtOk P P.dim.N (denseTgt D)) (ha : ExpandAll arg) :
    ∃ c : K, ∀ (ws : CondWs K) (ds : DqSol K) (sol : Sol K), (view P).objective (ptOf P.dim (condQpExpand P arg ws ds sol).2.ux)
      = (dview D).objective (dptOf D.dim ds.v) + c := by
  obtain ⟨c, hc⟩ := ex_objective (tgt_condensed h hd T)
  refine ⟨c, fun ws ds sol => ?_⟩
  rw [hc _ _ (expand_any (D := D) h ha ws ds sol).ux]
  congr 1
  exact cview_objective _ _ (tgt_nx0 h hd) ds.v

theorem tgt_feasible (h : CondCall P dq arg) (hd : D.dim = dq.dim) (T : TgtOk P P.dim.N (denseTgt D)) (ha : ExpandAll arg) (ws : CondWs K)
    (ds : DqSol K) (sol : Sol K) :
    (∀ k i, k < P.dim.N → i < P.dim.nx (k + 1) → (view P).dynDefect (ptOf P.dim (condQpExpand P arg ws ds sol).2.ux) k i = 0) ∧
    ((view P).Feasible (ptOf P.dim (condQpExpand P arg ws ds sol).2.ux) ↔ (dview D).Feasible (dptOf D.dim ds.v)) := by
  have C := tgt_condensed h hd T
  have E := (expand_any (D := D) h ha ws ds sol).ux
  refine ⟨fun k i hk hi => ?_, ?_⟩
  · rw [← dynRes_view P _ k i hi]
    have := ex_dyn_in C E (ii := 0) (l := k) (i := i) (Nat.zero_le _) (by omega) (by
      show i < P.dim.nx (0 + k + 1)
      rw [Nat.zero_add]; exact hi)
    have e : stOff (fun _ => P.dim.N + 1) 0 + k = k := by show 0 + k = k; omega
    rw [e] at this
    exact this
  · rw [ex_feasible C E h.wf]
    exact cview_feasible _ _ (tgt_nx0 h hd) (tgt_wf h hd T) (by rw [hd]; exact (cond_sizes h).2.1) ds.v

theorem tgt_optimal {q : DenseQp K} (h : CondCall P dq arg) (hd : q.dim = dq.dim) (T : TgtOk P P.dim.N (denseTgt q)) (ha : ExpandAll arg) (ws : CondWs K)
    (ds : DqSol K) (sol : Sol K) :
    (view P).IsOptimal (ptOf P.dim (condQpExpand P arg ws ds sol).2.ux) ↔ (dview q).IsOptimal (dptOf q.dim ds.v) := by
  have C := tgt_condensed h hd T
  have E := (expand_any (D := q) h ha ws ds sol).ux
  have hw := tgt_wf h hd T
  have hn := tgt_nx0 h hd
  have he : q.dim.ne = 0 := by rw [hd]; exact (cond_sizes h).2.1
  rw [ex_optimal C E h.wf]
  generalize P.dim.nx 0 = n at *
  have F := cview_feasible q n hn hw he
  have O := cview_objective q n hn
  constructor
  · rintro ⟨h1, h2⟩
    refine ⟨(F ds.v).mp h1, fun p' hp' => ?_⟩
    obtain ⟨f, o⟩ := dpack_feasible q hw p' hp'
    rw [← o, ← O, ← O]
    exact h2 _ ((F _).mpr f)
  · rintro ⟨h1, h2⟩
    refine ⟨(F ds.v).mpr h1, fun p' hp' => ?_⟩
    have hcw : (cview q n).WF := by
      refine ⟨fun k j hk hj => ?_, fun k j hk hj => hw.soft j hj⟩
      rw [cview_nv q n hn]
      exact hw.idxb j hj
    have hv := feasible_congr (cview q n) hcw _ _ (packPt_agree (cview q n) p') hp'
    have A : Agree (view (cview q n)) (ptOf (cview q n).dim (packPt (cview q n).dim p')) p' := packPt_agree (cview q n) p'
    have hv0 : (view (cview q n)).Feasible (ptOf (cview q n).dim (fun _ => packPt (cview q n).dim p' 0)) := by
      rw [feasible_iff] at hv ⊢
      refine ⟨fun k i hk => absurd hk (Nat.not_lt_zero _), fun k j hk hj hm => ?_⟩
      have h0 : k = 0 := Nat.le_zero.mp hk
      subst h0
      exact hv.2 0 j (Nat.zero_le _) hj hm
    have ho : (view (cview q n)).objective (ptOf (cview q n).dim (fun _ => packPt (cview q n).dim p' 0)) = (view (cview q n)).objective p' := by
      rw [← objective_congr _ _ _ A, obj_pair, obj_pair]
      unfold pairV
      show 1 / 2 * (∑ k ∈ range (0 + 1), _) + (∑ k ∈ range (0 + 1), _) = 1 / 2 * (∑ k ∈ range (0 + 1), _) + (∑ k ∈ range (0 + 1), _)
      simp only [Nat.zero_add, range_one, sum_singleton]
      rfl
    rw [← ho]
    have := h2 _ ((F _).mp hv0)
    rw [← O, ← O] at this
    exact this

/-! ### a sequence of calls -/

/-- two problems with the same matrices, sizes and index lists; all vectors (`b`, gradients, bounds, masks) may differ -/
structure LhsSame (q p : OcpQp K) : Prop where
  dim : p.dim = q.dim
  ba : ∀ k r i, r < q.dim.nu k + q.dim.nx k → p.BAbt k r i = q.BAbt k r i
  rs : ∀ k r c, r < q.dim.nu k + q.dim.nx k → c ≤ r → p.RSQrq k r c = q.RSQrq k r c
  dct : p.DCt = q.DCt
  idxb : p.idxb = q.idxb
  rev : p.idxs_rev = q.idxs_rev
  z : p.Z = q.Z

/-- COND_QP_COND_RHS for one problem after the other, on the same work space and dense QP -/
def condRhsRun (arg : CondArg) : List (OcpQp K) → CondWs K → DenseQp K → Option (CondWs K × DenseQp K)
  | [], ws, dq => some (ws, dq)
  | p :: ps, ws, dq => (condRhs p dq arg ws).bind fun r => condRhsRun arg ps r.1 r.2

/-- what a user of the split interface provides: a call sequence allowed by the interface (`CondCall`), at least one stage, no soft
constraints, the default algorithm; for the square-root variant the state cost is positive definite at the stages after the first -/
structure SplitOk (sq : K → K) (q : OcpQp K) (dq : DenseQp K) (arg : CondArg) : Prop where
  call : CondCall q dq arg
  pos : 0 < q.dim.N
  hard : HardOnly q
  alg : arg.cond_alg = 0
  sqr : CondSqOk sq arg
  pd : arg.square_root_alg ≠ 0 → StatePd q q.dim.N

theorem LhsSame.call {q p : OcpQp K} (s : LhsSame q p) (h : CondCall q dq arg) (ha : arg.cond_alg = 0) : CondCall p dq arg := by
  obtain ⟨s1, -, -, s4, s5, s6, s7⟩ := s
  obtain ⟨⟩ := p
  obtain ⟨⟩ := q
  dsimp only at s1 s4 s5 s6 s7
  subst s1 s4 s5 s6 s7
  exact ⟨⟨h.wf.1, h.wf.2⟩, h.dims, h.split, h.cls, Or.inl ha, h.fresh⟩

theorem LhsSame.hard {q p : OcpQp K} (s : LhsSame q p) (h : HardOnly q) : HardOnly p :=
  ⟨by rw [s.dim]; exact h.ns, by rw [s.dim, s.rev]; exact h.rev⟩

theorem LhsSame.dyn {q p : OcpQp K} (s : LhsSame q p) {n : ℕ} {G : ℕ → Mat K} (h : DynMat q n G) : DynMat p n G := by
  refine ⟨?_, ?_, ?_⟩ <;> rw [s.dim]
  · intro h0 r i hr hi; rw [s.ba _ _ _ hr]; exact h.z h0 r i hr hi
  · intro k r i hk hr hi; rw [s.ba _ _ _ (by omega)]; exact h.u k r i hk hr hi
  · intro k r i hk hr hi
    rw [h.x k r i hk hr hi]
    exact sum_congr rfl fun l hl => by rw [s.ba _ _ _ (by have := mem_range.mp hl; omega)]

theorem LhsSame.hes {q p : OcpQp K} (s : LhsSame q p) {N : ℕ} {G L : ℕ → Mat K} {H : Mat K} (h : HesOk q N G L H) : HesOk p N G L H := by
  refine ⟨?_, ?_, ?_, ?_⟩
  · intro r c hr hc; rw [s.dim] at hr; rw [s.rs _ _ _ hr hc]; exact h.fin r c hr hc
  · intro k hk r c hr hc
    rw [s.dim] at hr ⊢
    rw [s.rs _ _ _ hr hc, h.rc k hk r c hr hc]
    congr 1
    exact sum_congr rfl fun i _ => sum_congr rfl fun j _ => by rw [s.ba _ _ _ hr, s.ba _ _ _ (by omega)]
  · intro k hk
    have f := h.cols k hk
    refine ⟨?_, ?_⟩ <;> rw [s.dim]
    · exact f.D
    · exact f.M
  · have f := h.hend
    unfold HMat0 at f ⊢
    rw [s.dim]; exact f

/-- the matrices of the dense QP and the work space are those of `q` -/
structure LhsDone (q : OcpQp K) (dq0 : DenseQp K) (arg : CondArg) (ws : CondWs K) (dq : DenseQp K) : Prop where
  dim : dq.dim = dq0.dim
  dyn : DynMat q q.dim.N ws.Gamma
  hes : HesOk q q.dim.N ws.Gamma ws.L dq.Hv
  con : ∃ wsL tgL, wsL.Gamma = ws.Gamma ∧ dq.idxb = (condDct q arg wsL tgL).idxb2 ∧ dq.Ct = (condDct q arg wsL tgL).DCt2
  rev : dq.idxs_rev = dq0.idxs_rev
  m : dq.m = dq0.m

theorem LhsDone.same {q p : OcpQp K} {dq0 dq : DenseQp K} {ws : CondWs K} (s : LhsSame q p) (h : LhsDone q dq0 arg ws dq) :
    LhsDone p dq0 arg ws dq := by
  refine ⟨h.dim, by rw [s.dim]; exact s.dyn h.dyn, by rw [s.dim]; exact s.hes h.hes, ?_, h.rev, h.m⟩
  have e : ∀ (w : CondWs K) (t : CondTgt K), condDct p arg w t = condDct q arg w t := by
    obtain ⟨s1, -, -, s4, s5, s6, s7⟩ := s
    clear h
    obtain ⟨⟩ := p
    obtain ⟨⟩ := q
    dsimp only at s1 s4 s5 s6 s7
    subst s1 s4 s5 s6 s7
    intro w t
    rfl
  obtain ⟨w, t, h1, h2, h3⟩ := h.con
  exact ⟨w, t, h1, by rw [e]; exact h2, by rw [e]; exact h3⟩

theorem condBat_frame (q : OcpQp K) (arg : CondArg) (ws : CondWs K) (tg : CondTgt K) (hcls : arg.cond_last_stage = true) :
    (condBat q arg ws tg).2 = tg := by
  unfold condBat
  dsimp only
  split
  · rfl
  · rw [if_neg (by rw [hcls]; decide)]

theorem condB_frame (q : OcpQp K) (arg : CondArg) (ws : CondWs K) (tg : CondTgt K) (hcls : arg.cond_last_stage = true) :
    (condB q arg ws tg).2 = tg ∧ (condB q arg ws tg).1.Gamma = ws.Gamma ∧ (condB q arg ws tg).1.L = ws.L := by
  unfold condB
  dsimp only
  split
  · exact ⟨rfl, rfl, rfl⟩
  · rw [if_neg (by rw [hcls]; decide)]; exact ⟨rfl, rfl, rfl⟩

/-- after COND_QP_COND_LHS -/
theorem lhs_done {q : OcpQp K} {ws : CondWs K} (h : SplitOk sq q dq arg) :
    ∃ o, condLhs sq q dq arg ws = some o ∧ o.1 = q ∧ LhsDone q dq arg o.2.1 o.2.2 := by
  have htop : condTop q.dim.N arg = some q.dim.N := cond_top h.call
  have hd := condBat_dyn q arg ws (denseTgt dq) h.pos
  have hf := condBat_frame q arg ws (denseTgt dq) h.call.cls
  unfold condLhs
  rw [if_pos h.call.cls]
  refine ⟨_, rfl, ?_⟩
  dsimp only
  rw [hf]
  generalize (condBat q arg ws (denseTgt dq)).1 = w1 at hd
  obtain ⟨r1, r2, r3, r4⟩ := condRsq_hes sq q arg h.sqr w1 (denseTgt dq) q.dim.N htop h.pos h.alg h.pd
  generalize condRsq sq q arg w1 (denseTgt dq) = r at r1 r2 r3 r4
  obtain ⟨q', w2, t2⟩ := r
  dsimp only at r1 r2 r3 r4 ⊢
  subst r2
  obtain ⟨-, -, c3⟩ := condDct_eq q' arg w2 w2 t2 t2 h.call.cls h.hard rfl rfl rfl h.pos
  refine ⟨rfl, ⟨rfl, ?_, ?_, ?_, ?_, ?_⟩⟩
  · rw [r3]; exact hd
  · rw [r3]
    show HesOk q' q'.dim.N w1.Gamma w2.L (condDct q' arg w2 t2).RSQrq2
    rw [c3]; exact r1
  · exact ⟨w2, t2, rfl, rfl, rfl⟩
  · show (condDct q' arg w2 t2).idxs_rev2 = _
    rw [c3]
    show t2.idxs_rev2 = _
    rw [r4]; rfl
  · show (condDct q' arg w2 t2).m2 = _
    rw [c3]
    show t2.m2 = _
    rw [r4]; rfl

/-- after COND_QP_COND_RHS: the dense QP carries the data of the last problem (`m` is not written) -/
theorem rhs_done {q : OcpQp K} {dq0 : DenseQp K} {ws : CondWs K} (hc : CondCall q dq0 arg) (hN : 0 < q.dim.N) (hh : HardOnly q)
    (halg : arg.cond_alg = 0) (h : LhsDone q dq0 arg ws dq) :
    ∃ o, condRhs q dq arg ws = some o ∧ LhsDone q dq0 arg o.1 o.2 ∧
      ∃ M : Vec K, TgtOk q q.dim.N (denseTgt { o.2 with m := M }) := by
  have htop : condTop q.dim.N arg = some q.dim.N := cond_top hc
  have hb := condB_dyn q arg ws (denseTgt dq) hN
  obtain ⟨f1, f2, f3⟩ := condB_frame q arg ws (denseTgt dq) hc.cls
  unfold condRhs
  rw [if_pos hc.cls]
  refine ⟨_, rfl, ?_⟩
  dsimp only
  rw [f1]
  generalize (condB q arg ws (denseTgt dq)).1 = w1 at hb f2 f3
  have hdyn : DynRec q q.dim.N w1.Gamma w1.Gammab := dynRec_of (by rw [f2]; exact h.dyn) hb
  obtain ⟨⟨c, hcst⟩, r2, r3, r4, r5⟩ := condRq_cost q arg w1 (denseTgt dq) q.dim.N q.dim.N htop hN halg (le_refl _) (by omega) hdyn
    (by rw [f2, f3]; exact h.hes)
  generalize condRq q arg w1 (denseTgt dq) = r at hcst r2 r3 r4 r5
  obtain ⟨w2, t2⟩ := r
  dsimp only at hcst r2 r3 r4 r5 ⊢
  obtain ⟨wL, tL, c1, c2, c3⟩ := h.con
  -- the constraints as COND_DCTD would write them
  set t0 : CondTgt K := { t2 with idxb2 := tL.idxb2, DCt2 := tL.DCt2 } with ht0
  have hw : wL.Gamma = w2.Gamma := by rw [c1, r3, f2]
  obtain ⟨m1, m2, -⟩ := condDct_eq q arg w2 wL t0 tL hc.cls hh hw rfl rfl hN
  obtain ⟨d1, d2, d3⟩ := condD_eq q arg w2 t0 t2 hc.cls hh rfl rfl hN
  have hw2 : (condD q arg w2 t2).1.Gamma = w2.Gamma ∧ (condD q arg w2 t2).1.L = w2.L := by
    unfold condD
    rw [htop]
    dsimp only
    split <;> exact ⟨rfl, rfl⟩
  have eH : (condD q arg w2 t2).2.RSQrq2 = dq.Hv := by rw [d3, r5]; rfl
  have eg : (condD q arg w2 t2).2.rqz2 = t2.rqz2 := by rw [d3]
  have eI : (condD q arg w2 t2).2.idxb2 = dq.idxb := by rw [d3, r5]; rfl
  have eC : (condD q arg w2 t2).2.DCt2 = dq.Ct := by rw [d3, r5]; rfl
  have eR : (condD q arg w2 t2).2.idxs_rev2 = dq0.idxs_rev := by
    rw [d3, r5, ← h.rev]; rfl
  have eM : (condD q arg w2 t2).2.m2 = dq0.m := by
    rw [d3, r5, ← h.m]; rfl
  refine ⟨⟨h.dim, ?_, ?_, ?_, eR, eM⟩, (condDctd q arg w2 t0).2.m2, ?_⟩
  · rw [hw2.1, r3, f2]; exact h.dyn
  · rw [hw2.1, hw2.2, r3]
    show HesOk q q.dim.N w1.Gamma w2.L (condD q arg w2 t2).2.RSQrq2
    rw [eH]; exact r2
  · exact ⟨wL, tL, by rw [hw2.1]; exact hw, eI.trans c2, eC.trans c3⟩
  · have hC : Condensed q q.dim.N t0 (condDctd q arg w2 t0).2 := by
      refine condDctd_general q arg w2 t0 q.dim.N htop (by omega) (fun k j hk hj => hc.wf.1 k j hk hj) ?_
      intro v k i hkN hi
      rw [r3, r4]
      exact dyn_sem hdyn (show q.dim.N ≤ q.dim.N + 1 by omega) v k i (by omega) hi
    have hrv : ∀ k j, k ≤ q.dim.N → j < q.dim.nb k + q.dim.ng k → dq0.idxs_rev (conPos q q.dim.N k j) = -1 := fun k j hk hj =>
      hc.fresh k j hk hj (hh.rev k j hk hj)
    refine ⟨⟨c, fun v => ?_⟩, fun k j hk hj => ⟨t0, ?_⟩, fun k j hk hj => ?_, fun k i hk hi => ?_⟩
    · rw [hcst v]
      show _ = quadL (nvCond q q.dim.N) (condD q arg w2 t2).2.RSQrq2 0 v
        + (∑ c ∈ range (nvCond q q.dim.N), (condD q arg w2 t2).2.rqz2 c * v c) + c
      rw [eg, eH]
      have : t2.RSQrq2 = dq.Hv := by rw [r5]; rfl
      rw [this]; rfl
    · have f := hC.con k j hk hj
      have tv : ∀ v p, tval (denseTgt { putDense dq (condD q arg w2 t2).2 with m := (condDctd q arg w2 t0).2.m2 }) (nbCond q q.dim.N)
          (nvCond q q.dim.N) v p = tval (condDctd q arg w2 t0).2 (nbCond q q.dim.N) (nvCond q q.dim.N) v p := by
        intro v p
        have e1 : (condD q arg w2 t2).2.idxb2 = (condDctd q arg w2 t0).2.idxb2 := by rw [eI, c2, m1]
        have e2 : (condD q arg w2 t2).2.DCt2 = (condDctd q arg w2 t0).2.DCt2 := by rw [eC, c3, m2]
        unfold tval
        show (if p < nbCond q q.dim.N then v ((condD q arg w2 t2).2.idxb2 p) else
          ∑ i ∈ range (nvCond q q.dim.N), (condD q arg w2 t2).2.DCt2 i (p - nbCond q q.dim.N) * v i) = _
        rw [e1, e2]
      refine ⟨fun v => ?_, fun v => ?_, ?_, ?_, f.tl, f.tu, ?_, fun hp => ?_⟩
      · rw [tv]
        show (condD q arg w2 t2).2.d2 _ - _ = _
        rw [d1]; exact f.lo v
      · rw [tv]
        show (condD q arg w2 t2).2.d2 _ + _ = _
        rw [d1]; exact f.up v
      · show (condD q arg w2 t2).2.d_mask2 _ = _
        rw [d2]; exact f.ml
      · show (condD q arg w2 t2).2.d_mask2 _ = _
        rw [d2]; exact f.mu
      · show (condD q arg w2 t2).2.idxs_rev2 _ = _
        rw [hh.rev k j hk hj, if_neg (by decide), d3]
      · show (condD q arg w2 t2).2.idxb2 _ < _
        rw [eI, c2, m1]; exact f.ix hp
    · show (condD q arg w2 t2).2.idxs_rev2 _ = _
      rw [hh.rev k j hk hj, if_pos rfl, eR]
      exact hrv k j hk hj
    · rw [hh.ns k hk] at hi; omega

theorem rhs_run {q p : OcpQp K} {dq0 : DenseQp K} (hc : CondCall q dq0 arg) (hN : 0 < q.dim.N) (hh : HardOnly q) (halg : arg.cond_alg = 0)
    (ps : List (OcpQp K)) (hps : ∀ x ∈ ps, LhsSame q x) (hp : LhsSame q p) (ws : CondWs K) (dq : DenseQp K) (h : LhsDone q dq0 arg ws dq) :
    ∃ o, condRhsRun arg (ps ++ [p]) ws dq = some o ∧ (o.2.dim = dq0.dim ∧ o.2.m = dq0.m) ∧
      ∃ M : Vec K, TgtOk p p.dim.N (denseTgt { o.2 with m := M }) := by
  have step : ∀ x, LhsSame q x → ∀ ws dq, LhsDone q dq0 arg ws dq → ∃ o, condRhs x dq arg ws = some o ∧ LhsDone q dq0 arg o.1 o.2 ∧
      ∃ M : Vec K, TgtOk x x.dim.N (denseTgt { o.2 with m := M }) := by
    intro x hx ws dq h
    obtain ⟨o, a, b, c⟩ := rhs_done (hx.call hc halg) (by rw [hx.dim]; exact hN) (hx.hard hh) halg (h.same hx)
    refine ⟨o, a, b.same ⟨hx.dim.symm, ?_, ?_, hx.dct.symm, hx.idxb.symm, hx.rev.symm, hx.z.symm⟩, c⟩
    · rw [hx.dim]; exact fun k r i hr => (hx.ba k r i hr).symm
    · rw [hx.dim]; exact fun k r i hr hc => (hx.rs k r i hr hc).symm
  induction ps generalizing ws dq with
  | nil =>
    obtain ⟨o, a, b, c⟩ := step p hp ws dq h
    refine ⟨o, ?_, ⟨b.dim, b.m⟩, c⟩
    show ((condRhs p dq arg ws).bind fun r => some (r.1, r.2)) = _
    rw [a]; rfl
  | cons x xs ih =>
    obtain ⟨o, a, b, -⟩ := step x (hps x (by simp)) ws dq h
    obtain ⟨o', a', b', c'⟩ := ih (fun y hy => hps y (by simp [hy])) o.1 o.2 b
    refine ⟨o', ?_, b', c'⟩
    show ((condRhs x dq arg ws).bind fun r => condRhsRun arg (xs ++ [p]) r.1 r.2) = _
    rw [a]; exact a'

/-- condense the matrices of `q` once, then the vectors of each of `ps` -/
def splitRun (sq : K → K) (q : OcpQp K) (dq : DenseQp K) (arg : CondArg) (ws : CondWs K) (ps : List (OcpQp K)) : Option (CondWs K × DenseQp K) :=
  (condLhs sq q dq arg ws).bind fun r => condRhsRun arg ps r.2.1 r.2.2

/-- **Split condensing** (C93): after the matrices of `q` were condensed once and the vectors of any number of problems with the same
matrices were condensed one after the other, the dense QP is equivalent to the last of these problems: the expansion of a dense point
satisfies the dynamics of the last problem, is feasible exactly when the dense point is, and costs the same up to a constant. -/
theorem split_equivalent {q p : OcpQp K} {ws : CondWs K} (h : SplitOk sq q dq arg) (ha : ExpandAll arg) (ps : List (OcpQp K))
    (hps : ∀ x ∈ ps, LhsSame q x) (hp : LhsSame q p) :
    ∃ w' dq', splitRun sq q dq arg ws (ps ++ [p]) = some (w', dq') ∧ ∃ c : K, ∀ (w : CondWs K) (ds : DqSol K) (sol : Sol K),
      (view p).objective (ptOf p.dim (condQpExpand p arg w ds sol).2.ux) = (dview dq').objective (dptOf dq'.dim ds.v) + c ∧
      (∀ k i, k < p.dim.N → i < p.dim.nx (k + 1) → (view p).dynDefect (ptOf p.dim (condQpExpand p arg w ds sol).2.ux) k i = 0) ∧
      ((view p).Feasible (ptOf p.dim (condQpExpand p arg w ds sol).2.ux) ↔ (dview dq').Feasible (dptOf dq'.dim ds.v)) := by
  obtain ⟨o, a, -, b⟩ := lhs_done (ws := ws) h
  obtain ⟨⟨w', dq'⟩, a', ⟨hd, -⟩, M, T⟩ := rhs_run h.call h.pos h.hard h.alg ps hps hp o.2.1 o.2.2 b
  have hc := hp.call h.call h.alg
  obtain ⟨c, hobj⟩ := tgt_objective (D := { dq' with m := M }) hc hd T ha
  refine ⟨w', dq', ?_, c, fun w ds sol => ⟨hobj w ds sol, tgt_feasible (D := { dq' with m := M }) hc hd T ha w ds sol⟩⟩
  unfold splitRun
  rw [a]; exact a'

/-- **Split condensing, optimality** (C93): a dense point is a solution of the dense QP exactly when its expansion is a solution of the
last problem. -/
theorem split_optimal {q p : OcpQp K} {ws : CondWs K} (h : SplitOk sq q dq arg) (ha : ExpandAll arg) (ps : List (OcpQp K))
    (hps : ∀ x ∈ ps, LhsSame q x) (hp : LhsSame q p) (w' : CondWs K) (dq' : DenseQp K)
    (hrun : splitRun sq q dq arg ws (ps ++ [p]) = some (w', dq')) (w : CondWs K) (ds : DqSol K) (sol : Sol K) :
    (view p).IsOptimal (ptOf p.dim (condQpExpand p arg w ds sol).2.ux) ↔ (dview dq').IsOptimal (dptOf dq'.dim ds.v) := by
  obtain ⟨o, a, -, b⟩ := lhs_done (ws := ws) h
  obtain ⟨⟨w2, dq2⟩, a', ⟨hd, -⟩, M, T⟩ := rhs_run h.call h.pos h.hard h.alg ps hps hp o.2.1 o.2.2 b
  have e : splitRun sq q dq arg ws (ps ++ [p]) = some (w2, dq2) := by
    unfold splitRun
    rw [a]; exact a'
  rw [hrun, Option.some.injEq, Prod.mk.injEq] at e
  obtain ⟨-, rfl⟩ := e
  exact tgt_optimal (q := { dq' with m := M }) (hp.call h.call h.alg) hd T ha w ds sol

/-- the split functions never write the right-hand side `m` of the complementarity conditions of the dense QP ("TODO cond m"): it keeps the
value it had before (C93, disagreement with COND_QP_COND) -/
theorem split_keeps_m {q p : OcpQp K} {ws : CondWs K} (h : SplitOk sq q dq arg) (ps : List (OcpQp K))
    (hps : ∀ x ∈ ps, LhsSame q x) (hp : LhsSame q p) (w' : CondWs K) (dq' : DenseQp K)
    (hrun : splitRun sq q dq arg ws (ps ++ [p]) = some (w', dq')) : dq'.m = dq.m ∧ dq'.dim = dq.dim := by
  obtain ⟨o, a, -, b⟩ := lhs_done (ws := ws) h
  obtain ⟨⟨w2, dq2⟩, a', ⟨hd, hm⟩, -⟩ := rhs_run h.call h.pos h.hard h.alg ps hps hp o.2.1 o.2.2 b
  have e : splitRun sq q dq arg ws (ps ++ [p]) = some (w2, dq2) := by
    unfold splitRun
    rw [a]; exact a'
  rw [hrun, Option.some.injEq, Prod.mk.injEq] at e
  obtain ⟨-, rfl⟩ := e
  exact ⟨hm, hd⟩

end
end Hpipm
