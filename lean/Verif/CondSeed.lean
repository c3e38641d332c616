/-
C107: condensing of seeds, COND_QP_COND_SEED, cond/x_cond.c:491-519.
-/
import Verif.CondSplitUser
import Verif.CondSplitEx

namespace Hpipm
open Finset
set_option linter.unusedSectionVars false

section
variable {K : Type*} [Field K] [LinearOrder K] [IsStrictOrderedRing K]

/-- the aliased problem of COND_QP_COND_SEED, x_cond.c:494-509: the seeds in place of `b`, `rqz` and `d` -/
def condSeedQp (P : OcpQp K) (sb sg sd : ℕ → Vec K) : OcpQp K := { P with b := sb, rqz := sg, d := sd }

/-- COND_QP_COND_SEED, x_cond.c:491-519; `g0`, `d0` are the old contents of the dense seeds, returned are the work space and the new contents.
Simplifications: COND_B gets `seed_b` as target, which it only writes if the last stage is not condensed (then the function is not modelled, as for
`condRhs`); COND_D gets no target for the mask and skips all writes to it, here they go to a copy (`dq`) that is dropped; no other array of `dq` is
read or written. -/
def condSeed (P : OcpQp K) (sb sg sd : ℕ → Vec K) (g0 d0 : Vec K) (dq : DenseQp K) (arg : CondArg) (ws : CondWs K) : Option (CondWs K × Vec K × Vec K) :=
  if arg.cond_last_stage = true then
    let T := condSeedQp P sb sg sd
    let a := condB T arg ws (denseTgt { dq with gz := g0, d := d0 })
    let r := condRq T arg a.1 a.2
    let o := condD T arg r.1 r.2
    some (o.1, o.2.rqz2, o.2.d2)
  else none

variable {sq : K → K} {dq : DenseQp K} {arg : CondArg}

/-- COND_QP_COND_RHS only writes gradient, bounds and mask -/
theorem rhs_frame {q : OcpQp K} {dq0 : DenseQp K} {ws : CondWs K} (hc : CondCall q dq0 arg) (hN : 0 < q.dim.N) (hh : HardOnly q)
    (halg : arg.cond_alg = 0) (h : LhsDone q dq0 arg ws dq) (o : CondWs K × DenseQp K) (ho : condRhs q dq arg ws = some o) :
    o.2 = { dq with gz := o.2.gz, d := o.2.d, d_mask := o.2.d_mask } := by
  have htop : condTop q.dim.N arg = some q.dim.N := cond_top hc
  have hb := condB_dyn q arg ws (denseTgt dq) hN
  obtain ⟨f1, f2, f3⟩ := condB_frame q arg ws (denseTgt dq) hc.cls
  unfold condRhs at ho
  rw [if_pos hc.cls] at ho
  dsimp only at ho
  rw [f1] at ho
  generalize (condB q arg ws (denseTgt dq)).1 = w1 at hb f2 f3 ho
  have hdyn : DynRec q q.dim.N w1.Gamma w1.Gammab := dynRec_of (by rw [f2]; exact h.dyn) hb
  obtain ⟨-, -, -, -, r5⟩ := condRq_cost q arg w1 (denseTgt dq) q.dim.N q.dim.N htop hN halg (le_refl _) (by omega) hdyn
    (by rw [f2, f3]; exact h.hes)
  generalize condRq q arg w1 (denseTgt dq) = r at r5 ho
  obtain ⟨w2, t2⟩ := r
  dsimp only at r5 ho
  obtain ⟨-, -, d3⟩ := condD_eq q arg w2 t2 t2 hc.cls hh rfl rfl hN
  have := Option.some.inj ho
  subst this
  dsimp only
  generalize (condD q arg w2 t2).2 = u at d3
  rw [d3, r5]
  rfl

/-- after the run of `splitRun`: the matrices are those of the first problem -/
theorem split_done {q p : OcpQp K} {ws : CondWs K} (h : SplitOk sq q dq arg) (ps : List (OcpQp K)) (hps : ∀ x ∈ ps, LhsSame q x) (hp : LhsSame q p) :
    ∃ o, splitRun sq q dq arg ws (ps ++ [p]) = some o ∧ LhsDone q dq arg o.1 o.2 ∧ ∃ M : Vec K, TgtOk p p.dim.N (denseTgt { o.2 with m := M }) := by
  obtain ⟨o, a, -, b⟩ := lhs_done (ws := ws) h
  have step : ∀ x, LhsSame q x → ∀ ws dq1, LhsDone q dq arg ws dq1 → ∃ o, condRhs x dq1 arg ws = some o ∧ LhsDone q dq arg o.1 o.2 ∧
      ∃ M : Vec K, TgtOk x x.dim.N (denseTgt { o.2 with m := M }) := by
    intro x hx ws dq1 h1
    obtain ⟨o, a, b, c⟩ := rhs_done (hx.call h.call h.alg) (by rw [hx.dim]; exact h.pos) (hx.hard h.hard) h.alg (h1.same hx)
    refine ⟨o, a, b.same ⟨hx.dim.symm, ?_, ?_, hx.dct.symm, hx.idxb.symm, hx.rev.symm, hx.z.symm⟩, c⟩
    · rw [hx.dim]; exact fun k r i hr => (hx.ba k r i hr).symm
    · rw [hx.dim]; exact fun k r i hr hc => (hx.rs k r i hr hc).symm
  unfold splitRun
  rw [a]
  show ∃ o', condRhsRun arg (ps ++ [p]) o.2.1 o.2.2 = some o' ∧ _
  generalize o.2.1 = w1 at b
  generalize o.2.2 = d1 at b
  induction ps generalizing w1 d1 with
  | nil =>
    obtain ⟨o, a, b, c⟩ := step p hp w1 d1 b
    refine ⟨o, ?_, b, c⟩
    show ((condRhs p d1 arg w1).bind fun r => some (r.1, r.2)) = _
    rw [a]; rfl
  | cons x xs ih =>
    obtain ⟨o, a, b, -⟩ := step x (hps x (by simp)) w1 d1 b
    obtain ⟨o', a', b', c'⟩ := ih (fun y hy => hps y (by simp [hy])) o.1 o.2 b
    refine ⟨o', ?_, b', c'⟩
    show ((condRhs x d1 arg w1).bind fun r => condRhsRun arg (xs ++ [p]) r.1 r.2) = _
    rw [a]; exact a'

theorem seed_tgt {q p : OcpQp K} {ws : CondWs K} (h : SplitOk sq q dq arg) (ps : List (OcpQp K)) (hps : ∀ x ∈ ps, LhsSame q x) (hp : LhsSame q p)
    (w' : CondWs K) (dq' : DenseQp K) (hrun : splitRun sq q dq arg ws (ps ++ [p]) = some (w', dq')) (sb sg sd : ℕ → Vec K) (g0 d0 : Vec K) :
    CondCall (condSeedQp p sb sg sd) dq arg ∧ dq'.dim = dq.dim ∧ ∃ w2 g d, condSeed p sb sg sd g0 d0 dq' arg w' = some (w2, g, d) ∧
      ∃ M : Vec K, TgtOk (condSeedQp p sb sg sd) p.dim.N (denseTgt { dq' with gz := g, d := d, m := M }) := by
  obtain ⟨o, e, L, M1, T1⟩ := split_done (ws := ws) h ps hps hp
  rw [hrun] at e
  have := Option.some.inj e
  subst this
  dsimp only at L T1
  have hs : LhsSame q (condSeedQp p sb sg sd) := ⟨hp.dim, hp.ba, hp.rs, hp.dct, hp.idxb, hp.rev, hp.z⟩
  have hc := hs.call h.call h.alg
  have hN : 0 < (condSeedQp p sb sg sd).dim.N := by rw [hs.dim]; exact h.pos
  have L1 := L.same hs
  have L2 : LhsDone (condSeedQp p sb sg sd) dq arg w' { dq' with gz := g0, d := d0 } := ⟨L1.dim, L1.dyn, L1.hes, L1.con, L1.rev, L1.m⟩
  obtain ⟨o, e2, -, M2, T2⟩ := rhs_done hc hN (hs.hard h.hard) h.alg L2
  have F := rhs_frame hc hN (hs.hard h.hard) h.alg L2 o e2
  have hw : condSeed p sb sg sd g0 d0 dq' arg w' = some (o.1, o.2.gz, o.2.d) := by
    unfold condRhs at e2
    unfold condSeed
    rw [if_pos hc.cls] at e2 ⊢
    have := Option.some.inj e2
    subst this
    rfl
  refine ⟨hc, L.dim, o.1, o.2.gz, o.2.d, hw, M2, ?_⟩
  have T2' : TgtOk (condSeedQp p sb sg sd) p.dim.N (denseTgt { o.2 with m := M2 }) := T2
  rw [F] at T2'
  generalize o.2 = u at T2'
  refine ⟨T2'.cost, fun k j hk hj => ?_, T2'.rev, fun k i hk hi => ?_⟩
  · obtain ⟨t0, f⟩ := T2'.con k j hk hj
    obtain ⟨t1, f1⟩ := T1.con k j hk hj
    exact ⟨t0, f.lo, f.up, f1.ml, f1.mu, f.tl, f.tu, f.rev, f.ix⟩
  · have : (condSeedQp p sb sg sd).dim.ns k = 0 := (hs.hard h.hard).ns k hk
    omega

/-- C107: after matrices and vectors have been condensed, the condensed seeds are the vectors of the condensed problem of the seeds: the dense QP with the
condensed seeds in place of gradient and bounds is equivalent to the OCP QP with the seeds in place of `b`, gradient and bounds (objective up to a
constant, feasibility, optimality of every dense point and its expansion), whatever the dense seeds contained before -/
theorem condSeed_equivalent {q p : OcpQp K} {ws : CondWs K} (h : SplitOk sq q dq arg) (ha : ExpandAll arg) (ps : List (OcpQp K))
    (hps : ∀ x ∈ ps, LhsSame q x) (hp : LhsSame q p)
    (w' : CondWs K) (dq' : DenseQp K) (hrun : splitRun sq q dq arg ws (ps ++ [p]) = some (w', dq')) (sb sg sd : ℕ → Vec K) (g0 d0 : Vec K) :
    ∃ w2 g d, condSeed p sb sg sd g0 d0 dq' arg w' = some (w2, g, d) ∧ ∃ c : K, ∀ (w : CondWs K) (ds : DqSol K) (sol : Sol K),
      let P : OcpQp K := { p with b := sb, rqz := sg, d := sd }
      let D : DenseQp K := { dq' with gz := g, d := d }
      let x := ptOf P.dim (condQpExpand P arg w ds sol).2.ux
      (view P).objective x = (dview D).objective (dptOf D.dim ds.v) + c ∧
      (∀ k i, k < P.dim.N → i < P.dim.nx (k + 1) → (view P).dynDefect x k i = 0) ∧
      ((view P).Feasible x ↔ (dview D).Feasible (dptOf D.dim ds.v)) ∧
      ((view P).IsOptimal x ↔ (dview D).IsOptimal (dptOf D.dim ds.v)) := by
  obtain ⟨hc, hd, w2, g, d, e, M, T⟩ := seed_tgt h ps hps hp w' dq' hrun sb sg sd g0 d0
  obtain ⟨c, hobj⟩ := tgt_objective (D := { dq' with gz := g, d := d, m := M }) hc hd T ha
  refine ⟨w2, g, d, e, c, fun w ds sol => ?_⟩
  obtain ⟨f1, f2⟩ := tgt_feasible (D := { dq' with gz := g, d := d, m := M }) hc hd T ha w ds sol
  exact ⟨hobj w ds sol, f1, f2, tgt_optimal (q := { dq' with gz := g, d := d, m := M }) hc hd T ha w ds sol⟩

end

/-- the hypotheses of `condSeed_equivalent` are met: two problems of `CondSplitEx` -/
example (sq : ℚ → ℚ) (w' : CondWs ℚ) (dq' : DenseQp ℚ) (hrun : splitRun sq exCfQp exCfDq exCfArg exCfWs ([] ++ [exCsQp 2]) = some (w', dq'))
    (sb sg sd : ℕ → Vec ℚ) : ∃ w2 g d, condSeed (exCsQp 2) sb sg sd (fun _ => 9) (fun _ => 9) dq' exCfArg w' = some (w2, g, d) := by
  obtain ⟨w2, g, d, e, -⟩ := condSeed_equivalent (exCs_ok sq) exCf_all [] (fun x hx => absurd hx (by simp)) (exCs_same 2) w' dq' hrun sb sg sd (fun _ => 9)
    (fun _ => 9)
  exact ⟨w2, g, d, e⟩

/-- seeds 1, 10, 100: the condensed gradient seed is `seed_g_u + seed_g_x + seed_b`, the bound of the final state is shifted by `seed_b` -/
example : ((splitRun id exCfQp exCfDq exCfArg exCfWs [exCsQp 2]).bind fun r =>
    (condSeed (exCsQp 2) (fun _ _ => 1) (fun _ _ => 10) (fun _ _ => 100) (fun _ => 9) (fun _ => 9) r.2 exCfArg r.1).map fun s =>
      (s.2.1 0, s.2.1 1, s.2.2 0, s.2.2 1, s.2.2 2, s.2.2 3)) = some (21, 10, 100, 99, 100, 101) := by decide +kernel

end Hpipm
