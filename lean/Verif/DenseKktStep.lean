/-
The step routines of the dense KKT solver as a whole (intermediate results): one pass, the regularisation
loop, the stored factorisation and the re-solve.
-/
import Verif.DenseKktFac
import Verif.KktSolve

namespace Hpipm
open Finset
set_option linter.unusedSectionVars false

section
variable {K : Type*} [Field K] [LinearOrder K] [IsStrictOrderedRing K]

/-- what regularisation leaves in the stationarity condition, per method: with the null space method `preg`
times the projection of the step on the null space of the equality constraints; with scaling `preg` times the
diagonal of the condensed Hessian times the step; with the Schur complement method `reg_prim` times the step;
without equality constraints `preg` times the step -/
def dErrG (sq : K → K) (qp : DenseQp K) (arg : DArg K) (preg : K) (Q : Mat K) (G v : Vec K) (i : ℕ) : K :=
  if qp.dim.ne > 0 then
    if arg.alg = 0 then preg * nullProj qp Q v i
    else if arg.scale then sclErr sq preg (dM qp arg.reg_prim G 0 i i) (v i)
    else arg.reg_prim * v i
  else if arg.scale then sclErr sq preg (dM qp arg.reg_prim G 0 i i) (v i)
  else preg * v i

/-- what regularisation leaves in the equality constraints -/
def dErrB (sq : K → K) (qp : DenseQp K) (arg : DArg K) (dreg : K) (AL : Mat K) (pi : Vec K) (i : ℕ) : K :=
  if arg.alg = 0 then 0
  else if arg.scale then sclErr sq dreg (∑ l ∈ range qp.dim.nv, AL i l * AL i l) (pi i)
  else dreg * pi i

/-- a factorisation of the KKT matrix with barrier weights `G` is stored in the workspace -/
def DFac (sq : K → K) (qp : DenseQp K) (arg : DArg K) (preg dreg : K) (G : Vec K) (st : DKkt K) : Prop :=
  (∀ i, i < 2 * qp.dim.ns → st.Zs i = kZs (ov qp) arg.reg_prim (fun _ => G) 0 i) ∧
  if qp.dim.ne > 0 then
    if arg.alg = 0 then NullFac qp arg.reg_prim preg G st
    else if arg.scale then SchurSFac sq qp arg.reg_prim preg dreg G st
    else SchurFac qp arg.reg_prim dreg G st
  else if arg.scale then ScaleFac sq qp arg.reg_prim preg G st
  else Fac qp.dim.nv st.Lv (dM qp arg.reg_prim G preg)

/-- the null space method is run on independent equality constraints, with a correct LQ factorisation -/
def DLqHyp (lq : ℕ → ℕ → Mat K → Mat K × Mat K) (qp : DenseQp K) (alg : ℕ) : Prop := 0 < qp.dim.ne → alg = 0 →
  qp.dim.ne ≤ qp.dim.nv ∧ FullRank qp.dim.ne qp.dim.nv qp.A ∧
  LqOk qp.dim.ne qp.dim.nv qp.A (lq qp.dim.ne qp.dim.nv qp.A).1 (lq qp.dim.ne qp.dim.nv qp.A).2

/-- a cached LQ factorisation belongs to the equality constraints -/
def DCache (qp : DenseQp K) (alg : ℕ) (st : DKkt K) : Prop := 0 < qp.dim.ne → alg = 0 → LqCache qp st

/-- the stored factors of two states agree -/
structure DSame (s s' : DKkt K) : Prop where
  Lv : s'.Lv = s.Lv
  Le : s'.Le = s.Le
  AL : s'.AL = s.AL
  A_LQ : s'.A_LQ = s.A_LQ
  A_Q : s'.A_Q = s.A_Q
  Zt : s'.Zt = s.Zt
  ZtH : s'.ZtH = s.ZtH
  ZtHZ : s'.ZtHZ = s.ZtHZ
  sv : s'.sv = s.sv
  se : s'.se = s.se
  Zs : s'.Zs = s.Zs
  use : s'.use_A_fact = s.use_A_fact

theorem DSame.trans {a b c : DKkt K} (h : DSame a b) (h' : DSame b c) : DSame a c :=
  ⟨h'.1.trans h.1, h'.2.trans h.2, h'.3.trans h.3, h'.4.trans h.4, h'.5.trans h.5, h'.6.trans h.6, h'.7.trans h.7,
    h'.8.trans h.8, h'.9.trans h.9, h'.10.trans h.10, h'.11.trans h.11, h'.12.trans h.12⟩

theorem DFac.same {sq : K → K} {qp : DenseQp K} {arg : DArg K} {preg dreg : K} {G : Vec K} {st st' : DKkt K}
    (h : DFac sq qp arg preg dreg G st) (e : DSame st st') : DFac sq qp arg preg dreg G st' := by
  unfold DFac at h ⊢
  refine ⟨by rw [e.Zs]; exact h.1, ?_⟩
  have h := h.2
  split_ifs at h ⊢
  · exact ⟨by rw [e.A_LQ, e.A_Q]; exact h.lq, by rw [e.Zt, e.A_Q]; exact h.Zt, by rw [e.Lv]; exact h.H,
      by rw [e.ZtH, e.A_Q]; exact h.ZtH, by rw [e.ZtHZ, e.A_Q]; exact h.W⟩
  · exact ⟨⟨h.H.nonneg, by rw [e.sv]; exact h.H.sv, by rw [e.Lv, e.sv]; exact h.H.H⟩, by rw [e.Lv, e.AL, e.sv]; exact h.AL,
      by rw [e.se, e.AL]; exact h.se, by rw [e.Le, e.se, e.AL]; exact h.E⟩
  · exact ⟨by rw [e.Lv]; exact h.H, by rw [e.Lv, e.AL]; exact h.AL, by rw [e.Le, e.AL]; exact h.E⟩
  · exact ⟨h.nonneg, by rw [e.sv]; exact h.sv, by rw [e.Lv, e.sv]; exact h.H⟩
  · rw [e.Lv]; exact h

theorem DCache.same {qp : DenseQp K} {alg : ℕ} {st st' : DKkt K} (h : DCache qp alg st) (e : DSame st st') :
    DCache qp alg st' := by
  intro h0 h1 hu
  have := h h0 h1 (by rw [← e.use]; exact hu)
  rw [e.A_LQ, e.A_Q, e.Zt]
  exact this

theorem dNullSolve_same (qp : DenseQp K) (st : DKkt K) : DSame st (dNullSolve qp st) :=
  ⟨rfl, rfl, rfl, rfl, rfl, rfl, rfl, rfl, rfl, rfl, rfl, rfl⟩
theorem dSchurSSolve_same (qp : DenseQp K) (st : DKkt K) : DSame st (dSchurSSolve qp st) :=
  ⟨rfl, rfl, rfl, rfl, rfl, rfl, rfl, rfl, rfl, rfl, rfl, rfl⟩
theorem dSchurSolve_same (qp : DenseQp K) (st : DKkt K) : DSame st (dSchurSolve qp st) :=
  ⟨rfl, rfl, rfl, rfl, rfl, rfl, rfl, rfl, rfl, rfl, rfl, rfl⟩
theorem dFreeSSolve_same (qp : DenseQp K) (st : DKkt K) : DSame st (dFreeSSolve qp st) :=
  ⟨rfl, rfl, rfl, rfl, rfl, rfl, rfl, rfl, rfl, rfl, rfl, rfl⟩

theorem dkktTail_same (qp : DenseQp K) (c : Core K) (st : DKkt K) : DSame st (dkktTail qp c st) := by
  unfold dkktTail
  dsimp only
  by_cases h : qp.dim.nb + qp.dim.ng + qp.dim.ns > 0
  all_goals first | rw [if_pos h] | rw [if_neg h]
  all_goals exact ⟨rfl, rfl, rfl, rfl, rfl, rfl, rfl, rfl, rfl, rfl, rfl, rfl⟩

theorem dkktTail_pi (qp : DenseQp K) (c : Core K) (st : DKkt K) : (dkktTail qp c st).pi = st.pi := by
  unfold dkktTail
  dsimp only
  by_cases h : qp.dim.nb + qp.dim.ng + qp.dim.ns > 0
  all_goals first | rw [if_pos h] | rw [if_neg h]

variable (sq : K → K) (lq : ℕ → ℕ → Mat K → Mat K × Mat K) (qp : DenseQp K) (arg : DArg K)

/-- one pass through the main loop -/
theorem dPass_ok (hsq : ∀ x, 0 < x → sq x * sq x = x) (hwf : qp.WF) (hlq : DLqHyp lq qp arg.alg) (preg dreg : K)
    (G g : Vec K) (st : DKkt K) (hc : DCache qp arg.alg st) :
    let s := dPass sq lq qp arg preg dreg G g st
    DCache qp arg.alg s.2 ∧ (s.1 = .done → DFac sq qp arg preg dreg G s.2 ∧
      DLinSol qp arg.reg_prim G g (dErrG sq qp arg preg s.2.A_Q G s.2.v) (dErrB sq qp arg dreg s.2.AL s.2.pi) s.2) := by
  intro s
  have es : s = dPass sq lq qp arg preg dreg G g st := rfl
  unfold dPass at es
  by_cases hne : qp.dim.ne > 0
  · rw [if_pos hne] at es
    by_cases ha : arg.alg = 0
    · rw [if_pos ha] at es
      obtain ⟨hmn, hr, hl⟩ := hlq hne ha
      obtain ⟨h1, h2⟩ := dLq_ok lq qp hl st (hc hne ha)
      obtain ⟨k1, k2, k3, k4, k5, _⟩ := dNullFact_ok sq hsq qp hwf arg.reg_prim preg G g (dLq lq qp st) h1 h2
      set w := dNullFact sq qp arg.reg_prim preg G g (dLq lq qp st) with hw
      have ew : s = if singular (qp.dim.nv - qp.dim.ne) w.ZtHZ then (.preg, w) else (.done, dNullSolve qp w) := es
      by_cases hsg : singular (qp.dim.nv - qp.dim.ne) w.ZtHZ = true
      · rw [if_pos hsg] at ew
        rw [ew]
        exact ⟨fun _ _ => k4, fun h => by cases h⟩
      · rw [if_neg hsg] at ew
        rw [ew]
        have hF := k5 (by simpa using hsg)
        have hD : DFac sq qp arg preg dreg G w := ⟨k2.Zs, by rw [if_pos hne, if_pos ha]; exact hF⟩
        refine ⟨fun _ _ => k4, fun _ => ⟨hD.same (dNullSolve_same qp w), ?_⟩⟩
        have := dNullSolve_ok qp hmn hr arg.reg_prim preg G g w hF k1 k2
        have e1 : dErrG sq qp arg preg (dNullSolve qp w).A_Q G (dNullSolve qp w).v =
            fun i => preg * nullProj qp w.A_Q (dNullSolve qp w).v i := by
          funext i; unfold dErrG; rw [if_pos hne, if_pos ha]; rfl
        have e2 : dErrB sq qp arg dreg (dNullSolve qp w).AL (dNullSolve qp w).pi = fun _ => 0 := by
          funext i; unfold dErrB; rw [if_pos ha]
        dsimp only
        rw [e1, e2]
        exact this
    · rw [if_neg ha] at es
      have hcn : ∀ s, DCache qp arg.alg s := fun _ _ h => absurd h ha
      refine ⟨hcn _, fun hd => ?_⟩
      by_cases hsc : arg.scale = true
      · rw [if_pos hsc] at es
        obtain ⟨L, lv, C, z, u, t0, t1, t2, t3, he, h1, h2, h3⟩ := dBarH_val qp hwf arg.reg_prim G g 0
          { st with Lv := gecp qp.dim.nv qp.dim.nv qp.Hv 0 0 st.Lv 0 0 } (fun i j hi hj => by
            simp only [gecp]
            rw [if_pos (by omega)]; simp)
        unfold dSchurS at es
        simp only [he] at es
        set w0 : DKkt K := { st with
          Lv := L
          lv := lv
          Ctx := C
          Zs := z
          v := u
          t0 := t0
          t1 := t1
          t2 := t2
          t3 := t3 } with hw0
        have hsf := (dScaleFact_ok sq hsq qp arg.reg_prim preg G w0 h3).1
        by_cases hr : (dScaleFact sq qp.dim.nv preg w0).1 = true
        · rw [if_pos hr] at es
          rw [es] at hd; cases hd
        · rw [if_neg hr] at es
          have hH := hsf (by simpa using hr)
          obtain ⟨k1, k2, k3, _, k4, _⟩ := dSchurSFact_ok sq hsq qp arg.reg_prim preg dreg G g _ hH h2 h1
          set w := dSchurSFact sq qp dreg (dScaleFact sq qp.dim.nv preg w0).2 with hw
          by_cases hsg : singular qp.dim.ne w.Le = true
          · rw [if_pos hsg] at es
            rw [es] at hd; cases hd
          · rw [if_neg hsg] at es
            have hF := k4 (by simpa using hsg)
            have hD : DFac sq qp arg preg dreg G w := ⟨k1.Zs, by rw [if_pos hne, if_neg ha, if_pos hsc]; exact hF⟩
            rw [es]
            refine ⟨hD.same (dSchurSSolve_same qp w), ?_⟩
            have := dSchurSSolve_ok sq qp arg.reg_prim preg dreg G g w hF k3 k2 k1
            have e1 : dErrG sq qp arg preg (dSchurSSolve qp w).A_Q G (dSchurSSolve qp w).v =
                fun i => sclErr sq preg (dM qp arg.reg_prim G 0 i i) ((dSchurSSolve qp w).v i) := by
              funext i; unfold dErrG; rw [if_pos hne, if_neg ha, if_pos hsc]
            have e2 : dErrB sq qp arg dreg (dSchurSSolve qp w).AL (dSchurSSolve qp w).pi =
                fun i => sclErr sq dreg (∑ l ∈ range qp.dim.nv, w.AL i l * w.AL i l) ((dSchurSSolve qp w).pi i) := by
              funext i; unfold dErrB; rw [if_neg ha, if_pos hsc]; rfl
            dsimp only
            rw [e1, e2]
            exact this
      · rw [if_neg hsc] at es
        obtain ⟨h1, h2, h3, _⟩ := dSchurFactH_ok sq hsq qp hwf arg.reg_prim G g st
        unfold dSchur at es
        set w0 := dSchurFactH sq qp arg.reg_prim G g st with hw0
        by_cases hr : singular qp.dim.nv w0.Lv = true
        · simp only [if_pos hr] at es
          rw [es] at hd; cases hd
        · simp only [if_neg hr] at es
          obtain ⟨k1, k2, k3, k4, _, k5, _⟩ := dSchurFactE_ok sq hsq qp arg.reg_prim dreg G g w0 (h3 (by simpa using hr)) h1 h2
          set w := dSchurFactE sq qp dreg w0 with hw
          by_cases hsg : singular qp.dim.ne w.Le = true
          · rw [if_pos hsg] at es
            rw [es] at hd; cases hd
          · rw [if_neg hsg] at es
            have hF := k5 (by simpa using hsg)
            have hD : DFac sq qp arg preg dreg G w := ⟨k1.Zs, by rw [if_pos hne, if_neg ha, if_neg hsc]; exact hF⟩
            rw [es]
            refine ⟨hD.same (dSchurSolve_same qp w), ?_⟩
            have := dSchurSolve_ok qp arg.reg_prim dreg G g w hF w.lv k3 k4 k2 k1
            have e1 : dErrG sq qp arg preg (dSchurSolve qp w).A_Q G (dSchurSolve qp w).v =
                fun i => arg.reg_prim * (dSchurSolve qp w).v i := by
              funext i; unfold dErrG; rw [if_pos hne, if_neg ha, if_neg hsc]
            have e2 : dErrB sq qp arg dreg (dSchurSolve qp w).AL (dSchurSolve qp w).pi =
                fun i => dreg * (dSchurSolve qp w).pi i := by
              funext i; unfold dErrB; rw [if_neg ha, if_neg hsc]
            dsimp only
            rw [e1, e2]
            exact this
  · rw [if_neg hne] at es
    have hcn : ∀ s, DCache qp arg.alg s := fun _ h => absurd h hne
    refine ⟨hcn _, fun hd => ?_⟩
    by_cases hsc : arg.scale = true
    · rw [if_pos hsc] at es
      obtain ⟨L, lv, C, z, u, t0, t1, t2, t3, he, h1, h2, h3⟩ := dBarH_val qp hwf arg.reg_prim G g 0
        { st with Lv := trcp_l qp.dim.nv qp.Hv 0 0 st.Lv 0 0 } (fun i j hi hj => by
          simp only [trcp_l]
          rw [if_pos (by omega)]; simp)
      unfold dFreeS at es
      simp only [he] at es
      set w0 : DKkt K := { st with
          Lv := L
          lv := lv
          Ctx := C
          Zs := z
          v := u
          t0 := t0
          t1 := t1
          t2 := t2
          t3 := t3 } with hw0
      have hsf := (dScaleFact_ok sq hsq qp arg.reg_prim preg G w0 h3).1
      by_cases hr : (dScaleFact sq qp.dim.nv preg w0).1 = true
      · rw [if_pos hr] at es
        rw [es] at hd; cases hd
      · rw [if_neg hr] at es
        have hF := hsf (by simpa using hr)
        set w := (dScaleFact sq qp.dim.nv preg w0).2 with hw
        have hD : DFac sq qp arg preg dreg G w := ⟨h1.Zs, by rw [if_neg hne, if_pos hsc]; exact hF⟩
        rw [es]
        refine ⟨hD.same (dFreeSSolve_same qp w), ?_⟩
        have := dFreeSSolve_ok sq qp (by omega) arg.reg_prim preg G g w hF h2 h1
          (dErrB sq qp arg dreg (dFreeSSolve qp w).AL (dFreeSSolve qp w).pi)
        have e1 : dErrG sq qp arg preg (dFreeSSolve qp w).A_Q G (dFreeSSolve qp w).v =
            fun i => sclErr sq preg (dM qp arg.reg_prim G 0 i i) ((dFreeSSolve qp w).v i) := by
          funext i; unfold dErrG; rw [if_neg hne, if_pos hsc]
        dsimp only
        rw [e1]
        exact this
    · rw [if_neg hsc] at es
      obtain ⟨h1, h2, _⟩ := dFreeFact_ok sq hsq qp hwf arg.reg_prim preg G g st
      unfold dFree at es
      set w := dFreeFact sq qp arg.reg_prim preg G g st with hw
      by_cases hr : singular qp.dim.nv w.Lv = true
      · simp only [if_pos hr] at es
        rw [es] at hd; cases hd
      · simp only [if_neg hr] at es
        obtain ⟨h3, h4⟩ := h2 (by simpa using hr)
        have hD : DFac sq qp arg preg dreg G w := ⟨h1.Zs, by rw [if_neg hne, if_neg hsc]; exact h3⟩
        rw [es]
        refine ⟨hD.same ⟨rfl, rfl, rfl, rfl, rfl, rfl, rfl, rfl, rfl, rfl, rfl, rfl⟩, ?_⟩
        set y := rowex qp.dim.nv (-1) w.Lv qp.dim.nv 0 w.v 0 with hy
        have hy1 : ∀ l, l < qp.dim.nv → y l = - w.Lv qp.dim.nv l := by
          intro l hl
          rw [hy, rowex, if_pos (by omega)]; simp
        have := dFreeSolve_ok qp (by omega) arg.reg_prim preg G g w h3 y (trsv_ltn qp.dim.nv w.Lv y y)
          (fun i hi => by
            rw [← h4 i hi, ← sum_neg_distrib]
            exact sum_congr rfl (fun l hl => by rw [hy1 l (mem_range.mp hl)]; ring))
          (fun j hj => trsv_ltn_spec h3.piv _ _ j hj)
          ⟨h1.Zs, fun i hi => by
            rw [trsv_ltn_out _ _ _ (by omega), hy, rowex, if_neg (by omega)]
            exact h1.v i hi⟩
          (dErrB sq qp arg dreg w.AL w.pi)
        have e1 : dErrG sq qp arg preg w.A_Q G (trsv_ltn qp.dim.nv w.Lv y y) =
            fun i => preg * (trsv_ltn qp.dim.nv w.Lv y y) i := by
          funext i; unfold dErrG; rw [if_neg hne, if_neg hsc]
        dsimp only
        rw [e1]
        exact this

/-- the regularisation loop -/
theorem dkktMain_ok (hsq : ∀ x, 0 < x → sq x * sq x = x) (hwf : qp.WF) (hlq : DLqHyp lq qp arg.alg) (pl dl : K)
    (G g : Vec K) (fuel : ℕ) (r : DReg K) (st : DKkt K) (hc : DCache qp arg.alg st) (r' : DReg K) (s : DKkt K)
    (h : dkktMain sq lq qp arg pl dl G g fuel r st = some (r', s)) :
    DCache qp arg.alg s ∧ DFac sq qp arg r'.preg r'.dreg G s ∧
    DLinSol qp arg.reg_prim G g (dErrG sq qp arg r'.preg s.A_Q G s.v) (dErrB sq qp arg r'.dreg s.AL s.pi) s ∧
    (r'.pinit = false → r.pinit = false ∧ r'.preg = r.preg) ∧ (r'.dinit = false → r.dinit = false ∧ r'.dreg = r.dreg) := by
  induction fuel generalizing r st with
  | zero =>
    obtain ⟨p1, p2⟩ := dPass_ok sq lq qp arg hsq hwf hlq r.preg r.dreg G g st hc
    unfold dkktMain at h
    set s0 := dPass sq lq qp arg r.preg r.dreg G g st with hs0
    rcases hx : s0.1 with _ | _ | _ <;> dsimp only at h <;> rw [hx] at h <;> simp only [reduceCtorEq, Option.some.injEq, Prod.mk.injEq] at h
    obtain ⟨rfl, rfl⟩ := h
    exact ⟨p1, (p2 hx).1, (p2 hx).2, fun h => ⟨h, rfl⟩, fun h => ⟨h, rfl⟩⟩
  | succ fuel ih =>
    obtain ⟨p1, p2⟩ := dPass_ok sq lq qp arg hsq hwf hlq r.preg r.dreg G g st hc
    unfold dkktMain at h
    set s0 := dPass sq lq qp arg r.preg r.dreg G g st with hs0
    rcases hx : s0.1 with _ | _ | _ <;> dsimp only at h <;> rw [hx] at h <;> simp only [Option.some.injEq, Prod.mk.injEq] at h
    · obtain ⟨rfl, rfl⟩ := h
      exact ⟨p1, (p2 hx).1, (p2 hx).2, fun h => ⟨h, rfl⟩, fun h => ⟨h, rfl⟩⟩
    · obtain ⟨k1, k2, k3, k4, k5⟩ := ih _ _ p1 h
      exact ⟨k1, k2, k3, fun h => absurd (k4 h).1 (by simp), k5⟩
    · obtain ⟨k1, k2, k3, k4, k5⟩ := ih _ _ p1 h
      exact ⟨k1, k2, k3, k4, fun h => absurd (k5 h).1 (by simp)⟩

/-- right-hand side of the re-solve -/
theorem dRhs_val (hwf : qp.WF) (reg : K) (G g : Vec K) (st : DKkt K)
    (hz : ∀ i, i < 2 * qp.dim.ns → st.Zs i = kZs (ov qp) reg (fun _ => G) 0 i) :
    ∃ lv v t1 t2 t3, dRhs qp G g st =
        { st with
          lv := lv
          v := v
          t1 := t1
          t2 := t2
          t3 := t3 } ∧ DSlk qp reg G g st.Zs v ∧ (∀ i, i < qp.dim.nv → lv i = dgr qp reg G g i) := by
  have hir := hwf.soft
  unfold dRhs
  by_cases hs : qp.dim.ns > 0
  · simp only [if_pos hs]
    obtain ⟨h1, h2, h3⟩ := condSlacksS_val (qp.dim.nb + qp.dim.ng) qp.dim.ns qp.dim.nv qp.idxs_rev qp.gz G g
      { Zs := st.Zs, du := st.v, t0 := st.t0, t1 := st.t1, t2 := st.t2, t3 := st.t3 } hir
    refine ⟨_, _, _, _, _, rfl, ⟨hz, h1⟩, fun i hi => ?_⟩
    refine dgr_add qp reg G g _ _ (fun j hj => ?_) i hi (by rw [veccp_in (by omega)]; simp)
    rw [h3 j hj]
    exact congrArg₂ (· - ·) (slkVt_congr (Z' := kZs (ov qp) reg (fun _ => G) 0) (R' := kRh (ov qp) (fun _ => g) 0) hir hz h1 0 (by omega) _ _ j hj)
      (slkVt_congr (Z' := kZs (ov qp) reg (fun _ => G) 0) (R' := kRh (ov qp) (fun _ => g) 0) hir hz h1 _ (le_refl _) _ _ j hj)
  · have hir' : ∀ j, j < qp.dim.nb + qp.dim.ng → qp.idxs_rev j = -1 := by
      intro j hj
      rcases hir j hj with h | h
      · exact h
      · omega
    have hvt : ∀ j, j < qp.dim.nb + qp.dim.ng → kVt (ov qp) reg (fun _ => G) (fun _ => g) 0 j = g j - g (qp.dim.nb + qp.dim.ng + j) := by
      intro j hj
      have e : (ov qp).idxs_rev 0 j = -1 := hir' j hj
      simp only [kVt, kVtZ, slkVt, e, ne_eq, not_true, if_false]
      rfl
    simp only [if_neg hs]
    by_cases hn0 : qp.dim.nb + qp.dim.ng > 0
    · simp only [if_pos hn0]
      refine ⟨_, st.v, _, st.t2, st.t3, rfl, ⟨hz, fun i hi => by omega⟩, fun i hi => ?_⟩
      refine dgr_add qp reg G g _ _ (fun j hj => ?_) i hi (by rw [veccp_in (by omega)]; simp)
      rw [axpy_in (by omega), hvt j hj]; simp; ring
    · simp only [if_neg hn0]
      refine ⟨_, st.v, st.t1, st.t2, st.t3, rfl, ⟨hz, fun i hi => by omega⟩, fun i hi => ?_⟩
      exact dgr_add qp reg G g _ _ (fun j hj => by omega) i hi (by rw [veccp_in (by omega)]; simp)

/-- the substitutions of the re-solve -/
theorem dSubst_ok (hlq : DLqHyp lq qp arg.alg) (preg dreg : K) (G g : Vec K) (st : DKkt K)
    (hF : DFac sq qp arg preg dreg G st) (hlv : ∀ i, i < qp.dim.nv → st.lv i = dgr qp arg.reg_prim G g i)
    (hs : DSlk qp arg.reg_prim G g st.Zs st.v) :
    let s := dSubst qp arg.alg arg.scale st
    DSame st s ∧
    DLinSol qp arg.reg_prim G g (dErrG sq qp arg preg s.A_Q G s.v) (dErrB sq qp arg dreg s.AL s.pi) s := by
  intro s
  have es : s = dSubst qp arg.alg arg.scale st := rfl
  unfold dSubst at es
  have hF2 := hF.2
  by_cases hne : qp.dim.ne > 0
  · rw [if_pos hne] at es hF2
    by_cases ha : arg.alg = 0
    · rw [if_pos ha] at es hF2
      obtain ⟨hmn, hr, hl⟩ := hlq hne ha
      rw [es]
      refine ⟨dNullSolve_same qp st, ?_⟩
      have e1 : dErrG sq qp arg preg (dNullSolve qp st).A_Q G (dNullSolve qp st).v =
          fun i => preg * nullProj qp st.A_Q (dNullSolve qp st).v i := by
        funext i; unfold dErrG; rw [if_pos hne, if_pos ha]; rfl
      have e2 : dErrB sq qp arg dreg (dNullSolve qp st).AL (dNullSolve qp st).pi = fun _ => 0 := by
        funext i; unfold dErrB; rw [if_pos ha]
      rw [e1, e2]
      exact dNullSolve_ok qp hmn hr arg.reg_prim preg G g st hF2 hlv hs
    · rw [if_neg ha] at es hF2
      by_cases hsc : arg.scale = true
      · rw [if_pos hsc] at es hF2
        dsimp only at es
        set l1 := gemv_diag qp.dim.nv 1 st.sv 0 st.lv 0 0 st.lv 0 st.lv 0 with hl1
        have hl1v : ∀ i, i < qp.dim.nv → l1 i = st.sv i * dgr qp arg.reg_prim G g i := by
          intro i hi
          rw [hl1, gemv_diag_in (by omega)]
          simp only [Nat.sub_zero, zero_add, zero_mul, one_mul, hlv i hi]
        set w : DKkt K := { st with
          lv := trsv_lnn qp.dim.nv st.Lv l1 l1
          v := veccp qp.dim.nv l1 0 st.v 0 } with hw
        have hsame : DSame st w := ⟨rfl, rfl, rfl, rfl, rfl, rfl, rfl, rfl, rfl, rfl, rfl, rfl⟩
        rw [es]
        refine ⟨hsame.trans (dSchurSSolve_same qp w), ?_⟩
        have hFw : SchurSFac sq qp arg.reg_prim preg dreg G w :=
          ⟨⟨hF2.H.nonneg, hF2.H.sv, hF2.H.H⟩, hF2.AL, hF2.se, hF2.E⟩
        have := dSchurSSolve_ok sq qp arg.reg_prim preg dreg G g w hFw
          (fun i hi => (trsv_lnn_spec hF2.H.H.piv _ _ i hi).trans (hl1v i hi))
          (fun i hi => by
            show veccp _ _ _ _ _ i = _
            rw [veccp_in (by omega)]
            simp only [Nat.sub_zero, zero_add]
            exact hl1v i hi)
          ⟨hs.Zs, fun i hi => by
            rw [← hs.v i hi]
            show veccp _ _ _ _ _ (qp.dim.nv + i) = _
            rw [veccp_out (by omega)]⟩
        have e1 : dErrG sq qp arg preg (dSchurSSolve qp w).A_Q G (dSchurSSolve qp w).v =
            fun i => sclErr sq preg (dM qp arg.reg_prim G 0 i i) ((dSchurSSolve qp w).v i) := by
          funext i; unfold dErrG; rw [if_pos hne, if_neg ha, if_pos hsc]
        have e2 : dErrB sq qp arg dreg (dSchurSSolve qp w).AL (dSchurSSolve qp w).pi =
            fun i => sclErr sq dreg (∑ l ∈ range qp.dim.nv, w.AL i l * w.AL i l) ((dSchurSSolve qp w).pi i) := by
          funext i; unfold dErrB; rw [if_neg ha, if_pos hsc]; rfl
        rw [e1, e2]
        exact this
      · rw [if_neg hsc] at es hF2
        dsimp only at es
        set w : DKkt K := { st with
          lv := trsv_lnn qp.dim.nv st.Lv st.lv st.lv
          v := veccp qp.dim.nv st.lv 0 st.v 0
          pi := gemv_n qp.dim.ne qp.dim.nv 1 st.AL 0 0 (trsv_lnn qp.dim.nv st.Lv st.lv st.lv) 0 1 qp.b 0 st.pi 0 } with hw
        have hsame : DSame st w := ⟨rfl, rfl, rfl, rfl, rfl, rfl, rfl, rfl, rfl, rfl, rfl, rfl⟩
        rw [es]
        refine ⟨hsame.trans (dSchurSolve_same qp w), ?_⟩
        have hFw : SchurFac qp arg.reg_prim dreg G w := ⟨hF2.H, hF2.AL, hF2.E⟩
        have := dSchurSolve_ok qp arg.reg_prim dreg G g w hFw w.lv
          (fun i hi => (trsv_lnn_spec hF2.H.piv _ _ i hi).trans (hlv i hi))
          (fun i hi => by
            show gemv_n _ _ _ _ _ _ _ _ _ _ _ _ _ i = _
            rw [gemv_n_in (by omega)]
            simp only [Nat.sub_zero, zero_add, one_mul]
            rw [add_comm])
          (fun i hi => by
            show veccp _ _ _ _ _ i = _
            rw [veccp_in (by omega)]
            simp only [Nat.sub_zero, zero_add]
            exact hlv i hi)
          ⟨hs.Zs, fun i hi => by
            rw [← hs.v i hi]
            show veccp _ _ _ _ _ (qp.dim.nv + i) = _
            rw [veccp_out (by omega)]⟩
        have e1 : dErrG sq qp arg preg (dSchurSolve qp w).A_Q G (dSchurSolve qp w).v =
            fun i => arg.reg_prim * (dSchurSolve qp w).v i := by
          funext i; unfold dErrG; rw [if_pos hne, if_neg ha, if_neg hsc]
        have e2 : dErrB sq qp arg dreg (dSchurSolve qp w).AL (dSchurSolve qp w).pi =
            fun i => dreg * (dSchurSolve qp w).pi i := by
          funext i; unfold dErrB; rw [if_neg ha, if_neg hsc]
        rw [e1, e2]
        exact this
  · rw [if_neg hne] at es hF2
    by_cases hsc : arg.scale = true
    · rw [if_pos hsc] at es hF2
      rw [es]
      refine ⟨dFreeSSolve_same qp st, ?_⟩
      have := dFreeSSolve_ok sq qp (by omega) arg.reg_prim preg G g st hF2 hlv hs
        (dErrB sq qp arg dreg (dFreeSSolve qp st).AL (dFreeSSolve qp st).pi)
      have e1 : dErrG sq qp arg preg (dFreeSSolve qp st).A_Q G (dFreeSSolve qp st).v =
          fun i => sclErr sq preg (dM qp arg.reg_prim G 0 i i) ((dFreeSSolve qp st).v i) := by
        funext i; unfold dErrG; rw [if_neg hne, if_pos hsc]
      rw [e1]
      exact this
    · rw [if_neg hsc] at es hF2
      dsimp only at es
      rw [es]
      refine ⟨⟨rfl, rfl, rfl, rfl, rfl, rfl, rfl, rfl, rfl, rfl, rfl, rfl⟩, ?_⟩
      set x := vecsc qp.dim.nv (-1) (veccp qp.dim.nv st.lv 0 st.v 0) 0 with hx
      set y := trsv_lnn qp.dim.nv st.Lv x x with hy
      have := dFreeSolve_ok qp (by omega) arg.reg_prim preg G g st hF2 y (trsv_ltn qp.dim.nv st.Lv y y)
        (fun i hi => by
          refine (trsv_lnn_spec hF2.piv x x i hi).trans ?_
          rw [hx, vecsc, if_pos (by omega), veccp_in (by omega)]
          simp only [Nat.sub_zero, zero_add, hlv i hi]; ring)
        (fun j hj => trsv_ltn_spec hF2.piv _ _ j hj)
        ⟨hs.Zs, fun i hi => by
          rw [trsv_ltn_out _ _ _ (by omega), hy, trsv_lnn_out _ _ _ (by omega), hx, vecsc, if_neg (by omega),
            veccp_out (by omega)]
          exact hs.v i hi⟩
        (dErrB sq qp arg dreg st.AL st.pi)
      have e1 : dErrG sq qp arg preg st.A_Q G (trsv_ltn qp.dim.nv st.Lv y y) =
          fun i => preg * (trsv_ltn qp.dim.nv st.Lv y y) i := by
        funext i; unfold dErrG; rw [if_neg hne, if_neg hsc]
      dsimp only
      rw [e1]
      exact this

end
end Hpipm
