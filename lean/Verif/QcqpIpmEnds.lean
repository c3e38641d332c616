/-
C83 (termination of the QCQP solver), C84 (the QCQP solver does not return: regularisation stuck at zero).
-/
import Verif.QcqpIpmOpt
import Verif.IpmEnds

namespace Hpipm
open Finset
set_option linter.unusedSectionVars false

section
variable {K : Type*} [Field K] [LinearOrder K] [IsStrictOrderedRing K]

/-- index part of the QP in the workspace -/
def idxPart (qp : OcpQp K) : QpDim × (ℕ → ℕ → ℕ) × (ℕ → ℕ → ℤ) := (qp.dim, qp.idxb, qp.idxs_rev)

theorem idxPart_wf {q q' : OcpQp K} (h : idxPart q' = idxPart q) (hw : q.WF) : q'.WF := by
  simp only [idxPart, Prod.mk.injEq] at h
  obtain ⟨h1, h2, h3⟩ := h
  unfold OcpQp.WF
  rw [h1, h2, h3]
  exact hw

theorem idxPart_dim {q q' : OcpQp K} (h : idxPart q' = idxPart q) : q'.dim = q.dim := congrArg Prod.fst h

theorem updateQp_idx (Q : Qcqp K) (sol : Sol K) (st : QwSt K) : idxPart (updateQp Q sol st).qp = idxPart st.qp := by
  unfold updateQp
  exact loop_inv (fun _ (x : QwSt K) => idxPart x.qp = idxPart st.qp) _ _ _ rfl (fun i x _ h => h)

theorem updateQpAbs_idx (Q : Qcqp K) (sol : Sol K) (st : QwSt K) : idxPart (updateQpAbs Q sol st).qp = idxPart st.qp := by
  unfold updateQpAbs
  exact loop_inv (fun _ (x : QwSt K) => idxPart x.qp = idxPart st.qp) _ _ _ rfl (fun i x _ h => h)

/-- another bound on the attempts -/
def QEnv.withFuel (T : QEnv K) (f : ℕ) : QEnv K := { T with fuel := f }

variable (T : QEnv K)

/-- hypotheses on the data of a solve under which each factorisation ends -/
structure QEnv.Ends : Prop where
  sq : ∀ x, 0 < x → T.sq x * T.sq x = x
  wf : T.Q.WF
  N : 1 ≤ T.Q.base.dim.N
  reg : 0 ≤ T.qarg.r .reg_prim
  lq : T.lqf = 0 ∨ (T.env T.Q.inner).LqEnds

/-- what the loops keep -/
structure QGo (s : QIpm K) : Prop where
  wf : s.qp.WF
  N : 1 ≤ s.qp.dim.N
  pl : PregOk (T.qarg.r .reg_prim) s.ip.preg_last

variable {T}

theorem QGo.ends (hE : T.Ends) {s : QIpm K} (h : QGo T s) : (T.env s.qp).Ends := ⟨hE.sq, h.wf, h.N, hE.reg, hE.lq⟩

theorem QGo.of {s s' : QIpm K} (h : QGo T s) (hi : idxPart s'.qp = idxPart s.qp) (hp : PregOk (T.qarg.r .reg_prim) s'.ip.preg_last) : QGo T s' :=
  ⟨idxPart_wf hi h.wf, by rw [idxPart_dim hi]; exact h.N, hp⟩

/-- the solver with another bound on the attempts differs in the factorisations only -/
theorem qipmSolve_fuel (sol : Sol K) (s : QIpm K) (sol0 : Sol K) (h0 : qinitVar T.sq (maskLower T.Q) T.arg sol = some sol0) (f lf : ℕ) :
    qipmSolve (T.withFuel f) lf sol s =
      if s.ip.core.nc = 0 ∨ ncMask (qbegin T sol0 s).qp s.ip.core.nc = 0 then .ok (qsolveUnc T (maskLower T.Q) (qbegin T sol0 s))
      else if T.qarg.i .abs_form ≠ 0 then
        match ipmLoop (fun s => contAbs { T.arg with r := fun f => if f = .tau_min then T.qarg.r .tau_min else T.arg.r f } (qobs T s))
            (qabsBody (T.withFuel f) (maskLower T.Q)) (T.arg.i .iter_max) lf 0 (qabsMu (maskLower T.Q) (qstart (qbegin T sol0 s))) with
        | none => .error .stuck
        | some r => .ok (qepilogue T (maskLower T.Q) (r.1, qabsEnd T (maskLower T.Q) r.1 r.2))
      else
        match ipmLoop (fun s => contRel T.arg (qobs T s)) (qrelBody (T.withFuel f) (maskLower T.Q)) (T.arg.i .iter_max) lf 0
            (qrelStart T (maskLower T.Q) (qstart (qbegin T sol0 s))) with
        | none => .error .stuck
        | some r => .ok (qepilogue T (maskLower T.Q) r) := by
  have h0' : qinitVar (T.withFuel f).sq (maskLower (T.withFuel f).Q) (T.withFuel f).arg sol = some sol0 := h0
  unfold qipmSolve
  simp only
  rw [h0']
  dsimp only
  generalize hx : qbegin T sol0 s = x
  have hx' : qbegin (T.withFuel f) sol0 s = x := hx
  rw [hx']
  rfl

variable [Archimedean K]

theorem qrelBody_ev (hE : T.Ends) (Q : Qcqp K) (kk : ℕ) (s : QIpm K) (hs : QGo T s) :
    Ev (fun f => qrelBody (T.withFuel f) Q kk s) (QGo T) := by
  obtain ⟨n, ip, h1, h2⟩ := deltaStep_ev (hs.ends hE) kk s.ip hs.pl
  refine Ev.map (f := fun f => deltaStep ((T.env s.qp).withFuel f) kk s.ip) (P := fun ip => PregOk (T.qarg.r .reg_prim) ip.preg_last)
    ⟨n, ip, h1, h2⟩ (fun ip =>
      let D := Q.inner.dim
      let sol := convSol D (solOf D ip.core) s.sol
      let sol := if ip.mask then maskSol D s.qp.d_mask sol else sol
      let w := updateQp Q sol { qp := { s.qp with RSQrq := ip.kkt.RSQrq }, rws := s.rws, nux0 := s.nux0, nux1 := s.nux1 }
      let s := qresStep Q { s with
        ip := { ip with kkt := { ip.kkt with RSQrq := w.qp.RSQrq } }
        qp := w.qp
        sol := sol
        rws := w.rws
        nux0 := w.nux0
        nux1 := w.nux1 }
      let E := T.env s.qp
      { s with ip := putG E kk 12 s.res.obj (putG E kk 11 s.res.dual_gap (putG4 E kk 7 s.rmax (putG E kk 6 s.res.res_mu s.ip))) }) ?_
  intro ip hp
  extract_lets D sol sol1 w s1 E
  refine hs.of ?_ ?_
  · exact updateQp_idx Q sol1 _
  · show PregOk _ (putG _ _ _ _ _).preg_last
    rw [putG_pl, putG_pl, putG4_pl, putG_pl]
    exact hp

theorem qabsMu_go (Q : Qcqp K) {s : QIpm K} (hs : QGo T s) : QGo T (qabsMu Q s) :=
  hs.of (updateQpAbs_idx Q s.sol _) hs.pl

theorem qabsBody_ev (hE : T.Ends) (Q : Qcqp K) (kk : ℕ) (s : QIpm K) (hs : QGo T s) :
    Ev (fun f => qabsBody (T.withFuel f) Q kk s) (QGo T) := by
  obtain ⟨n, ip, h1, h2⟩ := absStep_ev (hs.ends hE) kk s.ip hs.pl
  refine Ev.map (f := fun f => absStep ((T.env s.qp).withFuel f) kk s.ip) (P := fun ip => PregOk (T.qarg.r .reg_prim) ip.preg_last)
    ⟨n, ip, h1, h2⟩ (fun ip =>
      let D := Q.inner.dim
      let s := qabsMu Q { s with
        ip := ip
        sol := convSol D (solOf D ip.core) s.sol }
      { s with ip := putG (T.env s.qp) kk 6 s.ip.core.mu s.ip }) ?_
  intro ip hp
  extract_lets D s1
  have h : QGo T s1 := qabsMu_go Q ⟨hs.wf, hs.N, hp⟩
  refine h.of rfl ?_
  show PregOk _ (putG _ _ _ _ _).preg_last
  rw [putG_pl]
  exact h.pl

/-- **C83** (termination) The QCQP solver returns for every QCQP, convex or not, every guess and every setting other than those of
`qipm_uninit_iff`, whatever the previous contents of the workspace, provided `reg_prim >= 0` and the regularisation remembered
in the workspace from earlier calls is positive or equals `reg_prim`; see `qipm_hangs` for what happens otherwise.  There is one
outcome `o` which is the result of the call for every sufficiently large bound on the regularisation attempts (a device of the
model) and every bound on the passes not below `iter_max`. -/
theorem qipm_ends (hE : T.Ends) (hm : Mask01 T.Q.inner) (sol : Sol K) (s : QIpm K)
    (hnc : s.ip.core.nc = stOff (nct T.Q.inner.dim) (T.Q.base.dim.N + 1))
    (hp : PregOk (T.qarg.r .reg_prim) s.ip.preg_last)
    (hi : ¬ (T.arg.i .warm_start < 2 ∧ T.arg.i .t0_init ≠ 0 ∧ T.arg.i .t0_init ≠ 1 ∧ ∃ k, k ≤ T.Q.base.dim.N ∧ 0 < T.Q.base.dim.ng k)) :
    ∃ n o, ∀ fuel, n ≤ fuel → ∀ lf : ℕ, T.arg.i .iter_max ≤ lf → qipmSolve (T.withFuel fuel) lf sol s = .ok o := by
  have hd : T.arg.i .iter_max ≤ ((0 : ℕ) : ℤ) + (T.arg.i .iter_max).toNat := by omega
  obtain ⟨sol0, h0⟩ : ∃ sol0, qinitVar T.sq (maskLower T.Q) T.arg sol = some sol0 := by
    rcases h : qinitVar T.sq (maskLower T.Q) T.arg sol with _ | x
    · exact absurd ((qinitVar_none_iff T.sq (maskLower T.Q) T.arg sol).mp h) hi
    · exact ⟨x, rfl⟩
  have hb := (qbegin_inv T hm sol0 s hnc).1
  have hg : QGo T (qstart (qbegin T sol0 s)) := by
    refine ⟨?_, ?_, hp⟩
    · have hw : T.Q.inner.WF := hE.wf
      have hf := hb.fix
      have e1 : (qbegin T sol0 s).qp.dim = T.Q.inner.dim := hf.dim
      refine ⟨fun k j hk hj => ?_, fun k j hk hj => ?_⟩
      · change k ≤ (qbegin T sol0 s).qp.dim.N at hk
        change j < (qbegin T sol0 s).qp.dim.nb k at hj
        show (qbegin T sol0 s).qp.idxb k j < (qbegin T sol0 s).qp.dim.nu k + (qbegin T sol0 s).qp.dim.nx k
        rw [e1] at hk hj ⊢
        rw [hf.idxb k hk j hj]
        exact hw.1 k j hk hj
      · change k ≤ (qbegin T sol0 s).qp.dim.N at hk
        change j < (qbegin T sol0 s).qp.dim.nb k + (qbegin T sol0 s).qp.dim.ng k at hj
        show (qbegin T sol0 s).qp.idxs_rev k j = -1 ∨ (0 ≤ (qbegin T sol0 s).qp.idxs_rev k j ∧ ((qbegin T sol0 s).qp.idxs_rev k j).toNat < (qbegin T sol0 s).qp.dim.ns k)
        rw [e1] at hk hj ⊢
        rw [hf.idxs k hk j hj]
        exact hw.2 k j hk hj
    · show 1 ≤ (qbegin T sol0 s).qp.dim.N
      have e1 : (qbegin T sol0 s).qp.dim = T.Q.inner.dim := hb.fix.dim
      rw [e1]; exact hE.N
  have hfe := qipmSolve_fuel sol s sol0 h0
  simp only [hfe]
  by_cases hc : s.ip.core.nc = 0 ∨ ncMask (qbegin T sol0 s).qp s.ip.core.nc = 0
  · exact ⟨0, _, fun f _ lf _ => by rw [if_pos hc]⟩
  · simp only [if_neg hc]
    by_cases ha : T.qarg.i .abs_form ≠ 0
    · obtain ⟨n, r, h⟩ := ipmLoop_ev (fun s => contAbs { T.arg with r := fun f => if f = .tau_min then T.qarg.r .tau_min else T.arg.r f } (qobs T s))
        (fun f => qabsBody (T.withFuel f) (maskLower T.Q)) (T.arg.i .iter_max)
        (QGo T) (fun kk s hs => qabsBody_ev hE _ kk s hs) (T.arg.i .iter_max).toNat 0 _ (qabsMu_go (maskLower T.Q) hg) hd
      exact ⟨n, _, fun f hf lf hlf => by rw [if_pos ha, h f hf lf (by omega)]⟩
    · obtain ⟨n, r, h⟩ := ipmLoop_ev (fun s => contRel T.arg (qobs T s))
        (fun f => qrelBody (T.withFuel f) (maskLower T.Q)) (T.arg.i .iter_max)
        (QGo T) (fun kk s hs => qrelBody_ev hE _ kk s hs) (T.arg.i .iter_max).toNat 0 (qrelStart T (maskLower T.Q) (qstart (qbegin T sol0 s)))
        (hg.of rfl (by
          unfold qrelStart
          dsimp only
          split <;> exact hg.pl)) hd
      exact ⟨n, _, fun f hf lf hlf => by rw [if_neg ha, h f hf lf (by omega)]⟩

end
end Hpipm
