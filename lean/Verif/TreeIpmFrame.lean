/-
What the parts of an iteration of the tree solver leave alone, and that the statistics stay inside their table.
-/
import Verif.TreeIpm
import Verif.IpmFrame
import Verif.IpmProps

namespace Hpipm
set_option linter.unusedSectionVars false

section
variable {K : Type*} [Field K] [LinearOrder K] [IsStrictOrderedRing K] (T : TEnv K)

theorem tput_oob (i : ℕ) (x : K) (s : Ipm K) (h : (i : ℤ) < 20 * (1 + T.statMax)) : (tput T i x s).oob = s.oob := by
  unfold tput
  rw [show decide ((i : ℤ) ≥ 20 * (1 + T.statMax)) = false by rw [decide_eq_false_iff_not]; omega, Bool.or_false]

theorem tputG_keep (kk col : ℕ) (hc : col < 20) (x : K) (s : Ipm K) : Keep s (tputG T kk col x s) := by
  unfold tputG
  split
  · rename_i h
    exact ⟨CKeep.refl _, rfl, rfl, rfl, rfl, tput_oob T _ _ _ (by push_cast; omega)⟩
  · exact Keep.refl s

/-- the fields other than the statistics -/
structure SEq (s s' : Ipm K) : Prop where
  core : s'.core = s.core
  res : s'.res = s.res
  rmax : s'.rmax = s.rmax
  rws : s'.rws = s.rws
  resIt : s'.resIt = s.resIt
  kkt : s'.kkt = s.kkt
  itr : s'.itr = s.itr
  mask : s'.mask = s.mask

theorem SEq.refl (s : Ipm K) : SEq s s := ⟨rfl, rfl, rfl, rfl, rfl, rfl, rfl, rfl⟩
theorem SEq.trans {a b c : Ipm K} (h : SEq a b) (h' : SEq b c) : SEq a c :=
  ⟨h'.core.trans h.core, h'.res.trans h.res, h'.rmax.trans h.rmax, h'.rws.trans h.rws, h'.resIt.trans h.resIt, h'.kkt.trans h.kkt,
    h'.itr.trans h.itr, h'.mask.trans h.mask⟩

theorem tput_seq (i : ℕ) (x : K) (s : Ipm K) : SEq s (tput T i x s) := ⟨rfl, rfl, rfl, rfl, rfl, rfl, rfl, rfl⟩

theorem tputG_seq (kk col : ℕ) (x : K) (s : Ipm K) : SEq s (tputG T kk col x s) := by
  unfold tputG
  split
  · exact tput_seq T _ _ _
  · exact SEq.refl s

theorem tputG4_seq (kk col : ℕ) (x : K × K × K × K) (s : Ipm K) : SEq s (tputG4 T kk col x s) := by
  unfold tputG4
  exact (((tputG_seq T _ _ _ _).trans (tputG_seq T _ _ _ _)).trans (tputG_seq T _ _ _ _)).trans (tputG_seq T _ _ _ _)

theorem tputG4_keep (kk col : ℕ) (hc : col + 3 < 20) (x : K × K × K × K) (s : Ipm K) : Keep s (tputG4 T kk col x s) := by
  unfold tputG4
  exact (((tputG_keep T kk col (by omega) _ _).trans (tputG_keep T kk _ (by omega) _ _)).trans (tputG_keep T kk _ (by omega) _ _)).trans
    (tputG_keep T kk _ (by omega) _ _)

theorem tqpStep_dim (s : Ipm K) : (tqpStep T s).qp.dim = T.t.qp.dim := by unfold tqpStep; dsimp only; split <;> rfl

theorem tfactStep_keep (s : Ipm K) : Keep s (tfactStep T s) := by
  unfold tfactStep
  refine Keep.trans ?_ (syncStep_keep _ _)
  refine ⟨?_, rfl, rfl, rfl, rfl, rfl⟩
  exact computeGammaGamma_keep _ _ s.core

theorem tlqStep_keep (s : Ipm K) : Keep s (tlqStep T s) := by
  unfold tlqStep
  refine Keep.trans ?_ (syncStep_keep _ _)
  exact ⟨computeGammaGamma_keep _ _ s.core, rfl, rfl, rfl, rfl, rfl⟩

theorem tsolStep_keep (s : Ipm K) : Keep s (tsolStep T s) := by
  unfold tsolStep
  refine Keep.trans ?_ (syncStep_keep _ _)
  exact ⟨computeGamma_keep _ _ s.core, rfl, rfl, rfl, rfl, rfl⟩

theorem tsolItref_keep (s : Ipm K) : Keep s (tsolItref T s) := by
  unfold tsolItref
  exact ⟨computeGamma_keep _ _ s.core, rfl, rfl, rfl, rfl, rfl⟩

theorem tlinRes_keep (s : Ipm K) : Keep s (tlinRes T s).1 := ⟨CKeep.refl _, rfl, rfl, rfl, rfl, rfl⟩
theorem tlinResMask_keep (s : Ipm K) : Keep s (tlinResMask T s).1 := ⟨CKeep.refl _, rfl, rfl, rfl, rfl, rfl⟩

theorem titrefLoop_keep (kk : ℕ) (sh : Bool) : ∀ (n cnt : ℕ) (did : Bool) (x : K × K × K × K) (mx : K) (s : Ipm K),
    Keep s (titrefLoop T kk sh n cnt did x mx s).s := by
  intro n
  induction n with
  | zero => intro cnt did x mx s; exact Keep.refl s
  | succ n ih =>
    intro cnt did x mx s
    unfold titrefLoop
    split
    · exact Keep.refl s
    · extract_lets s1 r s2 mx'
      have h1 : Keep s s1 := ((tsolItref_keep T s).trans (maskStep_keep T.env _)).trans (addItref_keep T.env 1 _)
      have h2 : Keep s s2 := (h1.trans (tlinRes_keep T s1)).trans (tputG4_keep T kk 16 (by omega) _ _)
      split
      · exact (h2.trans (addItref_keep T.env (-1) _)).trans (tputG4_keep T kk 16 (by omega) _ _)
      · exact h2.trans (ih _ _ _ _ _)

theorem titref_keep (kk : ℕ) (sh : Bool) (mx : ℤ) (s : Ipm K) : Keep s (titref T kk sh mx s).s := by
  unfold titref
  exact ((tlinRes_keep T s).trans (tputG4_keep T kk 16 (by omega) _ _)).trans (titrefLoop_keep T kk sh _ _ _ _ _ _)

theorem talphaStep_keep (kk col : ℕ) (hc : col + 1 < 20) (s : Ipm K) : Keep s (talphaStep T kk col s) := by
  unfold talphaStep
  exact ((Keep.ofCore (computeAlpha_keep T.sq s.core)).trans (tputG_keep T kk _ (by omega) _ _)).trans (tputG_keep T kk _ (by omega) _ _)

theorem tfactPhase_keep (kk : ℕ) (s : Ipm K) : Keep s (tfactPhase T kk s) := by
  unfold tfactPhase
  split
  · exact ((tfactStep_keep T s).trans (maskStep_keep T.env _)).trans (tputG_keep T kk 13 (by omega) _ _)
  · split
    · extract_lets r s1
      have h1 : Keep s s1 := (((tfactStep_keep T s).trans (maskStep_keep T.env _)).trans (tlinResMask_keep T _)).trans (tputG_keep T kk 13 (by omega) _ _)
      split
      · exact ((h1.trans (tlqStep_keep T _)).trans (maskStep_keep T.env _)).trans (tputG_keep T kk 13 (by omega) _ _)
      · exact h1
    · exact ((tlqStep_keep T s).trans (maskStep_keep T.env _)).trans (tputG_keep T kk 13 (by omega) _ _)

theorem tpredPhase_keep (kk : ℕ) (s : Ipm K) : Keep s (tpredPhase T kk s) := by
  unfold tpredPhase
  extract_lets o
  have h : Keep s o.s := by
    simp only [o]
    split
    · exact tputG4_keep T kk 16 (by omega) _ _
    · exact titref_keep T kk _ _ _
  exact (h.trans (tputG_keep T kk 14 (by omega) _ _)).trans (talphaStep_keep T kk 0 (by omega) _)

theorem tsigmaStep_keep (kk : ℕ) (s : Ipm K) : Keep s (tsigmaStep T kk s) := by
  unfold tsigmaStep
  extract_lets s1 s2 tmp c3 s3
  have h1 : Keep s s1 := Keep.ofCore (computeMuAff_keep _)
  have h2 : Keep s1 s2 := tputG_keep T kk 2 (by omega) _ _
  have h3 : Keep s2 s3 := Keep.ofCore ⟨rfl, rfl, rfl, rfl, rfl, rfl, rfl, rfl, rfl, rfl, rfl, rfl, rfl, rfl, rfl, rfl⟩
  exact ((h1.trans h2).trans h3).trans (tputG_keep T kk 3 (by omega) _ _)

theorem tcorrPhase_keep (kk : ℕ) (s : Ipm K) : Keep s (tcorrPhase T kk s) := by
  unfold tcorrPhase
  extract_lets s1 s2 s3 mu0 s4 s5
  have h3 : Keep s s3 :=
    (((((tsigmaStep_keep T kk s).trans (Keep.ofCore (computeCenteringCorrection_keep _))).trans (maskResM_keep T.env _)).trans
      (tsolStep_keep T _)).trans (maskStep_keep T.env _)).trans (talphaStep_keep T kk 4 (by omega) _)
  have h4 : Keep s s4 := h3.trans (Keep.ofCore (computeMuAff_keep _))
  have h5 : Keep s s5 := (h4.trans (Keep.ofCore (computeCentering_keep _))).trans (maskResM_keep T.env _)
  split
  · split
    · exact ((h5.trans (tsolStep_keep T _)).trans (maskStep_keep T.env _)).trans (talphaStep_keep T kk 4 (by omega) _)
    · exact h4
  · exact h3

theorem tcorrItref_keep (kk : ℕ) (s : Ipm K) : Keep s (tcorrItref T kk s).s := by
  unfold tcorrItref
  split
  · extract_lets o
    have h : Keep s o.s := titref_keep T kk _ _ _
    split
    · exact h.trans (talphaStep_keep T kk 4 (by omega) _)
    · exact h
  · exact Keep.refl s

/-- a step of the relative formulation is an update of the iterate along some step, everything else kept -/
theorem tdeltaStep_upd (kk : ℕ) (s : Ipm K) : ∃ s1, Keep s s1 ∧ tdeltaStep T kk s = updStep T.env s1 := by
  refine ⟨_, ?_, rfl⟩
  refine Keep.trans ?_ (tputG_keep T kk 15 (by omega) _ _)
  have k1 : Keep s (tpredPhase T kk (tfactPhase T kk (affineRhs T.env s))) :=
    ((affineRhs_keep T.env s).trans (tfactPhase_keep T kk _)).trans (tpredPhase_keep T kk _)
  have k2 : Keep s (if T.arg.i .pred_corr = 1 then tcorrItref T kk (tcorrPhase T kk (tpredPhase T kk (tfactPhase T kk (affineRhs T.env s))))
      else ⟨tpredPhase T kk (tfactPhase T kk (affineRhs T.env s)), 0, false⟩ : ItOut K).s := by
    split
    · exact (k1.trans (tcorrPhase_keep T kk _)).trans (tcorrItref_keep T kk _)
    · exact k1
  split
  · exact k2.trans (tputG4_keep T kk 16 (by omega) _ _)
  · exact k2

theorem tabsCorr_keep (kk : ℕ) (s : Ipm K) : Keep s (tabsCorr T kk s) := by
  unfold tabsCorr
  extract_lets s1 s2 s3 mu0 s4 s5
  have h3 : Keep s s3 :=
    ((((((tsigmaStep_keep T kk s).trans (Keep.ofCore (computeCenteringCorrection_keep _))).trans (maskResM_keep T.env _)).trans
      (tsolStep_keep T _)).trans (subSol_keep T.env _)).trans (maskStep_keep T.env _)).trans (talphaStep_keep T kk 4 (by omega) _)
  have h4 : Keep s s4 := h3.trans (Keep.ofCore (computeMuAff_keep _))
  have h5 : Keep s s5 := (h4.trans (Keep.ofCore (computeCentering_keep _))).trans (maskResM_keep T.env _)
  split
  · split
    · exact (((h5.trans (tsolStep_keep T _)).trans (subSol_keep T.env _)).trans (maskStep_keep T.env _)).trans (talphaStep_keep T kk 4 (by omega) _)
    · exact h4
  · exact h3

theorem tabsStep_upd (kk : ℕ) (s : Ipm K) : ∃ s1, Keep s s1 ∧ tabsStep T kk s = updStep T.env s1 := by
  refine ⟨_, ?_, rfl⟩
  have k0 : Keep s (affineRhs T.env { s with core := { s.core with
      res_m := fun i => if i < s.core.nc then -1 * s.core.res_m i + (-2) * fm T.t.qp i else s.core.res_m i } }) := by
    refine Keep.trans ?_ (affineRhs_keep T.env _)
    exact Keep.ofCore ⟨rfl, rfl, rfl, rfl, rfl, rfl, rfl, rfl, rfl, rfl, rfl, rfl, rfl, rfl, rfl, rfl⟩
  have k1 := (((k0.trans (tfactStep_keep T _)).trans (subSol_keep T.env _)).trans (maskStep_keep T.env _)).trans
    (talphaStep_keep T kk 0 (by omega) _)
  split
  · exact k1.trans (tabsCorr_keep T kk _)
  · exact k1

/-! ### statistics -/

theorem trelBody_oob (kk : ℕ) (s : Ipm K) : (trelBody T kk s).oob = s.oob := by
  unfold trelBody
  obtain ⟨s1, hk, e⟩ := tdeltaStep_upd T kk s
  rw [e]
  simp only [(tputG_keep T kk 12 (by omega) _ _).oob, (tputG_keep T kk 11 (by omega) _ _).oob, (tputG_keep T kk 6 (by omega) _ _).oob,
    (tputG4_keep T kk 7 (by omega) _ _).oob]
  show (updStep T.env s1).oob = s.oob
  rw [updStep_oob, hk.oob]

theorem tabsBody_oob (kk : ℕ) (s : Ipm K) : (tabsBody T kk s).oob = s.oob := by
  unfold tabsBody
  obtain ⟨s1, hk, e⟩ := tabsStep_upd T kk s
  rw [e]
  simp only [(tputG_keep T kk 6 (by omega) _ _).oob]
  rw [absMu_oob, updStep_oob, hk.oob]

theorem trelStart_oob (s : Ipm K) : (trelStart T s).oob = s.oob := by
  unfold trelStart
  extract_lets s1 s2
  split
  · rename_i h
    simp only [tput_oob T _ _ _ (show ((12 : ℕ) : ℤ) < 20 * (1 + T.statMax) by push_cast; omega),
      tput_oob T _ _ _ (show ((11 : ℕ) : ℤ) < 20 * (1 + T.statMax) by push_cast; omega),
      tput_oob T _ _ _ (show ((10 : ℕ) : ℤ) < 20 * (1 + T.statMax) by push_cast; omega),
      tput_oob T _ _ _ (show ((9 : ℕ) : ℤ) < 20 * (1 + T.statMax) by push_cast; omega),
      tput_oob T _ _ _ (show ((8 : ℕ) : ℤ) < 20 * (1 + T.statMax) by push_cast; omega),
      tput_oob T _ _ _ (show ((7 : ℕ) : ℤ) < 20 * (1 + T.statMax) by push_cast; omega)]
    rfl
  · rfl

theorem tabsEnd_oob (kk : ℕ) (s : Ipm K) : (tabsEnd T kk s).oob = s.oob := by
  unfold tabsEnd
  split
  · extract_lets s1
    split
    · rename_i h
      simp only [tput_oob T _ _ _ (show ((20 * kk + 12 : ℕ) : ℤ) < 20 * (1 + T.statMax) by push_cast; omega),
        tput_oob T _ _ _ (show ((20 * kk + 11 : ℕ) : ℤ) < 20 * (1 + T.statMax) by push_cast; omega),
        tput_oob T _ _ _ (show ((20 * kk + 10 : ℕ) : ℤ) < 20 * (1 + T.statMax) by push_cast; omega),
        tput_oob T _ _ _ (show ((20 * kk + 9 : ℕ) : ℤ) < 20 * (1 + T.statMax) by push_cast; omega),
        tput_oob T _ _ _ (show ((20 * kk + 8 : ℕ) : ℤ) < 20 * (1 + T.statMax) by push_cast; omega),
        tput_oob T _ _ _ (show ((20 * kk + 7 : ℕ) : ℤ) < 20 * (1 + T.statMax) by push_cast; omega)]
      rfl
    · rfl
  · rfl

theorem tsolveUnc_oob (s : Ipm K) : (tsolveUnc T s).s.oob = s.oob := by
  unfold tsolveUnc
  simp only
  split
  · split
    · rename_i h
      simp only [tput_oob T _ _ _ (show ((10 : ℕ) : ℤ) < 20 * (1 + T.statMax) by push_cast; omega),
        tput_oob T _ _ _ (show ((9 : ℕ) : ℤ) < 20 * (1 + T.statMax) by push_cast; omega),
        tput_oob T _ _ _ (show ((8 : ℕ) : ℤ) < 20 * (1 + T.statMax) by push_cast; omega),
        tput_oob T _ _ _ (show ((7 : ℕ) : ℤ) < 20 * (1 + T.statMax) by push_cast; omega),
        tput_oob T _ _ _ (show ((6 : ℕ) : ℤ) < 20 * (1 + T.statMax) by push_cast; omega)]
      rfl
    · rfl
  · rfl

theorem tipmInit_frame (s : Ipm K) : (tipmInit T s).oob = s.oob ∧ (tipmInit T s).rws = s.rws ∧ (tipmInit T s).mask = s.mask := by
  unfold tipmInit
  extract_lets D s1
  have h : s1.oob = s.oob ∧ s1.rws = s.rws ∧ s1.mask = s.mask := by
    simp only [s1]; unfold maskLam; split <;> exact ⟨rfl, rfl, rfl⟩
  exact h

end
end Hpipm
