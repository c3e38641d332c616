/-
The relative and the absolute formulation of the solver take the same steps when there is no regularisation (C89).
-/
import Verif.MehUser

namespace Hpipm
open Finset

section
variable {K : Type*} [Field K] [LinearOrder K] [IsStrictOrderedRing K]

theorem Dir.anyProx {qp : OcpQp K} {p p' z : Sol K} {rm : ℕ → Vec K} {d : Sol K} (h : Dir qp 0 p z rm d) : Dir qp 0 p' z rm d :=
  ⟨fun k i hk hi => by rw [h.g k i hk hi]; ring, h.b, h.ineq, h.m, h.off⟩

/-- arguments that differ in the formulation only -/
structure SameButForm (arg arg' : IpmArg K) : Prop where
  r : ∀ f, arg'.r f = arg.r f
  i : ∀ f, f ≠ .abs_form → arg'.i f = arg.i f

theorem StepLen.form {sq : K → K} {qp : OcpQp K} {arg arg' : IpmArg K} (h : SameButForm arg arg') {z d : Sol K} {ap ad : K}
    (hs : StepLen sq qp arg z d ap ad) : StepLen sq qp arg' z d ap ad := by
  obtain ⟨c, h1, h2, h3, h4, h5, h6⟩ := hs
  exact ⟨c, h1, h2, by rw [h.i _ (by decide)]; exact h3, h4, by rw [h.r]; exact h5, h6⟩

theorem Moved.form {qp : OcpQp K} {arg arg' : IpmArg K} (h : SameButForm arg arg') {z d z' : Sol K} {ap ad : K}
    (hs : Moved qp arg z d ap ad z') : Moved qp arg' z d ap ad z' :=
  ⟨hs.ux, hs.pi, by rw [h.i _ (by decide), h.r]; exact hs.lam, by rw [h.i _ (by decide), h.r]; exact hs.t⟩

/-- **C89** without regularisation an iteration does not depend on the formulation -/
theorem MehIter.form {sq : K → K} {qp : OcpQp K} {arg arg' : IpmArg K} (h : SameButForm arg arg') (h0 : arg.r .reg_prim = 0)
    {z z' : Sol K} {ap ad : K} (hs : MehIter sq qp arg z ap ad z') : MehIter sq qp arg' z ap ad z' := by
  unfold MehIter at hs ⊢
  simp only [h.r, h.i .pred_corr (by decide), h.i .cond_pred_corr (by decide), h0] at hs ⊢
  obtain ⟨da, aA, dA, h1, h2, d, h3, h4, h5, h6⟩ := hs
  refine ⟨da, aA, dA, h1.anyProx, h2.form h, d, h3.form h, h4.form h, h5, fun hp => ?_⟩
  obtain ⟨dc, aC, dC, g1, g2, g3, g4⟩ := h6 hp
  exact ⟨dc, aC, dC, g1.anyProx, g2.form h, fun hc => (g3 hc).anyProx, g4⟩

end
end Hpipm
