import Mathlib.Analysis.Calculus.FDeriv.Basic
import Mathlib.Analysis.Calculus.FDeriv.Pi
import Verif.Model.Fl

/-!
# What backpropagation has to deliver
-/

namespace PK.Spec

/-- `G` holds the partial derivatives of the differentiable loss `L` at `x` -/
def IsGrad {ι : Type} [Fintype ι] (L : (ι → ℝ) → ℝ) (x G : ι → ℝ) : Prop :=
  HasFDerivAt L (∑ j, G j • (ContinuousLinearMap.proj j : (ι → ℝ) →L[ℝ] ℝ)) x

/-- `G` is the derivative of the results of `f` at `x`, weighted by `g` -/
def IsVJP {ι μ : Type} [Fintype ι] [Fintype μ] (f : (ι → ℝ) → μ → ℝ) (x : ι → ℝ) (g : μ → ℝ) (G : ι → ℝ) : Prop :=
  IsGrad (fun x => ∑ k, g k * f x k) x G

open Classical in
/-- the partial derivatives of a loss -/
noncomputable def partials {μ : Type} [Fintype μ] (L : (μ → ℝ) → ℝ) (T : μ → ℝ) (k : μ) : ℝ := fderiv ℝ L T (Pi.single k 1)

end PK.Spec
