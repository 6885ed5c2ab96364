import Verif.Model.Random
import Mathlib.Probability.Distributions.Gaussian.Multivariate

namespace PK
open MeasureTheory ProbabilityTheory Matrix WithLp

instance (k : ℕ) : IsProbabilityMeasure (randn k) := by unfold randn; infer_instance
instance (n k : ℕ) : IsProbabilityMeasure (randnRows n k) := by unfold randnRows; infer_instance

theorem norm_mulVec_of_orth {k : ℕ} (A : Matrix (Fin k) (Fin k) ℝ) (h : Aᵀ * A = 1) (v : EuclideanSpace ℝ (Fin k)) :
    ‖toLpLin 2 2 A v‖ = ‖v‖ := by
  have e : ‖toLpLin 2 2 A v‖ ^ 2 = ‖v‖ ^ 2 := by
    rw [EuclideanSpace.real_norm_sq_eq, EuclideanSpace.real_norm_sq_eq]
    have : (A *ᵥ ofLp v) ⬝ᵥ (A *ᵥ ofLp v) = ofLp v ⬝ᵥ ofLp v := by
      rw [Matrix.dotProduct_mulVec, Matrix.vecMul_mulVec, h, Matrix.vecMul_one]
    simpa [dotProduct, toLpLin_apply, pow_two] using this
  nlinarith [norm_nonneg (toLpLin 2 2 A v), norm_nonneg v, sq_nonneg (‖toLpLin 2 2 A v‖ - ‖v‖)]

/-- standard normal vectors keep their law under orthogonal matrices -/
theorem randn_orth {k : ℕ} (A : Matrix (Fin k) (Fin k) ℝ) (h : Aᵀ * A = 1) :
    (randn k).map (fun v => A *ᵥ v) = randn k := by
  let f : EuclideanSpace ℝ (Fin k) →ₗᵢ[ℝ] EuclideanSpace ℝ (Fin k) := ⟨toLpLin 2 2 A, norm_mulVec_of_orth A h⟩
  let g := f.toLinearIsometryEquiv rfl
  have hg : ∀ v, g v = toLp 2 (A *ᵥ ofLp v) := fun v => rfl
  have h1 := stdGaussian_map g
  rw [← map_pi_eq_stdGaussian] at h1
  have h2 := congrArg (Measure.map (ofLp : EuclideanSpace ℝ (Fin k) → _)) h1
  rw [Measure.map_map (by fun_prop) (by fun_prop), Measure.map_map (by fun_prop) (by fun_prop),
    Measure.map_map (by fun_prop) (by fun_prop)] at h2
  have e1 : (ofLp ∘ (toLp 2) : (Fin k → ℝ) → _) = id := rfl
  rw [e1, Measure.map_id] at h2
  exact h2

end PK
