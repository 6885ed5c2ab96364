import Verif.Model.Random
import Verif.Spec.Rot

/-!
# What "uniform" means for rotations and for directions

Both are stated by symmetry: a law that no rotation changes.  `Props/Random.lean` proves that there is only one such law.
-/

namespace PK.Spec
open MeasureTheory ProbabilityTheory Matrix

/-- a probability law of rotation matrices that is unchanged when the random rotation is followed or preceded by any fixed
rotation -/
structure UniformRot (μ : Measure M3) : Prop where
  prob : IsProbabilityMeasure μ
  rot : ∀ᵐ R ∂μ, IsRot R
  left : ∀ Q, IsRot Q → μ.map (fun R => Q * R) = μ
  right : ∀ Q, IsRot Q → μ.map (fun R => R * Q) = μ

/-- a probability law of unit vectors that is unchanged by every rotation -/
structure UniformDir (μ : Measure V3) : Prop where
  prob : IsProbabilityMeasure μ
  unit : ∀ᵐ v ∂μ, IsUnitV v
  inv : ∀ Q, IsRot Q → μ.map (fun v => Q *ᵥ v) = μ

/-- the normal law with mean 0 and standard deviation `|σ|` -/
noncomputable def normal (σ : ℝ) : Measure ℝ := gaussianReal 0 (.mk (σ ^ 2) (sq_nonneg σ))

/-- three independent normal coordinates -/
noncomputable def normal3 (σ : ℝ) : Measure V3 := Measure.pi fun _ => normal σ

/-- a normal law in the plane perpendicular to `a`: in any two perpendicular unit directions of the plane the coordinates
are independent and normal with standard deviation `|σ|` -/
structure PlanarNormal (a : V3) (σ : ℝ) (μ : Measure V3) : Prop where
  prob : IsProbabilityMeasure μ
  perp : ∀ᵐ v ∂μ, v ⬝ᵥ a = 0
  coords : ∀ u w : V3, IsUnitV u → IsUnitV w → u ⬝ᵥ w = 0 → u ⬝ᵥ a = 0 → w ⬝ᵥ a = 0 →
    μ.map (fun v => (u ⬝ᵥ v, w ⬝ᵥ v)) = (normal σ).prod (normal σ)

/-- The displacement of the origin of `P` and the rotation that takes the orientation of `T` to that of `P`, both in world
coordinates -/
def noise (T P : M4) : V3 × M3 :=
  (fun i => P i.castSucc 3 - T i.castSucc 3,
   (Matrix.of fun i j => P (Fin.castSucc i) (Fin.castSucc j)) * (Matrix.of fun i j => T (Fin.castSucc i) (Fin.castSucc j))ᵀ)

end PK.Spec
