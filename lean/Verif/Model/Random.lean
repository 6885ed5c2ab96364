import Verif.Model.Perturb
import Mathlib.Probability.Distributions.Gaussian.Real
import Mathlib.MeasureTheory.Constructions.Pi

/-!
# The distribution of what is sampled

`torch.randn` and `torch.rand` are the only sources of randomness in the library.  They are modelled by their documented
distributions over the reals: independent standard normal entries, and independent entries uniform on `[0, 1)`.  Each call
of `torch.randn` is independent of the others.  A sampling function is then a map applied to the draws, and what it returns
has the image measure as its law.
-/

namespace PK
open MeasureTheory ProbabilityTheory
noncomputable section

/-- matrices are measured entry by entry -/
instance : MeasurableSpace M3 := inferInstanceAs (MeasurableSpace (Fin 3 → Fin 3 → ℝ))
/-- matrices are measured entry by entry -/
instance : MeasurableSpace M4 := inferInstanceAs (MeasurableSpace (Fin 4 → Fin 4 → ℝ))

/-- one row of `torch.randn((n, k))`; `torch.randn(n)` is the case of a single row -/
def randn (k : ℕ) : Measure (Fin k → ℝ) := Measure.pi fun _ => gaussianReal 0 1

/-- `torch.randn((n, k))` -/
def randnRows (n k : ℕ) : Measure (Fin n → Fin k → ℝ) := Measure.pi fun _ => randn k

/-- one row of `torch.rand((n, k))` -/
def randU (k : ℕ) : Measure (Fin k → ℝ) := Measure.pi fun _ => volume.restrict (Set.Ico 0 1)

/-- `torch.rand((n, k))` -/
def randURows (n k : ℕ) : Measure (Fin n → Fin k → ℝ) := Measure.pi fun _ => randU k

/-- a row of four numbers as a quaternion, real part first -/
def rowQuat (o : Fin 4 → ℝ) : Quat := ⟨o 0, o 1, o 2, o 3⟩

/-- rotation_conversions.py:318-338 `random_rotations(n)` as a function of `o = torch.randn((n, 4))` (l.312) -/
def randomRotations {n : ℕ} (o : Fin n → Fin 4 → ℝ) : Fin n → M3 := fun r => randomRotation (rowQuat (o r))

/-- the law of what `random_rotations(n)` returns -/
def randomRotationsLaw (n : ℕ) : Measure (Fin n → M3) := (randnRows n 4).map randomRotations

/-- The three draws of `sample_perturbations` (perturbation.py:24, 26, 34) as one table of rows. The third tensor is drawn
only when no axis is given; when it is not used, its presence does not matter. -/
def perturbDraws {n : ℕ} (x : (Fin n → Fin 3 → ℝ) × (Fin n → ℝ) × (Fin n → Fin 3 → ℝ)) : Fin n → PerturbDraw :=
  fun r => ⟨x.1 r, x.2.1 r, x.2.2 r⟩

/-- the joint law of the three draws of `sample_perturbations` (perturbation.py:24, 26, 34) -/
def perturbDrawLaw (n : ℕ) : Measure ((Fin n → Fin 3 → ℝ) × (Fin n → ℝ) × (Fin n → Fin 3 → ℝ)) :=
  (randnRows n 3).prod ((randn n).prod (randnRows n 3))

/-- the law of what `sample_perturbations(T, n, …)` returns (perturbation.py:5-45) -/
def samplePerturbationsLaw {n : ℕ} (T : Fin n → M4) (radSigma tSigma : ℝ) (axis : Option V3) (perp : Bool) :
    Measure (Fin n → M4) :=
  (perturbDrawLaw n).map fun x => samplePerturbations T (perturbDraws x) radSigma tSigma axis perp

end
end PK
