import Verif.Model.FloatSlerp

/-!
# The extended arccos in floating-point arithmetic

Line numbers refer to `/repo/src/pytorch_kinematics/transforms/math.py`. The tensor has the format of Python numbers, `torch.float64`, so
that Python and tensor operations round in the same way and the bounds are exact; `math.acos` and `torch.acos` have the same error bound.
-/

namespace PK
noncomputable section

/-- l.149-153 the argument of `math.sqrt` in `_dacos_dx`, which raises if it is negative -/
def dacosRadicandFl (m : Machine) (x : ℝ) : ℝ := m.rnd (1 - m.rnd (x * x))

/-- l.149-153 `_dacos_dx` -/
def dacosDxFl (m : Machine) (x : ℝ) : ℝ := m.rnd (-1 / m.rnd (Real.sqrt (dacosRadicandFl m x)))

/-- l.142-146 `_acos_linear_approximation` -/
def acosLinearApproximationFl (m : SlerpMachine) (x x0 : ℝ) : ℝ :=
  m.rnd (m.rnd (m.rnd (x - x0) * dacosDxFl m.toMachine x0) + m.acos x0)

open Classical in
/-- l.126-139 one element of `acos_linear_extrapolation`: the lower assignment is made last -/
def acosExtrapF64 (m : SlerpMachine) (lower upper x : ℝ) : ℝ :=
  if x ≤ lower then acosLinearApproximationFl m x lower
  else if upper ≤ x then acosLinearApproximationFl m x upper
  else m.acos x

end
end PK
