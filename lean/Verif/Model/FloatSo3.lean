import Verif.Model.FloatRot
import Verif.Model.So3

/-!
# The exponential and logarithm maps of `so3.py` in floating-point arithmetic

The machine is that of `Model/Float.lean`.  `torch.sqrt` and the division are elementary operations and rounded as such; the sum
of squares and the entries of `bmm` are sums of products (`Machine.dot`), in any order of summation.  `hat` copies and negates
entries, which is exact.  Python numbers are rounded to the format of the tensor; what
Python computes with them before (`1.0 - cos_bound`, `math.acos`, `math.sqrt`) is taken to be exact.
-/

namespace PK
noncomputable section
open Classical

/-- so3.py:92-141 `so3_exp_map` / `_so3_exp_map`, one row, operation by operation -/
def so3ExpMapFl (m : Machine) (v : V3) (eps : ℝ) : M3 :=
  let nrms := m.dot v v
  let rotAngles := m.rnd (Real.sqrt (max nrms (m.rnd eps)))
  let inv := m.rnd (1 / rotAngles)
  let fac1 := m.rnd (inv * m.sin rotAngles)
  let fac2 := m.rnd (m.rnd (inv * inv) * m.rnd (1 - m.cos rotAngles))
  let skews := hatV v
  let skewsSquare : M3 := fun i j => m.dot (skews i) (fun k => skews k j)
  fun i j => m.rnd (m.rnd (m.rnd (fac1 * skews i j) + m.rnd (fac2 * skewsSquare i j)) + (1 : M3) i j)

/-- a machine with `torch.acos`, whose rounding does not depend on the sign -/
structure LogMachine extends TrigMachine where
  acos : ℝ → ℝ
  acos_err : ∀ x, |x| ≤ 1 → |acos x - Real.arccos x| ≤ κ * Real.arccos x
  rnd_neg : ∀ x, rnd (-x) = -rnd x

/-- math.py:142-146 `_acos_linear_approximation`, operation by operation -/
def acosLinearFl (m : Machine) (x x0 : ℝ) : ℝ :=
  m.rnd (m.rnd (m.rnd (x - m.rnd x0) * m.rnd (dacosDx x0)) + m.rnd (Real.arccos x0))

/-- math.py:80-139 `acos_linear_extrapolation` with the bound `b`, one element; the comparisons are with the rounded bounds -/
def acosExtrapFl (m : LogMachine) (b x : ℝ) : ℝ :=
  if x ≤ m.rnd (-b) then acosLinearFl m.toMachine x (-b)
  else if m.rnd b ≤ x then acosLinearFl m.toMachine x b
  else m.acos x

/-- so3.py:75 `rot_trace` -/
def rotTraceFl (m : Machine) (R : M3) : ℝ := m.rnd (m.rnd (R 0 0 + R 1 1) + R 2 2)

/-- so3.py:40-89 `so3_rotation_angle` with the default arguments of `so3_log_map` (`cos_angle=False`, `cos_bound=1e-4`) -/
def so3RotationAngleFl (m : LogMachine) {N : ℕ} (R : Fin N → M3) : Except Err (Fin N → ℝ) :=
  let tr := fun n => rotTraceFl m.toMachine (R n)
  if ∃ n, tr n < m.rnd (-1 - 1e-4) ∨ m.rnd (3 + 1e-4) < tr n then .error .valueError
  else .ok fun n => acosExtrapFl m (1 - 1e-4) (m.rnd (m.rnd (tr n - 1) * 0.5))

/-- so3.py:170-175 `phi_denom` -/
def phiDenomFl (m : Machine) (phi eps : ℝ) : ℝ :=
  let s := m.sin phi
  m.rnd (m.rnd (max |s| (m.rnd eps) * signR s) + m.rnd ((if s = 0 then 1 else 0) * eps))

/-- so3.py:183-214 `hat_inv` -/
def hatInvFl (m : Machine) {N : ℕ} (h : Fin N → M3) : Except Err (Fin N → V3) :=
  if N = 0 then .error .runtimeError
  else if ∃ n i j, 1e-5 < |m.rnd (h n i j + h n j i)| then .error .valueError
  else .ok fun n => ![h n 2 1, h n 0 2, h n 1 0]

/-- so3.py:144-180 `so3_log_map` -/
def so3LogMapFl (m : LogMachine) {N : ℕ} (R : Fin N → M3) (eps : ℝ) : Except Err (Fin N → V3) := do
  let phi ← so3RotationAngleFl m R
  hatInvFl m.toMachine fun n => fun i j =>
    m.rnd (m.rnd (phi n / m.rnd (2 * phiDenomFl m.toMachine (phi n) eps)) * m.rnd (R n i j - R n j i))

end
end PK
