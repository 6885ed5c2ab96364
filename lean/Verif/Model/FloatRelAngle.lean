import Verif.Model.FloatSo3
import Verif.Model.FloatLoad2

/-!
# Relative angles of rotation matrices in floating-point arithmetic

Line numbers refer to `/repo/src/pytorch_kinematics/transforms/so3.py`; the machine is that of `Model/FloatSo3.lean`.
-/

namespace PK
noncomputable section
open Classical

/-- l.40-82 `so3_rotation_angle` with `cos_angle=True` -/
def so3RotationCosFl (m : LogMachine) {N : ℕ} (R : Fin N → M3) : Except Err (Fin N → ℝ) :=
  let tr := fun n => rotTraceFl m.toMachine (R n)
  if ∃ n, tr n < m.rnd (-1 - 1e-4) ∨ m.rnd (3 + 1e-4) < tr n then .error .valueError
  else .ok fun n => m.rnd (m.rnd (tr n - 1) * 0.5)

/-- l.12-37 `so3_relative_angle`, operation by operation -/
def so3RelativeAngleFl (m : LogMachine) {N : ℕ} (R1 R2 : Fin N → M3) (cosAngle : Bool) : Except Err (Fin N → ℝ) :=
  let R12 := fun n => mul3Fl m.toMachine (R1 n) (R2 n).transpose
  if cosAngle then so3RotationCosFl m R12 else so3RotationAngleFl m R12

end
end PK
