import Verif.Model.FloatRot

/-!
# Rotation vectors to quaternions and matrices in floating-point arithmetic

Line numbers refer to `/repo/src/pytorch_kinematics/transforms/rotation_conversions.py`; the machine is that of `Model/FloatRot.lean`.
-/

namespace PK
noncomputable section

/-- l.563-587 `axis_angle_to_quaternion`, operation by operation (`0.5`, `1e-6` and `48` are Python numbers) -/
def axisAngleToQuaternionFl (m : TrigMachine) (v : V3) : Quat :=
  let angles := m.norm v
  let half := m.rnd (0.5 * angles)
  let small := m.rnd (0.5 - m.rnd (m.rnd (angles * angles) / 48))
  let large := m.rnd (m.sin half / angles)
  let f := open Classical in if |angles| < 1e-6 then small else large
  ⟨m.cos half, m.rnd (v 0 * f), m.rnd (v 1 * f), m.rnd (v 2 * f)⟩

/-- l.527-544 `axis_angle_to_matrix` -/
def axisAngleToMatrixFl (m : TrigMachine) (v : V3) : M3 := quaternionToMatrixFl m.toMachine (axisAngleToQuaternionFl m v)

end
end PK
