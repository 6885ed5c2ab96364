import Verif.Model.FloatRot

/-!
# Rotating points by quaternions in floating-point arithmetic

Line numbers refer to `/repo/src/pytorch_kinematics/transforms/rotation_conversions.py`; the machine is that of `Model/Float.lean`.
-/

namespace PK
noncomputable section

/-- l.429-449 `quaternion_apply`, operation by operation, on points with three coordinates; the products with 1 and -1 in
`quaternion_invert` (l.413-426) are exact -/
def quaternionApplyFl (m : Machine) (q : Quat) (p : V3) : V3 :=
  let out := quaternionRawMultiplyFl m (quaternionRawMultiplyFl m q ⟨0, p 0, p 1, p 2⟩) (quaternionInvert q)
  ![out.x, out.y, out.z]

end
end PK
