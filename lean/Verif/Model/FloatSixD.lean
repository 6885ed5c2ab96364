import Verif.Model.FloatRot
import Verif.Model.FloatJac

/-!
# The 6D representation of rotations in floating-point arithmetic

Line numbers refer to `/repo/src/pytorch_kinematics/transforms/rotation_conversions.py`; the machine is that of `Model/FloatRot.lean`.
-/

namespace PK
noncomputable section

/-- `torch.nn.functional.normalize`: `v / v.norm(2, dim, keepdim=True).clamp_min(1e-12)` -/
def fNormalizeFl (m : TrigMachine) (v : V3) : V3 := fun i => m.rnd (v i / max (m.norm v) (m.rnd 1e-12))

/-- l.616-637 `rotation_6d_to_matrix` on the two halves `a1 = d6[:3]`, `a2 = d6[3:]`, operation by operation; `(b1 * a2).sum` is a
sum of products in any order, `torch.cross` consists of `Machine.det2` -/
def rotation6dToMatrixFl (m : TrigMachine) (a1 a2 : V3) : M3 :=
  let b1 := fNormalizeFl m a1
  let s := m.dot b1 a2
  let b2 := fNormalizeFl m fun i => m.rnd (a2 i - m.rnd (s * b1 i))
  let b3 := crossFl m.toMachine b1 b2
  !![b1 0, b1 1, b1 2; b2 0, b2 1, b2 2; b3 0, b3 1, b3 2]

end
end PK
