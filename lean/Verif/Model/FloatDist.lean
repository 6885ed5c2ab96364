import Verif.Model.FloatRot
import Verif.Model.Math

/-!
# The angular distance of quaternions in floating-point arithmetic

Line numbers refer to `/repo/src/pytorch_kinematics/transforms/math.py`; the machine is that of `Model/FloatRot.lean`.
-/

namespace PK
noncomputable section

/-- `torch.sum(q1 * q2, dim=-1)`, added from left to right -/
def qdotFl (m : Machine) (a b : Quat) : ℝ :=
  m.rnd (m.rnd (m.rnd (m.rnd (a.w * b.w) + m.rnd (a.x * b.x)) + m.rnd (a.y * b.y)) + m.rnd (a.z * b.z))

/-- l.24-27 `abs_dot` -/
def absDotFl (m : Machine) (a b : Quat) : ℝ := |clampR (qdotFl m a b) (-1) 1|

/-- l.29 the argument of the square root; `torch.sqrt` returns NaN if it is negative -/
def radicandFl (m : Machine) (a b : Quat) : ℝ := m.rnd (1 - m.rnd (absDotFl m a b ^ 2))

/-- l.38-45 `quaternion_close`: one boolean for the whole batch -/
def quaternionCloseFl (m : Machine) {N : ℕ} (q1 q2 : Fin N → Quat) (eps : ℝ) : Prop :=
  ∀ n, m.rnd (1 - m.rnd (qdotFl m (q1 n) (q2 n) ^ 2)) < eps

open Classical in
/-- l.13-35 `quaternion_angular_distance`, operation by operation -/
def quaternionAngularDistanceFl (m : TrigMachine) {N : ℕ} (q1 q2 : Fin N → Quat) : Fin N → ℝ :=
  let theta := fun n =>
    let sinHalf := m.rnd (Real.sqrt (radicandFl m.toMachine (q1 n) (q2 n)))
    m.rnd (2 * m.atan2 sinHalf (absDotFl m.toMachine (q1 n) (q2 n)))
  if quaternionCloseFl m.toMachine q1 q2 1e-4 then fun _ => 0 else theta

end
end PK
