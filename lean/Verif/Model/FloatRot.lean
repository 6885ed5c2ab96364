import Verif.Model.Float
import Verif.Model.RotConv

/-!
# Rotation conversions in floating-point arithmetic

Line numbers refer to `/repo/src/pytorch_kinematics/transforms/rotation_conversions.py`; the machine is that of
`Model/Float.lean`.  Negation, comparison, `max`, `argmax` and `gather` are exact.
-/

namespace PK
noncomputable section

/-- A machine with the functions used on quaternions, and what is known of their errors. -/
structure TrigMachine extends Machine where
  /-- near zero the relative error of `sin` is known -/
  sin_rel : ∀ x, |x| ≤ 2 → |sin x - Real.sin x| ≤ κ * |Real.sin x|
  /-- `torch.atan2` -/
  atan2 : ℝ → ℝ → ℝ
  atan2_err : ∀ y x, 0 ≤ y → 0 ≤ x → |atan2 y x - PK.atan2 y x| ≤ κ * PK.atan2 y x
  /-- `torch.norm` of three numbers -/
  norm : V3 → ℝ
  norm_err : ∀ v, |norm v - norm3 v| ≤ γ * norm3 v

/-- l.120-130: the four sums under the square roots, from left to right -/
def diagFl (m : Machine) (M : M3) : Fin 4 → ℝ :=
  ![m.rnd (m.rnd (m.rnd (1 + M 0 0) + M 1 1) + M 2 2), m.rnd (m.rnd (m.rnd (1 + M 0 0) - M 1 1) - M 2 2),
    m.rnd (m.rnd (m.rnd (1 - M 0 0) + M 1 1) - M 2 2), m.rnd (m.rnd (m.rnd (1 - M 0 0) - M 1 1) + M 2 2)]

/-- l.101-154 `matrix_to_quaternion`, operation by operation (`flr` l.144 is 0.1 in the dtype of the matrix) -/
def matrixToQuaternionFl (m : Machine) (M : M3) : Quat :=
  let qAbs : Fin 4 → ℝ := fun c => m.rnd (Real.sqrt (max (diagFl m M c) 0))
  let quatByRijk : Fin 4 → Quat :=
    ![⟨m.rnd (qAbs 0 ^ 2), m.rnd (M 2 1 - M 1 2), m.rnd (M 0 2 - M 2 0), m.rnd (M 1 0 - M 0 1)⟩,
      ⟨m.rnd (M 2 1 - M 1 2), m.rnd (qAbs 1 ^ 2), m.rnd (M 1 0 + M 0 1), m.rnd (M 0 2 + M 2 0)⟩,
      ⟨m.rnd (M 0 2 - M 2 0), m.rnd (M 1 0 + M 0 1), m.rnd (qAbs 2 ^ 2), m.rnd (M 1 2 + M 2 1)⟩,
      ⟨m.rnd (M 1 0 - M 0 1), m.rnd (M 2 0 + M 0 2), m.rnd (M 2 1 + M 1 2), m.rnd (qAbs 3 ^ 2)⟩]
  let cand : Fin 4 → Quat := fun c =>
    let d := m.rnd (2 * max (qAbs c) (m.rnd 0.1))
    ⟨m.rnd ((quatByRijk c).w / d), m.rnd ((quatByRijk c).x / d), m.rnd ((quatByRijk c).y / d), m.rnd ((quatByRijk c).z / d)⟩
  cand (argmax4 qAbs)

/-- l.44-72 `quaternion_to_matrix`, operation by operation; the four squares are summed from left to right -/
def quaternionToMatrixFl (m : Machine) (q : Quat) : M3 :=
  let r := q.w; let i := q.x; let j := q.y; let k := q.z
  let n := m.rnd (m.rnd (m.rnd (m.rnd (r * r) + m.rnd (i * i)) + m.rnd (j * j)) + m.rnd (k * k))
  let two_s := m.rnd (2 / n)
  let sc (x : ℝ) : ℝ := m.rnd (two_s * m.rnd x)
  !![m.rnd (1 - sc (m.rnd (j * j) + m.rnd (k * k))), sc (m.rnd (i * j) - m.rnd (k * r)), sc (m.rnd (i * k) + m.rnd (j * r));
     sc (m.rnd (i * j) + m.rnd (k * r)), m.rnd (1 - sc (m.rnd (i * i) + m.rnd (k * k))), sc (m.rnd (j * k) - m.rnd (i * r));
     sc (m.rnd (i * k) - m.rnd (j * r)), sc (m.rnd (j * k) + m.rnd (i * r)), m.rnd (1 - sc (m.rnd (i * i) + m.rnd (j * j)))]

/-- l.375-393 `quaternion_raw_multiply`, operation by operation -/
def quaternionRawMultiplyFl (m : Machine) (a b : Quat) : Quat :=
  let r := m.rnd
  ⟨r (r (r (r (a.w * b.w) - r (a.x * b.x)) - r (a.y * b.y)) - r (a.z * b.z)),
   r (r (r (r (a.w * b.x) + r (a.x * b.w)) + r (a.y * b.z)) - r (a.z * b.y)),
   r (r (r (r (a.w * b.y) - r (a.x * b.z)) + r (a.y * b.w)) + r (a.z * b.x)),
   r (r (r (r (a.w * b.z) + r (a.x * b.y)) - r (a.y * b.x)) + r (a.z * b.w))⟩

/-- l.396-410 `quaternion_multiply` -/
def quaternionMultiplyFl (m : Machine) (a b : Quat) : Quat := standardizeQuaternion (quaternionRawMultiplyFl m a b)

/-- l.590-613 `quaternion_to_axis_angle`, operation by operation (`1e-6` and `48` are Python numbers) -/
def quaternionToAxisAngleFl (m : TrigMachine) (q : Quat) : V3 :=
  let norms := m.norm ![q.x, q.y, q.z]
  let half := m.atan2 norms q.w
  let angles := m.rnd (2 * half)
  let small := m.rnd (0.5 - m.rnd (m.rnd (angles * angles) / 48))
  let large := m.rnd (m.sin half / angles)
  let f := open Classical in if |angles| < 1e-6 then small else large
  ![m.rnd (q.x / f), m.rnd (q.y / f), m.rnd (q.z / f)]

end
end PK
