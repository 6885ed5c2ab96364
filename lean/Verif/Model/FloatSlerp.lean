import Verif.Model.FloatDist

/-!
# Spherical interpolation of quaternions in floating-point arithmetic

Line numbers refer to `/repo/src/pytorch_kinematics/transforms/math.py`; the machine is that of `Model/FloatRot.lean` with `torch.acos`.
-/

namespace PK
noncomputable section

/-- floating-point arithmetic with `torch.acos` -/
structure SlerpMachine extends TrigMachine where
  /-- `torch.acos` -/
  acos : ℝ → ℝ
  acos_err : ∀ x, |x| ≤ 1 → |acos x - Real.arccos x| ≤ κ * Real.arccos x

open Classical in
/-- l.61-63 `q2` after the negations, which are exact -/
def slerpFlipFl (m : Machine) (a b : Quat) : Quat := if qdotFl m a b < 0 then b.neg else b

open Classical in
/-- l.59-64 `cos_theta` after the negations; `torch.acos` returns NaN if it is above 1 -/
def slerpCosFl (m : Machine) (a b : Quat) : ℝ := if qdotFl m a b < 0 then -qdotFl m a b else qdotFl m a b

/-- l.71-72 `sin_theta` -/
def slerpSinFl (m : SlerpMachine) (c : ℝ) : ℝ := m.sin (m.acos c)

/-- l.75-76 one weight: `r` is `1.0 - t` or `t`, rounded to the dtype of the tensors -/
def slerpWeightFl (m : SlerpMachine) (c r : ℝ) : ℝ := m.rnd (m.sin (m.rnd (m.rnd r * m.acos c)) / slerpSinFl m c)

/-- l.77 one component -/
def slerpCompFl (m : Machine) (w1 a w2 b : ℝ) : ℝ := m.rnd (m.rnd (w1 * a) + m.rnd (w2 * b))

/-- l.68 one component of the linear interpolation -/
def lerpCompFl (m : Machine) (t a b : ℝ) : ℝ := m.rnd (a + m.rnd (m.rnd t * m.rnd (b - a)))

open Classical in
/-- l.48-77 `quaternion_slerp` on an `(N, 4)` batch with a Python number `t`, operation by operation. The Python numbers `1.0 - 1e-6` and
`1.0 - t` are rounded once, to the dtype of the tensors. -/
def quaternionSlerpFl (m : SlerpMachine) {N : ℕ} (q1 q2 : Fin N → Quat) (t : ℝ) : Fin N → Quat :=
  let q2' := fun n => slerpFlipFl m.toMachine (q1 n) (q2 n)
  let c := fun n => slerpCosFl m.toMachine (q1 n) (q2 n)
  if ∀ n, m.rnd (1 - 1e-6) < c n then fun n =>
    let f := lerpCompFl m.toMachine t
    ⟨f (q1 n).w (q2' n).w, f (q1 n).x (q2' n).x, f (q1 n).y (q2' n).y, f (q1 n).z (q2' n).z⟩
  else fun n =>
    let w1 := slerpWeightFl m (c n) (1 - t)
    let w2 := slerpWeightFl m (c n) t
    let f := fun a b => slerpCompFl m.toMachine w1 a w2 b
    ⟨f (q1 n).w (q2' n).w, f (q1 n).x (q2' n).x, f (q1 n).y (q2' n).y, f (q1 n).z (q2' n).z⟩

end
end PK
