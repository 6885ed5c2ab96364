import Verif.Model.FloatLoad2

/-!
# The validity check of rotation matrices in floating-point arithmetic

Line numbers refer to `/repo/src/pytorch_kinematics/transforms/transform3d.py`.
-/

namespace PK
noncomputable section

/-- A machine with `torch.det`, whose error for entries up to `B` is at most `δ B³` -/
structure DetMachine extends Machine where
  det : M3 → ℝ
  δ : ℝ
  det_err : ∀ (A : M3) (B : ℝ), (∀ i j, |A i j| ≤ B) → |det A - A.det| ≤ δ * B ^ 3

/-- `torch.isclose(a, b, rtol, atol)`, one element: equal, or `|a - b| ≤ atol + |rtol * b|`, operation by operation -/
def iscloseFl (m : Machine) (rtol atol a b : ℝ) : Prop := a = b ∨ |m.rnd (a - b)| ≤ m.rnd (m.rnd atol + |m.rnd (m.rnd rtol * b)|)

/-- l.754-780 `_check_valid_rotation_matrix`: whether the warning is emitted; `compiling` is `torch.compiler.is_compiling()`, and the
default tolerances of `torch.allclose` are `rtol=1e-5`, `atol=1e-8` -/
def rotationWarnsFl (m : DetMachine) {N : ℕ} (R : Fin N → M3) (tol : ℝ) (compiling : Bool) : Prop :=
  let orthogonal := ∀ n i j, iscloseFl m.toMachine 1e-5 tol (mul3Fl m.toMachine (R n) (R n).transpose i j) ((1 : M3) i j)
  let noDistortion := ∀ n, iscloseFl m.toMachine 1e-5 1e-8 (m.det (R n)) 1
  compiling = false ∧ ¬ (orthogonal ∧ noDistortion)

end
end PK
