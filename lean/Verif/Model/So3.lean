import Verif.Model.Math

/-!
# `transforms/so3.py`

`hat` and `so3_exp_map` act row by row; `so3_rotation_angle` and `hat_inv` check the whole batch.  Shape checks
(`dim1 != 3`) are discharged by the types.
-/

namespace PK
noncomputable section
open Classical

/-- `hat` (so3.py:217-252), one row -/
def hatV (v : V3) : M3 :=
  !![0, -(v 2), v 1;
     v 2, 0, -(v 0);
     -(v 1), v 0, 0]

/-- `hat_inv` (so3.py:183-214): `.max()` of an empty tensor raises. -/
def hatInv {N : ℕ} (h : Fin N → M3) : Except Err (Fin N → V3) :=
  if N = 0 then .error .runtimeError
  else if ∃ n i j, 1e-5 < |h n i j + h n j i| then .error .valueError
  else .ok fun n => ![h n 2 1, h n 0 2, h n 1 0]

/-- `so3_rotation_angle` (so3.py:40-89). For `cos_bound <= 0` the code calls `torch.acos`, NaN outside `[-1, 1]`,
which `Real.arccos` does not represent. -/
def so3RotationAngle {N : ℕ} (R : Fin N → M3) (eps : ℝ) (cosAngle : Bool) (cosBound : ℝ) :
    Except Err (Fin N → ℝ) :=
  let tr := fun n => R n 0 0 + R n 1 1 + R n 2 2
  if ∃ n, tr n < -1 - eps ∨ 3 + eps < tr n then .error .valueError
  else
    let phiCos := fun n => (tr n - 1) * 0.5
    if cosAngle then .ok phiCos
    else if 0 < cosBound then acosLinearExtrapolation phiCos (.scalar (1 - cosBound))
    else .ok fun n => Real.arccos (phiCos n)

/-- `so3_relative_angle` (so3.py:12-37) -/
def so3RelativeAngle {N : ℕ} (R1 R2 : Fin N → M3) (cosAngle : Bool) : Except Err (Fin N → ℝ) :=
  so3RotationAngle (fun n => R1 n * (R2 n).transpose) 1e-4 cosAngle 1e-4

/-- `so3_exp_map` / `_so3_exp_map` (so3.py:92-141), one row -/
def so3ExpMap (v : V3) (eps : ℝ) : M3 :=
  let nrms := dot v v
  let rotAngles := Real.sqrt (max nrms eps)
  let inv := 1 / rotAngles
  let fac1 := inv * Real.sin rotAngles
  let fac2 := inv * inv * (1 - Real.cos rotAngles)
  fac1 • hatV v + fac2 • (hatV v * hatV v) + 1

/-- `torch.sign` -/
def signR (x : ℝ) : ℝ := if 0 < x then 1 else if x < 0 then -1 else 0

/-- `phi_denom` (so3.py:172-175) -/
def phiDenom (phi eps : ℝ) : ℝ :=
  max |Real.sin phi| eps * signR (Real.sin phi) + (if Real.sin phi = 0 then 1 else 0) * eps

/-- `so3_log_map` (so3.py:144-180) -/
def so3LogMap {N : ℕ} (R : Fin N → M3) (eps : ℝ) : Except Err (Fin N → V3) := do
  let phi ← so3RotationAngle R 1e-4 false 1e-4
  hatInv fun n => (phi n / (2 * phiDenom (phi n) eps)) • (R n - (R n).transpose)

end
end PK
