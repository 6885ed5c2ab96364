import Mathlib.LinearAlgebra.UnitaryGroup
import Mathlib.LinearAlgebra.CrossProduct
import Verif.Model.Basic

/-!
# Independent specification of rotations and rigid transforms

Nothing here refers to the code's formulas: rotations are Mathlib's special orthogonal group, the
rotation about an axis is Rodrigues' vector formula built on Mathlib's cross product.
-/

namespace PK.Spec
open Matrix

/-- `R` is a rotation matrix: an element of Mathlib's `SO(3)`. -/
def IsRot (R : M3) : Prop := R ∈ Matrix.specialOrthogonalGroup (Fin 3) ℝ

/-- A rigid transform: rotation block in SO(3), arbitrary translation, last row `0 0 0 1`. -/
def IsRigid (T : M4) : Prop :=
  IsRot (fun i j => T i.castSucc j.castSucc) ∧ T 3 = ![0, 0, 0, 1]

/-- Last row `0 0 0 1`. -/
def IsAffine (T : M4) : Prop := T 3 = ![0, 0, 0, 1]

/-- Rodrigues' formula: rotate `v` by `θ` about `k`. -/
noncomputable def rodrigues (k : V3) (θ : ℝ) (v : V3) : V3 :=
  Real.cos θ • v + Real.sin θ • (crossProduct k v) + ((1 - Real.cos θ) * (k ⬝ᵥ v)) • k

/-- The matrix whose columns are the rotated basis vectors. -/
noncomputable def rotAbout (k : V3) (θ : ℝ) : M3 :=
  Matrix.of fun i j => rodrigues k θ (Pi.single j 1) i

/-- The point `T p` for a homogeneous transform, in coordinates. -/
def act (T : M4) (p : V3) : V3 := fun i =>
  T i.castSucc 0 * p 0 + T i.castSucc 1 * p 1 + T i.castSucc 2 * p 2 + T i.castSucc 3

/-- Homogeneous matrix from blocks, entry by entry (last row `0 0 0 1`). -/
def mkHom (R : M3) (t : V3) : M4 := fun i j =>
  if hi : i.val < 3 then (if hj : j.val < 3 then R ⟨i, hi⟩ ⟨j, hj⟩ else t ⟨i, hi⟩)
  else (if j.val < 3 then 0 else 1)

end PK.Spec

namespace PK.Spec
/-- The rotation angle of a rotation matrix, from its trace: in `[0, π]`. -/
noncomputable def rotAngle (R : M3) : ℝ := Real.arccos ((R.trace - 1) / 2)
/-- Euclidean length of a 3-vector. -/
noncomputable def vlen (v : V3) : ℝ := Real.sqrt (v 0 ^ 2 + v 1 ^ 2 + v 2 ^ 2)
/-- unit vector -/
def IsUnitV (v : V3) : Prop := v 0 ^ 2 + v 1 ^ 2 + v 2 ^ 2 = 1
end PK.Spec

namespace PK.Spec
/-- Coordinate axes. -/
inductive XYZ where | x | y | z
  deriving DecidableEq, Repr
/-- Unit vector of an axis. -/
def XYZ.vec : XYZ → V3
  | .x => ![1, 0, 0] | .y => ![0, 1, 0] | .z => ![0, 0, 1]
/-- Elementary rotation about a coordinate axis. -/
noncomputable def elem (a : XYZ) (θ : ℝ) : M3 := rotAbout a.vec θ
/-- Lower-case letter. -/
def XYZ.lower : XYZ → Char
  | .x => 'x' | .y => 'y' | .z => 'z'
/-- Upper-case letter. -/
def XYZ.upper : XYZ → Char
  | .x => 'X' | .y => 'Y' | .z => 'Z'
/-- Rotation of an axis sequence: rotating (intrinsic) frames multiply left to right, static
(extrinsic) frames right to left. -/
noncomputable def seqRot (rotating : Bool) (a b c : XYZ) (e : V3) : M3 :=
  if rotating then elem a (e 0) * elem b (e 1) * elem c (e 2)
  else elem c (e 2) * elem b (e 1) * elem a (e 0)
end PK.Spec
