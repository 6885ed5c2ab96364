import Mathlib.LinearAlgebra.Matrix.Notation
import Mathlib.LinearAlgebra.Matrix.NonsingularInverse
import Mathlib.Analysis.SpecialFunctions.Trigonometric.Inverse
import Mathlib.Analysis.SpecialFunctions.Complex.Arg

/-!
# Basic data of the model

Tensors of shape `(…, 3)`, `(…, 4)`, `(…, 3, 3)`, `(…, 4, 4)` are modelled per batch element;
all functions of `rotation_conversions.py` act element-wise on the leading dimensions (proved in
`Props/Batch.lean`, C121).  Scalars are exact reals (`float32/64` rounding is not modelled).
-/

namespace PK

/-- A 3-vector (`(…, 3)` tensor, one batch element). -/
abbrev V3 := Fin 3 → ℝ
/-- A 3×3 matrix (`(…, 3, 3)` tensor, one batch element). -/
abbrev M3 := Matrix (Fin 3) (Fin 3) ℝ
/-- A 4×4 matrix (`(…, 4, 4)` tensor, one batch element). -/
abbrev M4 := Matrix (Fin 4) (Fin 4) ℝ

/-- Python exceptions the modelled code can raise. The payload text is not modelled. -/
inductive Err where
  | valueError | keyError | runtimeError | notImplemented | unboundLocal | attributeError
  | indexError | typeError | recursionError | zeroDivision
  /-- `xml_reflection.core.ParseError`, or another exception raised while reading the XML text -/
  | parseError
  /-- a value the model does not represent (a vector entry that is NaN or infinite) -/
  | unmodelled
  /-- a read of memory never written (`torch.empty`); not a Python exception, proved unreachable -/
  | uninitialised
  deriving DecidableEq, Repr

/-- A quaternion tensor element `(…, 4)`, real part first. -/
@[ext] structure Quat where
  w : ℝ
  x : ℝ
  y : ℝ
  z : ℝ

/-- `m[..., :3, :3]`. -/
def rotPart (m : M4) : M3 := fun i j => m i.castSucc j.castSucc
/-- `m[..., :3, 3]`. -/
def posPart (m : M4) : V3 := fun i => m i.castSucc 3

/-- `torch.cross(a, b, dim=-1)`. -/
def cross (a b : V3) : V3 :=
  ![a 1 * b 2 - a 2 * b 1, a 2 * b 0 - a 0 * b 2, a 0 * b 1 - a 1 * b 0]

/-- `(a * b).sum(-1)` for 3-vectors. -/
def dot (a b : V3) : ℝ := a 0 * b 0 + a 1 * b 1 + a 2 * b 2

/-- `v.norm(dim=-1)` (`torch.norm(v, p=2, dim=-1)`). -/
noncomputable def norm3 (v : V3) : ℝ := Real.sqrt (dot v v)

/-- `torch.atan2(y, x)`. Reals have no signed zero, so `atan2(-0., -1.) = -π` is not represented. -/
noncomputable def atan2 (y x : ℝ) : ℝ := Complex.arg ⟨x, y⟩

/-- Writing `R` into `[:3,:3]`, `t` into `[:3,3]` of an identity / of `zeros` with `[3,3]=1`. -/
def hom (R : M3) (t : V3) : M4 :=
  !![R 0 0, R 0 1, R 0 2, t 0;
     R 1 0, R 1 1, R 1 2, t 1;
     R 2 0, R 2 1, R 2 2, t 2;
     0, 0, 0, 1]

end PK
