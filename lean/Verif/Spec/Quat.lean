import Mathlib.Algebra.Quaternion
import Verif.Model.Basic

/-! # Quaternion specification: Mathlib's Hamilton quaternions. -/

namespace PK.Spec
open Quaternion

/-- A `(w, x, y, z)` tensor as a Hamilton quaternion. -/
def toH (q : Quat) : ℍ[ℝ] := ⟨q.w, q.x, q.y, q.z⟩
/-- A 3-vector as a purely imaginary quaternion. -/
def pureH (v : V3) : ℍ[ℝ] := ⟨0, v 0, v 1, v 2⟩
/-- Unit quaternion. -/
def IsUnitQ (q : Quat) : Prop := q.w ^ 2 + q.x ^ 2 + q.y ^ 2 + q.z ^ 2 = 1
/-- Multiply all components by `c`. -/
def scaleQ (c : ℝ) (q : Quat) : Quat := ⟨c * q.w, c * q.x, c * q.y, c * q.z⟩
/-- Componentwise negation. -/
def negQ (q : Quat) : Quat := ⟨-q.w, -q.x, -q.y, -q.z⟩

end PK.Spec
