import Verif.Model.Float
import Verif.Model.FloatRot
import Verif.Model.Transform3d

/-!
# Transforms in floating-point arithmetic

`Transform3d` with the operations of a machine (see `Model/Float.lean`).  Line numbers refer to
`/repo/src/pytorch_kinematics/transforms/transform3d.py`.  Copies, negations, transpositions and products with 1 and -1 are exact.
-/

namespace PK
noncomputable section

/-- A machine with products of clouds of points in homogeneous coordinates with 4x4 matrices (`bmm`, l.724-751). -/
structure PointMachine extends Machine where
  /-- an entry of the product: row of the cloud, column of the matrix -/
  dot4 : (Fin 4 → ℝ) → (Fin 4 → ℝ) → ℝ
  /-- each product that enters the sum is off by a relative error of at most `γ` -/
  dot4_err : ∀ a b, ∃ θ : Fin 4 → ℝ, (∀ k, |θ k| ≤ γ) ∧ dot4 a b = ∑ k, a k * b k * (1 + θ k)
  /-- products with 0 and 1 and sums with 0 are exact -/
  dot4_last : ∀ a : Fin 4 → ℝ, a 3 = 1 → dot4 a ![0, 0, 0, 1] = 1

/-- l.264-274 `_invert_transformation_matrix`, one element: `-Rᵀ @ t` is the only arithmetic -/
def invertMatrixFl (m : Machine) (T : M4) : M4 := fun i j =>
  if h : i.val < 3 then
    if hj : j.val < 3 then T ⟨j, by omega⟩ ⟨i, by omega⟩
    else m.dot (fun k => -T k.castSucc ⟨i, by omega⟩) (posPart T)
  else T i j

/-- l.257-262, l.501, l.541, l.586-590 `_get_matrix_inverse`, dispatched on the class -/
def T3.matrixInverseFl (m : Machine) (t : T3) : List M4 :=
  match t.kind with
  | .plain => t.mats.map (invertMatrixFl m)
  | .translate => t.mats.map invertTranslate
  | .scale => t.mats.map fun T => Matrix.diagonal fun i => m.rnd (1 / T i i)
  | .rotate => t.mats.map Matrix.transpose

/-- l.276-293 `inverse` -/
def T3.inverseFl (m : Machine) (t : T3) : T3 := ⟨.plain, t.matrixInverseFl m, t.mdtype, t.mdevice, t.mdtype, t.mdevice⟩

/-- l.232-249 `compose` -/
def T3.composeFl (m : Machine) (t : T3) (others : List T3) : Except Err T3 := do
  let mat ← others.foldlM (fun mat o => bzip m.mul mat o.mats) t.mats
  return ⟨.plain, mat, t.mdtype, t.mdevice, t.mdtype, t.mdevice⟩

/-- l.328-343: the homogeneous products and the division, one batch element; signs, absolute values and the clamp are exact -/
def applyPointsFl {P : ℕ} (m : PointMachine) (eps : Option ℝ) (X : Matrix (Fin P) (Fin 3) ℝ) (M : M4) : Matrix (Fin P) (Fin 3) ℝ :=
  let out : Matrix (Fin P) (Fin 4) ℝ := Matrix.of fun p j => m.dot4 ![X p 0, X p 1, X p 2, 1] (M j)
  Matrix.of fun p j =>
    let d := out p 3
    let denom := match eps with
      | none => d
      | some e => ((if 0 < d then 1 else if d < 0 then -1 else 0) + (if d = 0 then 1 else 0)) * max |d| e
    m.rnd (out p j.castSucc / denom)

/-- l.301-349 `transform_points` -/
def T3.transformPointsFl {P : ℕ} (m : PointMachine) (t : T3) (eps : Option ℝ) (pts : Points P) : Except Err (Points P) :=
  match pts with
  | .flat x => do return reshapeBack true (← bzip (applyPointsFl m eps) [x] t.mats)
  | .batch xs => do return reshapeBack false (← bzip (applyPointsFl m eps) xs t.mats)
  | .other => .error .valueError

/-- l.368-373 `normals @ mat`, one batch element -/
def applyNormalsFl {P : ℕ} (m : Machine) (X : Matrix (Fin P) (Fin 3) ℝ) (Minv : M4) : Matrix (Fin P) (Fin 3) ℝ :=
  Matrix.of fun p j => m.dot (X p) fun k => rotPart Minv k j

/-- l.351-384 `transform_normals` -/
def T3.transformNormalsFl {P : ℕ} (m : Machine) (t : T3) (pts : Points P) : Except Err (Points P) :=
  match pts with
  | .flat x => do return reshapeBack true (← bzip (applyNormalsFl m) [x] (t.inverseFl m).mats)
  | .batch xs => do return reshapeBack false (← bzip (applyNormalsFl m) xs (t.inverseFl m).mats)
  | .other => .error .valueError

/-- rotation_conversions.py l.157-182 `_axis_angle_rotation` -/
def axisAngleRotationFl (m : Machine) (a : Ax) (angle : ℝ) : M3 :=
  let c := m.cos angle
  let s := m.sin angle
  match a with
  | .X => !![1, 0, 0; 0, c, -s; 0, s, c]
  | .Y => !![c, 0, s; 0, 1, 0; -s, 0, c]
  | .Z => !![c, -s, 0; s, c, 0; 0, 0, 1]

/-- l.593-630 `RotateAxisAngle.__init__`: the arithmetic is that of the requested dtype (`math.pi` is `π` rounded), `Rotate.__init__`
(l.553-584) with the default dtype rounds the matrix to single precision `s` -/
def T3.mkRotateAxisAngleFl (s m : Machine) (angle : AngleArg) (axis : List Char) (degrees : Bool) (device : Device) : Except Err T3 :=
  match axis.map Char.toUpper with
  | [c] =>
    match letterAx c with
    | some a => do
      let as ← handleAngle angle
      let as := if degrees then as.map fun x => m.rnd (m.rnd (x / 180) * m.rnd Real.pi) else as
      return T3.mkRotate (.mats (as.map fun x => (axisAngleRotationFl m a x).map s.rnd)) .f32 device
    | none => .error .valueError
  | _ => .error .valueError

/-- l.179-214 `Transform3d(pos=…, rot=quaternion)` on batches of the same size -/
def T3.poseFl (m : Machine) (poses : List (V3 × Quat)) (dtype : DType) (device : Device) : T3 :=
  ⟨.plain, poses.map fun p => hom (quaternionToMatrixFl m p.2) p.1, dtype, device, dtype, device⟩

/-- An expression in `Transform3d` objects: `leaf k` the k-th object, `a.compose(b)`, `a.inverse()`. -/
inductive Pipe where
  | leaf (k : ℕ)
  | compose (a b : Pipe)
  | inverse (a : Pipe)

/-- its value in floating-point arithmetic -/
def Pipe.evalFl (m : Machine) (t : ℕ → T3) : Pipe → Except Err T3
  | .leaf k => .ok (t k)
  | .compose a b => do (← a.evalFl m t).composeFl m [← b.evalFl m t]
  | .inverse a => do return (← a.evalFl m t).inverseFl m

end
end PK
