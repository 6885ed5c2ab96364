import Verif.Model.RotConv
import Verif.Lemmas.Exc

/-!
# `transforms/transform3d.py`

A batch of matrices is a list.  dtype and device are tags; a conversion between dtypes changes the tag only (values
are exact reals).  Not modelled: `batch_to_batch=True` (calls `arm_pytorch_utilities.linalg`, not in the repository),
`__repr__`, gradients, `warnings.warn` in `_check_valid_rotation_matrix`.
-/

namespace PK
noncomputable section
open Classical

/-- torch floating dtypes -/
inductive DType where | f32 | f64
  deriving DecidableEq, Repr
/-- a device tag -/
abbrev Device := ℕ
/-- `'cpu'` -/
def cpu : Device := 0

/-- the Python class of the object: decides which `_get_matrix_inverse` runs -/
inductive TKind where | plain | translate | scale | rotate
  deriving DecidableEq, Repr

/-- A `Transform3d` object: `_matrix` (values, dtype, device) and the attributes `dtype`, `device`. -/
structure T3 where
  kind : TKind
  mats : List M4
  mdtype : DType
  mdevice : Device
  dtype : DType
  device : Device

/-- `_broadcast_bmm` (transform3d.py:724-751) as a broadcasting zip; the product is an argument. -/
def bzip {α β γ : Type} (f : α → β → γ) (a : List α) (b : List β) : Except Err (List γ) :=
  if a.length ≠ b.length then
    if ¬ (a.length = 1 ∨ b.length = 1) then .error .valueError
    else
      let a' := match a with | [x] => List.replicate b.length x | l => l
      let b' := match b with | [y] => List.replicate a'.length y | l => l
      .ok (List.zipWith f a' b')
  else .ok (List.zipWith f a b)

/-- The `points` argument: `(P,3)`, `(N,P,3)`, or a tensor of any other rank. -/
inductive Points (P : ℕ) where
  | flat (x : Matrix (Fin P) (Fin 3) ℝ)
  | batch (xs : List (Matrix (Fin P) (Fin 3) ℝ))
  | other

/-- `compose` (transform3d.py:232-249): left to right over `others`. -/
def T3.compose (t : T3) (others : List T3) : Except Err T3 := do
  let mat ← others.foldlM (fun mat o => bzip (· * ·) mat o.mats) t.mats
  return ⟨.plain, mat, t.mdtype, t.mdevice, t.mdtype, t.mdevice⟩

/-- `_invert_transformation_matrix` (transform3d.py:264-274), one element -/
def invertMatrix (T : M4) : M4 := fun i j =>
  if h : i.val < 3 then
    if hj : j.val < 3 then T ⟨j, by omega⟩ ⟨i, by omega⟩
    else -(T 0 ⟨i, by omega⟩ * T 0 3 + T 1 ⟨i, by omega⟩ * T 1 3 + T 2 ⟨i, by omega⟩ * T 2 3)
  else T i j

/-- `Translate._get_matrix_inverse` (transform3d.py:501-508), one element -/
def invertTranslate (T : M4) : M4 := fun i j => T i j * (if i.val < 3 ∧ j.val = 3 then -1 else 1)

/-- `Scale._get_matrix_inverse` (transform3d.py:541-548), one element. `1/0 = inf` is not represented. -/
def invertScale (T : M4) : M4 := Matrix.diagonal fun i => 1 / T i i

/-- `_get_matrix_inverse`, dispatched on the class (transform3d.py:257-262, 501, 541, 586-590) -/
def T3.matrixInverse (t : T3) : List M4 :=
  match t.kind with
  | .plain => t.mats.map invertMatrix
  | .translate => t.mats.map invertTranslate
  | .scale => t.mats.map invertScale
  | .rotate => t.mats.map Matrix.transpose

/-- `inverse` (transform3d.py:276-293); a `matrix` argument sets `device` and `dtype` from itself -/
def T3.inverse (t : T3) : T3 := ⟨.plain, t.matrixInverse, t.mdtype, t.mdevice, t.mdtype, t.mdevice⟩

/-- `stack` (transform3d.py:295-299) on a common dtype and device -/
def T3.stack (t : T3) (others : List T3) : T3 :=
  ⟨.plain, t.mats ++ (others.map T3.mats).flatten, t.mdtype, t.mdevice, t.mdtype, t.mdevice⟩

/-- `__getitem__` with an integer (transform3d.py:223-224) -/
def T3.get (t : T3) (i : ℕ) : Except Err T3 :=
  match t.mats[i]? with
  | some m => .ok ⟨.plain, [m], t.mdtype, t.mdevice, t.mdtype, t.mdevice⟩
  | none => .error .indexError

/-- `torch.cat([points, ones]) @ Mᵀ`, then division by the clamped last coordinate (transform3d.py:328-343), one
batch element. A zero denominator (`inf`/`nan`) is not represented; theorems are about matrices with last row
`0 0 0 1`, where the denominator is 1. -/
def applyPoints {P : ℕ} (eps : Option ℝ) (X : Matrix (Fin P) (Fin 3) ℝ) (M : M4) : Matrix (Fin P) (Fin 3) ℝ :=
  let out : Matrix (Fin P) (Fin 4) ℝ := Matrix.of fun p j => X p 0 * M j 0 + X p 1 * M j 1 + X p 2 * M j 2 + 1 * M j 3
  Matrix.of fun p j =>
    let d := out p 3
    let denom := match eps with
      | none => d
      | some e => ((if 0 < d then 1 else if d < 0 then -1 else 0) + (if d = 0 then 1 else 0)) * max |d| e
    out p j.castSucc / denom

/-- the final reshape (transform3d.py:345-348) -/
def reshapeBack {P : ℕ} (isFlat : Bool) (out : List (Matrix (Fin P) (Fin 3) ℝ)) : Points P :=
  match isFlat, out with
  | true, [x] => .flat x
  | _, l => .batch l

/-- `transform_points` (transform3d.py:301-349) -/
def T3.transformPoints {P : ℕ} (t : T3) (eps : Option ℝ) (pts : Points P) : Except Err (Points P) :=
  match pts with
  | .flat x => do return reshapeBack true (← bzip (applyPoints eps) [x] t.mats)
  | .batch xs => do return reshapeBack false (← bzip (applyPoints eps) xs t.mats)
  | .other => .error .valueError

/-- `normals @ mat` with `mat = inverse()[:, :3, :3]`, one element (transform3d.py:368-373) -/
def applyNormals {P : ℕ} (X : Matrix (Fin P) (Fin 3) ℝ) (Minv : M4) : Matrix (Fin P) (Fin 3) ℝ := X * rotPart Minv

/-- `transform_normals` (transform3d.py:351-384) -/
def T3.transformNormals {P : ℕ} (t : T3) (pts : Points P) : Except Err (Points P) :=
  match pts with
  | .flat x => do return reshapeBack true (← bzip applyNormals [x] t.inverse.mats)
  | .batch xs => do return reshapeBack false (← bzip applyNormals xs t.inverse.mats)
  | .other => .error .valueError

/-- `shape_operators`: `(P,3,3)`, `(N,P,3,3)`, or any other rank -/
inductive ShapeOps where
  | batch (s : List M3)
  | batch4 (s : List (List M3))
  | other

/-- `transform_shape_operator` (transform3d.py:386-409). `Tensor.bmm` rejects the documented 4-dimensional input.
The final reshape keeps the shape of a `(P,3,3)` result. -/
def T3.transformShapeOperator (t : T3) (s : ShapeOps) : Except Err (List M3) :=
  match s with
  | .other => .error .valueError
  | .batch4 s =>
    -- `_broadcast_bmm` checks the leading sizes before calling `bmm`
    let n := t.mats.length
    if s.length ≠ n ∧ ¬ (s.length = 1 ∨ n = 1) then .error .valueError else .error .runtimeError
  | .batch s => do
    let mat := t.inverse.mats.map rotPart
    let inner ← bzip (· * ·) s mat
    bzip (· * ·) (mat.map Matrix.transpose) inner

/-! ## constructors -/

/-- `matrix` argument, or `default_batch_size` when it is absent -/
inductive MatArg where
  | default (n : ℕ)
  | single (m : M4)
  | batch (ms : List M4)
  | badShape

/-- `pos` argument of shape `(3,)` or `(N,3)` -/
inductive PosArg where
  | single (p : V3)
  | batch (ps : List V3)

/-- `rot` argument: matrix, quaternion or three angles, single or batched -/
inductive RotArg where
  | mat (r : M3)
  | mats (rs : List M3)
  | quat (q : Quat)
  | quats (qs : List Quat)
  | angles (e : V3)
  | anglesBatch (es : List V3)

/-- `euler_angles_to_matrix(rot, "XYZ")`, which does not fail for this convention -/
def eulerXYZ (e : V3) : M3 :=
  match eulerAnglesToMatrix e ['X', 'Y', 'Z'] with
  | .ok m => m
  | .error _ => 0

/-- `rot` after the shape dispatch (transform3d.py:203-206): the 3×3 matrices and whether there is a batch
dimension.  A `(3,3)` tensor is always taken as a matrix, also when it holds three angle triples. -/
def RotArg.toMats : RotArg → List M3 × Bool
  | .mat r => ([r], false)
  | .mats rs => (rs, true)
  | .quat q => ([quaternionToMatrix q], false)
  | .quats qs => (qs.map quaternionToMatrix, true)
  | .angles e => ([eulerXYZ e], false)
  | .anglesBatch [a, b, c] => ([Matrix.of ![a, b, c]], false)
  | .anglesBatch es => (es.map eulerXYZ, true)

/-- `self._matrix` from the `matrix` argument (transform3d.py:178-189) -/
def initMatrix : MatArg → Except Err (List M4)
  | .default n => .ok (List.replicate n 1)
  | .single m => .ok [m]
  | .batch ms => .ok ms
  | .badShape => .error .valueError

/-- `torch.cat((…), dim=-1)` of two batches: sizes must agree -/
def catLast {α β γ : Type} (f : α → β → γ) (a : List α) (b : List β) : Except Err (List γ) :=
  if a.length = b.length then .ok (List.zipWith f a b) else .error .runtimeError

/-- replace the last column by `(p, 1)` -/
def withPos (m : M4) (p : V3) : M4 := fun i j =>
  if j.val < 3 then m i j else if h : i.val < 3 then p ⟨i, h⟩ else 1

/-- replace the first three columns by `rot` over a zero row -/
def withRot (r : M3) (m : M4) : M4 := fun i j =>
  if hj : j.val < 3 then (if hi : i.val < 3 then r ⟨i, hi⟩ ⟨j, hj⟩ else 0) else m i j

/-- `if … shape[0] > 1 and self._matrix.shape[0] == 1: self._matrix.repeat(…)` (transform3d.py:197-198, 209-210) -/
def repeatTo (batched : Bool) (n : ℕ) (ms : List M4) : List M4 :=
  match batched, ms with
  | true, [m] => if 1 < n then List.replicate n m else [m]
  | _, ms => ms

/-- the `pos` block (transform3d.py:191-201) -/
def setPos (ms : List M4) : Option PosArg → Except Err (List M4)
  | none => .ok ms
  | some (.single p) => catLast withPos ms [p]
  | some (.batch ps) => catLast withPos (repeatTo true ps.length ms) ps

/-- the `rot` block (transform3d.py:202-212) -/
def setRot (ms : List M4) : Option RotArg → Except Err (List M4)
  | none => .ok ms
  | some r =>
    let (rs, b) := r.toMats
    catLast withRot rs (repeatTo b rs.length ms)

/-- `Transform3d.__init__` (transform3d.py:146-218). Tensors of one dtype and device are assumed. -/
def T3.init (matrix : MatArg) (pos : Option PosArg) (rot : Option RotArg) (dtype : DType) (device : Device) :
    Except Err T3 := do
  let ms ← initMatrix matrix
  let ms ← setPos ms pos
  let ms ← setRot ms rot
  return ⟨.plain, ms, dtype, device, dtype, device⟩

/-- A coordinate argument: `None`, a scalar (Python or 0-dimensional), or a 1-D tensor. -/
inductive Coord where
  | none
  | scalar (x : ℝ)
  | vec (xs : List ℝ)

/-- `_handle_coord` (transform3d.py:633-647); `torch.tensor(None)` raises -/
def handleCoord : Coord → Except Err (List ℝ)
  | .none => .error .runtimeError
  | .scalar x => .ok [x]
  | .vec xs => .ok xs

/-- first argument of `Translate`/`Scale`: a coordinate or a 2-D tensor with the given number of columns -/
inductive CoordX where
  | coord (c : Coord)
  | mat3 (rows : List V3)
  | matBad

/-- `c.expand(N)`: legal when the size is 1 or `N` -/
def expandVec (n : ℕ) : List ℝ → List ℝ
  | [x] => List.replicate n x
  | l => l

/-- `_handle_input` (transform3d.py:650-704) -/
def handleInput (x : CoordX) (y z : Coord) (allowSingleton : Bool) : Except Err (List V3) :=
  match x with
  | .matBad => .error .valueError
  | .mat3 rows =>
    match y, z with
    | .none, .none => .ok rows
    | _, _ => .error .valueError
  | .coord c => do
    let (y, z) := match allowSingleton, y, z with
      | true, .none, .none => (c, c)
      | _, y, z => (y, z)
    let xs ← handleCoord c
    let ys ← handleCoord y
    let zs ← handleCoord z
    let n := max xs.length (max ys.length zs.length)
    if (xs.length ≠ 1 ∧ xs.length ≠ n) ∨ (ys.length ≠ 1 ∧ ys.length ≠ n) ∨ (zs.length ≠ 1 ∧ zs.length ≠ n) then
      .error .valueError
    else
      return List.zipWith (fun a bc => ![a, bc.1, bc.2]) (expandVec n xs) ((expandVec n ys).zip (expandVec n zs))

/-- `Translate.__init__` (transform3d.py:478-499). `super().__init__(device=device)` leaves `self.dtype` at
`float32` whatever `dtype` is. -/
def T3.mkTranslate (x : CoordX) (y z : Coord) (dtype : DType) (device : Device) : Except Err T3 := do
  let xyz ← handleInput x y z false
  return ⟨.translate, xyz.map fun p => hom 1 p, dtype, device, .f32, device⟩

/-- `Scale.__init__` (transform3d.py:512-539) -/
def T3.mkScale (x : CoordX) (y z : Coord) (dtype : DType) (device : Device) : Except Err T3 := do
  let xyz ← handleInput x y z true
  return ⟨.scale, xyz.map fun p => Matrix.diagonal ![p 0, p 1, p 2, 1], dtype, device, .f32, device⟩

/-- `Rotate.__init__` (transform3d.py:552-584); invalid matrices only cause a warning. -/
def T3.mkRotate (r : RotArg) (dtype : DType) (device : Device) : T3 :=
  ⟨.rotate, r.toMats.1.map fun R => hom R 0, dtype, device, .f32, device⟩

/-- the `angle` argument of `RotateAxisAngle`: scalar, 1-D, or a tensor of higher rank -/
inductive AngleArg where
  | scalar (x : ℝ)
  | vec (xs : List ℝ)
  | bad

/-- `_handle_angle_input` (transform3d.py:707-721) -/
def handleAngle : AngleArg → Except Err (List ℝ)
  | .scalar x => .ok [x]
  | .vec xs => .ok xs
  | .bad => .error .valueError

/-- `RotateAxisAngle.__init__` (transform3d.py:593-630); `super().__init__(device=device, R=R)` uses the default
dtype `float32`. -/
def T3.mkRotateAxisAngle (angle : AngleArg) (axis : List Char) (degrees : Bool) (device : Device) : Except Err T3 :=
  match axis.map Char.toUpper with
  | [c] =>
    match letterAx c with
    | some a => do
      let as ← handleAngle angle
      let as := if degrees then as.map fun x => x / 180 * Real.pi else as
      return T3.mkRotate (.mats (as.map (axisAngleRotation a))) .f32 device
    | none => .error .valueError
  | _ => .error .valueError

/-- `translate` (transform3d.py:411-412) -/
def T3.translate (t : T3) (x : CoordX) (y z : Coord) : Except Err T3 := do
  t.compose [← T3.mkTranslate x y z .f32 t.device]

/-- `scale` (transform3d.py:414-415) -/
def T3.scale (t : T3) (x : CoordX) (y z : Coord) : Except Err T3 := do
  t.compose [← T3.mkScale x y z .f32 t.device]

/-- `rotate` (transform3d.py:417-418) -/
def T3.rotate (t : T3) (r : RotArg) : Except Err T3 := t.compose [T3.mkRotate r .f32 t.device]

/-- `rotate_axis_angle` (transform3d.py:420-421) -/
def T3.rotateAxisAngle (t : T3) (angle : AngleArg) (axis : List Char) (degrees : Bool) : Except Err T3 := do
  t.compose [← T3.mkRotateAxisAngle angle axis degrees t.device]

/-- `clone` (transform3d.py:431-443): always a plain `Transform3d` -/
def T3.clone (t : T3) : T3 := ⟨.plain, t.mats, t.mdtype, t.mdevice, t.dtype, t.device⟩

/-- `to` (transform3d.py:445-468) -/
def T3.to (t : T3) (device : Device) (copy : Bool) (dtype : Option DType) : T3 :=
  if copy = false ∧ (dtype = none ∨ dtype = some t.dtype) ∧ t.device = device then t
  else ⟨.plain, t.mats, dtype.getD t.mdtype, device, dtype.getD t.dtype, device⟩

end
end PK
