import Verif.Model.TensorIK

/-!
# `transforms/transform3d.py` on tensors

Line numbers refer to `/repo/src/pytorch_kinematics/transforms/transform3d.py`.  `Model/Transform3d.lean` has the same
functions on lists of matrices of one dtype; here `_matrix`, points, normals and the arguments of the constructors are
tensors of any shape, dtype and device.

Arithmetic is exact, but a conversion to another dtype rounds: `rd d x` is the number of floating dtype `d` that `x` becomes.
A conversion to integers cuts off the fraction.  The promotion of the operands of one operation to a common dtype is exact
(it is for floating dtypes).

Simplifications.  `view` is `reshape`: the tensors it is applied to are contiguous.  Python lists for `pos`, `rot` and `R`
are tensors: `torch.tensor(pos, dtype, device)` of a list of Python floats is the conversion of a tensor of dtype `float64`
to `dtype` on `device`, which `listT` is.  Left out: `batch_to_batch=True` (calls `arm_pytorch_utilities.linalg`, not in the
repository), `__repr__`, `sample_perturbations` (`Model/Perturb.lean`), the warning of `_check_valid_rotation_matrix`, views
(`Model/Alias.lean`) and gradients.  A division by zero is not represented: theorems are about denominators that are not zero.
-/

namespace PK
namespace Tn
open Classical

/-! ## Operations -/

/-- What a number becomes in a tensor of dtype `d` -/
noncomputable def conv (rd : DType → ℝ → ℝ) (d : Dt) (x : ℝ) : ℝ :=
  match d with
  | .fl d => rd d x
  | .i64 => if 0 ≤ x then ⌊x⌋ else ⌈x⌉
  | .bool => if x = 0 then 0 else 1

/-- `t.to(dtype=d)` -/
noncomputable def castT (rd : DType → ℝ → ℝ) (d : Dt) (a : Tn ℝ) : Tn ℝ :=
  if a.tag.dt = d then a else ofFn ⟨d, a.tag.dev⟩ a.shape fun i => conv rd d (a.get i)

/-- `t.to(device=v)` -/
noncomputable def moveT (v : Device) (a : Tn ℝ) : Tn ℝ := ofFn ⟨a.tag.dt, v⟩ a.shape a.get

/-- `torch.tensor(l, dtype=d, device=v)` of a nested list `l` of Python floats, which have the precision of `float64` -/
noncomputable def listT (rd : DType → ℝ → ℝ) (d : DType) (v : Device) (l : Tn ℝ) : Tn ℝ :=
  ofFn (flTag d v) l.shape fun i => rd d (l.get i)

/-- `a.bmm(b)`: three dimensions, one batch size, same dtype and device -/
noncomputable def bmm (a b : Tn ℝ) : Except Err (Tn ℝ) :=
  match a.shape, b.shape with
  | [n, p, k], [n', k', m] =>
    if n = n' ∧ k = k' then do
      let t ← PK.matmul a.tag b.tag
      return ofFn t [n, p, m] fun i =>
        ∑ l ∈ Finset.range k, a.get [i.headD 0, i.getD 1 0, l] * b.get [i.headD 0, l, i.getD 2 0]
    else .error .runtimeError
  | _, _ => .error .runtimeError

/-- `t.expand(n, -1, -1)`: at most three dimensions, and `-1` is refused for a dimension that is not there -/
noncomputable def expand3 (a : Tn ℝ) (n : ℕ) : Except Err (Tn ℝ) :=
  if a.shape.length = 3 then expandFirst a n else .error .runtimeError

/-- `a / b`: integers are divided as floats of the default dtype -/
noncomputable def trueDiv (a b : Tn ℝ) : Except Err (Tn ℝ) := do
  let r ← div a b
  return ofFn (trig r.tag) r.shape r.get

/-- `torch.cat((a, b), dim=-2)` of tensors with at least two dimensions; one dimension: `IndexError` -/
noncomputable def catRows (a b : Tn ℝ) : Except Err (Tn ℝ) :=
  match a.shape.reverse, b.shape.reverse with
  | c :: r :: s, c' :: r' :: s' =>
    if c = c' ∧ s = s' then do
      let t ← tags [a, b]
      return ofFn t (s.reverse ++ [r + r', c]) fun i =>
        if i.dropLast.getLastD 0 < r then a.get i
        else b.get (i.dropLast.dropLast ++ [i.dropLast.getLastD 0 - r, i.getLastD 0])
    else .error .runtimeError
  | _, _ => .error .indexError

/-- `torch.cat(l, dim=0)` of tensors with three dimensions -/
noncomputable def catFirst (l : List (Tn ℝ)) : Except Err (Tn ℝ) :=
  match l with
  | [] => .error .runtimeError
  | a :: _ =>
    if ∀ b ∈ l, b.shape.tail = a.shape.tail ∧ b.shape ≠ [] then do
      let t ← tags l
      let rows := l.flatMap fun b => (List.range (b.shape.headD 0)).map fun k => (b, k)
      return ofFn t (rows.length :: a.shape.tail) fun i =>
        match rows[i.headD 0]? with | some (b, k) => b.get (k :: i.tail) | none => 0
    else .error .runtimeError

/-- `t[:, r, c]` of a tensor with three dimensions -/
noncomputable def entryOf (a : Tn ℝ) (r c : ℕ) : Except Err (Tn ℝ) :=
  match a.shape with
  | [n, p, q] => if r < p ∧ c < q then .ok (ofFn a.tag [n] fun i => a.get [i.headD 0, r, c]) else .error .indexError
  | _ => .error .indexError

/-- `t[:, r, c] = v` of a tensor with three dimensions -/
noncomputable def setEntries (a : Tn ℝ) (r c : ℕ) (v : Tn ℝ) : Except Err (Tn ℝ) :=
  match a.shape with
  | [n, p, q] =>
    if r < p ∧ c < q then do
      let w ← valueFor v [n]
      return ofFn a.tag a.shape fun i => if i.getD 1 0 = r ∧ i.getD 2 0 = c then w.get [i.headD 0] else a.get i
    else .error .indexError
  | _ => .error .indexError

/-- `t[a:b]` of the first dimension, `0 ≤ a`, `0 ≤ b` -/
noncomputable def sliceFirst (a : Tn ℝ) (lo hi : ℕ) : Except Err (Tn ℝ) :=
  match a.shape with
  | [] => .error .indexError
  | n :: s => .ok (ofFn a.tag ((min hi n - lo) :: s) fun i => a.get ((lo + i.headD 0) :: i.tail))

end Tn

open Tn
noncomputable section
open Classical

/-- A `Transform3d` object: its class, `_matrix` and the attributes `dtype` and `device`. -/
structure T3T where
  kind : TKind
  matrix : Tn ℝ
  dtype : Dt
  device : Device

variable (rd : DType → ℝ → ℝ)

/-- l.741-748 of `_broadcast_bmm`: one row is expanded to the number of rows of the other operand -/
def bmmExpand (a b : Tn ℝ) : Except Err (Tn ℝ × Tn ℝ) :=
  match a.shape.head?, b.shape.head? with
  | some n, some m =>
    if n ≠ m then
      if ¬ (n = 1 ∨ m = 1) then .error .valueError
      else do
        let a ← if n = 1 then expand3 a m else pure a
        let b ← if m = 1 then expand3 b (a.shape.headD 0) else pure b
        return (a, b)
    else .ok (a, b)
  | _, _ => .error .typeError

/-- l.724-751 `_broadcast_bmm` -/
def broadcastBmm (a b : Tn ℝ) : Except Err (Tn ℝ) := do
  let a := if a.shape.length = 2 then unsqueezeAt a 0 else a
  let ab ← bmmExpand a b
  let b := if ab.1.tag.dt ≠ ab.2.tag.dt then castT rd ab.1.tag.dt ab.2 else ab.2
  bmm ab.1 b

/-- l.178 and elsewhere: `torch.eye(4, dtype, device)`, once for each of `n` batch elements -/
def eyes4T (tag : Tag) (n : ℕ) : Except Err (Tn ℝ) := repeatT (unsqueezeAt (eye4 tag) 0) [n, 1, 1]

/-- l.177-188 `self._matrix` from the arguments `matrix`, `default_batch_size`, `dtype`, `device` -/
def initMatrixT (matrix : Option (Tn ℝ)) (n : ℕ) (dtype : DType) (device : Device) : Except Err (Tn ℝ) :=
  match matrix with
  | none => eyes4T (flTag dtype device) n
  | some m =>
    if m.shape.length ≠ 2 ∧ m.shape.length ≠ 3 then .error .valueError
    else match m.shape.reverse with
      | c :: r :: _ => if r ≠ 4 ∨ c ≠ 4 then .error .valueError else reshapeInfer m [4, 4]
      | _ => .error .valueError

/-- l.196-197, l.211-212 `if n > 1 and self._matrix.shape[0] == 1: self._matrix = self._matrix.repeat(n, 1, 1)` -/
def repeatRows (n : ℕ) (matrix : Tn ℝ) : Except Err (Tn ℝ) :=
  if 1 < n ∧ matrix.shape.head? = some 1 then repeatT matrix [n, 1, 1] else .ok matrix

/-- l.190-199 `pos` -/
def setPosT (dtype : DType) (device : Device) (matrix pos : Tn ℝ) : Except Err (Tn ℝ) := do
  let ones := full (flTag dtype device) [1] 1
  let (ones, matrix) ← if pos.shape.length = 2 ∨ pos.shape.length = 3 then do
      let ones ← repeatT ones (pos.shape.dropLast ++ [1])
      let matrix ← repeatRows (pos.shape.headD 0) matrix
      pure (ones, matrix)
    else pure (ones, matrix)
  let pos_h ← reshapeInfer (← cat pos ones) [4, 1]
  cat (← sliceLast matrix 0 3) pos_h

/-- l.205-208 (and l.568-571): a quaternion, three Euler angles, or a matrix, by the shape -/
def rotMatrixT (rot : Tn ℝ) : Except Err (Tn ℝ) :=
  match rot.shape.reverse with
  | [] => .error .indexError
  | c :: s =>
    if c = 4 then Tn.quaternionToMatrix rot
    else if c = 3 ∧ s.head? ≠ some 3 then Tn.eulerAnglesToMatrix rot ['X', 'Y', 'Z']
    else .ok rot

/-- l.201-214 `rot` -/
def setRotT (dtype : DType) (device : Device) (matrix rot : Tn ℝ) : Except Err (Tn ℝ) := do
  let zeros := full (flTag dtype device) [1, 3] 0
  let rot ← rotMatrixT rot
  let (zeros, matrix) ← if rot.shape.length = 3 then do
      let n := rot.shape.headD 0
      let zeros ← repeatT zeros [n, 1, 1]
      let matrix ← repeatRows n matrix
      pure (zeros, matrix)
    else pure (zeros, matrix)
  let rot_h ← reshapeInfer (← catRows rot zeros) [4, 3]
  cat rot_h (← reshapeInfer (← selectLast matrix 3) [4, 1])

/-- l.146-218 `Transform3d.__init__` -/
def T3T.init (matrix pos rot : Option (Tn ℝ)) (n : ℕ := 1) (dtype : DType := .f32) (device : Device := cpu) :
    Except Err T3T := do
  let m ← initMatrixT matrix n dtype device
  let device := match matrix with | some m => m.tag.dev | none => device
  let m ← match pos with | some p => setPosT dtype device m p | none => pure m
  let m ← match rot with | some r => setRotT dtype device m r | none => pure m
  return ⟨.plain, m, m.tag.dt, device⟩

/-- `Transform3d(matrix=m)` -/
def T3T.ofMatrix (m : Tn ℝ) : Except Err T3T := T3T.init (some m) none none

/-- `t[item]`: an integer, a slice, a tensor of indices -/
inductive ItemT where
  | int (k : ℤ)
  | slice (lo hi : ℕ)
  | idx (l : Tn ℤ)

/-- l.223-224 `__getitem__` -/
def T3T.get (t : T3T) (item : ItemT) : Except Err T3T := do
  let m ← match item with
    | .int k => match pyIndex (t.matrix.shape.headD 0) k with
      | some p => select0 t.matrix p
      | none => .error .indexError
    | .slice lo hi => sliceFirst t.matrix lo hi
    | .idx l => index0 t.matrix l
  T3T.ofMatrix m

/-- l.232-249 `compose` -/
def T3T.compose (t : T3T) (others : List T3T) : Except Err T3T := do
  let mat ← others.foldlM (fun mat o => broadcastBmm rd mat o.matrix) t.matrix
  T3T.ofMatrix mat

/-- l.264-274 `_invert_transformation_matrix`; l.273 reads the block that l.272 has written -/
def invertMatrixT (T : Tn ℝ) : Except Err (Tn ℝ) := do
  let Rt ← transposeLast (← sliceLast (← sliceRows T 3) 0 3)
  let t ← selectLast (← sliceRows T 3) 3
  let Tinv ← setBlock T 3 3 Rt
  let block ← sliceLast (← sliceRows Tinv 3) 0 3
  let p ← matmulT (map (- ·) block) (unsqueeze t)
  setColumn Tinv 3 3 (squeezeLast p)

/-- l.501-508 `Translate._get_matrix_inverse` -/
def invertTranslateT (m : Tn ℝ) : Except Err (Tn ℝ) := do
  let inv_mask ← setColumn (full m.tag [1, 4, 4] 1) 3 3 (full m.tag [] (-1))
  mul m inv_mask

/-- l.541-548 `Scale._get_matrix_inverse` -/
def invertScaleT (m : Tn ℝ) : Except Err (Tn ℝ) := do
  let xyz ← stackLast (← (List.range 4).mapM fun i => entryOf m i i)
  diagEmbed (map (1 / ·) xyz)

/-- `_get_matrix_inverse` of the class -/
def T3T.matrixInverse (t : T3T) : Except Err (Tn ℝ) :=
  match t.kind with
  | .plain => invertMatrixT t.matrix
  | .translate => invertTranslateT t.matrix
  | .scale => invertScaleT t.matrix
  -- l.586-590 `Rotate._get_matrix_inverse`
  | .rotate => permute t.matrix [0, 2, 1]

/-- l.276-293 `inverse` -/
def T3T.inverse (t : T3T) : Except Err T3T := do T3T.ofMatrix (← t.matrixInverse)

/-- l.295-299 `stack` -/
def T3T.stack (t : T3T) (others : List T3T) : Except Err T3T := do
  T3T.ofMatrix (← catFirst (t.matrix :: others.map (·.matrix)))

/-- l.339-341 the clamped denominator -/
def clampDenom (eps : Option ℝ) (x : ℝ) : ℝ :=
  match eps with
  | none => x
  | some e => ((if 0 < x then 1 else if x < 0 then -1 else 0) + (if x = 0 then 1 else 0)) * max |x| e

/-- l.325-342 of `transform_points`, for `points_batch` (l.322-324); the clamped denominator has the dtype of the points (for
integers it is not modelled) -/
def T3T.pointsOut (t : T3T) (points_batch : Tn ℝ) (eps : Option ℝ) : Except Err (Tn ℝ) :=
  match points_batch.shape with
  | [N, P, _] => do
    let ones := full points_batch.tag [N, P, 1] 1
    let points_batch ← cat points_batch ones
    let composed_matrix ← transposeLast t.matrix
    let points_out ← broadcastBmm rd points_batch composed_matrix
    let denom ← sliceLast points_out 3 (points_out.shape.getLastD 0)
    let denom := match eps with
      | none => denom
      | some _ => map (clampDenom eps) denom
    trueDiv (← sliceLast points_out 0 3) denom
  | _ => .error .valueError

/-- l.301-349 `transform_points` -/
def T3T.transformPoints (t : T3T) (points : Tn ℝ) (eps : Option ℝ := none) : Except Err (Tn ℝ) := do
  let points_out ← t.pointsOut rd (if points.shape.length = 2 then unsqueezeAt points 0 else points) eps
  if points_out.shape.head? = some 1 ∧ points.shape.length = 2 then reshape points_out points.shape else return points_out

/-- l.351-384 `transform_normals` -/
def T3T.transformNormals (t : T3T) (normals : Tn ℝ) : Except Err (Tn ℝ) :=
  if normals.shape.length ≠ 2 ∧ normals.shape.length ≠ 3 then .error .valueError
  else do
    let mat ← sliceLast (← sliceRows (← t.inverse).matrix 3) 0 3
    let normals_out ← broadcastBmm rd normals mat
    if normals_out.shape.head? = some 1 ∧ normals.shape.length = 2 then reshape normals_out normals.shape else return normals_out

/-- l.386-409 `transform_shape_operator` -/
def T3T.transformShapeOperator (t : T3T) (shape_operators : Tn ℝ) : Except Err (Tn ℝ) :=
  if shape_operators.shape.length ≠ 3 ∧ shape_operators.shape.length ≠ 4 then .error .valueError
  else do
    let mat ← sliceLast (← sliceRows (← t.inverse).matrix 3) 0 3
    let out ← broadcastBmm rd (← permute mat [0, 2, 1]) (← broadcastBmm rd shape_operators mat)
    if out.shape.head? = some 1 ∧ shape_operators.shape.length = 3 then reshape out shape_operators.shape else return out

/-! ## Constructors of the subclasses -/

/-- An argument `x`, `y`, `z` or `angle`: `None`, a Python number, a tensor -/
inductive ArgT where
  | none
  | num (x : ℝ)
  | ten (t : Tn ℝ)

/-- l.633-647 `_handle_coord`; `torch.tensor(None, dtype=…)` is a `TypeError`. -/
def handleCoordT (dtype : DType) (device : Device) (c : ArgT) : Except Err (Tn ℝ) :=
  match c with
  | .none => .error .typeError
  | .num x => .ok (ofFn (flTag dtype device) [1] fun _ => rd dtype x)
  | .ten t => if t.shape.length = 0 then reshape t [1] else .ok t

/-- l.688-690: one coordinate for all three -/
def fillYZ (allow_singleton : Bool) (x y z : ArgT) : ArgT × ArgT :=
  match allow_singleton, y, z with
  | true, .none, .none => (x, x)
  | _, y, z => (y, z)

/-- l.650-704 `_handle_input` -/
def handleInputT (x y z : ArgT) (dtype : DType) (device : Device) (allow_singleton : Bool) : Except Err (Tn ℝ) :=
  match x with
  | .ten t =>
    if t.shape.length = 2 then
      if t.shape.getD 1 0 ≠ 3 then .error .valueError
      else match y, z with
        | .none, .none => .ok t
        | _, _ => .error .valueError
    else coords
  | _ => coords
where
  /-- l.688-704 -/
  coords : Except Err (Tn ℝ) := do
    let yz := fillYZ allow_singleton x y z
    let xs ← handleCoordT rd dtype device x
    let ys ← handleCoordT rd dtype device yz.1
    let zs ← handleCoordT rd dtype device yz.2
    let n := max (xs.shape.headD 0) (max (ys.shape.headD 0) (zs.shape.headD 0))
    if [xs, ys, zs].any fun c => c.shape.headD 0 != 1 && c.shape.headD 0 != n then .error .valueError
    else stackLast [← expand xs [n], ← expand ys [n], ← expand zs [n]]

/-- l.478-499 `Translate.__init__`; `super().__init__(device=device)` leaves `self.dtype` at `float32`. -/
def T3T.mkTranslate (x y z : ArgT) (dtype : DType := .f32) (device : Device := cpu) : Except Err T3T := do
  let xyz ← handleInputT rd x y z dtype device false
  let mat ← eyes4T (flTag dtype device) (xyz.shape.headD 0)
  let mat ← setColumn mat 3 3 (castT rd (.fl dtype) xyz)
  return ⟨.translate, mat, .fl .f32, device⟩

/-- l.512-539 `Scale.__init__` -/
def T3T.mkScale (x y z : ArgT) (dtype : DType := .f32) (device : Device := cpu) : Except Err T3T := do
  let xyz ← handleInputT rd x y z dtype device true
  let mat ← eyes4T (flTag dtype device) (xyz.shape.headD 0)
  let mat ← setEntries mat 0 0 (castT rd (.fl dtype) (← selectLast xyz 0))
  let mat ← setEntries mat 1 1 (castT rd (.fl dtype) (← selectLast xyz 1))
  let mat ← setEntries mat 2 2 (castT rd (.fl dtype) (← selectLast xyz 2))
  return ⟨.scale, mat, .fl .f32, device⟩

/-- l.572-573: what is neither a quaternion nor Euler angles goes to the check, as `R.view(-1, 3, 3)`. -/
def viewForCheck (arg R : Tn ℝ) : Except Err (Tn ℝ) :=
  match arg.shape.reverse with
  | c :: s => if c ≠ 4 ∧ ¬ (c = 3 ∧ s.head? ≠ some 3) then reshapeInfer R [3, 3] else .ok R
  | [] => .ok R

/-- l.574-584 of `Rotate.__init__` -/
def embedRot (R : Tn ℝ) (dtype : DType) (device : Device) : Except Err T3T :=
  let R := if R.shape.length = 2 then unsqueezeAt R 0 else R
  match R.shape.reverse with
  | c :: r :: _ =>
    if r ≠ 3 ∨ c ≠ 3 then .error .valueError
    else do
      let mat ← eyes4T (flTag dtype device) (R.shape.headD 0)
      let mat ← setBlock mat 3 3 R
      return ⟨.rotate, mat, .fl .f32, device⟩
  | _ => .error .valueError

/-- l.552-584 `Rotate.__init__` -/
def T3T.mkRotate (R : Tn ℝ) (dtype : DType := .f32) (device : Device := cpu) : Except Err T3T := do
  let R := moveT device (castT rd (.fl dtype) R)
  let Q ← rotMatrixT R
  let _ ← viewForCheck R Q
  embedRot Q dtype device

/-- l.707-721 `_handle_angle_input` -/
def handleAngleT (dtype : DType) (device : Device) (angle : ArgT) : Except Err (Tn ℝ) :=
  match angle with
  | .ten t => if 1 < t.shape.length then .error .valueError else handleCoordT rd dtype device angle
  | _ => handleCoordT rd dtype device angle

/-- l.593-630 `RotateAxisAngle.__init__`; `super().__init__(device=device, R=R)` uses the default dtype `float32`. -/
def T3T.mkRotateAxisAngle (angle : ArgT) (axis : List Char) (degrees : Bool := true) (dtype : DType := .f64)
    (device : Device := cpu) : Except Err T3T :=
  match axis.map Char.toUpper with
  | [c] =>
    match letterAx c with
    | some a => do
      let angle ← handleAngleT rd dtype device angle
      let angle := if degrees then map (fun x => x / 180 * Real.pi) angle else angle
      T3T.mkRotate rd (← Tn.axisAngleRotation a angle) .f32 device
    | none => .error .valueError
  | _ => .error .valueError

/-- l.411-412 `translate` -/
def T3T.translate (t : T3T) (x y z : ArgT) (dtype : DType := .f32) : Except Err T3T := do
  t.compose rd [← T3T.mkTranslate rd x y z dtype t.device]

/-- l.414-415 `scale` -/
def T3T.scale (t : T3T) (x y z : ArgT) (dtype : DType := .f32) : Except Err T3T := do
  t.compose rd [← T3T.mkScale rd x y z dtype t.device]

/-- l.417-418 `rotate` -/
def T3T.rotate (t : T3T) (R : Tn ℝ) (dtype : DType := .f32) : Except Err T3T := do
  t.compose rd [← T3T.mkRotate rd R dtype t.device]

/-- l.420-421 `rotate_axis_angle` -/
def T3T.rotateAxisAngle (t : T3T) (angle : ArgT) (axis : List Char) (degrees : Bool := true) (dtype : DType := .f64) :
    Except Err T3T := do
  t.compose rd [← T3T.mkRotateAxisAngle rd angle axis degrees dtype t.device]

/-- l.431-443 `clone` -/
def T3T.clone (t : T3T) : T3T := ⟨.plain, t.matrix, t.dtype, t.device⟩

/-- l.445-468 `to` -/
def T3T.to (t : T3T) (device : Device) (copy : Bool := false) (dtype : Option DType := none) : T3T :=
  if copy = false ∧ (dtype = none ∨ dtype.map Dt.fl = some t.dtype) ∧ t.device = device then t
  else
    let m := match dtype with | some d => castT rd (.fl d) t.matrix | none => t.matrix
    ⟨.plain, moveT device m, (dtype.map Dt.fl).getD t.dtype, device⟩

end
end PK
