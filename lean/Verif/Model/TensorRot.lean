import Verif.Model.Tensor
import Verif.Model.RotConv

/-!
# `rotation_conversions.py` on tensors of any shape

Line numbers refer to `/repo/src/pytorch_kinematics/transforms/rotation_conversions.py`.  `Model/RotConv.lean` has the
same functions for one batch element; here every operation acts on whole tensors, as in the code, with the shapes,
broadcasting, dtypes and devices PyTorch gives them.

Longer arithmetic expressions are `TE` expressions, which `TE.eval` evaluates operation by operation; a variable that
holds an expression is evaluated where it is used.
-/

namespace PK.Tn

/-- l.36-37 `xyzw_to_wxyz` -/
noncomputable def xyzwToWxyz (q : Tn ℝ) : Except Err (Tn ℝ) := do
  cat (← lastNone q) (← sliceLast q 0 3)

/-- l.40-41 `wxyz_to_xyzw`; `q[..., None, 0]` is `q[..., 0].unsqueeze(-1)`. -/
noncomputable def wxyzToXyzw (q : Tn ℝ) : Except Err (Tn ℝ) := do
  let n := q.shape.getLastD 0
  cat (← sliceLast q 1 n) (unsqueeze (← selectLast q 0))

/-- l.44-72 `quaternion_to_matrix` -/
noncomputable def quaternionToMatrix (q : Tn ℝ) : Except Err (Tn ℝ) := do
  let (r, i, j, k) ← unpack4 (← unbind q)
  let two_s := map (2 / ·) (← sum (← mul q q))
  let r := TE.leaf r; let i := TE.leaf i; let j := TE.leaf j; let k := TE.leaf k; let two_s := TE.leaf two_s
  let o ← stackE [
    .un (1 - ·) (two_s * (j * j + k * k)),
    two_s * (i * j - k * r),
    two_s * (i * k + j * r),
    two_s * (i * j + k * r),
    .un (1 - ·) (two_s * (i * i + k * k)),
    two_s * (j * k - i * r),
    two_s * (i * k - j * r),
    two_s * (j * k + i * r),
    .un (1 - ·) (two_s * (i * i + j * j))]
  reshape o (q.shape.dropLast ++ [3, 3])

/-- l.75-90 `_copysign` -/
noncomputable def copysign (a b : Tn ℝ) : Except Err (Tn ℝ) := do
  let signs_differ ← neB (test (· < 0) a) (test (· < 0) b)
  sel signs_differ (map (- ·) a) a

/-- l.93-98 `_sqrt_positive_part` -/
noncomputable def sqrtPositivePart (x : Tn ℝ) : Tn ℝ := map Real.sqrt (map (max · 0) x)

/-- l.101-154 `matrix_to_quaternion` -/
noncomputable def matrixToQuaternion (m : Tn ℝ) : Except Err (Tn ℝ) := do
  match m.shape.reverse with
  | c :: r :: s =>
    if r = 3 ∧ c = 3 then do
      let batch := s.reverse
      let e ← unpack9 (← unbind (← reshape m (batch ++ [9])))
      let m00 := TE.leaf (e 0); let m01 := TE.leaf (e 1); let m02 := TE.leaf (e 2)
      let m10 := TE.leaf (e 3); let m11 := TE.leaf (e 4); let m12 := TE.leaf (e 5)
      let m20 := TE.leaf (e 6); let m21 := TE.leaf (e 7); let m22 := TE.leaf (e 8)
      let q_abs := sqrtPositivePart (← stackE [
        .un (1 + ·) m00 + m11 + m22,
        .un (1 + ·) m00 - m11 - m22,
        .un (1 - ·) m00 + m11 - m22,
        .un (1 - ·) m00 - m11 + m22])
      let quat_by_rijk ← stackRows [
        ← stackE [.un (· ^ 2) (.leaf (← selectLast q_abs 0)), m21 - m12, m02 - m20, m10 - m01],
        ← stackE [m21 - m12, .un (· ^ 2) (.leaf (← selectLast q_abs 1)), m10 + m01, m02 + m20],
        ← stackE [m02 - m20, m10 + m01, .un (· ^ 2) (.leaf (← selectLast q_abs 2)), m12 + m21],
        ← stackE [m10 - m01, m20 + m02, m21 + m12, .un (· ^ 2) (.leaf (← selectLast q_abs 3))]]
      let flr := full q_abs.tag [] 0.1
      let quat_candidates ← div quat_by_rijk (map (2 * ·) (← maxT (unsqueeze q_abs) flr))
      let best_idx ← argmaxLast4 q_abs
      let idx ← expand (unsqueeze (unsqueeze best_idx)) (batch ++ [1, 4])
      squeezeRow (← gatherRow quat_candidates idx)
    else .error .valueError
  -- fewer than two dimensions: `size(-2)` raises
  | _ => .error .indexError

/-- l.157-182 `_axis_angle_rotation` -/
noncomputable def axisAngleRotation (ax : Ax) (angle : Tn ℝ) : Except Err (Tn ℝ) := do
  let cos := map Real.cos angle
  let sin := map Real.sin angle
  let one := fullLike angle 1
  let zero := fullLike angle 0
  let flat := match ax with
    | .X => [one, zero, zero, zero, cos, map (- ·) sin, zero, sin, cos]
    | .Y => [cos, zero, sin, zero, one, zero, map (- ·) sin, zero, cos]
    | .Z => [cos, map (- ·) sin, zero, sin, cos, zero, zero, zero, one]
  reshape (← stackLast flat) (angle.shape ++ [3, 3])

/-- l.185-207 `euler_angles_to_matrix` -/
noncomputable def eulerAnglesToMatrix (e : Tn ℝ) (conv : List Char) : Except Err (Tn ℝ) := do
  if e.shape.getLast? ≠ some 3 then .error .valueError
  else match parseConvention conv with
    | .error er => .error er
    | .ok (a, b, c) => do
      let (x, y, z) ← unpack3 (← unbind e)
      let ma ← axisAngleRotation a x
      let mb ← axisAngleRotation b y
      let mc ← axisAngleRotation c z
      matmulT (← matmulT ma mb) mc

/-- l.210-240 `_angle_from_tan` -/
noncomputable def angleFromTan (axis other : Ax) (data : Tn ℝ) (horizontal taitBryan : Bool) : Except Err (Tn ℝ) := do
  let p : ℕ × ℕ := match axis with | .X => (2, 1) | .Y => (0, 2) | .Z => (1, 0)
  let i1 := if horizontal then p.2 else p.1
  let i2 := if horizontal then p.1 else p.2
  let even : Bool := match axis, other with
    | .X, .Y => true | .Y, .Z => true | .Z, .X => true | _, _ => false
  if horizontal = even then atan2T (← selectLast data i1) (← selectLast data i2)
  else if taitBryan then atan2T (map (- ·) (← selectLast data i2)) (← selectLast data i1)
  else atan2T (← selectLast data i2) (map (- ·) (← selectLast data i1))

/-- l.252-291 `matrix_to_euler_angles` -/
noncomputable def matrixToEulerAngles (m : Tn ℝ) (conv : List Char) : Except Err (Tn ℝ) :=
  match parseConvention conv with
  | .error er => .error er
  | .ok (a, b, c) =>
    match m.shape.reverse with
    | c' :: r' :: _ =>
      if r' = 3 ∧ c' = 3 then do
        let i0 := indexFromLetter a
        let i2 := indexFromLetter c
        let taitBryan : Bool := i0 ≠ i2
        let d : ℤ := (i0.val : ℤ) - (i2.val : ℤ)
        let central_angle ← if taitBryan then do
            pure (map Real.arcsin (map (· * (if d = -1 ∨ d = 2 then -1 else 1)) (← selectLast (← selectRow m i0.val) i2.val)))
          else do pure (map Real.arccos (← selectLast (← selectRow m i0.val) i0.val))
        stackLast [← angleFromTan a b (← selectLast m i2.val) false taitBryan,
          central_angle,
          ← angleFromTan c b (← selectRow m i0.val) true taitBryan]
      else .error .valueError
    | _ => .error .indexError

/-- l.294-315 `random_quaternions(n)` on the sample `o` of shape `(n, 4)`; `[:, None]` is `unsqueeze(-1)` -/
noncomputable def randomQuaternions (o : Tn ℝ) : Except Err (Tn ℝ) := do
  let s ← sum (← mul o o)
  div o (unsqueeze (← copysign (map Real.sqrt s) (← selectLast o 0)))

/-- l.360-372 `standardize_quaternion` -/
noncomputable def standardizeQuaternion (q : Tn ℝ) : Except Err (Tn ℝ) := do
  sel (test (· < 0) (← sliceLast q 0 1)) (map (- ·) q) q

/-- l.375-393 `quaternion_raw_multiply` -/
noncomputable def quaternionRawMultiply (a b : Tn ℝ) : Except Err (Tn ℝ) := do
  let (aw, ax, ay, az) ← unpack4 (← unbind a)
  let (bw, bx, b_y, bz) ← unpack4 (← unbind b)
  let aw := TE.leaf aw; let ax := TE.leaf ax; let ay := TE.leaf ay; let az := TE.leaf az
  let bw := TE.leaf bw; let bx := TE.leaf bx; let b_y := TE.leaf b_y; let bz := TE.leaf bz
  let ow := aw * bw - ax * bx - ay * b_y - az * bz
  let ox := aw * bx + ax * bw + ay * bz - az * b_y
  let oy := aw * b_y - ax * bz + ay * bw + az * bx
  let oz := aw * bz + ax * b_y - ay * bx + az * bw
  stackE [ow, ox, oy, oz]

/-- l.396-410 `quaternion_multiply` -/
noncomputable def quaternionMultiply (a b : Tn ℝ) : Except Err (Tn ℝ) := do
  standardizeQuaternion (← quaternionRawMultiply a b)

/-- l.413-426 `quaternion_invert`; `new_tensor` has the dtype and device of the quaternion. -/
noncomputable def quaternionInvert (q : Tn ℝ) : Except Err (Tn ℝ) :=
  mul q (ofFn q.tag [4] fun i => if i.getLastD 0 = 0 then 1 else -1)

/-- l.429-449 `quaternion_apply` -/
noncomputable def quaternionApply (q p : Tn ℝ) : Except Err (Tn ℝ) := do
  match p.shape.getLast? with
  | none => .error .indexError
  | some n =>
    if n ≠ 3 then .error .valueError else do
    let real_parts := full p.tag (p.shape.dropLast ++ [1]) 0
    let point_as_quaternion ← cat real_parts p
    let out ← quaternionRawMultiply (← quaternionRawMultiply q point_as_quaternion) (← quaternionInvert q)
    sliceLast out 1 4

/-- l.452-472 `axis_and_d_to_pris_matrix` -/
noncomputable def axisAndDToPrisMatrix (axis d : Tn ℝ) : Except Err (Tn ℝ) := do
  let pos ← mul axis (unsqueeze d)
  let m := full axis.tag (axis.shape.dropLast ++ [4, 4]) 0
  let m ← setEntry m 0 0 1
  let m ← setEntry m 1 1 1
  let m ← setEntry m 2 2 1
  let m ← setEntry m 3 3 1
  setColumn m 3 3 pos

/-- l.495-524 `axis_and_angle_to_matrix_33` (the entries are evaluated when they are stacked) -/
noncomputable def axisAndAngleToMatrix33 (axis theta : Tn ℝ) : Except Err (Tn ℝ) := do
  let c := map Real.cos theta
  let one_minus_c := TE.leaf (map (1 - ·) c)
  let s := TE.leaf (map Real.sin theta)
  let c := TE.leaf c
  let (kx, ky, kz) ← unpack3 (← unbind axis)
  let kx := TE.leaf kx; let ky := TE.leaf ky; let kz := TE.leaf kz
  let r00 := c + kx * kx * one_minus_c
  let r01 := kx * ky * one_minus_c - kz * s
  let r02 := kx * kz * one_minus_c + ky * s
  let r10 := ky * kx * one_minus_c + kz * s
  let r11 := c + ky * ky * one_minus_c
  let r12 := ky * kz * one_minus_c - kx * s
  let r20 := kz * kx * one_minus_c - ky * s
  let r21 := kz * ky * one_minus_c + kx * s
  let r22 := c + kz * kz * one_minus_c
  stackRows [← stackE [r00, r01, r02], ← stackE [r10, r11, r12], ← stackE [r20, r21, r22]]

/-- l.475-492 `axis_and_angle_to_matrix_44` -/
noncomputable def axisAndAngleToMatrix44 (axis theta : Tn ℝ) : Except Err (Tn ℝ) := do
  let rot ← axisAndAngleToMatrix33 axis theta
  let m := full axis.tag (axis.shape.dropLast ++ [4, 4]) 0
  let m ← setBlock m 3 3 rot
  setEntry m 3 3 1

/-- l.581-583 and l.610-612: `sin(half) / angles`, or its expansion for small angles -/
noncomputable def sinHalfOver (angles half : Tn ℝ) : Except Err (Tn ℝ) := do
  let small := map (0.5 - ·) (map (· / 48) (← mul angles angles))
  let large ← div (map Real.sin half) angles
  sel (test (· < 1e-6) (map abs angles)) small large

/-- l.563-587 `axis_angle_to_quaternion` -/
noncomputable def axisAngleToQuaternion (v : Tn ℝ) : Except Err (Tn ℝ) := do
  let angles ← norm v
  let half := map (0.5 * ·) angles
  let f ← sinHalfOver angles half
  cat (map Real.cos half) (← mul v f)

/-- l.590-613 `quaternion_to_axis_angle` -/
noncomputable def quaternionToAxisAngle (q : Tn ℝ) : Except Err (Tn ℝ) := do
  let n := q.shape.getLastD 0
  let norms ← norm (← sliceLast q 1 n)
  let half ← atan2T norms (← sliceLast q 0 1)
  let angles := map (2 * ·) half
  let f ← sinHalfOver angles half
  div (← sliceLast q 1 n) f

/-- l.527-544 `axis_angle_to_matrix` -/
noncomputable def axisAngleToMatrix (v : Tn ℝ) : Except Err (Tn ℝ) := do
  quaternionToMatrix (← axisAngleToQuaternion v)

/-- l.547-560 `matrix_to_axis_angle` -/
noncomputable def matrixToAxisAngle (m : Tn ℝ) : Except Err (Tn ℝ) := do
  quaternionToAxisAngle (← matrixToQuaternion m)

/-- `torch.nn.functional.normalize(v, dim=-1)` -/
noncomputable def normalize (v : Tn ℝ) : Except Err (Tn ℝ) := do
  div v (← expand (map (max · 1e-12) (← norm v)) v.shape)

/-- l.616-637 `rotation_6d_to_matrix` -/
noncomputable def rotation6dToMatrix (d6 : Tn ℝ) : Except Err (Tn ℝ) := do
  let n := d6.shape.getLastD 0
  let a1 ← sliceLast d6 0 3
  let a2 ← sliceLast d6 3 n
  let b1 ← normalize a1
  let b2 ← sub a2 (← mul (← sumKeep (← mul b1 a2)) b1)
  let b2 ← normalize b2
  let b3 ← crossT b1 b2
  stackRows [b1, b2, b3]

/-- l.640-655 `matrix_to_rotation_6d` -/
noncomputable def matrixToRotation6d (m : Tn ℝ) : Except Err (Tn ℝ) := do
  reshape (← sliceRows m 2) (m.shape.dropLast.dropLast ++ [6])

/-- `m[..., :3, :3]` -/
noncomputable def rotBlock (m : Tn ℝ) : Except Err (Tn ℝ) := do sliceLast (← sliceRows m 3) 0 3

/-- `m[..., :3, 3]` -/
noncomputable def posColumn (m : Tn ℝ) : Except Err (Tn ℝ) := do selectLast (← sliceRows m 3) 3

/-- l.658-661 `matrix44_to_se3_9d` -/
noncomputable def matrix44ToSe3_9d (m : Tn ℝ) : Except Err (Tn ℝ) := do
  cat (← matrixToRotation6d (← rotBlock m)) (← posColumn m)

/-- `torch.eye(4, …).repeat(s + (1, 1))` -/
noncomputable def eyes (tag : Tag) (s : Shape) : Except Err (Tn ℝ) := repeatT (eye4 tag) (s ++ [1, 1])

/-- l.664-670 `se3_9d_to_matrix44` -/
noncomputable def se3_9dToMatrix44 (se3 : Tn ℝ) : Except Err (Tn ℝ) := do
  let n := se3.shape.getLastD 0
  let r ← rotation6dToMatrix (← sliceLast se3 0 6)
  let t ← sliceLast se3 6 n
  let H ← eyes r.tag r.shape.dropLast.dropLast
  let H ← setBlock H 3 3 r
  setColumn H 3 3 t

/-- l.673-678 `matrix_to_pos_rot` -/
noncomputable def matrixToPosRot (m : Tn ℝ) : Except Err (Tn ℝ × Tn ℝ) := do
  let pos ← posColumn m
  let rot ← matrixToQuaternion (← rotBlock m)
  let rot ← wxyzToXyzw rot
  return (pos, rot)

/-- l.681-687 `pos_rot_to_matrix` -/
noncomputable def posRotToMatrix (pos rot : Tn ℝ) : Except Err (Tn ℝ) := do
  let rot ← xyzwToWxyz rot
  let rot ← quaternionToMatrix rot
  let m ← eyes pos.tag pos.shape.dropLast
  let m ← setColumn m 3 3 pos
  setBlock m 3 3 rot

/-- l.724-777 `quaternion_from_euler` with an axes string: the quaternions, and the caller's tensor after the call
(`ai`, `aj`, `ak` are views of it, except `aj` when it has been negated).  `torch.zeros(…).to(rpy)` has the dtype and device
of `rpy`. -/
noncomputable def quaternionFromEuler (rpy : Tn ℝ) (axes : List Char) : Except Err (Tn ℝ × Tn ℝ) :=
  match axes2tuple.lookup (axes.map Char.toLower) with
  | none => .error .keyError
  | some (firstaxis, parity, repetition, frame) => do
    let (x, y, z) ← unpack3 (← unbind rpy)
    let i := firstaxis + 1
    match nextAxis (i + parity - 1), nextAxis (i - parity) with
    | some j', some k' => do
      let j := j' + 1
      let k := k' + 1
      let ai := if frame ≠ 0 then z else x
      let ak := if frame ≠ 0 then x else z
      let aj := if parity ≠ 0 then map (- ·) y else y
      let ai := map (· / 2) ai
      let aj := map (· / 2) aj
      let ak := map (· / 2) ak
      let rpy' ← setLast rpy 0 (if frame ≠ 0 then ak else ai)
      let rpy' ← if parity ≠ 0 then pure rpy' else setLast rpy' 1 aj
      let rpy' ← setLast rpy' 2 (if frame ≠ 0 then ai else ak)
      let ci := TE.leaf (map Real.cos ai)
      let si := TE.leaf (map Real.sin ai)
      let cj := TE.leaf (map Real.cos aj)
      let sj := TE.leaf (map Real.sin aj)
      let ck := TE.leaf (map Real.cos ak)
      let sk := TE.leaf (map Real.sin ak)
      let cc := ci * ck
      let cs := ci * sk
      let sc := si * ck
      let ss := si * sk
      let q := full rpy.tag (rpy.shape.dropLast ++ [4]) 0
      let q ← if repetition ≠ 0 then do
          let q ← setLast q 0 (← (cj * (cc - ss)).eval)
          let q ← setLast q i (← (cj * (cs + sc)).eval)
          let q ← setLast q j (← (sj * (cc + ss)).eval)
          setLast q k (← (sj * (cs - sc)).eval)
        else do
          let q ← setLast q 0 (← (cj * cc + sj * ss).eval)
          let q ← setLast q i (← (cj * sc - sj * cs).eval)
          let q ← setLast q j (← (cj * ss + sj * cc).eval)
          setLast q k (← (cj * cs - sj * sc).eval)
      let q ← if parity ≠ 0 then do setLast q j (map (· * -1) (← selectLast q j)) else pure q
      return (q, rpy')
    | _, _ => .error .indexError

end PK.Tn
