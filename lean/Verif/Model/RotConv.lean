import Verif.Model.Basic

/-!
# Model of `transforms/rotation_conversions.py`
Line numbers refer to `/repo/src/pytorch_kinematics/transforms/rotation_conversions.py`.
-/

namespace PK
open Real

/-- l.36-37 `xyzw_to_wxyz`: `cat([q[..., -1], q[..., :3]])`, on a raw 4-vector. -/
def xyzwToWxyz (q : Fin 4 → ℝ) : Quat := ⟨q 3, q 0, q 1, q 2⟩

/-- l.40-41 `wxyz_to_xyzw`: `cat([q[..., 1:], q[..., 0]])`. -/
def wxyzToXyzw (q : Quat) : Fin 4 → ℝ := ![q.x, q.y, q.z, q.w]

/-- `(quaternions * quaternions).sum(-1)`. -/
def Quat.normSq (q : Quat) : ℝ := q.w * q.w + q.x * q.x + q.y * q.y + q.z * q.z

/-- l.44-72 `quaternion_to_matrix`. For the zero quaternion the code divides by zero (NaN);
theorems carry the guard `q.normSq ≠ 0`. -/
noncomputable def quaternionToMatrix (q : Quat) : M3 :=
  let r := q.w; let i := q.x; let j := q.y; let k := q.z
  let two_s := 2 / q.normSq
  !![1 - two_s * (j * j + k * k), two_s * (i * j - k * r), two_s * (i * k + j * r);
     two_s * (i * j + k * r), 1 - two_s * (i * i + k * k), two_s * (j * k - i * r);
     two_s * (i * k - j * r), two_s * (j * k + i * r), 1 - two_s * (i * i + j * j)]

/-- l.75-90 `_copysign`. -/
noncomputable def copysign (a b : ℝ) : ℝ :=
  let signsDiffer := (a < 0) ≠ (b < 0)
  open Classical in if signsDiffer then -a else a

/-- l.93-98 `_sqrt_positive_part`. -/
noncomputable def sqrtPositivePart (x : ℝ) : ℝ := Real.sqrt (max x 0)

/-- `argmax` over four values: index of the first maximal value (torch documentation). -/
noncomputable def argmax4 (a : Fin 4 → ℝ) : Fin 4 :=
  open Classical in
  if a 1 ≤ a 0 ∧ a 2 ≤ a 0 ∧ a 3 ≤ a 0 then 0
  else if a 2 ≤ a 1 ∧ a 3 ≤ a 1 then 1
  else if a 3 ≤ a 2 then 2 else 3

/-- l.101-154 `matrix_to_quaternion` (the shape check l.111-112 is in the type). -/
noncomputable def matrixToQuaternion (m : M3) : Quat :=
  let qAbs : Fin 4 → ℝ :=
    ![sqrtPositivePart (1 + m 0 0 + m 1 1 + m 2 2),
      sqrtPositivePart (1 + m 0 0 - m 1 1 - m 2 2),
      sqrtPositivePart (1 - m 0 0 + m 1 1 - m 2 2),
      sqrtPositivePart (1 - m 0 0 - m 1 1 + m 2 2)]
  let quatByRijk : Fin 4 → Quat :=
    ![⟨qAbs 0 ^ 2, m 2 1 - m 1 2, m 0 2 - m 2 0, m 1 0 - m 0 1⟩,
      ⟨m 2 1 - m 1 2, qAbs 1 ^ 2, m 1 0 + m 0 1, m 0 2 + m 2 0⟩,
      ⟨m 0 2 - m 2 0, m 1 0 + m 0 1, qAbs 2 ^ 2, m 1 2 + m 2 1⟩,
      ⟨m 1 0 - m 0 1, m 2 0 + m 0 2, m 2 1 + m 1 2, qAbs 3 ^ 2⟩]
  let flr : ℝ := 0.1
  let cand : Fin 4 → Quat := fun c =>
    let d := 2 * max (qAbs c) flr
    ⟨(quatByRijk c).w / d, (quatByRijk c).x / d, (quatByRijk c).y / d, (quatByRijk c).z / d⟩
  cand (argmax4 qAbs)

/-- Axis letters of Euler conventions. -/
inductive Ax where | X | Y | Z
  deriving DecidableEq, Repr

/-- l.157-182 `_axis_angle_rotation`. -/
noncomputable def axisAngleRotation (a : Ax) (angle : ℝ) : M3 :=
  let c := cos angle
  let s := sin angle
  match a with
  | .X => !![1, 0, 0; 0, c, -s; 0, s, c]
  | .Y => !![c, 0, s; 0, 1, 0; -s, 0, c]
  | .Z => !![c, -s, 0; s, c, 0; 0, 0, 1]

/-- A letter of a convention string, `none` for anything but X, Y, Z. -/
def letterAx (c : Char) : Option Ax :=
  if c = 'X' then some .X else if c = 'Y' then some .Y else if c = 'Z' then some .Z else none

/-- The checks of l.199-205 (= l.263-269): three letters, the middle one different from both
neighbours, all in X, Y, Z. -/
def parseConvention (conv : List Char) : Except Err (Ax × Ax × Ax) :=
  match conv with
  | [a, b, c] =>
    if b = a ∨ b = c then .error .valueError
    else match letterAx a, letterAx b, letterAx c with
      | some a', some b', some c' => .ok (a', b', c')
      | _, _, _ => .error .valueError
  | _ => .error .valueError

/-- l.185-207 `euler_angles_to_matrix` (the shape check l.197-198 is in the type). -/
noncomputable def eulerAnglesToMatrix (e : V3) (conv : List Char) : Except Err M3 :=
  match parseConvention conv with
  | .error er => .error er
  | .ok (a, b, c) =>
    .ok (axisAngleRotation a (e 0) * axisAngleRotation b (e 1) * axisAngleRotation c (e 2))

/-- l.243-249 `_index_from_letter`. -/
def indexFromLetter : Ax → Fin 3
  | .X => 0 | .Y => 1 | .Z => 2

/-- l.210-240 `_angle_from_tan`. -/
noncomputable def angleFromTan (axis other : Ax) (data : V3) (horizontal taitBryan : Bool) : ℝ :=
  let p : Fin 3 × Fin 3 := match axis with | .X => (2, 1) | .Y => (0, 2) | .Z => (1, 0)
  let i1 := if horizontal then p.2 else p.1
  let i2 := if horizontal then p.1 else p.2
  let even : Bool := match axis, other with
    | .X, .Y => true | .Y, .Z => true | .Z, .X => true | _, _ => false
  if horizontal = even then atan2 (data i1) (data i2)
  else if taitBryan then atan2 (-(data i2)) (data i1)
  else atan2 (data i2) (-(data i1))

/-- l.252-291 `matrix_to_euler_angles`. `torch.asin/acos` return NaN outside `[-1, 1]`; the model's
`arcsin/arccos` clip, theorems are about rotation matrices where entries are inside. -/
noncomputable def matrixToEulerAngles (m : M3) (conv : List Char) : Except Err V3 :=
  match parseConvention conv with
  | .error er => .error er
  | .ok (a, b, c) =>
    let i0 := indexFromLetter a
    let i2 := indexFromLetter c
    let taitBryan : Bool := i0 ≠ i2
    let d : ℤ := (i0.val : ℤ) - (i2.val : ℤ)
    let central : ℝ :=
      if taitBryan then arcsin (m i0 i2 * (if d = -1 ∨ d = 2 then -1 else 1))
      else arccos (m i0 i0)
    .ok ![angleFromTan a b (fun r => m r i2) false taitBryan,
          central,
          angleFromTan c b (fun k => m i0 k) true taitBryan]

/-- l.294-315 `random_quaternions`, applied to the sample `o` drawn by `torch.randn`. -/
noncomputable def randomQuaternion (o : Quat) : Quat :=
  let s := o.normSq
  let d := copysign (Real.sqrt s) o.w
  ⟨o.w / d, o.x / d, o.y / d, o.z / d⟩

/-- l.318-338 `random_rotations` on the sample `o`. -/
noncomputable def randomRotation (o : Quat) : M3 := quaternionToMatrix (randomQuaternion o)

/-- l.360-372 `standardize_quaternion`. -/
noncomputable def standardizeQuaternion (q : Quat) : Quat :=
  open Classical in if q.w < 0 then ⟨-q.w, -q.x, -q.y, -q.z⟩ else q

/-- l.375-393 `quaternion_raw_multiply`. -/
def quaternionRawMultiply (a b : Quat) : Quat :=
  ⟨a.w * b.w - a.x * b.x - a.y * b.y - a.z * b.z,
   a.w * b.x + a.x * b.w + a.y * b.z - a.z * b.y,
   a.w * b.y - a.x * b.z + a.y * b.w + a.z * b.x,
   a.w * b.z + a.x * b.y - a.y * b.x + a.z * b.w⟩

/-- l.396-410 `quaternion_multiply`. -/
noncomputable def quaternionMultiply (a b : Quat) : Quat :=
  standardizeQuaternion (quaternionRawMultiply a b)

/-- l.413-426 `quaternion_invert`. -/
def quaternionInvert (q : Quat) : Quat := ⟨q.w * 1, q.x * -1, q.y * -1, q.z * -1⟩

/-- l.429-449 `quaternion_apply`. -/
def quaternionApply (q : Quat) (p : V3) : V3 :=
  let out := quaternionRawMultiply (quaternionRawMultiply q ⟨0, p 0, p 1, p 2⟩) (quaternionInvert q)
  ![out.x, out.y, out.z]

/-- l.452-472 `axis_and_d_to_pris_matrix`. -/
def axisAndDToPrisMatrix (axis : V3) (d : ℝ) : M4 :=
  hom !![1, 0, 0; 0, 1, 0; 0, 0, 1] ![axis 0 * d, axis 1 * d, axis 2 * d]

/-- l.495-524 `axis_and_angle_to_matrix_33`. -/
noncomputable def axisAndAngleToMatrix33 (axis : V3) (theta : ℝ) : M3 :=
  let c := cos theta
  let oneMinusC := 1 - c
  let s := sin theta
  let kx := axis 0; let ky := axis 1; let kz := axis 2
  !![c + kx * kx * oneMinusC, kx * ky * oneMinusC - kz * s, kx * kz * oneMinusC + ky * s;
     ky * kx * oneMinusC + kz * s, c + ky * ky * oneMinusC, ky * kz * oneMinusC - kx * s;
     kz * kx * oneMinusC - ky * s, kz * ky * oneMinusC + kx * s, c + kz * kz * oneMinusC]

/-- l.475-492 `axis_and_angle_to_matrix_44`. -/
noncomputable def axisAndAngleToMatrix44 (axis : V3) (theta : ℝ) : M4 :=
  hom (axisAndAngleToMatrix33 axis theta) ![0, 0, 0]

/-- l.563-587 `axis_angle_to_quaternion`. -/
noncomputable def axisAngleToQuaternion (v : V3) : Quat :=
  let angles := norm3 v
  let half := 0.5 * angles
  let eps : ℝ := 1e-6
  let small := 0.5 - (angles * angles) / 48
  let large := sin half / angles
  let f := open Classical in if |angles| < eps then small else large
  ⟨cos half, v 0 * f, v 1 * f, v 2 * f⟩

/-- l.590-613 `quaternion_to_axis_angle`. -/
noncomputable def quaternionToAxisAngle (q : Quat) : V3 :=
  let norms := norm3 ![q.x, q.y, q.z]
  let half := atan2 norms q.w
  let angles := 2 * half
  let eps : ℝ := 1e-6
  let small := 0.5 - (angles * angles) / 48
  let large := sin half / angles
  let f := open Classical in if |angles| < eps then small else large
  ![q.x / f, q.y / f, q.z / f]

/-- l.527-544 `axis_angle_to_matrix`. -/
noncomputable def axisAngleToMatrix (v : V3) : M3 := quaternionToMatrix (axisAngleToQuaternion v)

/-- l.547-560 `matrix_to_axis_angle`. -/
noncomputable def matrixToAxisAngle (m : M3) : V3 := quaternionToAxisAngle (matrixToQuaternion m)

/-- `torch.nn.functional.normalize(v, dim=-1)`: `v / max(‖v‖, 1e-12)`. -/
noncomputable def fNormalize (v : V3) : V3 := fun i => v i / max (norm3 v) 1e-12

/-- l.616-637 `rotation_6d_to_matrix` on the two halves `a1 = d6[:3]`, `a2 = d6[3:]`. -/
noncomputable def rotation6dToMatrix (d6 : V3 × V3) : M3 :=
  let a1 := d6.1; let a2 := d6.2
  let b1 := fNormalize a1
  let b2 : V3 := fun i => a2 i - dot b1 a2 * b1 i
  let b2 := fNormalize b2
  let b3 := cross b1 b2
  !![b1 0, b1 1, b1 2; b2 0, b2 1, b2 2; b3 0, b3 1, b3 2]

/-- l.640-655 `matrix_to_rotation_6d`: the first two rows. -/
def matrixToRotation6d (m : M3) : V3 × V3 := (m 0, m 1)

/-- l.658-661 `matrix44_to_se3_9d`. -/
def matrix44ToSe3_9d (m : M4) : (V3 × V3) × V3 := (matrixToRotation6d (rotPart m), posPart m)

/-- l.664-670 `se3_9d_to_matrix44`. -/
noncomputable def se3_9dToMatrix44 (s : (V3 × V3) × V3) : M4 := hom (rotation6dToMatrix s.1) s.2

/-- l.673-678 `matrix_to_pos_rot` (xyzw quaternion). -/
noncomputable def matrixToPosRot (m : M4) : V3 × (Fin 4 → ℝ) :=
  (posPart m, wxyzToXyzw (matrixToQuaternion (rotPart m)))

/-- l.681-687 `pos_rot_to_matrix`. -/
noncomputable def posRotToMatrix (pos : V3) (rot : Fin 4 → ℝ) : M4 :=
  hom (quaternionToMatrix (xyzwToWxyz rot)) pos

/-- l.691 `_NEXT_AXIS`. -/
def nextAxis (n : ℕ) : Option ℕ := [1, 2, 0, 1][n]?

/-- l.694-719 `_AXES2TUPLE`: (first axis, parity, repetition, frame). Strings are lists of characters. -/
def axes2tuple : List (List Char × (ℕ × ℕ × ℕ × ℕ)) :=
  [(['s', 'x', 'y', 'z'], (0, 0, 0, 0)), (['s', 'x', 'y', 'x'], (0, 0, 1, 0)), (['s', 'x', 'z', 'y'], (0, 1, 0, 0)), (['s', 'x', 'z', 'x'], (0, 1, 1, 0)),
   (['s', 'y', 'z', 'x'], (1, 0, 0, 0)), (['s', 'y', 'z', 'y'], (1, 0, 1, 0)), (['s', 'y', 'x', 'z'], (1, 1, 0, 0)), (['s', 'y', 'x', 'y'], (1, 1, 1, 0)),
   (['s', 'z', 'x', 'y'], (2, 0, 0, 0)), (['s', 'z', 'x', 'z'], (2, 0, 1, 0)), (['s', 'z', 'y', 'x'], (2, 1, 0, 0)), (['s', 'z', 'y', 'z'], (2, 1, 1, 0)),
   (['r', 'z', 'y', 'x'], (0, 0, 0, 1)), (['r', 'x', 'y', 'x'], (0, 0, 1, 1)), (['r', 'y', 'z', 'x'], (0, 1, 0, 1)), (['r', 'x', 'z', 'x'], (0, 1, 1, 1)),
   (['r', 'x', 'z', 'y'], (1, 0, 0, 1)), (['r', 'y', 'z', 'y'], (1, 0, 1, 1)), (['r', 'z', 'x', 'y'], (1, 1, 0, 1)), (['r', 'y', 'x', 'y'], (1, 1, 1, 1)),
   (['r', 'y', 'x', 'z'], (2, 0, 0, 1)), (['r', 'z', 'x', 'z'], (2, 0, 1, 1)), (['r', 'x', 'y', 'z'], (2, 1, 0, 1)), (['r', 'z', 'y', 'z'], (2, 1, 1, 1))]

/-- l.724-777 `quaternion_from_euler` with an axes string (the encoded-tuple form of `axes`,
l.735-737, is not modelled; an unknown string raises KeyError at l.736).
`ai, aj, ak` are views of the caller's tensor (l.739), so the in-place divisions l.749-751 change it:
the result is the quaternion together with the caller's tensor after the call. -/
noncomputable def quaternionFromEuler (rpy : V3) (axes : List Char) : Except Err (Quat × V3) :=
  match axes2tuple.lookup (axes.map Char.toLower) with
  | none => .error .keyError
  | some (firstaxis, parity, repetition, frame) =>
    let i := firstaxis + 1
    match nextAxis (i + parity - 1), nextAxis (i - parity) with
    | some j', some k' =>
      let j := j' + 1
      let k := k' + 1
      let ai0 := if frame ≠ 0 then rpy 2 else rpy 0
      let ak0 := if frame ≠ 0 then rpy 0 else rpy 2
      let aj0 := if parity ≠ 0 then -(rpy 1) else rpy 1
      let ai := ai0 / 2
      let aj := aj0 / 2
      let ak := ak0 / 2
      -- the caller's tensor: views of entries 0 and 2 are always halved in place, entry 1 only if
      -- `aj` is still a view (no parity)
      let rpy' : V3 := ![rpy 0 / 2, if parity ≠ 0 then rpy 1 else rpy 1 / 2, rpy 2 / 2]
      let ci := cos ai; let si := sin ai; let cj := cos aj; let sj := sin aj
      let ck := cos ak; let sk := sin ak
      let cc := ci * ck; let cs := ci * sk; let sc := si * ck; let ss := si * sk
      let q0 : ℕ → ℝ := fun _ => 0
      let q1 : ℕ → ℝ :=
        if repetition ≠ 0 then
          Function.update (Function.update (Function.update (Function.update q0
            0 (cj * (cc - ss))) i (cj * (cs + sc))) j (sj * (cc + ss))) k (sj * (cs - sc))
        else
          Function.update (Function.update (Function.update (Function.update q0
            0 (cj * cc + sj * ss)) i (cj * sc - sj * cs)) j (cj * ss + sj * cc)) k (cj * cs - sj * sc)
      let q2 := if parity ≠ 0 then Function.update q1 j (q1 j * -1) else q1
      .ok (⟨q2 0, q2 1, q2 2, q2 3⟩, rpy')
    | _, _ => .error .indexError

end PK
