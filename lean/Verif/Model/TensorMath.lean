import Verif.Model.TensorT3
import Verif.Model.Tape
import Verif.Model.So3
import Verif.Model.Perturb

/-!
# `transforms/math.py`, `transforms/so3.py` and `transforms/perturbation.py` on tensors

`Model/Math.lean`, `Model/So3.lean` and `Model/Perturb.lean` have the same functions on families of quaternions, vectors
and matrices; here every operation acts on whole tensors, as in the code, for arguments of any shape.

Simplifications.  `a[mask] = f(x[mask])` with a function `f` of single entries is `putWhere`, which writes `f(x)` where the
mask is true.  `torch.empty_like` returns memory with any content: its entries are the argument `junk`.  Results that may be
NaN have extended scalars as entries (`Fl`).  Views are not represented: arguments are tensors of their own.
-/

namespace PK
namespace Tn
open Classical
variable {α : Type} [Inhabited α]

/-- `a[mask] = v`: the mask has the sizes of the first dimensions of `a` and selects from them; without dimensions it
selects everything or nothing. -/
noncomputable def putWhere (a : Tn α) (mask : Tn Bool) (v : List ℕ → α) : Except Err (Tn α) :=
  if mask.shape = a.shape.take mask.shape.length then
    .ok (ofFn a.tag a.shape fun i => if mask.get (i.take mask.shape.length) then v i else a.get i)
  else .error .indexError

/-- `torch.all(t)`: no dimensions -/
noncomputable def allT (a : Tn Bool) : Tn Bool := ofFn a.tag [] fun _ => decide (∀ i, ValidIx i a.shape → a.get i = true)

/-- A function of each entry whose result may be NaN; the dtype is kept (integers become floats) -/
noncomputable def mapFl (f : ℝ → Fl) (a : Tn ℝ) : Tn Fl := ofFn (trig a.tag) a.shape fun i => f (a.get i)

/-- `t[:, None]`: at least one dimension -/
noncomputable def colNone (a : Tn α) : Except Err (Tn α) :=
  match a.shape with
  | [] => .error .indexError
  | _ :: _ => .ok (unsqueezeAt a 1)

/-- `a -= b`: the shape and the dtype of `a` stay (`a += b` with `f = (· + ·)`) -/
noncomputable def inPlace (f : ℝ → ℝ → ℝ) (a b : Tn ℝ) : Except Err (Tn ℝ) := do
  let r ← bin f a b
  if r.shape = a.shape then return ofFn a.tag a.shape r.get else .error .runtimeError

end Tn

open Tn
noncomputable section
open Classical

/-! ## math.py -/

/-- `torch.sum(q1 * q2, dim=-1)` -/
def sumProdT (q1 q2 : Tn ℝ) : Except Err (Tn ℝ) := do Tn.sum (← mul q1 q2)

/-- math.py:38-45 `quaternion_close(q1, q2, eps)` -/
def quaternionCloseT (q1 q2 : Tn ℝ) (eps : ℝ := 1e-4) : Except Err (Tn Bool) := do
  let dist := map (fun c => 1 - c ^ 2) (← sumProdT q1 q2)
  return allT (test (· < eps) dist)

/-- math.py:13-35 `quaternion_angular_distance(q1, q2)` -/
def quaternionAngularDistanceT (q1 q2 : Tn ℝ) : Except Err (Tn ℝ) := do
  let cos_theta ← sumProdT q1 q2
  let cos_theta := map (clampR · (-1) 1) cos_theta
  let abs_dot := map (fun x => |x|) cos_theta
  let sin_half_theta := map (fun x => Real.sqrt (1 - x ^ 2)) abs_dot
  let theta := map (2 * ·) (← atan2T sin_half_theta abs_dot)
  let close ← quaternionCloseT q1 q2
  putWhere theta close fun _ => 0

/-- math.py:48: the argument `t`, a Python number or a tensor -/
inductive StepT where
  | num (t : ℝ)
  | ten (t : Tn ℝ)

/-- `1.0 - t` -/
def StepT.rest : StepT → StepT
  | .num t => .num (1 - t)
  | .ten t => .ten (map (1 - ·) t)

/-- `t * x` -/
def StepT.times : StepT → Tn ℝ → Except Err (Tn ℝ)
  | .num t, x => .ok (map (t * ·) x)
  | .ten t, x => mul t x

/-- `t * x` for entries that may be NaN -/
def StepT.timesFl : StepT → Tn Fl → Except Err (Tn Fl)
  | .num t, x => .ok (mapG (AD.mul (.fin t)) x)
  | .ten t, x => bin AD.mul (toFl t) x

/-- math.py:74-75 `torch.sin(t * theta) / sin_theta` -/
def slerpWeightT (t : StepT) (theta sin_theta : Tn Fl) : Except Err (Tn Fl) := do
  bin AD.div (mapG (AD.lift Real.sin) (← t.timesFl theta)) sin_theta

/-- math.py:67-68 `q1 + t * (q2 - q1)` -/
def lerpT (q1 q2 : Tn ℝ) (t : StepT) : Except Err (Tn Fl) := do
  return toFl (← add q1 (← t.times (← sub q2 q1)))

/-- math.py:71-77 -/
def sphericalT (q1 q2 cos_theta : Tn ℝ) (t : StepT) : Except Err (Tn Fl) := do
  let theta := mapFl (fun c => AD.acos (.fin c)) cos_theta
  let sin_theta := mapG (AD.lift Real.sin) theta
  let w1 ← slerpWeightT t.rest theta sin_theta
  let w2 ← slerpWeightT t theta sin_theta
  let a ← bin AD.mul (← colNone w1) (toFl q1)
  let b ← bin AD.mul (← colNone w2) (toFl q2)
  bin Fl.add a b

/-- math.py:66-77: the value that is returned -/
def slerpTail (q1 q2 cos_theta : Tn ℝ) (t : StepT) : Except Err (Tn Fl) :=
  if (allT (test (1 - 1e-6 < ·) cos_theta)).get [] = true then lerpT q1 q2 t else sphericalT q1 q2 cos_theta t

/-- `x[mask] = -x[mask]` (math.py:63-64) -/
def negWhere (x : Tn ℝ) (mask : Tn Bool) : Except Err (Tn ℝ) := putWhere x mask fun i => -x.get i

/-- math.py:48-77 `quaternion_slerp(q1, q2, t)`: what the call returns or raises, and the contents of the caller's `q2`
afterwards -/
def quaternionSlerpT (q1 q2 : Tn ℝ) (t : StepT) : Except Err (Tn Fl) × Tn ℝ :=
  match sumProdT q1 q2 with
  | .error e => (.error e, q2)
  | .ok cos_theta =>
    let to_invert := test (· < 0) cos_theta
    match negWhere q2 to_invert with
    | .error e => (.error e, q2)
    | .ok q2' => ((negWhere cos_theta to_invert) >>= fun cos_theta => slerpTail q1 q2' cos_theta t, q2')

/-- math.py:80-139 `acos_linear_extrapolation(x, bound)`; entries between the bounds are in the domain of `torch.acos`. -/
def acosLinearExtrapolationT (junk : List ℕ → ℝ) (x : Tn ℝ) (bound : Bound) : Except Err (Tn ℝ) :=
  let (lower, upper) := bound.unpack
  if upper < lower then .error .valueError
  else if lower ≤ -1 ∨ 1 ≤ upper then .error .valueError
  else do
    let acos_extrap := ofFn x.tag x.shape junk
    let x_upper := test (upper ≤ ·) x
    let x_lower := test (· ≤ lower) x
    let x_mid ← andB (notB x_upper) (notB x_lower)
    let acos_extrap ← putWhere acos_extrap x_mid fun i => Real.arccos (x.get i)
    let acos_extrap ← putWhere acos_extrap x_upper fun i => acosLinearApproximation (x.get i) upper
    putWhere acos_extrap x_lower fun i => acosLinearApproximation (x.get i) lower

/-! ## so3.py -/

/-- so3.py:70-72, 163-165, 201-203: `N, dim1, dim2 = R.shape` and the check of the sizes -/
def batchOf33 (R : Tn ℝ) : Except Err ℕ :=
  match R.shape with
  | [N, dim1, dim2] => if dim1 ≠ 3 ∨ dim2 ≠ 3 then .error .valueError else .ok N
  | _ => .error .valueError

/-- so3.py:70-80: the checks and `phi_cos` -/
def phiCosT (R : Tn ℝ) (eps : ℝ) : Except Err (Tn ℝ) := do
  let _ ← batchOf33 R
  let rot_trace ← add (← add (← entryOf R 0 0) (← entryOf R 1 1)) (← entryOf R 2 2)
  if anyAll (← orB (test (· < -1 - eps) rot_trace) (test (3 + eps < ·) rot_trace)) then .error .valueError
  else return map (fun x => (x - 1) * 0.5) rot_trace

/-- so3.py:82-89 -/
def phiT (junk : List ℕ → ℝ) (cos_bound : ℝ) (phi_cos : Tn ℝ) : Except Err (Tn Fl) :=
  if 0 < cos_bound then do return toFl (← acosLinearExtrapolationT junk phi_cos (.scalar (1 - cos_bound)))
  else .ok (mapFl (fun x => AD.acos (.fin x)) phi_cos)

/-- so3.py:40-89 `so3_rotation_angle(R, eps, cos_angle, cos_bound)` -/
def so3RotationAngleT (junk : List ℕ → ℝ) (R : Tn ℝ) (eps : ℝ := 1e-4) (cos_angle : Bool := false) (cos_bound : ℝ := 1e-4) :
    Except Err (Tn Fl) := do
  let phi_cos ← phiCosT R eps
  if cos_angle then return toFl phi_cos else phiT junk cos_bound phi_cos

/-- so3.py:12-37 `so3_relative_angle(R1, R2, cos_angle)` -/
def so3RelativeAngleT (junk : List ℕ → ℝ) (R1 R2 : Tn ℝ) (cos_angle : Bool := false) : Except Err (Tn Fl) := do
  let R12 ← bmm R1 (← permute R2 [0, 2, 1])
  so3RotationAngleT junk R12 1e-4 cos_angle

/-- so3.py:217-252 `hat(v)` -/
def hatT (v : Tn ℝ) : Except Err (Tn ℝ) :=
  match v.shape with
  | [N, dim] =>
    if dim ≠ 3 then .error .valueError
    else do
      let h := full v.tag [N, 3, 3] 0
      let (x, y, z) ← unpack3 (← unbind v)
      let h ← setEntries h 0 1 (map (- ·) z)
      let h ← setEntries h 0 2 y
      let h ← setEntries h 1 0 z
      let h ← setEntries h 1 2 (map (- ·) x)
      let h ← setEntries h 2 0 (map (- ·) y)
      setEntries h 2 1 x
  | _ => .error .valueError

/-- so3.py:183-214 `hat_inv(h)`: `.max()` of a tensor without entries raises. -/
def hatInvT (h : Tn ℝ) : Except Err (Tn ℝ) := do
  let N ← batchOf33 h
  let ss := map (fun x => |x|) (← add h (← permute h [0, 2, 1]))
  if N = 0 then .error .runtimeError
  else if anyAll (test (1e-5 < ·) ss) then .error .valueError
  else stackLast [← entryOf h 2 1, ← entryOf h 0 2, ← entryOf h 1 0]

/-- `w[:, None, None] * m` for a tensor `w` with one dimension -/
def scaleRows (w m : Tn ℝ) : Except Err (Tn ℝ) := mul (unsqueeze (unsqueeze w)) m

/-- so3.py:92-141 `so3_exp_map(log_rot, eps)` -/
def so3ExpMapT (log_rot : Tn ℝ) (eps : ℝ := 1e-4) : Except Err (Tn ℝ) :=
  match log_rot.shape with
  | [_, dim] =>
    if dim ≠ 3 then .error .valueError
    else do
      let nrms ← sumProdT log_rot log_rot
      let rot_angles := map (fun x => Real.sqrt (max x eps)) nrms
      let rot_angles_inv := map (1 / ·) rot_angles
      let fac1 ← mul rot_angles_inv (map Real.sin rot_angles)
      let fac2 ← mul (← mul rot_angles_inv rot_angles_inv) (map (1 - ·) (map Real.cos rot_angles))
      let skews ← hatT log_rot
      let skews_square ← bmm skews skews
      let R ← add (← scaleRows fac1 skews) (← scaleRows fac2 skews_square)
      add R (unsqueezeAt (eyeN 3 log_rot.tag) 0)
  | _ => .error .valueError

/-- so3.py:144-180 `so3_log_map(R, eps)`; `so3_rotation_angle(R)` has its default arguments. -/
def so3LogMapT (junk : List ℕ → ℝ) (R : Tn ℝ) (eps : ℝ := 1e-4) : Except Err (Tn ℝ) := do
  let _ ← batchOf33 R
  let phi ← acosLinearExtrapolationT junk (← phiCosT R 1e-4) (.scalar (1 - 1e-4))
  let phi_denom := map (phiDenom · eps) phi
  let fac ← div phi (map (2 * ·) phi_denom)
  hatInvT (← scaleRows fac (← sub R (← permute R [0, 2, 1])))

/-! ## perturbation.py -/

/-- perturbation.py:33 `(delta_t * axis).sum(dim=1, keepdim=True) * axis`, for an axis with at most two dimensions -/
def alongT (delta_t axis : Tn ℝ) : Except Err (Tn ℝ) := do
  let p ← mul delta_t axis
  if p.shape.length = 2 then mul (← sumKeep p) axis else .error .unmodelled

/-- perturbation.py:27-36: `axis_angle` and `delta_t`; `o` is the `torch.randn` of l.35. -/
def axisAndShift (axis : Option (Tn ℝ)) (perp : Bool) (delta_t o : Tn ℝ) : Except Err (Tn ℝ × Tn ℝ) :=
  match axis with
  | some a => if perp then do return (a, ← inPlace (· - ·) delta_t (← alongT delta_t a)) else .ok (a, delta_t)
  | none => do return (← div o (← Tn.norm o), delta_t)

/-- perturbation.py:5-45 `sample_perturbations(T, num_perturbations, radian_sigma, translation_sigma, axis_of_rotation,
translation_perpendicular_to_axis_of_rotation)`; `dt`, `da` and `o` are what the calls of `torch.randn` return: shapes
`(num_perturbations, 3)`, `(num_perturbations,)` and `(num_perturbations, 3)`, dtype and device of `T`. -/
def samplePerturbationsT (T : Tn ℝ) (num_perturbations : ℕ) (radian_sigma translation_sigma : ℝ) (axis : Option (Tn ℝ))
    (perp : Bool) (dt da o : Tn ℝ) : Except Err (Tn ℝ) := do
  let perturbed ← repeatT (eye4 T.tag) [num_perturbations, 1, 1]
  let delta_t := map (· * translation_sigma) dt
  let theta := map (· * radian_sigma) da
  let (axis_angle, delta_t) ← axisAndShift axis perp delta_t o
  let delta_R ← Tn.axisAndAngleToMatrix33 axis_angle theta
  let perturbed ← setBlock perturbed 3 3 (← matmulT delta_R (← rotBlock T))
  let perturbed ← setColumn perturbed 3 3 (← posColumn T)
  setColumn perturbed 3 3 (← inPlace (· + ·) (← posColumn perturbed) delta_t)

end
end PK
