import Verif.Model.RotConv

/-!
# `transforms/math.py`

A tensor with leading batch dimensions is modelled as a family indexed by `Fin N` (or a list), because
`quaternion_close` and `quaternion_slerp` reduce over the whole batch.
-/

namespace PK
noncomputable section
open Classical

/-- The `bound` argument: a float or a 2-tuple (math.py:80-83). -/
inductive Bound where
  | scalar (b : ℝ)
  | pair (lower upper : ℝ)

/-- `_dacos_dx` (math.py:149-153); `math.sqrt` is only reached with `|x| < 1`. -/
def dacosDx (x : ℝ) : ℝ := (-1) / Real.sqrt (1 - x * x)

/-- `_acos_linear_approximation` (math.py:142-146). -/
def acosLinearApproximation (x x0 : ℝ) : ℝ := (x - x0) * dacosDx x0 + Real.arccos x0

/-- one element of the result: the lower assignment is made last (math.py:126-137) -/
def acosExtrapElem (lower upper x : ℝ) : ℝ :=
  if x ≤ lower then acosLinearApproximation x lower
  else if upper ≤ x then acosLinearApproximation x upper
  else Real.arccos x

/-- `lower_bound, upper_bound` (math.py:114-118) -/
def Bound.unpack : Bound → ℝ × ℝ
  | .scalar b => (-b, b)
  | .pair l u => (l, u)

/-- `acos_linear_extrapolation` (math.py:80-139) on a tensor with any index set. -/
def acosLinearExtrapolation {ι : Type} (xs : ι → ℝ) (bound : Bound) : Except Err (ι → ℝ) :=
  let (lower, upper) := bound.unpack
  if upper < lower then .error .valueError
  else if lower ≤ -1 ∨ 1 ≤ upper then .error .valueError
  else .ok fun i => acosExtrapElem lower upper (xs i)

/-- `torch.sum(q1 * q2, dim=-1)` -/
def qdot (a b : Quat) : ℝ := a.w * b.w + a.x * b.x + a.y * b.y + a.z * b.z

/-- `torch.clamp(x, lo, hi)` on reals -/
def clampR (x lo hi : ℝ) : ℝ := min (max x lo) hi

/-- `quaternion_close` (math.py:38-45): one boolean for the whole batch. -/
def quaternionClose {N : ℕ} (q1 q2 : Fin N → Quat) (eps : ℝ) : Prop :=
  ∀ n, 1 - qdot (q1 n) (q2 n) ^ 2 < eps

/-- `quaternion_angular_distance` (math.py:13-35). `theta[close] = 0` with a 0-dimensional mask writes every
element or none. -/
def quaternionAngularDistance {N : ℕ} (q1 q2 : Fin N → Quat) : Fin N → ℝ :=
  let theta := fun n =>
    let cosTheta := clampR (qdot (q1 n) (q2 n)) (-1) 1
    let absDot := |cosTheta|
    let sinHalf := Real.sqrt (1 - absDot ^ 2)
    2 * atan2 sinHalf absDot
  if quaternionClose q1 q2 1e-4 then fun _ => 0 else theta

/-- componentwise negation `-q2[to_invert]` -/
def Quat.neg (q : Quat) : Quat := ⟨-q.w, -q.x, -q.y, -q.z⟩

/-- `w1 * q1 + w2 * q2` -/
def Quat.comb (w1 : ℝ) (q1 : Quat) (w2 : ℝ) (q2 : Quat) : Quat :=
  ⟨w1 * q1.w + w2 * q2.w, w1 * q1.x + w2 * q2.x, w1 * q1.y + w2 * q2.y, w1 * q1.z + w2 * q2.z⟩

/-- `q2` after `q2[to_invert] = -q2[to_invert]` (math.py:61-63), which writes into the caller's tensor -/
def slerpFlip {N : ℕ} (q1 q2 : Fin N → Quat) : Fin N → Quat :=
  fun n => if qdot (q1 n) (q2 n) < 0 then (q2 n).neg else q2 n

/-- `cos_theta` after line 64 -/
def slerpCos {N : ℕ} (q1 q2 : Fin N → Quat) (n : Fin N) : ℝ :=
  if qdot (q1 n) (q2 n) < 0 then -qdot (q1 n) (q2 n) else qdot (q1 n) (q2 n)

/-- one element of the spherical branch (math.py:70-77); `none` stands for a quaternion of NaNs, which is what
the division `0/0` gives when `sin_theta = 0` -/
def slerpElem (c t : ℝ) (q1 q2 : Quat) : Option Quat :=
  let theta := Real.arccos c
  let sinTheta := Real.sin theta
  if sinTheta = 0 then none
  else
    let w1 := Real.sin ((1 - t) * theta) / sinTheta
    let w2 := Real.sin (t * theta) / sinTheta
    some (Quat.comb w1 q1 w2 q2)

/-- `quaternion_slerp` (math.py:48-77) on an `(N, 4)` batch with a scalar `t`. Returns the interpolated batch and
the contents of the caller's `q2` afterwards. Unbatched inputs (`w1[:, None]` on a 0-dimensional tensor raises in
the spherical branch) and tensor-valued `t` are not modelled. -/
def quaternionSlerp {N : ℕ} (q1 q2 : Fin N → Quat) (t : ℝ) : (Fin N → Option Quat) × (Fin N → Quat) :=
  let q2' := slerpFlip q1 q2
  let c := slerpCos q1 q2
  if ∀ n, 1 - 1e-6 < c n then
    (fun n => some ⟨(q1 n).w + t * ((q2' n).w - (q1 n).w), (q1 n).x + t * ((q2' n).x - (q1 n).x),
      (q1 n).y + t * ((q2' n).y - (q1 n).y), (q1 n).z + t * ((q2' n).z - (q1 n).z)⟩, q2')
  else (fun n => slerpElem (c n) t (q1 n) (q2' n), q2')

end
end PK
