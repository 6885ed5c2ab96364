import Verif.Model.Ieee
import Verif.Model.FloatIK
import Verif.Model.TensorIK

/-!
# Inverse kinematics with infinities and NaN

Line numbers without a file refer to `/repo/src/pytorch_kinematics/ik.py`.  The numbers are those of `Model/Ieee.lean`; target
poses and joint values may contain infinities and NaN.  Beyond that arithmetic only the following is fixed: a quotient with an
infinity or NaN as numerator and the square root of an infinity or NaN are not finite.

Simplifications: sums of products (`einsum`, `@`) run from left to right; link and joint offsets and axes are finite.
-/

namespace PK
noncomputable section
open Classical

/-- the further operations of the pose error -/
structure IeeeRot extends Ieee where
  /-- `a / b` -/
  div : Fl → Fl → Fl
  div_strict : ∀ a b, a.isFinite = false → (div a b).isFinite = false
  div_nan : ∀ b, div .nan b = .nan
  /-- `torch.sqrt` -/
  sqrt : Fl → Fl
  sqrt_strict : ∀ x, x.isFinite = false → (sqrt x).isFinite = false
  sqrt_ne : ∀ x, sqrt x ≠ .ninf
  /-- `torch.norm` of three numbers -/
  norm3 : Fl → Fl → Fl → Fl
  /-- `torch.atan2` -/
  atan2 : Fl → Fl → Fl

/-- a quaternion `(w, x, y, z)` of floating-point numbers -/
abbrev FQuat := Fin 4 → Fl

/-- `torch.clamp(x, min=0.0)` -/
def Fl.clampMin0 (x : Fl) : Fl := Fl.max x (.fin 0)

/-- `a` comes before `b` in the order of `argmax`: NaN is the largest number -/
def Fl.beats (a b : Fl) : Prop := b ≠ .nan ∧ (a = .nan ∨ Fl.lt b a)

/-- `torch.argmax` of four numbers: the first of the largest -/
def argmaxI (f : Fin 4 → Fl) : Fin 4 :=
  [1, 2, 3].foldl (fun best k => if Fl.beats (f k) (f best) then k else best) 0

/-- rotation_conversions.py:114-128: `q_abs` -/
def qAbsI (m : IeeeRot) (M : Fin 3 → Fin 3 → Fl) : Fin 4 → Fl :=
  let a := m.toIeee.add; let s := m.toIeee.sub
  fun c => m.sqrt (Fl.clampMin0 ((![a (a (a (.fin 1) (M 0 0)) (M 1 1)) (M 2 2), s (s (a (.fin 1) (M 0 0)) (M 1 1)) (M 2 2),
    s (a (s (.fin 1) (M 0 0)) (M 1 1)) (M 2 2), a (s (s (.fin 1) (M 0 0)) (M 1 1)) (M 2 2)] : Fin 4 → Fl) c))

/-- rotation_conversions.py:101-154 `matrix_to_quaternion`, operation by operation -/
def matrixToQuaternionI (m : IeeeRot) (M : Fin 3 → Fin 3 → Fl) : FQuat :=
  let a := m.toIeee.add; let s := m.toIeee.sub
  let q := qAbsI m M
  let sq (x : Fl) := m.toIeee.times x x
  let quatByRijk : Fin 4 → FQuat :=
    ![![sq (q 0), s (M 2 1) (M 1 2), s (M 0 2) (M 2 0), s (M 1 0) (M 0 1)],
      ![s (M 2 1) (M 1 2), sq (q 1), a (M 1 0) (M 0 1), a (M 0 2) (M 2 0)],
      ![s (M 0 2) (M 2 0), a (M 1 0) (M 0 1), sq (q 2), a (M 1 2) (M 2 1)],
      ![s (M 1 0) (M 0 1), a (M 2 0) (M 0 2), a (M 2 1) (M 1 2), sq (q 3)]]
  let best := argmaxI q
  fun c => m.div (quatByRijk best c) (m.toIeee.times (.fin 2) (Fl.max (q best) (m.rnd 0.1)))

/-- rotation_conversions.py:375-393 `quaternion_raw_multiply` -/
def quaternionRawMultiplyI (m : Ieee) (p q : FQuat) : FQuat :=
  let a := m.add; let s := m.sub; let t := m.times
  ![s (s (s (t (p 0) (q 0)) (t (p 1) (q 1))) (t (p 2) (q 2))) (t (p 3) (q 3)),
    s (a (a (t (p 0) (q 1)) (t (p 1) (q 0))) (t (p 2) (q 3))) (t (p 3) (q 2)),
    a (a (s (t (p 0) (q 2)) (t (p 1) (q 3))) (t (p 2) (q 0))) (t (p 3) (q 1)),
    a (s (a (t (p 0) (q 3)) (t (p 1) (q 2))) (t (p 2) (q 1))) (t (p 3) (q 0))]

/-- rotation_conversions.py:359-372 `standardize_quaternion` -/
def standardizeQuaternionI (q : FQuat) : FQuat := if Fl.lt (q 0) (.fin 0) then fun i => Fl.neg (q i) else q

/-- rotation_conversions.py:396-410 `quaternion_multiply` -/
def quaternionMultiplyI (m : Ieee) (p q : FQuat) : FQuat := standardizeQuaternionI (quaternionRawMultiplyI m p q)

/-- rotation_conversions.py:413-425 `quaternion_invert` -/
def quaternionInvertI (m : Ieee) (q : FQuat) : FQuat := fun i => m.times (q i) (.fin ((![1, -1, -1, -1] : Fin 4 → ℝ) i))

/-- `torch.abs` -/
def Fl.absF : Fl → Fl
  | .fin x => .fin |x|
  | .ninf => .pinf
  | x => x

/-- rotation_conversions.py:590-613 `quaternion_to_axis_angle`, operation by operation -/
def quaternionToAxisAngleI (m : IeeeRot) (q : FQuat) : Fin 3 → Fl :=
  let norms := m.norm3 (q 1) (q 2) (q 3)
  let half := m.atan2 norms (q 0)
  let angles := m.toIeee.times (.fin 2) half
  let small := m.toIeee.sub (.fin 0.5) (m.div (m.toIeee.times angles angles) (.fin 48))
  let large := m.div (m.sin half) angles
  let f := if Fl.lt angles.absF (.fin 1e-6) then small else large
  ![m.div (q 1) f, m.div (q 2) f, m.div (q 3) f]

/-- the rotation block of a 4x4 matrix -/
def rotI (T : FM4) : Fin 3 → Fin 3 → Fl := fun i j => T i.castSucc j.castSucc

/-- l.397-428 `delta_pose` and l.40-48, l.96-104, one row: the pose `M` of the end and the target `T` (l.462-470) -/
def deltaPoseI (m : IeeeRot) (M T : FM4) : Fin 6 → Fl :=
  let posDiff : Fin 3 → Fl := fun i => m.toIeee.sub (T i.castSucc 3) (M i.castSucc 3)
  let cur := matrixToQuaternionI m (rotI M)
  let diff := quaternionMultiplyI m.toIeee (matrixToQuaternionI m (rotI T)) (quaternionInvertI m.toIeee cur)
  let rot := quaternionToAxisAngleI m diff
  ![posDiff 0, posDiff 1, posDiff 2, rot 0, rot 1, rot 2]

/-- one column of chain.py:714-759 `jacobian_tensor`: pose `T` of the end, pose `Tk` of the frame of the joint -/
def jcolI (m : Ieee) (T Tk : FM4) (axis : V3) (rev : Prop) [Decidable rev] : Fin 6 → Fl :=
  let z : Fin 3 → Fl := fun i => m.add (m.add (m.times (Tk i.castSucc 0) (.fin (axis 0))) (m.times (Tk i.castSucc 1) (.fin (axis 1))))
    (m.times (Tk i.castSucc 2) (.fin (axis 2)))
  let dp : Fin 3 → Fl := fun i => m.sub (T i.castSucc 3) (Tk i.castSucc 3)
  let cr : Fin 3 → Fl := ![m.sub (m.times (z 1) (dp 2)) (m.times (z 2) (dp 1)), m.sub (m.times (z 2) (dp 0)) (m.times (z 0) (dp 2)),
    m.sub (m.times (z 0) (dp 1)) (m.times (z 1) (dp 0))]
  let jv := if rev then cr else z
  let jw : Fin 3 → Fl := if rev then z else fun _ => .fin 0
  ![jv 0, jv 1, jv 2, jw 0, jw 1, jw 2]

/-- `T[i]` -/
def tensorAtI {B : ℕ} (T : List (Fin B → FM4)) (i : ℕ) : Except Err (Fin B → FM4) := match T[i]? with
  | some x => .ok x
  | none => .error .indexError

/-- chain.py:714-759 `jacobian_tensor(th, ret_eef_pose=True)` -/
def SerialChain.jacobianTensorI (m : Ieee) (s : SerialChain) {B : ℕ} (th : List (Fin B → Fl)) :
    Except Err (List (Fin B → Fin 6 → Fl) × (Fin B → FM4)) := do
  let T ← s.chain.fkTensorI m (Chain.staticI m s.chain.root) th
  let tee ← tensorAtI T s.eefIdx
  let tdof ← s.dofFrameIndices.mapM (tensorAtI T)
  let J := List.zipWith (fun (ta : (Fin B → FM4) × V3) (ty : ℕ) => fun b => jcolI m (tee b) (ta.1 b) ta.2 (ty = 1))
    (List.zip tdof s.dofAxes) s.dofTypes
  pure (J, tee)

/-- l.497-499 for one row of problem `i`: Jacobian, pose error and the step that the kernel computes from them.  The linear
algebra of the kernels is the argument `step`, on the columns of the Jacobian and the pose error. -/
def evalI (m : IeeeRot) (s : SerialChain) {N d : ℕ} (targets : Fin N → FM4)
    (step : List (Fin 6 → Fl) → (Fin 6 → Fl) → Except Err (QRow d)) (i : Fin N) (q : QRow d) :
    Except Err (QRow d × (Fin 6 → Fl)) := do
  let (J, T) ← s.jacobianTensorI m.toIeee (B := 1) (List.ofFn fun j _ => q j)
  let dx := deltaPoseI m (T 0) (targets i)
  let dq ← step (J.map fun c => c 0) dx
  return (dq, dx)

/-! ## The step of `PseudoInverseIKWithSVD` -/

/-- l.109-112 `w * x` with the `task_weight` that the solver passes -/
def weighI (m : Ieee) (w : Fin 6 → ℝ) (x : Fin 6 → Fl) : Fin 6 → Fl := fun k => m.times (.fin (w k)) (x k)

/-- l.107-129: `torch.linalg.svd` raises `LinAlgError`, a `RuntimeError`, when the matrix contains an infinity or NaN; else the
step is a matrix (`total`, l.126) times the weighted error -/
def svdStepI (m : Ieee) {d : ℕ} (w : Fin 6 → ℝ) (total : List (Fin 6 → Fl) → (Fin 6 → Fl) → Fin d → Fin 6 → Fl)
    (J : List (Fin 6 → Fl)) (dx : Fin 6 → Fl) : Except Err (QRow d) :=
  let J_w := J.map (weighI m w)
  let dx_w := weighI m w dx
  if ∃ c ∈ J_w, ∃ k, (c k).isFinite = false then .error .runtimeError
  else .ok fun j =>
    let t (k : Fin 6) := m.times (total J_w dx_w j k) (dx_w k)
    m.add (m.add (m.add (m.add (m.add (t 0) (t 1)) (t 2)) (t 3)) (t 4)) (t 5)

/-- l.241-246: the pose error of one row of problem `i` from forward kinematics -/
def errI (m : IeeeRot) (s : SerialChain) {N d : ℕ} (targets : Fin N → FM4) (i : Fin N) (q : QRow d) :
    Except Err (Fin 6 → Fl) := do
  let T ← s.chain.fkTensorI m.toIeee (Chain.staticI m.toIeee s.chain.root) (B := 1) (List.ofFn fun j _ => q j)
  let tee ← tensorAtI T s.eefIdx
  return deltaPoseI m (tee 0) (targets i)

/-- `N * R` rows of joint values, `R` for each problem; one row that raises makes the call raise -/
def rowsI {N d : ℕ} {α : Type} (R : ℕ) (f : Fin N → QRow d → Except Err α) (q : Tn Fl) : Except Err (List α) :=
  (List.range (N * R)).mapM fun b => if h : b / R < N then f ⟨b / R, h⟩ fun j => q.get [b, j] else .error .indexError

/-- row `b`, column `k` of a batch of columns -/
def colsI {n : ℕ} {α : Type} (t : Tag) (B : ℕ) (rows : List α) (f : α → Fin n → Fl) : Tn Fl :=
  Tn.ofFn t [B, n, 1] fun i => match rows[i.headD 0]? with
    | some x => if h : i.getD 1 0 < n then f x ⟨i.getD 1 0, h⟩ else default
    | none => default

/-- `evalI` and `errI` for a batch -/
def evalRowsT (m : IeeeRot) (s : SerialChain) {N d : ℕ} (R : ℕ) (t : Tag) (targets : Fin N → FM4)
    (step : List (Fin 6 → Fl) → (Fin 6 → Fl) → Except Err (QRow d)) : EvalT where
  step q := do
    let rows ← rowsI R (evalI m s targets step) q
    return (colsI t (N * R) rows fun x => x.1, colsI t (N * R) rows fun x => x.2)
  err q := do
    let rows ← rowsI R (d := d) (errI m s targets) q
    return colsI t (N * R) rows fun x => x

/-- the other operations of `solve`, rounded -/
def solverI (m : IeeeRot) : SolverArith where
  add := m.toIeee.add
  sub := m.toIeee.sub
  mulReal c x := m.toIeee.times (.fin c) x
  scalePos c x := m.toIeee.times (.fin c) x
  norm l := m.toIeee.res (Fl.norm l)
  mul a b := match m.rnd (a * b) with
    | .fin x => x
    | _ => 0

/-! ## The IEEE formats -/

/-- the operations rounded to a format -/
def ieeeDiv (p : ℕ) (e E : ℤ) (a b : Fl) : Fl := ieeeRes p e E (AD.div a b)
@[inherit_doc ieeeDiv] def ieeeSqrt (p : ℕ) (e E : ℤ) (a : Fl) : Fl := ieeeRes p e E (AD.sqrt a)
@[inherit_doc ieeeDiv] def ieeeNorm3 (p : ℕ) (e E : ℤ) (a b c : Fl) : Fl := ieeeRes p e E (Fl.norm [a, b, c])

/-- `torch.atan2` of numbers, infinities and NaN -/
def Fl.atan2F : Fl → Fl → Fl
  | .nan, _ => .nan | _, .nan => .nan
  | .fin y, .fin x => .fin (PK.atan2 y x)
  | .fin _, .pinf => .fin 0
  | .fin y, .ninf => .fin (if y < 0 then -Real.pi else Real.pi)
  | .pinf, .fin _ => .fin (Real.pi / 2)
  | .ninf, .fin _ => .fin (-(Real.pi / 2))
  | .pinf, .pinf => .fin (Real.pi / 4)
  | .pinf, .ninf => .fin (3 * (Real.pi / 4))
  | .ninf, .pinf => .fin (-(Real.pi / 4))
  | .ninf, .ninf => .fin (-(3 * (Real.pi / 4)))

end
end PK
