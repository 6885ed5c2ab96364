import Verif.Lemmas.AxisAngle

namespace PK
open Matrix Spec Real

/-- quaternion of an elementary rotation -/
noncomputable def elemQ (a : XYZ) (θ : ℝ) : Quat :=
  match a with
  | .x => ⟨cos (θ / 2), sin (θ / 2), 0, 0⟩
  | .y => ⟨cos (θ / 2), 0, sin (θ / 2), 0⟩
  | .z => ⟨cos (θ / 2), 0, 0, sin (θ / 2)⟩

theorem elemQ_normSq (a : XYZ) (θ : ℝ) : (elemQ a θ).normSq = 1 := by
  have := Real.sin_sq_add_cos_sq (θ / 2)
  cases a <;> simp only [elemQ, Quat.normSq] <;> linarith

theorem elem_entries (a : XYZ) (θ : ℝ) : elem a θ =
    match a with
    | .x => !![1, 0, 0; 0, cos θ, -sin θ; 0, sin θ, cos θ]
    | .y => !![cos θ, 0, sin θ; 0, 1, 0; -sin θ, 0, cos θ]
    | .z => !![cos θ, -sin θ, 0; sin θ, cos θ, 0; 0, 0, 1] := by
  unfold elem
  rw [← axisAndAngleToMatrix33_eq_rotAbout]
  cases a <;> apply m3_ext9 <;> simp [axisAndAngleToMatrix33, XYZ.vec]

theorem elemQ_matrix (a : XYZ) (θ : ℝ) : quaternionToMatrix (elemQ a θ) = elem a θ := by
  have hn := elemQ_normSq a θ
  have hc : cos θ = 2 * cos (θ / 2) ^ 2 - 1 := by rw [← Real.cos_two_mul]; congr 1; ring
  have hs : sin θ = 2 * sin (θ / 2) * cos (θ / 2) := by rw [← Real.sin_two_mul]; congr 1; ring
  have := Real.sin_sq_add_cos_sq (θ / 2)
  rw [elem_entries]
  cases a <;> apply m3_ext9 <;> simp only [quaternionToMatrix, hn, hc, hs, Matrix.of_apply, Matrix.cons_val] <;>
    simp only [elemQ] <;> grind

/-- quaternion of a sequence -/
noncomputable def seqQ (rotating : Bool) (a b c : XYZ) (e : V3) : Quat :=
  if rotating then quaternionRawMultiply (quaternionRawMultiply (elemQ a (e 0)) (elemQ b (e 1))) (elemQ c (e 2))
  else quaternionRawMultiply (quaternionRawMultiply (elemQ c (e 2)) (elemQ b (e 1))) (elemQ a (e 0))

theorem seqQ_normSq (r : Bool) (a b c : XYZ) (e : V3) : (seqQ r a b c e).normSq = 1 := by
  unfold seqQ; split_ifs <;> simp [normSq_rawMul, elemQ_normSq]

theorem seqQ_matrix (r : Bool) (a b c : XYZ) (e : V3) :
    quaternionToMatrix (seqQ r a b c e) = seqRot r a b c e := by
  unfold seqQ seqRot
  split_ifs <;> rw [quaternionToMatrix_mul, quaternionToMatrix_mul, elemQ_matrix, elemQ_matrix, elemQ_matrix] <;>
    simp [normSq_rawMul, elemQ_normSq]

/-- the axes string, e.g. `sxyz` -/
def axesName (r : Bool) (a b c : XYZ) : List Char := [if r then 'r' else 's', a.lower, b.lower, c.lower]

theorem quaternionFromEuler_eq (r : Bool) (a b c : XYZ) (hab : a ≠ b) (hbc : b ≠ c) (e : V3) :
    ∃ e', quaternionFromEuler e (axesName r a b c) = .ok (seqQ r a b c e, e') := by
  cases r <;> cases a <;> cases b <;> simp at hab <;> cases c <;> simp at hbc <;>
  simp [quaternionFromEuler, axesName, XYZ.lower, axes2tuple, List.lookup, nextAxis, Char.toLower, seqQ, elemQ, quaternionRawMultiply, Function.update_apply, neg_div] <;>
  (try refine ⟨?_, ?_, ?_, ?_⟩) <;> ring
end PK

namespace PK
open Matrix Spec Real

/-- the model's axis letter of a spec axis -/
def axOf : XYZ → Ax
  | .x => .X | .y => .Y | .z => .Z

theorem axisAngleRotation_eq (a : XYZ) (θ : ℝ) : axisAngleRotation (axOf a) θ = elem a θ := by
  rw [elem_entries]; cases a <;> rfl

/-- the convention string, e.g. `XYZ` -/
def convName (a b c : XYZ) : List Char := [a.upper, b.upper, c.upper]

theorem parseConvention_ok (a b c : XYZ) (hab : a ≠ b) (hbc : b ≠ c) :
    parseConvention (convName a b c) = .ok (axOf a, axOf b, axOf c) := by
  cases a <;> cases b <;> simp at hab <;> cases c <;> simp at hbc <;>
    simp [parseConvention, convName, XYZ.upper, letterAx, axOf]

theorem eulerAnglesToMatrix_ok (a b c : XYZ) (hab : a ≠ b) (hbc : b ≠ c) (e : V3) :
    eulerAnglesToMatrix e (convName a b c) = .ok (seqRot true a b c e) := by
  unfold eulerAnglesToMatrix
  rw [parseConvention_ok a b c hab hbc]
  simp [seqRot, axisAngleRotation_eq]

/-- Index of an axis. -/
def XYZidx : XYZ → Fin 3 | .x => 0 | .y => 1 | .z => 2

/-- gimbal lock of a convention: the middle angle is at the end of its range -/
def Gimbal (R : M3) (a c : XYZ) : Prop := R (XYZidx a) (XYZidx c) ^ 2 = 1

theorem atan2_cos_sin {y x r : ℝ} (hr : 0 < r) (h : r ^ 2 = x ^ 2 + y ^ 2) :
    cos (atan2 y x) = x / r ∧ sin (atan2 y x) = y / r := by
  obtain ⟨h1, h2, _, _⟩ := atan2_polar y x
  rw [← h, Real.sqrt_sq hr.le] at h1 h2
  constructor
  · rw [eq_div_iff hr.ne']; linarith
  · rw [eq_div_iff hr.ne']; linarith

theorem cos_sin_arcsin {x : ℝ} (h : x ^ 2 ≤ 1) : sin (arcsin x) = x ∧ cos (arcsin x) = Real.sqrt (1 - x ^ 2) :=
  ⟨Real.sin_arcsin (by nlinarith) (by nlinarith), Real.cos_arcsin x⟩
theorem cos_sin_arccos {x : ℝ} (h : x ^ 2 ≤ 1) : cos (arccos x) = x ∧ sin (arccos x) = Real.sqrt (1 - x ^ 2) :=
  ⟨Real.cos_arccos (by nlinarith) (by nlinarith), Real.sin_arccos x⟩

end PK
