import Verif.Props.AxisAngle
import Verif.Lemmas.Rigid
import Verif.Lemmas.MatQuat

/-!
# C42: 6D, 9D and position/quaternion encodings of poses
-/

namespace PK
open Matrix Spec Real

theorem fNormalize_large {v : V3} (h : 1e-12 ≤ norm3 v) : fNormalize v = fun i => v i / norm3 v := by
  unfold fNormalize; rw [max_eq_left h]

theorem fNormalize_unit {v : V3} (h : dot v v = 1) : fNormalize v = v := by
  have hn : norm3 v = 1 := by rw [norm3, h, Real.sqrt_one]
  rw [fNormalize_large (by rw [hn]; norm_num), hn]
  funext i; rw [div_one]

/-- a frame built from an orthonormal pair is a rotation -/
theorem isRot_of_pair {a b : V3} (ha : dot a a = 1) (hb : dot b b = 1) (hab : dot a b = 0) :
    IsRot !![a 0, a 1, a 2; b 0, b 1, b 2; cross a b 0, cross a b 1, cross a b 2] := by
  unfold dot at *
  apply isRot_of_eqs
  · simpa using ha
  · simpa using hb
  · simp [cross]; grind
  · simpa using hab
  · simp [cross]; ring
  · simp [cross]; ring
  · simp [Matrix.det_fin_three, cross]; grind

/-- C42: `rotation_6d_to_matrix` gives a rotation when the first vector has length at least 1e-12 and the
second has distance at least 1e-12 from the line through the first (`|a1 × a2| / |a1|`). -/
theorem C42_rotation_6d_is_rotation (a1 a2 : V3) (h1 : 1e-12 ≤ vlen a1)
    (h2 : 1e-12 * vlen a1 ≤ vlen (crossProduct a1 a2)) : IsRot (rotation6dToMatrix (a1, a2)) := by
  rw [vlen_eq_norm3] at h1 h2
  rw [vlen_eq_norm3] at h2
  have hn : 0 < norm3 a1 := lt_of_lt_of_le (by norm_num) h1
  set b1 : V3 := fun i => a1 i / norm3 a1 with hb1
  have hb1u : dot b1 b1 = 1 := dot_unit_of_norm hn.ne'
  set c : V3 := fun i => a2 i - dot b1 a2 * b1 i with hc
  have hab : dot b1 c = 0 := by
    have : dot b1 c = dot b1 a2 - dot b1 a2 * dot b1 b1 := by simp only [hc, dot]; ring
    rw [this, hb1u]; ring
  have hcn : norm3 c * norm3 a1 = norm3 (crossProduct a1 a2) := by
    have e1 : dot c c * dot a1 a1 = dot (crossProduct a1 a2) (crossProduct a1 a2) := by
      have e2 : dot c c = dot a2 a2 - dot b1 a2 ^ 2 := by
        have : dot c c = dot a2 a2 - 2 * dot b1 a2 ^ 2 + dot b1 a2 ^ 2 * dot b1 b1 := by
          simp only [hc, dot]; ring
        rw [this, hb1u]; ring
      have e3 : dot b1 a2 = dot a1 a2 / norm3 a1 := by simp only [hb1, dot]; field_simp
      rw [e2, e3, div_pow, norm3_sq]
      have : dot a1 a1 ≠ 0 := by rw [← norm3_sq]; positivity
      field_simp
      simp only [dot, crossProduct]; simp; ring
    unfold norm3
    rw [← Real.sqrt_mul (dot_self_nonneg c), e1]
  have hcl : 1e-12 ≤ norm3 c := by
    rw [← hcn] at h2
    exact le_of_mul_le_mul_right h2 hn
  have hu : dot (fun i => c i / norm3 c) (fun i => c i / norm3 c) = 1 :=
    dot_unit_of_norm (lt_of_lt_of_le (by norm_num) hcl).ne'
  have ho : dot b1 (fun i => c i / norm3 c) = 0 := by
    have : dot b1 (fun i => c i / norm3 c) = dot b1 c / norm3 c := by simp only [dot]; ring
    rw [this, hab, zero_div]
  have := isRot_of_pair hb1u hu ho
  unfold rotation6dToMatrix
  simp only
  rw [fNormalize_large h1, ← hb1, ← hc, fNormalize_large hcl]
  exact this

example : IsRot (rotation6dToMatrix (![1, 2, 0], ![0, 3, 5])) :=
  C42_rotation_6d_is_rotation _ _
    (by rw [vlen]; exact Real.le_sqrt_of_sq_le (by simp only [Matrix.cons_val]; norm_num))
    (by
      have h1 : vlen ![1, 2, 0] ≤ 10 := by
        rw [vlen]; exact Real.sqrt_le_iff.2 ⟨by norm_num, by simp only [Matrix.cons_val]; norm_num⟩
      have h2 : 1 ≤ vlen (crossProduct ![1, 2, 0] ![0, 3, 5]) := by
        rw [vlen]; exact Real.le_sqrt_of_sq_le (by simp [crossProduct]; norm_num)
      linarith)

/-- below that size `F.normalize` does not normalise and the result is not a rotation -/
theorem C42_tiny_input_fails : ∃ a1 a2 : V3, a1 ≠ 0 ∧ crossProduct a1 a2 ≠ 0 ∧ ¬ IsRot (rotation6dToMatrix (a1, a2)) := by
  refine ⟨![1e-13, 0, 0], ![0, 1, 0], ?_, ?_, ?_⟩
  · intro h; have := congrFun h 0; norm_num at this
  · intro h; have := congrFun h 2; simp [crossProduct] at this; norm_num at this
  · intro h
    have hr := h.eqs.r00
    have hn : norm3 ![1e-13, 0, 0] ≤ 1e-12 := by
      rw [norm3]; exact Real.sqrt_le_iff.2 ⟨by norm_num, by simp only [dot, Matrix.cons_val]; norm_num⟩
    simp only [rotation6dToMatrix, fNormalize, max_eq_right hn] at hr
    simp only [Matrix.of_apply, Matrix.cons_val] at hr
    norm_num at hr

/-- C42: the 6D encoding of a rotation round-trips. -/
theorem C42_rotation_6d_roundtrip (R : M3) (h : IsRot R) : rotation6dToMatrix (matrixToRotation6d R) = R := by
  obtain ⟨⟩ := h.eqs
  unfold rotation6dToMatrix matrixToRotation6d
  simp only
  rw [fNormalize_unit (v := R 0) (by simpa [dot] using by assumption)]
  have h0 : dot (R 0) (R 1) = 0 := by simpa [dot] using by assumption
  have h1 : (fun i => R 1 i - dot (R 0) (R 1) * R 0 i) = R 1 := by funext i; rw [h0]; ring
  rw [h1, fNormalize_unit (v := R 1) (by simpa [dot] using by assumption)]
  apply m3_ext9 <;> simp [cross] <;> linarith

theorem hom_parts {T : M4} (h : IsAffine T) : hom (rotPart T) (posPart T) = T := by
  rw [hom_eq_mkHom]; exact (eq_mkHom_of_affine h).symm

/-- C42: the 9D encoding of a rigid transform round-trips. -/
theorem C42_se3_9d_roundtrip (T : M4) (h : IsRigid T) : se3_9dToMatrix44 (matrix44ToSe3_9d T) = T := by
  unfold se3_9dToMatrix44 matrix44ToSe3_9d
  simp only
  rw [C42_rotation_6d_roundtrip (rotPart T) h.1, hom_parts h.2]

/-- C42: position and xyzw quaternion of a rigid transform give it back; the quaternion is unit. -/
theorem C42_pos_rot_roundtrip (T : M4) (h : IsRigid T) :
    posRotToMatrix (matrixToPosRot T).1 (matrixToPosRot T).2 = T ∧
    ∑ i, (matrixToPosRot T).2 i ^ 2 = 1 := by
  constructor
  · unfold posRotToMatrix matrixToPosRot
    simp only
    have : xyzwToWxyz (wxyzToXyzw (matrixToQuaternion (rotPart T))) = matrixToQuaternion (rotPart T) := by
      simp [xyzwToWxyz, wxyzToXyzw]
    rw [this, quaternionToMatrix_matrixToQuaternion (m := rotPart T) h.1, hom_parts h.2]
  · have := matrixToQuaternion_unit h.1
    unfold Quat.normSq at this
    simp only [matrixToPosRot, wxyzToXyzw, Fin.sum_univ_four]
    simp
    have e : (fun i j : Fin 3 => T i.castSucc j.castSucc) = rotPart T := rfl
    rw [e] at this
    linarith

/-- a quarter turn about z with a translation -/
example : IsRigid (mkHom !![0, -1, 0; 1, 0, 0; 0, 0, 1] ![1, 2, 3]) :=
  isRigid_mkHom (by apply isRot_of_eqs <;> simp [Matrix.det_fin_three]) _

end PK
