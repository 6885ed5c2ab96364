import Verif.Lemmas.MatQuat

/-!
# Quaternion properties: C35, C36, C37, C65
-/

namespace PK
open Matrix Spec Quaternion

/-- a concrete non-trivial quaternion used in the examples -/
def exQ : Quat := ⟨-1, 2, 3, 4⟩
theorem exQ_ne : exQ ≠ ⟨0, 0, 0, 0⟩ := by intro h; injection h with h; norm_num at h

/-! ## C35 -/

/-- C35: the matrix of every non-zero quaternion is in SO(3). -/
theorem C35_quaternion_to_matrix_is_rotation (q : Quat) (h : q ≠ ⟨0, 0, 0, 0⟩) :
    IsRot (quaternionToMatrix q) :=
  quaternionToMatrix_isRot (Quat.normSq_pos h).ne'

example : IsRot (quaternionToMatrix exQ) := C35_quaternion_to_matrix_is_rotation _ exQ_ne

/-- C35: it is the rotation `v ↦ q v q⁻¹` of Hamilton's quaternions. -/
theorem C35_quaternion_to_matrix_is_conjugation (q : Quat) (h : q ≠ ⟨0, 0, 0, 0⟩) (v : V3) :
    pureH (quaternionToMatrix q *ᵥ v) = toH q * pureH v * (toH q)⁻¹ := by
  have hq : toH q ≠ 0 := by
    intro hc
    apply h
    have := Quaternion.ext_iff.1 hc
    simp at this
    ext <;> simp [this]
  rw [eq_mul_inv_iff_mul_eq₀ hq]
  have hn := (Quat.normSq_pos h).ne'
  have hn' : q.normSq = q.w * q.w + q.x * q.x + q.y * q.y + q.z * q.z := rfl
  have e : ∀ i, (quaternionToMatrix q *ᵥ v) i =
      quaternionToMatrix q i 0 * v 0 + quaternionToMatrix q i 1 * v 1 + quaternionToMatrix q i 2 * v 2 := by
    intro i; simp [Matrix.mulVec, dotProduct, Fin.sum_univ_three]
  ext <;> simp only [pureH_re, pureH_imI, pureH_imJ, pureH_imK, e, toH_re, toH_imI, toH_imJ, toH_imK, Quaternion.re_mul, Quaternion.imI_mul, Quaternion.imJ_mul,
    Quaternion.imK_mul] <;> simp only [quaternionToMatrix, Matrix.of_apply, Matrix.cons_val] <;>
    generalize q.normSq = n at * <;> field_simp <;> grind

example (v : V3) : pureH (quaternionToMatrix exQ *ᵥ v) = toH exQ * pureH v * (toH exQ)⁻¹ :=
  C35_quaternion_to_matrix_is_conjugation _ exQ_ne v

/-- C35: invariance under non-zero scaling; in particular `q` and `-q` agree. -/
theorem C35_quaternion_to_matrix_scale_invariant (q : Quat) (h : q ≠ ⟨0, 0, 0, 0⟩) (c : ℝ)
    (hc : c ≠ 0) : quaternionToMatrix (scaleQ c q) = quaternionToMatrix q :=
  quaternionToMatrix_scale hc (Quat.normSq_pos h).ne'

theorem C35_quaternion_to_matrix_neg (q : Quat) (h : q ≠ ⟨0, 0, 0, 0⟩) :
    quaternionToMatrix (negQ q) = quaternionToMatrix q := by
  rw [← C35_quaternion_to_matrix_scale_invariant q h (-1) (by norm_num)]
  simp [negQ, scaleQ]

example : quaternionToMatrix (scaleQ 7 exQ) = quaternionToMatrix exQ :=
  C35_quaternion_to_matrix_scale_invariant _ exQ_ne 7 (by norm_num)

/-- C35: quaternion products become matrix products. -/
theorem C35_quaternion_to_matrix_mul (a b : Quat) (ha : a ≠ ⟨0, 0, 0, 0⟩) (hb : b ≠ ⟨0, 0, 0, 0⟩) :
    quaternionToMatrix (quaternionRawMultiply a b) = quaternionToMatrix a * quaternionToMatrix b :=
  quaternionToMatrix_mul (Quat.normSq_pos ha).ne' (Quat.normSq_pos hb).ne'

example : quaternionToMatrix (quaternionRawMultiply exQ exQ) =
    quaternionToMatrix exQ * quaternionToMatrix exQ := C35_quaternion_to_matrix_mul _ _ exQ_ne exQ_ne

/-! ## C36 -/

/-- C36: `quaternion_raw_multiply` is the Hamilton product. -/
theorem C36_raw_multiply_is_hamilton (a b : Quat) :
    toH (quaternionRawMultiply a b) = toH a * toH b := by
  ext <;> simp [quaternionRawMultiply]

/-- C36: `standardize_quaternion` has non-negative real part and is `q` or `-q`. -/
theorem C36_standardize (q : Quat) :
    0 ≤ (standardizeQuaternion q).w ∧
    (standardizeQuaternion q = q ∨ standardizeQuaternion q = negQ q) := by
  unfold standardizeQuaternion
  split_ifs with h
  · exact ⟨by simp only; linarith, Or.inr rfl⟩
  · exact ⟨not_lt.1 h, Or.inl rfl⟩

/-- C36: `quaternion_multiply` has non-negative real part and represents the product rotation. -/
theorem C36_multiply (a b : Quat) (ha : a ≠ ⟨0, 0, 0, 0⟩) (hb : b ≠ ⟨0, 0, 0, 0⟩) :
    0 ≤ (quaternionMultiply a b).w ∧
    (toH (quaternionMultiply a b) = toH a * toH b ∨ toH (quaternionMultiply a b) = -(toH a * toH b)) ∧
    quaternionToMatrix (quaternionMultiply a b) = quaternionToMatrix a * quaternionToMatrix b := by
  have hn : (quaternionRawMultiply a b).normSq ≠ 0 := by
    rw [normSq_rawMul]; exact mul_ne_zero (Quat.normSq_pos ha).ne' (Quat.normSq_pos hb).ne'
  have hne : quaternionRawMultiply a b ≠ ⟨0, 0, 0, 0⟩ := by
    intro h; rw [h] at hn; simp [Quat.normSq] at hn
  obtain ⟨h1, h2⟩ := C36_standardize (quaternionRawMultiply a b)
  refine ⟨h1, ?_, ?_⟩
  · unfold quaternionMultiply
    rcases h2 with h2 | h2
    · left; rw [h2, C36_raw_multiply_is_hamilton]
    · right; rw [h2, ← C36_raw_multiply_is_hamilton]; ext <;> simp [negQ]
  · rw [← C35_quaternion_to_matrix_mul a b ha hb]
    unfold quaternionMultiply
    rcases h2 with h2 | h2
    · rw [h2]
    · rw [h2, C35_quaternion_to_matrix_neg _ hne]

example : 0 ≤ (quaternionMultiply exQ exQ).w := (C36_multiply _ _ exQ_ne exQ_ne).1

/-- C36: `quaternion_invert` is a two-sided inverse on unit quaternions, and always the conjugate. -/
theorem C36_invert (q : Quat) :
    toH (quaternionInvert q) = star (toH q) ∧
    (IsUnitQ q → quaternionRawMultiply q (quaternionInvert q) = ⟨1, 0, 0, 0⟩ ∧
      quaternionRawMultiply (quaternionInvert q) q = ⟨1, 0, 0, 0⟩) := by
  refine ⟨by ext <;> simp [quaternionInvert], fun h => ?_⟩
  unfold IsUnitQ at h
  constructor <;> ext <;> simp only [quaternionRawMultiply, quaternionInvert] <;> grind

example : IsUnitQ ⟨1/2, 1/2, -1/2, 1/2⟩ := by norm_num [IsUnitQ]

/-- C36: for unit `q`, `quaternion_apply q p` is the rotation matrix of `q` applied to `p`. -/
theorem C36_apply (q : Quat) (h : IsUnitQ q) (p : V3) :
    quaternionApply q p = quaternionToMatrix q *ᵥ p := by
  have hn := isUnitQ_normSq.1 h
  unfold IsUnitQ at h
  apply v3_ext <;> simp [quaternionApply, quaternionRawMultiply, quaternionInvert, Matrix.mulVec, dotProduct,
    Fin.sum_univ_three, quaternionToMatrix, hn] <;> grind

example (p : V3) : quaternionApply ⟨1/2, 1/2, -1/2, 1/2⟩ p = quaternionToMatrix ⟨1/2, 1/2, -1/2, 1/2⟩ *ᵥ p :=
  C36_apply _ (by norm_num [IsUnitQ]) p

/-- C36: `xyzw_to_wxyz` and `wxyz_to_xyzw` are mutually inverse. -/
theorem C36_xyzw_wxyz_roundtrip (q : Quat) (v : Fin 4 → ℝ) :
    xyzwToWxyz (wxyzToXyzw q) = q ∧ wxyzToXyzw (xyzwToWxyz v) = v := by
  refine ⟨rfl, ?_⟩
  ext i; fin_cases i <;> rfl

/-- C36: where the scalar goes: the real part is the last entry in `xyzw` order. -/
theorem C36_xyzw_real_part_last (q : Quat) :
    wxyzToXyzw q 3 = (toH q).re ∧ wxyzToXyzw q 0 = (toH q).imI ∧
    wxyzToXyzw q 1 = (toH q).imJ ∧ wxyzToXyzw q 2 = (toH q).imK := ⟨rfl, rfl, rfl, rfl⟩

/-! ## C37 -/

/-- C37: every rotation matrix is converted to a unit quaternion representing it. -/
theorem C37_matrix_to_quaternion_roundtrip (R : M3) (h : IsRot R) :
    IsUnitQ (matrixToQuaternion R) ∧ quaternionToMatrix (matrixToQuaternion R) = R :=
  ⟨isUnitQ_normSq.2 (matrixToQuaternion_unit h), quaternionToMatrix_matrixToQuaternion h⟩

/-- C37: a unit quaternion is recovered up to sign. -/
theorem C37_quaternion_roundtrip (q : Quat) (h : IsUnitQ q) :
    matrixToQuaternion (quaternionToMatrix q) = q ∨
    matrixToQuaternion (quaternionToMatrix q) = negQ q := by
  have hr := C35_quaternion_to_matrix_is_rotation q (IsUnitQ.ne_zero h)
  exact quat_eq_or_neg_of_matrix (matrixToQuaternion_unit hr) (isUnitQ_normSq.1 h)
    (quaternionToMatrix_matrixToQuaternion hr)

/-- half turn about the x axis: the branch where the real part vanishes -/
example : IsRot !![1, 0, 0; 0, -1, 0; 0, 0, -1] := by
  apply isRot_of_eqs <;> simp [Matrix.det_fin_three]

/-! ## C65 -/

theorem copysign_sqrt (s w : ℝ) :
    copysign (Real.sqrt s) w = if w < 0 then - Real.sqrt s else Real.sqrt s := by
  have : ¬ (Real.sqrt s < 0) := not_lt.2 (Real.sqrt_nonneg _)
  unfold copysign
  by_cases hw : w < 0 <;> simp [this, hw]

/-- C65: whatever non-zero sample is drawn, the result is a unit quaternion with non-negative real
part, obtained by a non-zero rescaling of the sample. -/
theorem C65_random_quaternion (o : Quat) (h : o ≠ ⟨0, 0, 0, 0⟩) :
    IsUnitQ (randomQuaternion o) ∧ 0 ≤ (randomQuaternion o).w ∧
    ∃ c, c ≠ 0 ∧ randomQuaternion o = scaleQ c o := by
  have hp := Quat.normSq_pos h
  have hs := Real.sqrt_pos.2 hp
  have hsq : Real.sqrt o.normSq ^ 2 = o.normSq := Real.sq_sqrt hp.le
  have hd : copysign (Real.sqrt o.normSq) o.w ≠ 0 := by
    rw [copysign_sqrt]; split_ifs <;> linarith
  have hd2 : copysign (Real.sqrt o.normSq) o.w ^ 2 = o.normSq := by
    rw [copysign_sqrt]; split_ifs <;> nlinarith
  refine ⟨?_, ?_, (copysign (Real.sqrt o.normSq) o.w)⁻¹, inv_ne_zero hd, ?_⟩
  · unfold IsUnitQ randomQuaternion
    simp only
    field_simp
    rw [hd2]; simp only [Quat.normSq]; ring
  · unfold randomQuaternion
    simp only
    rw [copysign_sqrt]
    split_ifs with hw
    · exact div_nonneg_of_nonpos hw.le (by linarith)
    · exact div_nonneg (not_lt.1 hw) hs.le
  · unfold randomQuaternion scaleQ
    ext <;> simp only <;> field_simp

/-- C65: random rotations are rotations. -/
theorem C65_random_rotation (o : Quat) (h : o ≠ ⟨0, 0, 0, 0⟩) : IsRot (randomRotation o) :=
  C35_quaternion_to_matrix_is_rotation _ (IsUnitQ.ne_zero (C65_random_quaternion o h).1)

example : IsUnitQ (randomQuaternion exQ) := (C65_random_quaternion _ exQ_ne).1

end PK
