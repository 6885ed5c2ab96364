import Verif.Lemmas.AxisAngle

/-!
# Axis-angle properties: C38, C39
-/

namespace PK
open Matrix Spec Real

theorem vlen_eq_norm3 (v : V3) : vlen v = norm3 v := by
  unfold vlen norm3 dot; congr 1; ring
theorem isUnitV_dot {v : V3} : IsUnitV v ↔ dot v v = 1 := by
  unfold IsUnitV dot; constructor <;> intro h <;> linarith

/-! ## C39 -/

/-- C39: `axis_and_angle_to_matrix_33` is Rodrigues' rotation. -/
theorem C39_is_rodrigues (k : V3) (θ : ℝ) (v : V3) :
    axisAndAngleToMatrix33 k θ *ᵥ v = rodrigues k θ v := by
  apply v3_ext <;> simp [axisAndAngleToMatrix33, rodrigues, cross_apply, Matrix.mulVec, dotProduct,
    Fin.sum_univ_three, Matrix.vecHead, Matrix.vecTail] <;> ring

/-- C39: it is in SO(3) for a unit axis. -/
theorem C39_is_rotation (k : V3) (hk : IsUnitV k) (θ : ℝ) : IsRot (axisAndAngleToMatrix33 k θ) :=
  axisAndAngle_isRot (isUnitV_dot.1 hk) θ

/-- C39: it fixes the axis, is the identity at angle 0, and adds angles. -/
theorem C39_one_parameter_group (k : V3) (hk : IsUnitV k) (a b : ℝ) :
    axisAndAngleToMatrix33 k a *ᵥ k = k ∧ axisAndAngleToMatrix33 k 0 = 1 ∧
    axisAndAngleToMatrix33 k (a + b) = axisAndAngleToMatrix33 k a * axisAndAngleToMatrix33 k b := by
  refine ⟨?_, axisAndAngle_zero k, axisAndAngle_add (isUnitV_dot.1 hk) a b⟩
  have hk' := isUnitV_dot.1 hk
  unfold dot at hk'
  apply v3_ext <;> simp [axisAndAngleToMatrix33, Matrix.mulVec, dotProduct, Fin.sum_univ_three] <;> grind

/-- C39: the angle is recovered from the trace for angles in `[0, π]`. -/
theorem C39_angle (k : V3) (hk : IsUnitV k) (θ : ℝ) (h0 : 0 ≤ θ) (h1 : θ ≤ π) :
    rotAngle (axisAndAngleToMatrix33 k θ) = θ := by
  have hk' := isUnitV_dot.1 hk
  unfold dot at hk'
  have : ((axisAndAngleToMatrix33 k θ).trace - 1) / 2 = cos θ := by
    simp [Matrix.trace, axisAndAngleToMatrix33, Fin.sum_univ_three]
    grind
  unfold rotAngle
  rw [this, Real.arccos_cos h0 h1]

/-- C39: the homogeneous version rotates points and does not translate them. -/
theorem C39_matrix44 (k : V3) (θ : ℝ) (p : V3) :
    act (axisAndAngleToMatrix44 k θ) p = rodrigues k θ p ∧
    axisAndAngleToMatrix44 k θ 3 = ![0, 0, 0, 1] := by
  rw [← C39_is_rodrigues]
  refine ⟨?_, by ext j; fin_cases j <;> rfl⟩
  apply v3_ext <;> simp [act, axisAndAngleToMatrix44, hom, Matrix.mulVec, dotProduct, Fin.sum_univ_three]

/-- C39 (prismatic counterpart): `axis_and_d_to_pris_matrix` translates by `d` along the axis. -/
theorem C39_prismatic (k : V3) (d : ℝ) (p : V3) :
    act (axisAndDToPrisMatrix k d) p = p + d • k ∧
    axisAndDToPrisMatrix k d 3 = ![0, 0, 0, 1] := by
  refine ⟨?_, by ext j; fin_cases j <;> rfl⟩
  apply v3_ext <;> simp [act, axisAndDToPrisMatrix, hom] <;> ring

example : IsUnitV ![3/5, 0, -4/5] := by simp [IsUnitV]; norm_num
example : IsRot (axisAndAngleToMatrix33 ![3/5, 0, -4/5] 2) := C39_is_rotation _ (by simp [IsUnitV]; norm_num) 2

/-! ## C38 -/

/-- The rotation vectors for which the conversions are exact: the zero vector and lengths in
`[1e-6, 2π)`; between 0 and 1e-6 the code uses a truncated series. -/
def ExactRange (v : V3) : Prop := v = 0 ∨ (1e-6 ≤ vlen v ∧ vlen v < 2 * π)

/-- C38: rotation vector → quaternion → rotation vector is the identity. -/
theorem C38_axis_angle_roundtrip (v : V3) (h : ExactRange v) :
    quaternionToAxisAngle (axisAngleToQuaternion v) = v := by
  rcases h with rfl | ⟨h, h2⟩
  · rw [axisAngleToQuaternion_zero]
    simp [quaternionToAxisAngle, norm3, dot]
  · rw [vlen_eq_norm3] at h h2
    have hpos : 0 < norm3 v := lt_of_lt_of_le (by norm_num) h
    have hs : 0 < sin (norm3 v / 2) := Real.sin_pos_of_pos_of_lt_pi (by linarith) (by linarith)
    have e := axisAngleToQuaternion_large h
    have hn : norm3 ![(axisAngleToQuaternion v).x, (axisAngleToQuaternion v).y, (axisAngleToQuaternion v).z]
        = sin (norm3 v / 2) := by
      have : (![(axisAngleToQuaternion v).x, (axisAngleToQuaternion v).y, (axisAngleToQuaternion v).z] : V3)
          = fun i => (sin (norm3 v / 2) / norm3 v) * v i := by
        rw [e]; ext i; fin_cases i <;> simp <;> ring
      rw [this, norm3_smul, abs_of_pos (by positivity)]
      field_simp
    have hw : (axisAngleToQuaternion v).w = cos (norm3 v / 2) := by rw [e]
    have hh : halfAngle (axisAngleToQuaternion v) = norm3 v / 2 := by
      unfold halfAngle
      rw [hn, hw, atan2_sin_cos (by linarith [Real.pi_pos]) (by linarith)]
    rw [quaternionToAxisAngle_large (by rw [hh]; linarith), hh, e]
    apply v3_ext <;> simp <;> field_simp

/-- C38: the matrix of a rotation vector is Rodrigues' rotation about its direction by its length;
the zero vector gives the identity. -/
theorem C38_axis_angle_to_matrix (v : V3) (h : 1e-6 ≤ vlen v) :
    axisAngleToMatrix v = rotAbout (fun i => v i / vlen v) (vlen v) := by
  rw [← axisAndAngleToMatrix33_eq_rotAbout]
  simp only [vlen_eq_norm3] at *
  exact axisAngleToMatrix_large h

theorem C38_axis_angle_to_matrix_zero : axisAngleToMatrix 0 = 1 := by
  unfold axisAngleToMatrix
  rw [axisAngleToQuaternion_zero]
  apply m3_ext9 <;> simp [quaternionToMatrix]

/-- C38: unit quaternion → rotation vector → quaternion is the identity, except in the band where
the series is used and at `-1` (a full turn, where the code computes 0/0). -/
theorem C38_quaternion_roundtrip (q : Quat) (h : IsUnitQ q) (hb : q.w = 1 ∨ q.w ≤ cos (1e-6 / 2))
    (hne : q.w ≠ -1) : axisAngleToQuaternion (quaternionToAxisAngle q) = q := by
  have hq := isUnitQ_normSq.1 h
  obtain ⟨h1, h2, h3, h4⟩ := halfAngle_spec hq
  rcases hb with hb | hb
  · unfold IsUnitQ at h
    have hx : q.x ^ 2 + q.y ^ 2 + q.z ^ 2 = 0 := by rw [hb] at h; linarith
    have e : q = ⟨1, 0, 0, 0⟩ := by
      have := sq_nonneg q.x; have := sq_nonneg q.y; have := sq_nonneg q.z
      ext <;> simp only [hb] <;> apply (sq_eq_zero_iff).1 <;> linarith
    subst e
    have : quaternionToAxisAngle ⟨1, 0, 0, 0⟩ = 0 := by
      simp [quaternionToAxisAngle]
    rw [this, axisAngleToQuaternion_zero]
  · have hlt : halfAngle q < π := by
      rcases lt_or_eq_of_le h4 with h | h
      · exact h
      · rw [h, Real.cos_pi] at h1; exact absurd h1.symm hne
    have hge : 1e-6 / 2 ≤ halfAngle q := by
      by_contra hc
      have hc := not_le.1 hc
      have hpi : (1e-6 : ℝ) / 2 ≤ π := le_trans (by norm_num) Real.two_le_pi
      have := Real.cos_lt_cos_of_nonneg_of_le_pi h3 hpi hc
      rw [h1] at this
      linarith
    have hb' : 1e-6 ≤ 2 * halfAngle q := by linarith
    have hpos : 0 < halfAngle q := lt_of_lt_of_le (by norm_num) hge
    have hs : 0 < sin (halfAngle q) := Real.sin_pos_of_pos_of_lt_pi hpos hlt
    have hn := norm_quaternionToAxisAngle hq hb' hlt
    rw [axisAngleToQuaternion_large (by rw [hn]; exact hb'), hn, quaternionToAxisAngle_large hb']
    have e2 : 2 * halfAngle q / 2 = halfAngle q := by ring
    ext <;> simp [e2, h1] <;> field_simp

/-- C38: every rotation matrix that is the identity or turns by at least 1e-6 survives
matrix → rotation vector → matrix. -/
theorem C38_matrix_roundtrip (R : M3) (h : IsRot R) (hb : R = 1 ∨ R.trace ≤ 1 + 2 * cos 1e-6) :
    axisAngleToMatrix (matrixToAxisAngle R) = R := by
  have hu := matrixToQuaternion_unit h
  have hm := quaternionToMatrix_matrixToQuaternion h
  have htr : R.trace = 4 * (matrixToQuaternion R).w ^ 2 - 1 := by
    conv_lhs => rw [← hm]
    simp only [Matrix.trace, Fin.sum_univ_three, quaternionToMatrix, hu, Matrix.diag_apply, Matrix.of_apply, Matrix.cons_val]
    unfold Quat.normSq at hu
    linear_combination -4 * hu
  have hne : (matrixToQuaternion R).w ≠ -1 := by
    intro hw
    have hz : (matrixToQuaternion R).x = 0 ∧ (matrixToQuaternion R).y = 0 ∧ (matrixToQuaternion R).z = 0 := by
      unfold Quat.normSq at hu
      rw [hw] at hu
      have a1 := mul_self_nonneg (matrixToQuaternion R).x
      have a2 := mul_self_nonneg (matrixToQuaternion R).y
      have a3 := mul_self_nonneg (matrixToQuaternion R).z
      refine ⟨?_, ?_, ?_⟩ <;> apply mul_self_eq_zero.1 <;> linarith
    obtain ⟨c, s, hs1, _, hc⟩ := matrixToQuaternion_cases R
    have hs0 : s ^ 2 / (2 * s) = s / 2 := by field_simp
    rw [hc] at hw hz
    obtain ⟨hx, hy, hz⟩ := hz
    fin_cases c <;> simp [candQ, hs0] at hw hx hy hz <;> linarith
  unfold axisAngleToMatrix matrixToAxisAngle
  rw [C38_quaternion_roundtrip _ (isUnitQ_normSq.2 hu) _ hne, hm]
  rcases hb with hb | hb
  · left
    have : (matrixToQuaternion R).w ^ 2 = 1 := by
      rw [hb] at htr ⊢; simp [Matrix.trace_one] at htr; linarith
    rcases sq_eq_one_iff.1 this with h | h
    · exact h
    · exact absurd h hne
  · right
    have hc : cos (1e-6 : ℝ) = 2 * cos (1e-6 / 2) ^ 2 - 1 := by rw [← Real.cos_two_mul]; congr 1; ring
    refine le_trans (le_abs_self _) (abs_le_of_sq_le_sq ?_ ?_)
    · rw [htr, hc] at hb; linarith
    · apply Real.cos_nonneg_of_neg_pi_div_two_le_of_le <;> linarith [Real.two_le_pi]

example : ExactRange ![9/5, 0, -12/5] := by
  right
  have : vlen ![9/5, 0, -12/5] = 3 := by
    unfold vlen; rw [show ((![9/5, 0, -12/5] : V3) 0) ^ 2 + (![9/5, 0, -12/5] : V3) 1 ^ 2 + (![9/5, 0, -12/5] : V3) 2 ^ 2 = 3 ^ 2 by simp; norm_num]
    exact Real.sqrt_sq (by norm_num)
  rw [this]; constructor <;> linarith [Real.two_le_pi]

/-- half turns are covered by the matrix round trip -/
example : (!![1, 0, 0; 0, -1, 0; 0, 0, -1] : M3).trace ≤ 1 + 2 * cos 1e-6 := by
  have := Real.one_sub_sq_div_two_le_cos (x := 1e-6)
  simp [Matrix.trace, Fin.sum_univ_three]
  norm_num at this ⊢
  linarith

end PK
