import Mathlib.Analysis.SpecialFunctions.Trigonometric.Bounds
import Verif.Lemmas.MatQuat

namespace PK
open Matrix Spec Real

/-! ### Rodrigues -/

theorem axisAndAngleToMatrix33_eq_rotAbout (k : V3) (θ : ℝ) :
    axisAndAngleToMatrix33 k θ = rotAbout k θ := by
  apply m3_ext9 <;>
    simp [axisAndAngleToMatrix33, rotAbout, rodrigues, cross_apply, dotProduct, Pi.single_apply, Matrix.vecHead, Matrix.vecTail] <;>
    ring

theorem axisAndAngle_isRot {k : V3} (hk : dot k k = 1) (θ : ℝ) :
    IsRot (axisAndAngleToMatrix33 k θ) := by
  have hsc := Real.sin_sq_add_cos_sq θ
  unfold dot at hk
  apply isRot_of_eqs <;>
    simp only [axisAndAngleToMatrix33, Matrix.det_fin_three, Matrix.of_apply, Matrix.cons_val] <;> grind

theorem axisAndAngle_add {k : V3} (hk : dot k k = 1) (a b : ℝ) :
    axisAndAngleToMatrix33 k (a + b) = axisAndAngleToMatrix33 k a * axisAndAngleToMatrix33 k b := by
  unfold dot at hk
  apply m3_ext9 <;>
    simp only [axisAndAngleToMatrix33, Matrix.mul_apply, Fin.sum_univ_three, Real.cos_add, Real.sin_add, Matrix.of_apply, Matrix.cons_val] <;>
    generalize cos a = ca <;> generalize sin a = sa <;> generalize cos b = cb <;> generalize sin b = sb <;> grind

theorem axisAndAngle_zero (k : V3) : axisAndAngleToMatrix33 k 0 = 1 := by
  apply m3_ext9 <;> simp [axisAndAngleToMatrix33]

/-! ### norms -/

theorem dot_self_nonneg (v : V3) : 0 ≤ dot v v := by
  unfold dot
  have h1 := mul_self_nonneg (v 0); have h2 := mul_self_nonneg (v 1); have h3 := mul_self_nonneg (v 2)
  linarith

theorem norm3_nonneg (v : V3) : 0 ≤ norm3 v := Real.sqrt_nonneg _
theorem norm3_sq (v : V3) : norm3 v ^ 2 = dot v v := Real.sq_sqrt (dot_self_nonneg v)
theorem norm3_eq_zero {v : V3} : norm3 v = 0 ↔ v = 0 := by
  constructor
  · intro h
    have h2 := norm3_sq v
    rw [h] at h2
    unfold dot at h2
    have h1 := mul_self_nonneg (v 0); have h2 := mul_self_nonneg (v 1); have h3 := mul_self_nonneg (v 2)
    apply v3_ext <;> simp only [Pi.zero_apply] <;> apply mul_self_eq_zero.1 <;> linarith
  · rintro rfl; simp [norm3, dot]
theorem norm3_smul (c : ℝ) (v : V3) : norm3 (fun i => c * v i) = |c| * norm3 v := by
  unfold norm3
  rw [← Real.sqrt_sq_eq_abs, ← Real.sqrt_mul (sq_nonneg c)]
  congr 1; unfold dot; ring

theorem dot_unit_of_norm {v : V3} (h : norm3 v ≠ 0) :
    dot (fun i => v i / norm3 v) (fun i => v i / norm3 v) = 1 := by
  have h2 := norm3_sq v
  unfold dot at *
  field_simp
  linarith

/-! ### atan2 -/

theorem atan2_sin_cos {h : ℝ} (h1 : -π < h) (h2 : h ≤ π) : atan2 (sin h) (cos h) = h := by
  unfold atan2
  have e : (⟨cos h, sin h⟩ : ℂ) = Complex.cos h + Complex.sin h * Complex.I := by
    apply Complex.ext <;> simp [← Complex.ofReal_cos, ← Complex.ofReal_sin]
  rw [e, Complex.arg_cos_add_sin_mul_I ⟨h1, h2⟩]

theorem atan2_smul {r h : ℝ} (hr : 0 < r) (h1 : -π < h) (h2 : h ≤ π) :
    atan2 (r * sin h) (r * cos h) = h := by
  unfold atan2
  have e : (⟨r * cos h, r * sin h⟩ : ℂ) = r * (Complex.cos h + Complex.sin h * Complex.I) := by
    apply Complex.ext <;> simp [← Complex.ofReal_cos, ← Complex.ofReal_sin]
  rw [e, Complex.arg_mul_cos_add_sin_mul_I hr ⟨h1, h2⟩]

/-- polar form: `(x, y)` at radius `r = sqrt(x²+y²)` -/
theorem atan2_polar (y x : ℝ) :
    Real.sqrt (x ^ 2 + y ^ 2) * cos (atan2 y x) = x ∧ Real.sqrt (x ^ 2 + y ^ 2) * sin (atan2 y x) = y ∧
    -π < atan2 y x ∧ atan2 y x ≤ π := by
  have hn : ‖(⟨x, y⟩ : ℂ)‖ = Real.sqrt (x ^ 2 + y ^ 2) := by
    rw [Complex.norm_def, Complex.normSq_mk]; congr 1; ring
  refine ⟨?_, ?_, Complex.neg_pi_lt_arg _, Complex.arg_le_pi _⟩
  · rw [← hn]; exact Complex.norm_mul_cos_arg _
  · rw [← hn]; exact Complex.norm_mul_sin_arg _

theorem atan2_nonneg {y x : ℝ} (hy : 0 ≤ y) : 0 ≤ atan2 y x := by
  unfold atan2; rw [Complex.arg_nonneg_iff]; exact hy

/-! ### axis angle → quaternion -/

theorem axisAngleToQuaternion_large {v : V3} (h : 1e-6 ≤ norm3 v) :
    axisAngleToQuaternion v = ⟨cos (norm3 v / 2), v 0 * (sin (norm3 v / 2) / norm3 v),
      v 1 * (sin (norm3 v / 2) / norm3 v), v 2 * (sin (norm3 v / 2) / norm3 v)⟩ := by
  have h' : ¬ (|norm3 v| < 1e-6) := by rw [abs_of_nonneg (norm3_nonneg v)]; linarith
  have e : (0.5 : ℝ) * norm3 v = norm3 v / 2 := by ring
  unfold axisAngleToQuaternion
  simp only [h', if_false, e]

theorem axisAngleToQuaternion_zero : axisAngleToQuaternion 0 = ⟨1, 0, 0, 0⟩ := by
  have : norm3 0 = 0 := norm3_eq_zero.2 rfl
  unfold axisAngleToQuaternion
  simp [this]

theorem axisAngleToQuaternion_unit {v : V3} (h : 1e-6 ≤ norm3 v) :
    (axisAngleToQuaternion v).normSq = 1 := by
  have h0 : norm3 v ≠ 0 := by intro h'; rw [h'] at h; norm_num at h
  have h2 := norm3_sq v
  have hsc := Real.sin_sq_add_cos_sq (norm3 v / 2)
  rw [axisAngleToQuaternion_large h]
  unfold Quat.normSq dot at *
  simp only
  generalize norm3 v = n at *
  field_simp
  grind

theorem axisAngleToMatrix_large {v : V3} (h : 1e-6 ≤ norm3 v) :
    axisAngleToMatrix v = axisAndAngleToMatrix33 (fun i => v i / norm3 v) (norm3 v) := by
  have hu := axisAngleToQuaternion_unit h
  have h0 : norm3 v ≠ 0 := by intro h'; rw [h'] at h; norm_num at h
  have h2 := norm3_sq v
  have hsc := Real.sin_sq_add_cos_sq (norm3 v / 2)
  have hc : cos (norm3 v) = 2 * cos (norm3 v / 2) ^ 2 - 1 := by rw [← Real.cos_two_mul]; congr 1; ring
  have hs : sin (norm3 v) = 2 * sin (norm3 v / 2) * cos (norm3 v / 2) := by
    rw [← Real.sin_two_mul]; congr 1; ring
  unfold axisAngleToMatrix
  unfold dot at h2
  apply m3_ext9 <;>
   simp only [quaternionToMatrix, hu, axisAndAngleToMatrix33, Matrix.of_apply, Matrix.cons_val, hc, hs] <;>
   rw [axisAngleToQuaternion_large h] <;> simp only <;>
   generalize norm3 v = n at * <;> generalize sin (n/2) = s at * <;> generalize cos (n/2) = c at * <;>
   field_simp <;> grind

theorem norm3_quat_vec {q : Quat} (hq : q.normSq = 1) : norm3 ![q.x, q.y, q.z] ^ 2 = 1 - q.w ^ 2 := by
  rw [norm3_sq]; unfold Quat.normSq at hq; simp [dot]; linarith

/-- half angle of a unit quaternion -/
noncomputable def halfAngle (q : Quat) : ℝ := atan2 (norm3 ![q.x, q.y, q.z]) q.w

theorem halfAngle_spec {q : Quat} (hq : q.normSq = 1) :
    cos (halfAngle q) = q.w ∧ sin (halfAngle q) = norm3 ![q.x, q.y, q.z] ∧ 0 ≤ halfAngle q ∧ halfAngle q ≤ π := by
  have h := atan2_polar (norm3 ![q.x, q.y, q.z]) q.w
  have e : q.w ^ 2 + norm3 ![q.x, q.y, q.z] ^ 2 = 1 := by rw [norm3_quat_vec hq]; ring
  rw [e, Real.sqrt_one, one_mul, one_mul] at h
  exact ⟨h.1, h.2.1, atan2_nonneg (norm3_nonneg _), h.2.2.2⟩

theorem quaternionToAxisAngle_large {q : Quat} (h : 1e-6 ≤ 2 * halfAngle q) :
    quaternionToAxisAngle q = ![q.x / (sin (halfAngle q) / (2 * halfAngle q)),
      q.y / (sin (halfAngle q) / (2 * halfAngle q)), q.z / (sin (halfAngle q) / (2 * halfAngle q))] := by
  have h' : ¬ (|2 * halfAngle q| < 1e-6) := by
    rw [abs_of_nonneg (by linarith [show (0:ℝ) ≤ 1e-6 by norm_num])]; linarith
  unfold quaternionToAxisAngle
  unfold halfAngle at *
  simp only [h', if_false]

theorem quaternionToAxisAngle_small {q : Quat} (h0 : 0 ≤ halfAngle q) (h : 2 * halfAngle q < 1e-6) :
    quaternionToAxisAngle q = ![q.x / (0.5 - (2 * halfAngle q) * (2 * halfAngle q) / 48),
      q.y / (0.5 - (2 * halfAngle q) * (2 * halfAngle q) / 48),
      q.z / (0.5 - (2 * halfAngle q) * (2 * halfAngle q) / 48)] := by
  have h' : (|2 * halfAngle q| < 1e-6) := by
    rw [abs_of_nonneg (by linarith)]; linarith
  unfold quaternionToAxisAngle
  unfold halfAngle at *
  simp only [h', if_true]

theorem norm3_div (a b c d : ℝ) (hd : 0 ≤ d) : norm3 ![a / d, b / d, c / d] = norm3 ![a, b, c] / d := by
  have : (![a / d, b / d, c / d] : V3) = fun i => d⁻¹ * (![a, b, c] : V3) i := by
    ext i; fin_cases i <;> simp [div_eq_inv_mul]
  rw [this, norm3_smul, abs_of_nonneg (inv_nonneg.2 hd), div_eq_inv_mul]

/-- outside the small band and away from the full turn, the rotation vector has length the angle -/
theorem norm_quaternionToAxisAngle {q : Quat} (hq : q.normSq = 1) (h : 1e-6 ≤ 2 * halfAngle q)
    (hw : halfAngle q < π) : norm3 (quaternionToAxisAngle q) = 2 * halfAngle q := by
  obtain ⟨_, h2, h3, _⟩ := halfAngle_spec hq
  have hpos : 0 < halfAngle q := by
    have : (0:ℝ) < 1e-6 := by norm_num
    linarith
  have hs : 0 < sin (halfAngle q) := Real.sin_pos_of_pos_of_lt_pi hpos hw
  rw [quaternionToAxisAngle_large h, norm3_div _ _ _ _ (by positivity), ← h2]
  field_simp

theorem sub_cube_le_sin {x : ℝ} (hx : 0 ≤ x) : x - x ^ 3 / 6 ≤ sin x := by
  have hm : MonotoneOn (fun x : ℝ => sin x - x + x ^ 3 / 6) (Set.Ici 0) := by
    apply monotoneOn_of_deriv_nonneg (convex_Ici 0)
    · fun_prop
    · fun_prop
    · intro y hy
      have : HasDerivAt (fun x : ℝ => sin x - x + x ^ 3 / 6) (cos y - 1 + (3 * y ^ 2) / 6) y := by
        have h3 : HasDerivAt (fun x : ℝ => x ^ 3 / 6) ((3 * y ^ 2) / 6) y := by
          have := (hasDerivAt_pow 3 y).div_const 6
          simpa using this
        exact ((Real.hasDerivAt_sin y).sub (hasDerivAt_id y)).add h3
      rw [this.deriv]
      have := Real.one_sub_sq_div_two_le_cos (x := y)
      linarith
  have := hm (Set.mem_Ici.2 le_rfl) (Set.mem_Ici.2 hx) hx
  simp at this
  linarith

/-- always: the rotation vector is at least as long as the rotation angle -/
theorem le_norm_quaternionToAxisAngle {q : Quat} (hq : q.normSq = 1) (hw : halfAngle q < π) :
    2 * halfAngle q ≤ norm3 (quaternionToAxisAngle q) := by
  obtain ⟨_, h2, h3, _⟩ := halfAngle_spec hq
  by_cases h : 1e-6 ≤ 2 * halfAngle q
  · rw [norm_quaternionToAxisAngle hq h hw]
  · have h := not_le.1 h
    have hsm : 0 < 0.5 - (2 * halfAngle q) * (2 * halfAngle q) / 48 := by
      have h6 : 2 * halfAngle q < 1 := lt_trans h (by norm_num)
      nlinarith
    rw [quaternionToAxisAngle_small h3 h, norm3_div _ _ _ _ hsm.le, ← h2, le_div_iff₀ hsm]
    have := sub_cube_le_sin h3
    nlinarith

end PK
