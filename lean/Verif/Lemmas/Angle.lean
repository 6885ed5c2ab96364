import Verif.Props.IKPose
import Verif.Props.Descent
import Verif.Lemmas.Fro

/-!
# The angle between two orientations
-/

namespace PK
open Matrix Spec Real

theorem rotAngle_quat {q : Quat} (hq : q.normSq = 1) : rotAngle (quaternionToMatrix q) = arccos (2 * q.w ^ 2 - 1) := by
  have ht : ((quaternionToMatrix q).trace - 1) / 2 = 2 * q.w ^ 2 - 1 := by
    have hq' := hq
    unfold Quat.normSq at hq'
    simp only [Matrix.trace, Matrix.diag, Fin.sum_univ_three, quaternionToMatrix, hq, Matrix.of_apply, Matrix.cons_val]
    linarith
  rw [rotAngle, ht]

theorem exists_quat {R : M3} (h : IsRot R) : ∃ q : Quat, q.normSq = 1 ∧ 0 ≤ q.w ∧ quaternionToMatrix q = R := by
  obtain ⟨h1, h2, h3⟩ := diffQuat_spec isRot_one h
  exact ⟨_, h1, h2, by rw [h3, Matrix.transpose_one, Matrix.mul_one]⟩

theorem rotAngle_nonneg (R : M3) : 0 ≤ rotAngle R := arccos_nonneg _

theorem rotAngle_le_pi (R : M3) : rotAngle R ≤ π := arccos_le_pi _

theorem rotAngle_one : rotAngle 1 = 0 := by
  simp only [rotAngle, Matrix.trace_one, Fintype.card_fin]
  norm_num

/-- angles of rotations add up at most -/
theorem rotAngle_mul_le {A B : M3} (hA : IsRot A) (hB : IsRot B) : rotAngle (A * B) ≤ rotAngle A + rotAngle B := by
  obtain ⟨a, a1, a2, rfl⟩ := exists_quat hA
  obtain ⟨b, b1, b2, rfl⟩ := exists_quat hB
  have hc : (quaternionRawMultiply a b).normSq = 1 := by rw [normSq_rawMul, a1, b1, one_mul]
  rw [← quaternionToMatrix_mul (by rw [a1]; exact one_ne_zero) (by rw [b1]; exact one_ne_zero), rotAngle_quat hc]
  obtain ⟨r1, r2⟩ := rotAngle_quaternionToMatrix a1 a2
  obtain ⟨s1, s2⟩ := rotAngle_quaternionToMatrix b1 b2
  obtain ⟨c1, c2, c3, -⟩ := halfAngle_spec a1
  obtain ⟨d1, d2, d3, -⟩ := halfAngle_spec b1
  rw [r1, s1]
  set α := halfAngle a
  set β := halfAngle b
  rcases le_total (π / 2) (α + β) with h | h
  · exact (arccos_le_pi _).trans (by linarith)
  · rw [show 2 * α + 2 * β = 2 * (α + β) by ring,
      ← arccos_cos (x := 2 * (α + β)) (by linarith) (by linarith)]
    refine arccos_le_arccos ?_
    rw [cos_two_mul]
    have h0 : 0 ≤ cos (α + β) := cos_nonneg_of_neg_pi_div_two_le_of_le (by linarith [pi_pos]) h
    have h1 : cos (α + β) ≤ (quaternionRawMultiply a b).w := by
      rw [cos_add, c1, d1]
      have e : (quaternionRawMultiply a b).w = a.w * b.w - (a.x * b.x + a.y * b.y + a.z * b.z) := by
        simp only [quaternionRawMultiply]; ring
      rw [e]
      have sa : sin α ^ 2 = a.x ^ 2 + a.y ^ 2 + a.z ^ 2 := by
        have := sin_sq_add_cos_sq α
        rw [c1] at this; unfold Quat.normSq at a1; linarith
      have sb : sin β ^ 2 = b.x ^ 2 + b.y ^ 2 + b.z ^ 2 := by
        have := sin_sq_add_cos_sq β
        rw [d1] at this; unfold Quat.normSq at b1; linarith
      have p1 : 0 ≤ sin α := sin_nonneg_of_nonneg_of_le_pi c3 (by linarith [pi_pos])
      have p2 : 0 ≤ sin β := sin_nonneg_of_nonneg_of_le_pi d3 (by linarith [pi_pos])
      have : a.x * b.x + a.y * b.y + a.z * b.z ≤ sin α * sin β := by
        refine abs_le_of_sq_le_sq' ?_ (mul_nonneg p1 p2) |>.2
        rw [mul_pow, sa, sb]
        nlinarith [sq_nonneg (a.x * b.y - a.y * b.x), sq_nonneg (a.x * b.z - a.z * b.x), sq_nonneg (a.y * b.z - a.z * b.y)]
      linarith
    nlinarith

theorem rotAngle_conj {R : M3} (h : IsRot R) (A : M3) : rotAngle (R * A * Rᵀ) = rotAngle A := by
  unfold rotAngle
  rw [Matrix.trace_mul_cycle, isRot_tmul h, Matrix.one_mul]

theorem arccos_cos_le_abs (x : ℝ) : arccos (cos x) ≤ |x| := by
  rw [← cos_abs]
  rcases le_total |x| π with h | h
  · rw [arccos_cos (abs_nonneg _) h]
  · exact (arccos_le_pi _).trans h

theorem rotAngle_rotAbout_le {k : V3} (hk : IsUnitV k) (θ : ℝ) : rotAngle (rotAbout k θ) ≤ |θ| := by
  rw [rotAngle, trace_rotAbout hk]; exact arccos_cos_le_abs θ

/-- rotations about one axis add up -/
theorem rotAbout_mul {k : V3} (hk : IsUnitV k) (a b : ℝ) : rotAbout k a * rotAbout k b = rotAbout k (a + b) := by
  have hk' := hk
  unfold IsUnitV at hk'
  have ha := sin_sq_add_cos_sq a
  have hb := sin_sq_add_cos_sq b
  rw [← axisAndAngleToMatrix33_eq_rotAbout, ← axisAndAngleToMatrix33_eq_rotAbout, ← axisAndAngleToMatrix33_eq_rotAbout]
  apply m3_ext9 <;>
    simp only [Matrix.mul_apply, Fin.sum_univ_three, axisAndAngleToMatrix33, Matrix.of_apply, Matrix.cons_val, cos_add, sin_add] <;>
    generalize sin a = s at * <;> generalize cos a = c at * <;> generalize sin b = t at * <;> generalize cos b = e at * <;> grind

/-- a rotation by `θ` moves a point by at most `|θ|` times its distance -/
theorem vlen_rotAbout_sub_le {k : V3} (hk : IsUnitV k) (a b : ℝ) (v : V3) :
    vlen (rotAbout k a *ᵥ v - rotAbout k b *ᵥ v) ≤ |a - b| * vlen v := by
  have e : rotAbout k a *ᵥ v - rotAbout k b *ᵥ v = rotAbout k b *ᵥ (rotAbout k (a - b) *ᵥ v - v) := by
    rw [Matrix.mulVec_sub, Matrix.mulVec_mulVec, rotAbout_mul hk]; ring_nf
  rw [e, vlen_rot (isRot_rotAbout hk b)]
  refine abs_le_of_sq_le_sq' ?_ (mul_nonneg (abs_nonneg _) (vlen_nonneg _)) |>.2
  rw [mul_pow, sq_abs, vlen_sq, vlen_sq]
  generalize a - b = θ
  have hc : 1 - cos θ ≤ θ ^ 2 / 2 := by linarith [one_sub_sq_div_two_le_cos (x := θ)]
  have hs := sin_sq_add_cos_sq θ
  have hk' := hk
  unfold IsUnitV at hk'
  have key : (rotAbout k θ *ᵥ v - v) ⬝ᵥ (rotAbout k θ *ᵥ v - v) =
      2 * (1 - cos θ) * (v ⬝ᵥ v - (k 0 * v 0 + k 1 * v 1 + k 2 * v 2) ^ 2) := by
    rw [← axisAndAngleToMatrix33_eq_rotAbout]
    simp only [dotProduct, Fin.sum_univ_three, Pi.sub_apply, Matrix.mulVec, axisAndAngleToMatrix33, Matrix.of_apply, Matrix.cons_val]
    generalize sin θ = s at *
    generalize cos θ = c at *
    grind
  rw [key]
  have hcs : (k 0 * v 0 + k 1 * v 1 + k 2 * v 2) ^ 2 ≤ v ⬝ᵥ v := by
    simp only [dotProduct, Fin.sum_univ_three]
    nlinarith [sq_nonneg (k 0 * v 1 - k 1 * v 0), sq_nonneg (k 0 * v 2 - k 2 * v 0), sq_nonneg (k 1 * v 2 - k 2 * v 1)]
  have h1 : 0 ≤ 1 - cos θ := by linarith [cos_le_one θ]
  have h2 : 0 ≤ v ⬝ᵥ v := by rw [← vlen_sq]; positivity
  nlinarith [sq_nonneg (k 0 * v 0 + k 1 * v 1 + k 2 * v 2)]

end PK
