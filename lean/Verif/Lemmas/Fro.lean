import Verif.Spec.Float
import Verif.Lemmas.Rigid
import Mathlib.Analysis.Matrix.Normed

/-!
# Frobenius norm and length
-/

namespace PK
open Spec Matrix
open scoped Matrix.Norms.Frobenius

theorem fro_eq_norm (A : M3) : fro A = ‖A‖ := by
  rw [frobenius_norm_def, fro, Real.sqrt_eq_rpow]
  simp

theorem vlen_sq_sum (v : V3) : vlen v = Real.sqrt (∑ i, v i ^ 2) := by
  simp [vlen, Fin.sum_univ_three]

theorem vlen_eq_norm (v : V3) : vlen v = ‖replicateCol (Fin 1) v‖ := by
  rw [frobenius_norm_def, vlen_sq_sum, Real.sqrt_eq_rpow]
  simp

theorem fro_nonneg (A : M3) : 0 ≤ fro A := Real.sqrt_nonneg _
theorem vlen_nonneg (v : V3) : 0 ≤ vlen v := Real.sqrt_nonneg _

theorem fro_add_le (A B : M3) : fro (A + B) ≤ fro A + fro B := by
  simp only [fro_eq_norm]; exact norm_add_le _ _

theorem vlen_add_le (v w : V3) : vlen (v + w) ≤ vlen v + vlen w := by
  simp only [vlen_eq_norm, replicateCol_add]; exact norm_add_le _ _

theorem fro_mul_le (A B : M3) : fro (A * B) ≤ fro A * fro B := by
  simp only [fro_eq_norm]; exact frobenius_norm_mul _ _

theorem vlen_mulVec_le (A : M3) (v : V3) : vlen (A *ᵥ v) ≤ fro A * vlen v := by
  rw [fro_eq_norm, vlen_eq_norm, vlen_eq_norm, replicateCol_mulVec]; exact frobenius_norm_mul _ _

theorem vlen_smul (c : ℝ) (v : V3) : vlen (c • v) = |c| * vlen v := by
  rw [vlen, vlen, ← Real.sqrt_sq_eq_abs, ← Real.sqrt_mul (sq_nonneg c)]
  congr 1
  simp only [Pi.smul_apply, smul_eq_mul]; ring

theorem vlen_unit {v : V3} (h : IsUnitV v) : vlen v = 1 := by
  rw [vlen, h, Real.sqrt_one]

theorem fro_sq (A : M3) : fro A ^ 2 = (Aᵀ * A).trace := by
  rw [fro, Real.sq_sqrt (by positivity), Matrix.trace,
    Finset.sum_comm]
  refine Finset.sum_congr rfl fun i _ => ?_
  simp [Matrix.mul_apply, sq]

theorem isRot_tmul {R : M3} (h : IsRot R) : Rᵀ * R = 1 := by
  have := (Matrix.mem_specialOrthogonalGroup_iff.1 h).1
  exact (Matrix.mem_orthogonalGroup_iff' _ _).1 this

theorem isRot_mult {R : M3} (h : IsRot R) : R * Rᵀ = 1 := by
  have := (Matrix.mem_specialOrthogonalGroup_iff.1 h).1
  exact (Matrix.mem_orthogonalGroup_iff _ _).1 this

theorem fro_transpose (A : M3) : fro Aᵀ = fro A := by
  rw [fro_eq_norm, fro_eq_norm]; exact frobenius_norm_transpose A

theorem fro_rot_mul {R : M3} (h : IsRot R) (A : M3) : fro (R * A) = fro A := by
  rw [← sq_eq_sq₀ (fro_nonneg _) (fro_nonneg _), fro_sq, fro_sq, Matrix.transpose_mul, Matrix.mul_assoc,
    ← Matrix.mul_assoc Rᵀ, isRot_tmul h, Matrix.one_mul]

theorem fro_mul_rot {R : M3} (h : IsRot R) (A : M3) : fro (A * R) = fro A := by
  rw [← fro_transpose, ← fro_transpose A, ← sq_eq_sq₀ (fro_nonneg _) (fro_nonneg _), fro_sq, fro_sq,
    Matrix.transpose_mul, Matrix.transpose_mul, Matrix.transpose_transpose, Matrix.transpose_transpose,
    Matrix.mul_assoc, ← Matrix.mul_assoc R, isRot_mult h, Matrix.one_mul]

theorem fro_rot {R : M3} (h : IsRot R) : fro R = Real.sqrt 3 := by
  rw [← Real.sqrt_sq (fro_nonneg R), fro_sq, isRot_tmul h]
  simp

theorem vlen_sq (v : V3) : vlen v ^ 2 = v ⬝ᵥ v := by
  rw [vlen, Real.sq_sqrt (by positivity)]
  simp [dotProduct, Fin.sum_univ_three, sq]

theorem vlen_rot {R : M3} (h : IsRot R) (v : V3) : vlen (R *ᵥ v) = vlen v := by
  rw [← sq_eq_sq₀ (vlen_nonneg _) (vlen_nonneg _), vlen_sq, vlen_sq, Matrix.dotProduct_mulVec, Matrix.vecMul_mulVec,
    isRot_tmul h, Matrix.vecMul_one]

/-- larger entries, larger norm -/
theorem fro_le_of_abs {A B : M3} (h : ∀ i j, |A i j| ≤ B i j) : fro A ≤ fro B := by
  refine Real.sqrt_le_sqrt (Finset.sum_le_sum fun i _ => Finset.sum_le_sum fun j _ => ?_)
  rw [← sq_abs]
  exact pow_le_pow_left₀ (abs_nonneg _) (h i j) 2

theorem vlen_le_of_abs {v w : V3} (h : ∀ i, |v i| ≤ w i) : vlen v ≤ vlen w := by
  rw [vlen_sq_sum, vlen_sq_sum]
  refine Real.sqrt_le_sqrt (Finset.sum_le_sum fun i _ => ?_)
  rw [← sq_abs]
  exact pow_le_pow_left₀ (abs_nonneg _) (h i) 2

/-- the matrix of the absolute values -/
def absM (A : M3) : M3 := A.map fun x => |x|
def absV (v : V3) : V3 := fun i => |v i|

theorem fro_absM (A : M3) : fro (absM A) = fro A := by simp [fro, absM]
theorem vlen_absV (v : V3) : vlen (absV v) = vlen v := by simp [vlen, absV]

theorem fro_smul (c : ℝ) (A : M3) : fro (c • A) = |c| * fro A := by
  rw [fro_eq_norm, fro_eq_norm, norm_smul, Real.norm_eq_abs]

theorem fro_le_of_entries {A : M3} {e : ℝ} (he : 0 ≤ e) (h : ∀ i j, |A i j| ≤ e) : fro A ≤ 3 * e := by
  refine (fro_le_of_abs (B := fun _ _ => e) h).trans (le_of_eq ?_)
  simp only [fro, Finset.sum_const, Finset.card_univ, Fintype.card_fin, nsmul_eq_mul]
  rw [show ((3 : ℕ) : ℝ) * (((3 : ℕ) : ℝ) * e ^ 2) = (3 * e) ^ 2 by push_cast; ring, Real.sqrt_sq (by positivity)]

theorem vlen_le_of_entries {v : V3} {e : ℝ} (he : 0 ≤ e) (h : ∀ i, |v i| ≤ e) : vlen v ≤ 2 * e := by
  refine (vlen_le_of_abs (w := fun _ => e) h).trans ?_
  rw [vlen]
  refine Real.sqrt_le_iff.2 ⟨by positivity, by nlinarith [sq_nonneg e]⟩

theorem sqrt3_le : Real.sqrt 3 ≤ 3 := by
  rw [Real.sqrt_le_iff]; norm_num

theorem one_le_sqrt3 : 1 ≤ Real.sqrt 3 := by
  rw [Real.one_le_sqrt]; norm_num

end PK
