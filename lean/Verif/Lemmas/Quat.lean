import Verif.Lemmas.Rot
import Verif.Spec.Quat

namespace PK
open Matrix Spec

@[simp] theorem toH_re (q : Quat) : (toH q).re = q.w := rfl
@[simp] theorem toH_imI (q : Quat) : (toH q).imI = q.x := rfl
@[simp] theorem toH_imJ (q : Quat) : (toH q).imJ = q.y := rfl
@[simp] theorem toH_imK (q : Quat) : (toH q).imK = q.z := rfl
@[simp] theorem pureH_re (v : V3) : (pureH v).re = 0 := rfl
@[simp] theorem pureH_imI (v : V3) : (pureH v).imI = v 0 := rfl
@[simp] theorem pureH_imJ (v : V3) : (pureH v).imJ = v 1 := rfl
@[simp] theorem pureH_imK (v : V3) : (pureH v).imK = v 2 := rfl

theorem Quat.normSq_pos {q : Quat} (h : q ≠ ⟨0, 0, 0, 0⟩) : 0 < q.normSq := by
  by_contra hc
  apply h
  unfold Quat.normSq at hc
  have h1 := mul_self_nonneg q.w; have h2 := mul_self_nonneg q.x
  have h3 := mul_self_nonneg q.y; have h4 := mul_self_nonneg q.z
  ext <;> simp only <;> apply mul_self_eq_zero.1 <;> linarith

theorem isUnitQ_normSq {q : Quat} : IsUnitQ q ↔ q.normSq = 1 := by
  unfold IsUnitQ Quat.normSq
  constructor <;> intro h <;> linarith

theorem IsUnitQ.ne_zero {q : Quat} (h : IsUnitQ q) : q ≠ ⟨0, 0, 0, 0⟩ := by
  rintro rfl; simp [IsUnitQ] at h

theorem quaternionToMatrix_isRot {q : Quat} (h : q.normSq ≠ 0) : IsRot (quaternionToMatrix q) := by
  have hn : q.normSq = q.w * q.w + q.x * q.x + q.y * q.y + q.z * q.z := rfl
  set n := q.normSq with hn'
  have hi : n * n⁻¹ = 1 := mul_inv_cancel₀ h
  apply isRot_of_eqs <;>
  simp only [quaternionToMatrix, ← hn', Matrix.det_fin_three, Matrix.of_apply, Matrix.cons_val, div_eq_mul_inv] <;>
  grind

theorem quaternionToMatrix_scale {q : Quat} {c : ℝ} (hc : c ≠ 0) (h : q.normSq ≠ 0) :
    quaternionToMatrix (scaleQ c q) = quaternionToMatrix q := by
  have e : (scaleQ c q).normSq = c ^ 2 * q.normSq := by
    simp only [Quat.normSq, scaleQ]; ring
  apply m3_ext9 <;> simp only [quaternionToMatrix, e, Matrix.of_apply, Matrix.cons_val] <;>
    simp only [scaleQ] <;> field_simp

theorem normSq_rawMul (a b : Quat) :
    (quaternionRawMultiply a b).normSq = a.normSq * b.normSq := by
  simp only [Quat.normSq, quaternionRawMultiply]; ring

theorem quaternionToMatrix_mul {a b : Quat} (ha : a.normSq ≠ 0) (hb : b.normSq ≠ 0) :
    quaternionToMatrix (quaternionRawMultiply a b) = quaternionToMatrix a * quaternionToMatrix b := by
  have e := normSq_rawMul a b
  have ha' : a.normSq = a.w * a.w + a.x * a.x + a.y * a.y + a.z * a.z := rfl
  have hb' : b.normSq = b.w * b.w + b.x * b.x + b.y * b.y + b.z * b.z := rfl
  apply m3_ext9 <;>
  simp only [quaternionToMatrix, e, Matrix.mul_apply, Fin.sum_univ_three, Matrix.of_apply, Matrix.cons_val] <;>
  generalize a.normSq = na at * <;> generalize b.normSq = nb at * <;>
  simp only [quaternionRawMultiply] <;> field_simp <;> grind

end PK
