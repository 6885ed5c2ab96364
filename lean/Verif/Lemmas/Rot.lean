import Mathlib.Tactic.LinearCombination
import Mathlib.Tactic.FieldSimp
import Mathlib.Tactic.FinCases
import Mathlib.Tactic.Positivity
import Verif.Model.RotConv
import Verif.Spec.Rot

namespace PK
open Matrix Spec

theorem isRot_iff (R : M3) : IsRot R ↔ R * Rᵀ = 1 ∧ R.det = 1 := by
  unfold IsRot
  rw [Matrix.mem_specialOrthogonalGroup_iff, Matrix.mem_orthogonalGroup_iff]

theorem isRot_one : IsRot 1 := (isRot_iff _).2 ⟨by simp, by simp⟩

theorem Spec.IsRot.mul {A B : M3} (ha : IsRot A) (hb : IsRot B) : IsRot (A * B) :=
  Submonoid.mul_mem _ ha hb

theorem Spec.IsRot.mul_transpose {A : M3} (ha : IsRot A) : A * Aᵀ = 1 := ((isRot_iff A).1 ha).1
theorem Spec.IsRot.transpose_mul {A : M3} (ha : IsRot A) : Aᵀ * A = 1 :=
  mul_eq_one_comm.1 ha.mul_transpose
theorem Spec.IsRot.det {A : M3} (ha : IsRot A) : A.det = 1 := ((isRot_iff A).1 ha).2
theorem Spec.IsRot.transpose {A : M3} (ha : IsRot A) : IsRot Aᵀ :=
  (isRot_iff _).2 ⟨by rw [Matrix.transpose_transpose]; exact ha.transpose_mul,
    by rw [Matrix.det_transpose]; exact ha.det⟩

theorem m3_ext {A B : M3} (h : ∀ i j, A i j = B i j) : A = B := by ext i j; exact h i j

/-- nine scalar equations for equality of 3x3 matrices -/
theorem m3_ext9 {A B : M3}
    (h00 : A 0 0 = B 0 0) (h01 : A 0 1 = B 0 1) (h02 : A 0 2 = B 0 2)
    (h10 : A 1 0 = B 1 0) (h11 : A 1 1 = B 1 1) (h12 : A 1 2 = B 1 2)
    (h20 : A 2 0 = B 2 0) (h21 : A 2 1 = B 2 1) (h22 : A 2 2 = B 2 2) : A = B := by
  ext i j
  fin_cases i <;> fin_cases j <;> assumption

theorem v3_ext {a b : V3} (h0 : a 0 = b 0) (h1 : a 1 = b 1) (h2 : a 2 = b 2) : a = b := by
  ext i; fin_cases i <;> assumption

/-- Row and column orthonormality and cofactor equations of a rotation, as scalar facts. -/
structure RotEqs (R : M3) : Prop where
  r00 : R 0 0 * R 0 0 + R 0 1 * R 0 1 + R 0 2 * R 0 2 = 1
  r11 : R 1 0 * R 1 0 + R 1 1 * R 1 1 + R 1 2 * R 1 2 = 1
  r22 : R 2 0 * R 2 0 + R 2 1 * R 2 1 + R 2 2 * R 2 2 = 1
  r01 : R 0 0 * R 1 0 + R 0 1 * R 1 1 + R 0 2 * R 1 2 = 0
  r02 : R 0 0 * R 2 0 + R 0 1 * R 2 1 + R 0 2 * R 2 2 = 0
  r12 : R 1 0 * R 2 0 + R 1 1 * R 2 1 + R 1 2 * R 2 2 = 0
  c00 : R 0 0 * R 0 0 + R 1 0 * R 1 0 + R 2 0 * R 2 0 = 1
  c11 : R 0 1 * R 0 1 + R 1 1 * R 1 1 + R 2 1 * R 2 1 = 1
  c22 : R 0 2 * R 0 2 + R 1 2 * R 1 2 + R 2 2 * R 2 2 = 1
  c01 : R 0 0 * R 0 1 + R 1 0 * R 1 1 + R 2 0 * R 2 1 = 0
  c02 : R 0 0 * R 0 2 + R 1 0 * R 1 2 + R 2 0 * R 2 2 = 0
  c12 : R 0 1 * R 0 2 + R 1 1 * R 1 2 + R 2 1 * R 2 2 = 0
  k00 : R 0 0 = R 1 1 * R 2 2 - R 1 2 * R 2 1
  k01 : R 0 1 = R 1 2 * R 2 0 - R 1 0 * R 2 2
  k02 : R 0 2 = R 1 0 * R 2 1 - R 1 1 * R 2 0
  k10 : R 1 0 = R 0 2 * R 2 1 - R 0 1 * R 2 2
  k11 : R 1 1 = R 0 0 * R 2 2 - R 0 2 * R 2 0
  k12 : R 1 2 = R 0 1 * R 2 0 - R 0 0 * R 2 1
  k20 : R 2 0 = R 0 1 * R 1 2 - R 0 2 * R 1 1
  k21 : R 2 1 = R 0 2 * R 1 0 - R 0 0 * R 1 2
  k22 : R 2 2 = R 0 0 * R 1 1 - R 0 1 * R 1 0

theorem Spec.IsRot.eqs {R : M3} (h : IsRot R) : RotEqs R := by
  have h1 := h.mul_transpose
  have h2 := h.transpose_mul
  have hd := h.det
  have e1 := fun i j => congrFun (congrFun h1 i) j
  have e2 := fun i j => congrFun (congrFun h2 i) j
  simp only [Matrix.mul_apply, Matrix.transpose_apply, Fin.sum_univ_three] at e1 e2
  rw [Matrix.det_fin_three] at hd
  -- adjugate = transpose
  have hadj : R.adjugate = Rᵀ := by
    have : Rᵀ * R * R.adjugate = Rᵀ := by
      rw [Matrix.mul_assoc, Matrix.mul_adjugate, h.det, one_smul, Matrix.mul_one]
    rwa [h2, Matrix.one_mul] at this
  have e3 := fun i j => congrFun (congrFun hadj i) j
  rw [Matrix.adjugate_fin_three] at e3
  have a := e1 0 0; have b := e1 1 1; have c := e1 2 2
  have d := e1 0 1; have e := e1 0 2; have f := e1 1 2
  have a' := e2 0 0; have b' := e2 1 1; have c' := e2 2 2
  have d' := e2 0 1; have e' := e2 0 2; have f' := e2 1 2
  have k00 := e3 0 0; have k01 := e3 1 0; have k02 := e3 2 0
  have k10 := e3 0 1; have k11 := e3 1 1; have k12 := e3 2 1
  have k20 := e3 0 2; have k21 := e3 1 2; have k22 := e3 2 2
  simp at a b c d e f a' b' c' d' e' f' k00 k01 k02 k10 k11 k12 k20 k21 k22
  constructor <;> linarith

theorem Spec.IsRot.entry_sq_le {R : M3} (h : IsRot R) (i j : Fin 3) : R i j ^ 2 ≤ 1 := by
  obtain ⟨⟩ := h.eqs
  have h00 := mul_self_nonneg (R 0 0); have h01 := mul_self_nonneg (R 0 1)
  have h02 := mul_self_nonneg (R 0 2); have h10 := mul_self_nonneg (R 1 0)
  have h11 := mul_self_nonneg (R 1 1); have h12 := mul_self_nonneg (R 1 2)
  have h20 := mul_self_nonneg (R 2 0); have h21 := mul_self_nonneg (R 2 1)
  have h22 := mul_self_nonneg (R 2 2)
  rw [sq]
  fin_cases i <;> fin_cases j <;> simp only [Fin.zero_eta, Fin.mk_one, Fin.reduceFinMk] <;> linarith

theorem isRot_of_eqs {R : M3}
    (r00 : R 0 0 * R 0 0 + R 0 1 * R 0 1 + R 0 2 * R 0 2 = 1)
    (r11 : R 1 0 * R 1 0 + R 1 1 * R 1 1 + R 1 2 * R 1 2 = 1)
    (r22 : R 2 0 * R 2 0 + R 2 1 * R 2 1 + R 2 2 * R 2 2 = 1)
    (r01 : R 0 0 * R 1 0 + R 0 1 * R 1 1 + R 0 2 * R 1 2 = 0)
    (r02 : R 0 0 * R 2 0 + R 0 1 * R 2 1 + R 0 2 * R 2 2 = 0)
    (r12 : R 1 0 * R 2 0 + R 1 1 * R 2 1 + R 1 2 * R 2 2 = 0)
    (hd : R.det = 1) : IsRot R := by
  refine (isRot_iff R).2 ⟨?_, hd⟩
  apply m3_ext9 <;> simp [Matrix.mul_apply, Fin.sum_univ_three] <;> linarith

end PK
