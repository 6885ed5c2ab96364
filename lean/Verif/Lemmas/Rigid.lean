import Verif.Lemmas.AxisAngle

/-!
# Homogeneous matrices
-/

namespace PK
open Spec Matrix

theorem m4_ext16 {A B : M4} (h : ∀ i j : Fin 4, A i j = B i j) : A = B := by ext i j; exact h i j

@[simp] theorem mkHom_castSucc (R : M3) (t : V3) (i j : Fin 3) : mkHom R t i.castSucc j.castSucc = R i j := by
  simp [mkHom]
@[simp] theorem mkHom_col (R : M3) (t : V3) (i : Fin 3) : mkHom R t i.castSucc 3 = t i := by
  simp [mkHom]
@[simp] theorem mkHom_row (R : M3) (t : V3) : mkHom R t 3 = ![0, 0, 0, 1] := by
  ext j; fin_cases j <;> simp [mkHom]

theorem hom_eq_mkHom (R : M3) (t : V3) : hom R t = mkHom R t := by
  ext i j; fin_cases i <;> fin_cases j <;> rfl

@[simp] theorem rotPart_mkHom (R : M3) (t : V3) : rotPart (mkHom R t) = R := by
  ext i j; simp [rotPart]
@[simp] theorem posPart_mkHom (R : M3) (t : V3) : posPart (mkHom R t) = t := by
  ext i; simp [posPart]

/-- an affine matrix is given by its blocks -/
theorem eq_mkHom_of_affine {T : M4} (h : IsAffine T) : T = mkHom (rotPart T) (posPart T) := by
  have h0 : ∀ j, T 3 j = (![0, 0, 0, 1] : Fin 4 → ℝ) j := fun j => by rw [h]
  ext i j
  fin_cases i <;> fin_cases j <;> first | rfl | exact h0 _

theorem mkHom_affine (R : M3) (t : V3) : IsAffine (mkHom R t) := mkHom_row R t

theorem mkHom_mul (R R' : M3) (t t' : V3) :
    mkHom R t * mkHom R' t' = mkHom (R * R') (R *ᵥ t' + t) := by
  ext i j
  fin_cases i <;> fin_cases j <;>
    simp [Matrix.mul_apply, Fin.sum_univ_four, Fin.sum_univ_three, mkHom, Matrix.mulVec, dotProduct]

theorem mkHom_one : mkHom 1 0 = 1 := by
  ext i j; fin_cases i <;> fin_cases j <;> simp [mkHom]

theorem isAffine_one : IsAffine 1 := by rw [← mkHom_one]; exact mkHom_affine _ _

theorem Spec.IsAffine.mul {A B : M4} (ha : IsAffine A) (hb : IsAffine B) : IsAffine (A * B) := by
  rw [eq_mkHom_of_affine ha, eq_mkHom_of_affine hb, mkHom_mul]; exact mkHom_affine _ _

theorem rotPart_mul {A B : M4} (hb : IsAffine B) : rotPart (A * B) = rotPart A * rotPart B := by
  have h0 : ∀ j, B 3 j = (![0, 0, 0, 1] : Fin 4 → ℝ) j := fun j => by rw [hb]
  have h30 := h0 0; have h31 := h0 1; have h32 := h0 2
  simp at h30 h31 h32
  ext i j
  fin_cases i <;> fin_cases j <;>
    simp [rotPart, Matrix.mul_apply, Fin.sum_univ_four, Fin.sum_univ_three, h30, h31, h32]

theorem posPart_mul {A B : M4} (hb : IsAffine B) :
    posPart (A * B) = rotPart A *ᵥ posPart B + posPart A := by
  have h33 : B 3 3 = 1 := by rw [hb]; simp
  ext i
  fin_cases i <;>
    simp [rotPart, posPart, Matrix.mul_apply, Fin.sum_univ_four, Fin.sum_univ_three, Matrix.mulVec, dotProduct, h33]

theorem isRigid_iff (T : M4) : IsRigid T ↔ IsRot (rotPart T) ∧ IsAffine T := Iff.rfl

theorem isRigid_mkHom {R : M3} (h : IsRot R) (t : V3) : IsRigid (mkHom R t) :=
  (isRigid_iff _).2 ⟨by simpa using h, mkHom_affine _ _⟩

theorem Spec.IsRigid.mul {A B : M4} (ha : IsRigid A) (hb : IsRigid B) : IsRigid (A * B) := by
  rw [isRigid_iff] at *
  exact ⟨by rw [rotPart_mul hb.2]; exact ha.1.mul hb.1, ha.2.mul hb.2⟩

theorem isRigid_one : IsRigid 1 := by rw [← mkHom_one]; exact isRigid_mkHom isRot_one _

theorem isUnitV_iff_dot (v : V3) : IsUnitV v ↔ dot v v = 1 := by
  simp [IsUnitV, dot, sq]

theorem isRot_rotAbout {k : V3} (hk : IsUnitV k) (θ : ℝ) : IsRot (rotAbout k θ) := by
  rw [← axisAndAngleToMatrix33_eq_rotAbout]; exact axisAndAngle_isRot ((isUnitV_iff_dot k).1 hk) θ

theorem axisAndAngleToMatrix44_eq (k : V3) (θ : ℝ) : axisAndAngleToMatrix44 k θ = mkHom (rotAbout k θ) 0 := by
  rw [axisAndAngleToMatrix44, hom_eq_mkHom, axisAndAngleToMatrix33_eq_rotAbout]
  congr 1; ext i; fin_cases i <;> rfl

theorem axisAndDToPrisMatrix_eq (k : V3) (d : ℝ) : axisAndDToPrisMatrix k d = mkHom 1 (d • k) := by
  rw [axisAndDToPrisMatrix, hom_eq_mkHom]
  congr 1
  · ext i j; fin_cases i <;> fin_cases j <;> rfl
  · ext i; fin_cases i <;> simp [mul_comm]

end PK
