import Verif.Lemmas.MatRound
import Verif.Props.Quaternion

/-!
# C115: rotation conversions in floating-point arithmetic
-/

namespace PK
open Spec Matrix Quaternion

/-- the quaternion `q` turns vectors as the matrix `R` does -/
def Spec.Turns (q : Quat) (R : M3) : Prop := ∀ v : V3, pureH (R *ᵥ v) = toH q * pureH v * (toH q)⁻¹

theorem pureH_inj {v w : V3} (h : pureH v = pureH w) : v = w := by
  have := Quaternion.ext_iff.1 h
  obtain ⟨-, h1, h2, h3⟩ := this
  funext i
  fin_cases i
  · exact h1
  · exact h2
  · exact h3

theorem turns_iff {q : Quat} (h : q ≠ ⟨0, 0, 0, 0⟩) {R : M3} : Turns q R ↔ quaternionToMatrix q = R := by
  constructor
  · intro ht
    have : ∀ v, quaternionToMatrix q *ᵥ v = R *ᵥ v := fun v =>
      pureH_inj ((C35_quaternion_to_matrix_is_conjugation q h v).trans (ht v).symm)
    exact Matrix.ext_of_mulVec_single fun i => this _
  · rintro rfl v
    exact C35_quaternion_to_matrix_is_conjugation q h v

theorem unitQ_ne {q : Quat} (h : IsUnitQ q) : q ≠ ⟨0, 0, 0, 0⟩ := by
  rintro rfl
  simp [IsUnitQ] at h

/-- **C115**: the quaternion computed from a matrix that is only approximately a rotation is, up to its sign, the quaternion of
the rotation, up to a multiple of the error of the matrix and of the roundoff.  The bound is the same for all rotations,
half turns included. -/
theorem C115_matrix_to_quaternion (m : Machine) {τ e : ℝ} (hu : m.u ≤ τ) (h1 : τ ≤ 1 / 100) (he : e ≤ 1 / 50) {q : Quat} {R M : M3}
    (hq : IsUnitQ q) (hR : Turns q R) (hM : ∀ i j, |M i j - R i j| ≤ e) :
    let r := matrixToQuaternionFl m M
    (|r.w - q.w| ≤ 7 * e + 50 * τ ∧ |r.x - q.x| ≤ 7 * e + 50 * τ ∧ |r.y - q.y| ≤ 7 * e + 50 * τ ∧ |r.z - q.z| ≤ 7 * e + 50 * τ) ∨
    (|r.w + q.w| ≤ 7 * e + 50 * τ ∧ |r.x + q.x| ≤ 7 * e + 50 * τ ∧ |r.y + q.y| ≤ 7 * e + 50 * τ ∧ |r.z + q.z| ≤ 7 * e + 50 * τ) := by
  have h0 : 0 ≤ τ := m.u_nonneg.trans hu
  obtain ⟨σ, hσ, h⟩ := matrixToQuaternionFl_near m hu h0 h1 he hq ((turns_iff (unitQ_ne hq)).1 hR) hM
  have a0 := h 0; have a1 := h 1; have a2 := h 2; have a3 := h 3
  simp only [Quat.get, Matrix.cons_val] at a0 a1 a2 a3
  rcases hσ with rfl | rfl
  · left
    simp only [one_mul] at a0 a1 a2 a3
    exact ⟨a0, a1, a2, a3⟩
  · right
    simp only [neg_mul, one_mul, sub_neg_eq_add] at a0 a1 a2 a3
    exact ⟨a0, a1, a2, a3⟩

/-- **C115**: the matrix computed from a quaternion of any length other than 0 is its rotation, up to 18 units of roundoff. -/
theorem C115_quaternion_to_matrix (m : Machine) {τ : ℝ} (hu : m.u ≤ τ) (h1 : τ ≤ 1 / 1000) {q : Quat} {R : M3}
    (hq : q ≠ ⟨0, 0, 0, 0⟩) (hR : Turns q R) (i j : Fin 3) : |quaternionToMatrixFl m q i j - R i j| ≤ 18 * τ := by
  rw [← (turns_iff hq).1 hR]
  exact quaternionToMatrixFl_near m hu (m.u_nonneg.trans hu) h1 (Quat.normSq_pos hq) i j

/-- **C115**: converting an approximate rotation matrix to a quaternion and back gives the rotation, up to a multiple of the error
of the matrix and of the roundoff. -/
theorem C115_round_trip (m : Machine) {τ e : ℝ} (hu : m.u ≤ τ) (he : 7 * e + 50 * τ ≤ 1 / 50) {R M : M3} (hR : IsRot R)
    (hM : ∀ i j, |M i j - R i j| ≤ e) (i j : Fin 3) :
    |quaternionToMatrixFl m (matrixToQuaternionFl m M) i j - R i j| ≤ 63 * e + 470 * τ := by
  have h0 : 0 ≤ τ := m.u_nonneg.trans hu
  have he0 := (abs_nonneg _).trans (hM 0 0)
  have hq : IsUnitQ (matrixToQuaternion R) := (C37_matrix_to_quaternion_roundtrip R hR).1
  have hqR : quaternionToMatrix (matrixToQuaternion R) = R := (C37_matrix_to_quaternion_roundtrip R hR).2
  obtain ⟨σ, hσ, h⟩ := matrixToQuaternionFl_near m hu h0 (by linarith) (by linarith) hq hqR hM
  have hn : QNear (7 * e + 50 * τ) (matrixToQuaternionFl m M) (scaleQ σ (matrixToQuaternion R)) := fun k => by
    rw [scaleQ_get]; exact h k
  obtain ⟨hp, hl⟩ := quaternionToMatrix_lip he (scaleQ_unit hσ hq) hn
  have a := quaternionToMatrixFl_near m hu h0 (by linarith) hp i j
  have b := hl i j
  have hσ0 : σ ≠ 0 := by rcases hσ with rfl | rfl <;> norm_num
  rw [C35_quaternion_to_matrix_scale_invariant _ (unitQ_ne hq) σ hσ0, hqR] at b
  have := abs_add_le (quaternionToMatrixFl m (matrixToQuaternionFl m M) i j - quaternionToMatrix (matrixToQuaternionFl m M) i j)
    (quaternionToMatrix (matrixToQuaternionFl m M) i j - R i j)
  rw [sub_add_sub_cancel] at this
  linarith

/-! ## examples: a half turn about the first axis, with noise, in single precision -/

/-- a half turn with an error in every entry -/
noncomputable def noisyHalfTurn : M3 := !![1 - 1 / 1000, 1 / 1000, -1 / 1000; -1 / 1000, -1 + 1 / 1000, 1 / 1000; 1 / 1000, 1 / 1000, -1]

theorem halfTurn_turns : Turns ⟨0, 1, 0, 0⟩ !![1, 0, 0; 0, -1, 0; 0, 0, -1] := by
  rw [turns_iff (by simp)]
  unfold quaternionToMatrix
  funext i j
  fin_cases i <;> fin_cases j <;> norm_num [Quat.normSq]

theorem noisyHalfTurn_near (i j : Fin 3) : |noisyHalfTurn i j - (!![1, 0, 0; 0, -1, 0; 0, 0, -1] : M3) i j| ≤ 1 / 1000 := by
  fin_cases i <;> fin_cases j <;> norm_num [noisyHalfTurn, abs_le]

example : let r := matrixToQuaternionFl (binary 24 (by norm_num)) noisyHalfTurn
    (|r.w - 0| ≤ 1 / 100 ∧ |r.x - 1| ≤ 1 / 100) ∨ (|r.w + 0| ≤ 1 / 100 ∧ |r.x + 1| ≤ 1 / 100) := by
  have := C115_matrix_to_quaternion (binary 24 (by norm_num)) (τ := 1 / 2 ^ 24) (e := 1 / 1000)
    (by show (2 : ℝ) ^ (-((24 : ℕ) : ℤ)) ≤ _; norm_num) (by norm_num) (by norm_num) (q := ⟨0, 1, 0, 0⟩) (by norm_num [IsUnitQ])
    halfTurn_turns noisyHalfTurn_near
  rcases this with ⟨a, b, -⟩ | ⟨a, b, -⟩
  · exact .inl ⟨a.trans (by norm_num), b.trans (by norm_num)⟩
  · exact .inr ⟨a.trans (by norm_num), b.trans (by norm_num)⟩

example (i j : Fin 3) : |quaternionToMatrixFl (binary 24 (by norm_num)) (matrixToQuaternionFl (binary 24 (by norm_num)) noisyHalfTurn) i j -
    (!![1, 0, 0; 0, -1, 0; 0, 0, -1] : M3) i j| ≤ 64 / 1000 := by
  refine (C115_round_trip (binary 24 (by norm_num)) (τ := 1 / 2 ^ 24) (e := 1 / 1000)
    (by show (2 : ℝ) ^ (-((24 : ℕ) : ℤ)) ≤ _; norm_num) (by norm_num) ?_ noisyHalfTurn_near i j).trans (by norm_num)
  rw [← (turns_iff (q := ⟨0, 1, 0, 0⟩) (by simp)).1 halfTurn_turns]
  exact C35_quaternion_to_matrix_is_rotation _ (by simp)

/-- a quaternion that is not of unit length -/
example (i j : Fin 3) : |quaternionToMatrixFl (binary 24 (by norm_num)) ⟨0, 3, 0, 4⟩ i j - quaternionToMatrix ⟨0, 3, 0, 4⟩ i j| ≤ 18 / 2 ^ 24 :=
  (C115_quaternion_to_matrix (binary 24 (by norm_num)) (τ := 1 / 2 ^ 24)
    (by show (2 : ℝ) ^ (-((24 : ℕ) : ℤ)) ≤ _; norm_num) (by norm_num) (q := ⟨0, 3, 0, 4⟩) (by simp)
    ((turns_iff (by simp)).2 rfl) i j).trans (by norm_num)

end PK
