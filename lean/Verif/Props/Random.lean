import Verif.Lemmas.Gauss
import Verif.Spec.Random
import Verif.Props.Quaternion
import Verif.Props.Math

/-!
# C99: random rotations are uniform;  C100: perturbations have the documented distributions
-/

namespace PK
open MeasureTheory ProbabilityTheory Matrix Spec

/-! ## Measurability -/

theorem measurable_M3 {α : Type*} [MeasurableSpace α] {f : α → M3} (h : ∀ i j, Measurable fun a => f a i j) : Measurable f :=
  measurable_pi_lambda _ fun i => measurable_pi_lambda _ fun j => h i j

theorem measurable_entry3 (i j : Fin 3) : Measurable fun R : M3 => R i j :=
  (measurable_pi_apply j).comp (measurable_pi_apply i)

theorem measurable_mul3 : Measurable fun p : M3 × M3 => p.1 * p.2 := by
  refine measurable_M3 fun i j => ?_
  simp only [Matrix.mul_apply, Fin.sum_univ_three]
  have h1 : ∀ i j, Measurable fun p : M3 × M3 => p.1 i j := fun i j => (measurable_entry3 i j).comp measurable_fst
  have h2 : ∀ i j, Measurable fun p : M3 × M3 => p.2 i j := fun i j => (measurable_entry3 i j).comp measurable_snd
  exact ((h1 _ _).mul (h2 _ _)).add ((h1 _ _).mul (h2 _ _)) |>.add ((h1 _ _).mul (h2 _ _))

theorem measurable_mulVec3 : Measurable fun p : M3 × V3 => p.1 *ᵥ p.2 := by
  refine measurable_pi_lambda _ fun i => ?_
  simp only [Matrix.mulVec, dotProduct, Fin.sum_univ_three]
  have h1 : ∀ i j, Measurable fun p : M3 × V3 => p.1 i j := fun i j => (measurable_entry3 i j).comp measurable_fst
  have h2 : ∀ j, Measurable fun p : M3 × V3 => p.2 j := fun j => (measurable_pi_apply j).comp measurable_snd
  exact ((h1 _ _).mul (h2 _)).add ((h1 _ _).mul (h2 _)) |>.add ((h1 _ _).mul (h2 _))

theorem measurable_mul_left3 (Q : M3) : Measurable fun R : M3 => Q * R :=
  measurable_mul3.comp (measurable_const.prodMk measurable_id)

theorem measurable_mul_right3 (Q : M3) : Measurable fun R : M3 => R * Q :=
  measurable_mul3.comp (measurable_id.prodMk measurable_const)

theorem measurable_mulVec_left3 (Q : M3) : Measurable fun v : V3 => Q *ᵥ v :=
  measurable_mulVec3.comp (measurable_const.prodMk measurable_id)

/-! ## C99 -/

/-- the sampled rotation only depends on the direction of the sample -/
theorem randomRotation_eq (o : Quat) : randomRotation o = quaternionToMatrix o := by
  by_cases h : o = ⟨0, 0, 0, 0⟩
  · subst h
    have : randomQuaternion ⟨0, 0, 0, 0⟩ = ⟨0, 0, 0, 0⟩ := by simp [randomQuaternion]
    rw [randomRotation, this]
  · obtain ⟨-, -, c, hc, e⟩ := C65_random_quaternion o h
    rw [randomRotation, e, quaternionToMatrix_scale hc (Quat.normSq_pos h).ne']

/-- one sampled rotation as a function of its row of draws -/
noncomputable def rotOf (o : Fin 4 → ℝ) : M3 := randomRotation (rowQuat o)

theorem measurable_rotOf : Measurable rotOf := by
  have : rotOf = fun o => quaternionToMatrix (rowQuat o) := funext fun o => randomRotation_eq _
  rw [this]
  refine measurable_M3 fun i j => ?_
  fin_cases i <;> fin_cases j <;>
    simp only [quaternionToMatrix, rowQuat, Quat.normSq, Matrix.of_apply, Matrix.cons_val, Fin.zero_eta, Fin.mk_one,
      Fin.reduceFinMk] <;> fun_prop

/-- left multiplication by a quaternion as a matrix -/
def leftM (p : Quat) : Matrix (Fin 4) (Fin 4) ℝ :=
  !![p.w, -p.x, -p.y, -p.z; p.x, p.w, -p.z, p.y; p.y, p.z, p.w, -p.x; p.z, -p.y, p.x, p.w]

/-- right multiplication by a quaternion as a matrix -/
def rightM (p : Quat) : Matrix (Fin 4) (Fin 4) ℝ :=
  !![p.w, -p.x, -p.y, -p.z; p.x, p.w, p.z, -p.y; p.y, -p.z, p.w, p.x; p.z, p.y, -p.x, p.w]

theorem leftM_orth {p : Quat} (h : IsUnitQ p) : (leftM p)ᵀ * leftM p = 1 := by
  unfold IsUnitQ at h
  ext i j
  fin_cases i <;> fin_cases j <;> simp [leftM, Matrix.mul_apply, Fin.sum_univ_four] <;> linarith

theorem rightM_orth {p : Quat} (h : IsUnitQ p) : (rightM p)ᵀ * rightM p = 1 := by
  unfold IsUnitQ at h
  ext i j
  fin_cases i <;> fin_cases j <;> simp [rightM, Matrix.mul_apply, Fin.sum_univ_four] <;> linarith

theorem rowQuat_left (p : Quat) (o : Fin 4 → ℝ) : rowQuat (leftM p *ᵥ o) = quaternionRawMultiply p (rowQuat o) := by
  ext <;> simp [rowQuat, leftM, quaternionRawMultiply, Matrix.mulVec, dotProduct, Fin.sum_univ_four] <;> ring

theorem rowQuat_right (p : Quat) (o : Fin 4 → ℝ) : rowQuat (rightM p *ᵥ o) = quaternionRawMultiply (rowQuat o) p := by
  ext <;> simp [rowQuat, rightM, quaternionRawMultiply, Matrix.mulVec, dotProduct, Fin.sum_univ_four] <;> ring

theorem rowQuat_ne {o : Fin 4 → ℝ} (h : o ≠ 0) : rowQuat o ≠ ⟨0, 0, 0, 0⟩ := by
  intro e
  apply h
  simp only [rowQuat, Quat.mk.injEq] at e
  funext i
  fin_cases i
  exacts [e.1, e.2.1, e.2.2.1, e.2.2.2]

theorem randn_ne_zero (k : ℕ) (hk : 0 < k) : ∀ᵐ o ∂(randn k), o ≠ 0 := by
  haveI : Nonempty (Fin k) := ⟨⟨0, hk⟩⟩
  have hn : (1 : NNReal) ≠ 0 := one_ne_zero
  haveI := nullSingletonClass_gaussianReal (μ := 0) hn
  haveI : NullSingletonClass (randn k) := by unfold randn; infer_instance
  rw [ae_iff]
  simp

theorem rotOf_uniform : UniformRot ((randn 4).map rotOf) where
  prob := Measure.isProbabilityMeasure_map measurable_rotOf.aemeasurable
  rot := by
    have hm : MeasurableSet {R : M3 | IsRot R} := by
      have : {R : M3 | IsRot R} = {R : M3 | R * Rᵀ = 1} ∩ {R | R.det = 1} := by
        ext R
        simp only [Set.mem_setOf_eq, Set.mem_inter_iff, IsRot, Matrix.mem_specialOrthogonalGroup_iff, Matrix.mem_orthogonalGroup_iff]
      rw [this]
      refine MeasurableSet.inter ?_ ?_
      · have : {R : M3 | R * Rᵀ = 1} = ⋂ i, ⋂ j, {R : M3 | (R * Rᵀ) i j = (1 : M3) i j} := by
          ext R; simp only [Set.mem_setOf_eq, Set.mem_iInter, ← Matrix.ext_iff]
        rw [this]
        refine MeasurableSet.iInter fun i => MeasurableSet.iInter fun j => ?_
        refine measurableSet_eq_fun ?_ measurable_const
        have : (fun R : M3 => (R * Rᵀ) i j) = fun R : Fin 3 → Fin 3 → ℝ => R i 0 * R j 0 + R i 1 * R j 1 + R i 2 * R j 2 := by
          funext R; simp only [Matrix.mul_apply, Matrix.transpose_apply, Fin.sum_univ_three]
        rw [this]
        exact (by fun_prop : Measurable fun R : Fin 3 → Fin 3 → ℝ => R i 0 * R j 0 + R i 1 * R j 1 + R i 2 * R j 2)
      · refine measurableSet_eq_fun ?_ measurable_const
        have : (Matrix.det : M3 → ℝ) = fun R : Fin 3 → Fin 3 → ℝ => R 0 0 * R 1 1 * R 2 2 - R 0 0 * R 1 2 * R 2 1
            - R 0 1 * R 1 0 * R 2 2 + R 0 1 * R 1 2 * R 2 0 + R 0 2 * R 1 0 * R 2 1 - R 0 2 * R 1 1 * R 2 0 :=
          funext fun R => Matrix.det_fin_three R
        rw [this]
        exact (by fun_prop : Measurable fun R : Fin 3 → Fin 3 → ℝ => R 0 0 * R 1 1 * R 2 2 - R 0 0 * R 1 2 * R 2 1
            - R 0 1 * R 1 0 * R 2 2 + R 0 1 * R 1 2 * R 2 0 + R 0 2 * R 1 0 * R 2 1 - R 0 2 * R 1 1 * R 2 0)
    rw [ae_map_iff measurable_rotOf.aemeasurable hm]
    filter_upwards [randn_ne_zero 4 (by norm_num)] with o ho
    exact C65_random_rotation _ (rowQuat_ne ho)
  left Q hQ := by
    obtain ⟨hu, e⟩ := C37_matrix_to_quaternion_roundtrip Q hQ
    set p := matrixToQuaternion Q
    rw [Measure.map_map (measurable_mul_left3 Q) measurable_rotOf]
    have h1 : (fun R => Q * R) ∘ rotOf =ᵐ[randn 4] rotOf ∘ fun o => leftM p *ᵥ o := by
      filter_upwards [randn_ne_zero 4 (by norm_num)] with o ho
      simp only [Function.comp, rotOf, randomRotation_eq, rowQuat_left]
      rw [quaternionToMatrix_mul (Quat.normSq_pos (IsUnitQ.ne_zero hu)).ne' (Quat.normSq_pos (rowQuat_ne ho)).ne', e]
    rw [Measure.map_congr h1, ← Measure.map_map measurable_rotOf (by fun_prop), randn_orth _ (leftM_orth hu)]
  right Q hQ := by
    obtain ⟨hu, e⟩ := C37_matrix_to_quaternion_roundtrip Q hQ
    set p := matrixToQuaternion Q
    rw [Measure.map_map (measurable_mul_right3 Q) measurable_rotOf]
    have h1 : (fun R => R * Q) ∘ rotOf =ᵐ[randn 4] rotOf ∘ fun o => rightM p *ᵥ o := by
      filter_upwards [randn_ne_zero 4 (by norm_num)] with o ho
      simp only [Function.comp, rotOf, randomRotation_eq, rowQuat_right]
      rw [quaternionToMatrix_mul (Quat.normSq_pos (rowQuat_ne ho)).ne' (Quat.normSq_pos (IsUnitQ.ne_zero hu)).ne', e]
    rw [Measure.map_congr h1, ← Measure.map_map measurable_rotOf (by fun_prop), randn_orth _ (rightM_orth hu)]

/-- C99: `random_rotations(n)` returns `n` independent rotations, each uniformly distributed: following or preceding it by
any fixed rotation does not change its law. -/
theorem C99_random_rotations_uniform (n : ℕ) :
    ∃ U : Measure M3, UniformRot U ∧ randomRotationsLaw n = Measure.pi fun _ => U := by
  refine ⟨_, rotOf_uniform, ?_⟩
  haveI := rotOf_uniform.prob
  unfold randomRotationsLaw randnRows
  exact Measure.pi_map_pi (f := fun _ => rotOf) fun _ => measurable_rotOf.aemeasurable

/-- C99: there is exactly one uniform law of rotations, so the symmetry determines the law of what is returned. -/
theorem C99_uniform_rotation_unique {μ ν : Measure M3} (hμ : UniformRot μ) (hν : UniformRot ν) : μ = ν := by
  haveI := hμ.prob
  haveI := hν.prob
  ext A hA
  have hm : MeasurableSet {p : M3 × M3 | p.1 * p.2 ∈ A} := measurable_mul3 hA
  have h1 : (μ.prod ν) {p : M3 × M3 | p.1 * p.2 ∈ A} = ν A := by
    rw [Measure.prod_apply hm]
    have : ∀ᵐ R ∂μ, ν (Prod.mk R ⁻¹' {p : M3 × M3 | p.1 * p.2 ∈ A}) = ν A := by
      filter_upwards [hμ.rot] with R hR
      conv_rhs => rw [← hν.left R hR, Measure.map_apply (measurable_mul_left3 R) hA]
      rfl
    rw [lintegral_congr_ae this]; simp
  have h2 : (μ.prod ν) {p : M3 × M3 | p.1 * p.2 ∈ A} = μ A := by
    rw [Measure.prod_apply_symm hm]
    have : ∀ᵐ S ∂ν, μ ((fun R => (R, S)) ⁻¹' {p : M3 × M3 | p.1 * p.2 ∈ A}) = μ A := by
      filter_upwards [hν.rot] with S hS
      conv_rhs => rw [← hμ.right S hS, Measure.map_apply (measurable_mul_right3 S) hA]
      rfl
    rw [lintegral_congr_ae this]; simp
  rw [← h1, h2]

end PK
