import Verif.Props.Random

/-!
# C100: perturbations have the documented distributions
-/

namespace PK
open MeasureTheory ProbabilityTheory Matrix Spec

theorem normal_map (σ : ℝ) : (gaussianReal 0 1).map (fun x => x * σ) = normal σ := by
  rw [gaussianReal_map_mul_const]
  unfold normal
  rw [mul_zero, mul_one]

instance (σ : ℝ) : IsProbabilityMeasure (normal σ) := by unfold normal; infer_instance
instance (σ : ℝ) : IsProbabilityMeasure (normal3 σ) := by unfold normal3; infer_instance

theorem normal3_map (σ : ℝ) : (randn 3).map (fun t i => t i * σ) = normal3 σ := by
  unfold randn normal3
  haveI : ∀ _ : Fin 3, SigmaFinite ((gaussianReal 0 1).map (fun x => x * σ)) := fun _ => by rw [normal_map]; infer_instance
  rw [Measure.pi_map_pi (f := fun _ x => x * σ) fun _ => by fun_prop]
  simp only [normal_map]

/-- the rows of two independent tables are independent pairs -/
theorem pi_prod_rows {n : ℕ} {α β : Type} [MeasurableSpace α] [MeasurableSpace β] (μ : Measure α) (ν : Measure β)
    [IsProbabilityMeasure μ] [IsProbabilityMeasure ν] :
    ((Measure.pi fun _ : Fin n => μ).prod (Measure.pi fun _ : Fin n => ν)).map (fun x r => (x.1 r, x.2 r)) =
      Measure.pi fun _ => μ.prod ν :=
  (measurePreserving_arrowProdEquivProdArrow α β (Fin n) (fun _ => μ) (fun _ => ν)).symm.map_eq

/-- the draws of `sample_perturbations`, row by row -/
theorem perturbDrawLaw_rows (n : ℕ) :
    (perturbDrawLaw n).map (fun x r => (x.1 r, x.2.1 r, x.2.2 r)) =
      Measure.pi fun _ : Fin n => (randn 3).prod ((gaussianReal 0 1).prod (randn 3)) := by
  rw [← pi_prod_rows, ← pi_prod_rows]
  have h := Measure.map_prod_map (Measure.pi fun _ : Fin n => randn 3)
    ((Measure.pi fun _ : Fin n => gaussianReal 0 1).prod (Measure.pi fun _ : Fin n => randn 3)) measurable_id
    (g := fun x r => (x.1 r, x.2 r)) (by fun_prop)
  rw [Measure.map_id] at h
  rw [h, Measure.map_map (by fun_prop) (by fun_prop)]
  rfl

theorem rotPart_of (T : M4) : (Matrix.of fun i j => T (Fin.castSucc i) (Fin.castSucc j)) = rotPart T := rfl

theorem noise_perturb {T : M4} (hT : IsRigid T) (d : PerturbDraw) (rs ts : ℝ) (axis : Option V3) (perp : Bool) :
    noise T (samplePerturbation T d rs ts axis perp) =
      (perturbDeltaT d ts axis perp, rotAbout (perturbAxis d axis) (d.angle * rs)) := by
  have h1 : rotPart T * (rotPart T)ᵀ = 1 := by
    have := hT.1
    exact (Matrix.mem_orthogonalGroup_iff ..).1 (Matrix.mem_specialOrthogonalGroup_iff.1 this).1
  have h2 := rotPart_mkHom
  unfold noise samplePerturbation
  simp only [rotPart_of]
  refine Prod.ext ?_ ?_
  · funext i
    fin_cases i <;> simp [hom, posPart]
  · simp only
    rw [hom_eq_mkHom, rotPart_mkHom, Matrix.mul_assoc, h1, Matrix.mul_one, axisAndAngleToMatrix33_eq_rotAbout]

theorem measurable_rotAbout {α : Type*} [MeasurableSpace α] {f : α → V3} {g : α → ℝ} (hf : Measurable f) (hg : Measurable g) :
    Measurable fun a => rotAbout (f a) (g a) := by
  have h : ∀ i, Measurable fun a => f a i := fun i => (measurable_pi_apply i).comp hf
  simp only [← axisAndAngleToMatrix33_eq_rotAbout]
  refine measurable_M3 fun i j => ?_
  fin_cases i <;> fin_cases j <;>
    simp only [axisAndAngleToMatrix33, Matrix.of_apply, Matrix.cons_val, Fin.zero_eta, Fin.mk_one, Fin.reduceFinMk] <;> fun_prop

theorem measurable_axisAngle : Measurable fun p : V3 × ℝ => rotAbout p.1 p.2 :=
  measurable_rotAbout measurable_fst measurable_snd

theorem measurable_mulRight {α : Type*} [MeasurableSpace α] {f : α → M3} (hf : Measurable f) (Q : M3) :
    Measurable fun a => f a * Q :=
  (measurable_mul_right3 Q).comp hf

theorem measurable_M4 {α : Type*} [MeasurableSpace α] {f : α → M4} (h : ∀ i j, Measurable fun a => f a i j) : Measurable f :=
  measurable_pi_lambda _ fun i => measurable_pi_lambda _ fun j => h i j

theorem measurable_entry4 (i j : Fin 4) : Measurable fun R : M4 => R i j :=
  (measurable_pi_apply j).comp (measurable_pi_apply i)

theorem measurable_hom {α : Type*} [MeasurableSpace α] {f : α → M3} {g : α → V3} (hf : Measurable f) (hg : Measurable g) :
    Measurable fun a => hom (f a) (g a) := by
  have h1 : ∀ i j, Measurable fun a => f a i j := fun i j => (measurable_entry3 i j).comp hf
  have h2 : ∀ i, Measurable fun a => g a i := fun i => (measurable_pi_apply i).comp hg
  refine measurable_M4 fun i j => ?_
  fin_cases i <;> fin_cases j <;> simp only [hom, Matrix.of_apply, Matrix.cons_val, Fin.zero_eta, Fin.mk_one, Fin.reduceFinMk] <;>
    first | exact h1 _ _ | exact h2 _ | exact measurable_const

theorem measurable_rotPart : Measurable rotPart := measurable_M3 fun i j => measurable_entry4 i.castSucc j.castSucc

theorem measurable_noise (T : M4) : Measurable (noise T) := by
  refine Measurable.prodMk ?_ ?_
  · exact measurable_pi_lambda _ fun i => (measurable_entry4 i.castSucc 3).sub measurable_const
  · exact (measurable_mul_right3 _).comp measurable_rotPart

/-- the direction of a vector -/
noncomputable def dirOf (a : V3) : V3 := fun i => a i / norm3 a

theorem measurable_dirOf : Measurable dirOf := by
  unfold dirOf norm3 dot
  fun_prop

theorem measurable_perturbAxis {α : Type*} [MeasurableSpace α] {f : α → PerturbDraw} (hf : Measurable fun a => (f a).axis)
    (axis : Option V3) : Measurable fun a => perturbAxis (f a) axis := by
  cases axis with
  | some a => exact measurable_const
  | none => exact measurable_dirOf.comp hf

theorem measurable_perturbDeltaT {α : Type*} [MeasurableSpace α] {f : α → PerturbDraw} (hf : Measurable fun a => (f a).t)
    (ts : ℝ) (axis : Option V3) (perp : Bool) : Measurable fun a => perturbDeltaT (f a) ts axis perp := by
  have h1 : ∀ i, Measurable fun a => (f a).t i := fun i => (measurable_pi_apply i).comp hf
  cases axis with
  | none => exact measurable_pi_lambda _ fun i => (h1 i).mul_const ts
  | some a =>
    cases perp
    · exact measurable_pi_lambda _ fun i => (h1 i).mul_const ts
    · refine measurable_pi_lambda _ fun i => ?_
      simp only [perturbDeltaT, dot, if_true]
      fun_prop

theorem measurable_samplePerturbations {n : ℕ} (T : Fin n → M4) (rs ts : ℝ) (axis : Option V3) (perp : Bool) :
    Measurable fun x => samplePerturbations T (perturbDraws x) rs ts axis perp := by
  refine measurable_pi_lambda _ fun r => ?_
  unfold samplePerturbations samplePerturbation
  refine measurable_hom ?_ ?_
  · refine measurable_mulRight ?_ _
    simp only [axisAndAngleToMatrix33_eq_rotAbout]
    refine measurable_rotAbout (measurable_perturbAxis ?_ axis) ?_
    · simp only [perturbDraws]; fun_prop
    · simp only [perturbDraws]; fun_prop
  · have := measurable_perturbDeltaT (f := fun x => perturbDraws x r) (by simp only [perturbDraws]; fun_prop) ts axis perp
    refine measurable_pi_lambda _ fun i => ?_
    exact ((measurable_pi_apply i).comp this).const_add _

/-- the law of the noise of one row -/
noncomputable def rowLaw (rs ts : ℝ) (axis : Option V3) (perp : Bool) : Measure (V3 × M3) :=
  ((randn 3).prod ((gaussianReal 0 1).prod (randn 3))).map fun p =>
    (perturbDeltaT ⟨p.1, p.2.1, p.2.2⟩ ts axis perp, rotAbout (perturbAxis ⟨p.1, p.2.1, p.2.2⟩ axis) (p.2.1 * rs))

theorem measurable_row (rs ts : ℝ) (axis : Option V3) (perp : Bool) : Measurable fun p : V3 × ℝ × V3 =>
    (perturbDeltaT ⟨p.1, p.2.1, p.2.2⟩ ts axis perp, rotAbout (perturbAxis ⟨p.1, p.2.1, p.2.2⟩ axis) (p.2.1 * rs)) := by
  refine Measurable.prodMk ?_ ?_
  · exact measurable_perturbDeltaT (f := fun p : V3 × ℝ × V3 => ⟨p.1, p.2.1, p.2.2⟩) (by fun_prop) ts axis perp
  · exact measurable_rotAbout
      (measurable_perturbAxis (f := fun p : V3 × ℝ × V3 => ⟨p.1, p.2.1, p.2.2⟩) (by fun_prop) axis) (by fun_prop)

/-- rows are independent and have the same noise -/
theorem noise_law {n : ℕ} (T : Fin n → M4) (hT : ∀ r, IsRigid (T r)) (rs ts : ℝ) (axis : Option V3) (perp : Bool) :
    (samplePerturbationsLaw T rs ts axis perp).map (fun P r => noise (T r) (P r)) =
      Measure.pi fun _ => rowLaw rs ts axis perp := by
  unfold samplePerturbationsLaw
  have hm : Measurable fun (P : Fin n → M4) r => noise (T r) (P r) :=
    measurable_pi_lambda _ fun r => (measurable_noise (T r)).comp (measurable_pi_apply r)
  rw [Measure.map_map hm (measurable_samplePerturbations T rs ts axis perp)]
  have e : ((fun (P : Fin n → M4) r => noise (T r) (P r)) ∘ fun x => samplePerturbations T (perturbDraws x) rs ts axis perp) =
      (fun (p : Fin n → V3 × ℝ × V3) r => (perturbDeltaT ⟨(p r).1, (p r).2.1, (p r).2.2⟩ ts axis perp,
        rotAbout (perturbAxis ⟨(p r).1, (p r).2.1, (p r).2.2⟩ axis) ((p r).2.1 * rs))) ∘
      fun x r => (x.1 r, x.2.1 r, x.2.2 r) := by
    funext x r
    exact noise_perturb (hT r) _ _ _ _ _
  rw [e, ← Measure.map_map _ (by fun_prop), perturbDrawLaw_rows]
  · haveI : IsProbabilityMeasure (rowLaw rs ts axis perp) := by
      unfold rowLaw; exact Measure.isProbabilityMeasure_map (measurable_row rs ts axis perp).aemeasurable
    unfold rowLaw at *
    exact Measure.pi_map_pi (f := fun _ (p : V3 × ℝ × V3) => (perturbDeltaT ⟨p.1, p.2.1, p.2.2⟩ ts axis perp,
      rotAbout (perturbAxis ⟨p.1, p.2.1, p.2.2⟩ axis) (p.2.1 * rs))) fun _ => (measurable_row rs ts axis perp).aemeasurable
  · exact measurable_pi_lambda _ fun r => (measurable_row rs ts axis perp).comp (measurable_pi_apply r)

theorem norm3_rot {Q : M3} (hQ : IsRot Q) (v : V3) : norm3 (Q *ᵥ v) = norm3 v := by
  have h : Qᵀ * Q = 1 := (Matrix.mem_orthogonalGroup_iff' ..).1 (Matrix.mem_specialOrthogonalGroup_iff.1 hQ).1
  have : (Q *ᵥ v) ⬝ᵥ (Q *ᵥ v) = v ⬝ᵥ v := by
    rw [Matrix.dotProduct_mulVec, Matrix.vecMul_mulVec, h, Matrix.vecMul_one]
  unfold norm3
  congr 1
  simpa [dot, dotProduct, Fin.sum_univ_three] using this

theorem dirOf_rot {Q : M3} (hQ : IsRot Q) (v : V3) : dirOf (Q *ᵥ v) = Q *ᵥ dirOf v := by
  funext i
  simp only [dirOf, norm3_rot hQ, Matrix.mulVec, dotProduct, Fin.sum_univ_three]
  ring

theorem dirOf_uniform : UniformDir ((randn 3).map dirOf) where
  prob := Measure.isProbabilityMeasure_map measurable_dirOf.aemeasurable
  unit := by
    have hm : MeasurableSet {v : V3 | IsUnitV v} := by
      unfold IsUnitV
      exact measurableSet_eq_fun (by fun_prop) measurable_const
    rw [ae_map_iff measurable_dirOf.aemeasurable hm]
    filter_upwards [randn_ne_zero 3 (by norm_num)] with a ha
    exact isUnitV_dot.2 (dot_unit_of_norm fun h => ha (norm3_eq_zero.1 h))
  inv Q hQ := by
    have h : Qᵀ * Q = 1 := (Matrix.mem_orthogonalGroup_iff' ..).1 (Matrix.mem_specialOrthogonalGroup_iff.1 hQ).1
    rw [Measure.map_map (measurable_mulVec_left3 Q) measurable_dirOf]
    have : (fun v => Q *ᵥ v) ∘ dirOf = dirOf ∘ fun v => Q *ᵥ v := funext fun v => (dirOf_rot hQ v).symm
    rw [this, ← Measure.map_map measurable_dirOf (measurable_mulVec_left3 Q), randn_orth Q h]

/-- C100: without an axis. The perturbations of rigid transforms are independent of each other; in each, the displacement
and the rotation are independent; the displacement has independent normal coordinates with standard deviation
`translation_sigma`; the rotation is about a uniformly distributed direction, by an independent normal angle with standard
deviation `radian_sigma`. -/
theorem C100_random_axis {n : ℕ} (T : Fin n → M4) (hT : ∀ r, IsRigid (T r)) (rs ts : ℝ) (perp : Bool) :
    ∃ D : Measure V3, UniformDir D ∧
      (samplePerturbationsLaw T rs ts none perp).map (fun P r => noise (T r) (P r)) =
        Measure.pi fun _ => (normal3 ts).prod ((D.prod (normal rs)).map fun p => rotAbout p.1 p.2) := by
  refine ⟨_, dirOf_uniform, ?_⟩
  rw [noise_law T hT]
  congr 1
  funext _
  haveI := dirOf_uniform.prob
  have h1 : ((randn 3).map dirOf).prod (normal rs) =
      ((gaussianReal 0 1).prod (randn 3)).map fun p => (dirOf p.2, p.1 * rs) := by
    rw [← normal_map rs, Measure.map_prod_map _ _ measurable_dirOf (by fun_prop), ← Measure.prod_swap,
      Measure.map_map (by exact (measurable_dirOf.comp measurable_fst).prodMk (by fun_prop)) measurable_swap]
    rfl
  rw [h1, Measure.map_map measurable_axisAngle (by exact (measurable_dirOf.comp measurable_snd).prodMk (by fun_prop)),
    ← normal3_map, Measure.map_prod_map _ _ (by fun_prop)
      (measurable_axisAngle.comp (by exact (measurable_dirOf.comp measurable_snd).prodMk (by fun_prop)))]
  rfl

/-- with a given axis the rotation only depends on the draw of the angle -/
theorem rowLaw_given (rs ts : ℝ) (a : V3) (perp : Bool) :
    rowLaw rs ts (some a) perp =
      ((randn 3).map fun t => perturbDeltaT ⟨t, 0, 0⟩ ts (some a) perp).prod ((normal rs).map fun θ => rotAbout a θ) := by
  have h1 : (normal rs).map (fun θ => rotAbout a θ) =
      ((gaussianReal 0 1).prod (randn 3)).map fun p => rotAbout a (p.1 * rs) := by
    have h2 : ((gaussianReal 0 1).prod (randn 3)).map Prod.fst = gaussianReal 0 1 := by
      rw [Measure.map_fst_prod]; simp
    have h3 : Measurable fun θ => rotAbout a θ := measurable_rotAbout (f := fun _ : ℝ => a) measurable_const measurable_id
    have h4 : (fun p : ℝ × (Fin 3 → ℝ) => rotAbout a (p.1 * rs)) = (fun θ => rotAbout a θ) ∘ (fun x => x * rs) ∘ Prod.fst := rfl
    rw [h4, ← Measure.map_map h3 (by fun_prop), ← Measure.map_map (by fun_prop) (by fun_prop), h2, normal_map]
  have hm : Measurable fun t : Fin 3 → ℝ => perturbDeltaT ⟨t, 0, 0⟩ ts (some a) perp :=
    measurable_perturbDeltaT (f := fun t : Fin 3 → ℝ => ⟨t, 0, 0⟩) measurable_id ts (some a) perp
  have hr : Measurable fun p : ℝ × (Fin 3 → ℝ) => rotAbout a (p.1 * rs) :=
    measurable_rotAbout measurable_const (by fun_prop)
  rw [h1, Measure.map_prod_map _ _ hm hr]
  rfl

/-- C100: with an axis, displacements not asked to be perpendicular: the rotation is about the given axis by a normal
angle, independent of the displacement, whose coordinates are independent and normal. -/
theorem C100_given_axis {n : ℕ} (T : Fin n → M4) (hT : ∀ r, IsRigid (T r)) (rs ts : ℝ) (a : V3) :
    (samplePerturbationsLaw T rs ts (some a) false).map (fun P r => noise (T r) (P r)) =
      Measure.pi fun _ => (normal3 ts).prod ((normal rs).map fun θ => rotAbout a θ) := by
  rw [noise_law T hT, rowLaw_given, ← normal3_map]
  rfl

/-- two coordinates of a standard normal vector -/
theorem randn_pair (σ : ℝ) : (randn 3).map (fun t => (t 0 * σ, t 1 * σ)) = (normal σ).prod (normal σ) := by
  have hi : iIndepFun (fun i (t : Fin 3 → ℝ) => t i * σ) (randn 3) :=
    iIndepFun_pi (X := fun _ x => x * σ) fun _ => by fun_prop
  have hc : ∀ i, Measurable fun t : Fin 3 → ℝ => t i * σ := fun i => by fun_prop
  have h := (indepFun_iff_map_prod_eq_prod_map_map (hc 0).aemeasurable (hc 1).aemeasurable).1 (hi.indepFun (i := 0) (j := 1) (by decide))
  have he : ∀ i, (randn 3).map (fun t => t i * σ) = normal σ := fun i => by
    have : (fun t : Fin 3 → ℝ => t i * σ) = (fun x => x * σ) ∘ Function.eval i := rfl
    rw [this, ← Measure.map_map (by fun_prop) (by fun_prop)]
    unfold randn
    rw [(measurePreserving_eval (fun _ : Fin 3 => gaussianReal 0 1) i).map_eq, normal_map]
  rw [h, he, he]

theorem planarNormal (σ : ℝ) (a : V3) (ha : IsUnitV a) :
    PlanarNormal a σ ((randn 3).map fun t => perturbDeltaT ⟨t, 0, 0⟩ σ (some a) true) := by
  have hm : Measurable fun t : Fin 3 → ℝ => perturbDeltaT ⟨t, 0, 0⟩ σ (some a) true :=
    measurable_perturbDeltaT (f := fun t : Fin 3 → ℝ => ⟨t, 0, 0⟩) measurable_id σ (some a) true
  unfold IsUnitV at ha
  refine ⟨Measure.isProbabilityMeasure_map hm.aemeasurable, ?_, fun u w hu hw huw hua hwa => ?_⟩
  · have hs : MeasurableSet {v : V3 | v ⬝ᵥ a = 0} := by
      simp only [dotProduct]
      exact measurableSet_eq_fun (by fun_prop) measurable_const
    rw [ae_map_iff hm.aemeasurable hs]
    refine Filter.Eventually.of_forall fun t => ?_
    simp only [perturbDeltaT, dot, dotProduct, Fin.sum_univ_three, if_true]
    linear_combination (-(t 0 * σ * a 0 + t 1 * σ * a 1 + t 2 * σ * a 2)) * ha
  · unfold IsUnitV at hu hw
    simp only [dotProduct, Fin.sum_univ_three] at huw hua hwa
    let A : M3 := !![u 0, u 1, u 2; w 0, w 1, w 2; a 0, a 1, a 2]
    have hA : Aᵀ * A = 1 := by
      rw [mul_eq_one_comm]
      ext i j
      fin_cases i <;> fin_cases j <;> simp [A, Matrix.mul_apply, Fin.sum_univ_three] <;> linarith
    have hp : Measurable fun v : V3 => (u ⬝ᵥ v, w ⬝ᵥ v) := by simp only [dotProduct]; fun_prop
    rw [Measure.map_map hp hm]
    have e : (fun v : V3 => (u ⬝ᵥ v, w ⬝ᵥ v)) ∘ (fun t : Fin 3 → ℝ => perturbDeltaT ⟨t, 0, 0⟩ σ (some a) true) =
        (fun t : Fin 3 → ℝ => (t 0 * σ, t 1 * σ)) ∘ fun t => A *ᵥ t := by
      funext t
      refine Prod.ext ?_ ?_
      · simp [perturbDeltaT, dot, dotProduct, Fin.sum_univ_three, A, Matrix.mulVec]
        linear_combination (-(t 0 * σ * a 0 + t 1 * σ * a 1 + t 2 * σ * a 2)) * hua
      · simp [perturbDeltaT, dot, dotProduct, Fin.sum_univ_three, A, Matrix.mulVec]
        linear_combination (-(t 0 * σ * a 0 + t 1 * σ * a 1 + t 2 * σ * a 2)) * hwa
    rw [e, ← Measure.map_map (by fun_prop) (measurable_mulVec_left3 A), randn_orth A hA, randn_pair]

/-- C100: with a unit axis and displacements asked to be perpendicular to it: the displacement is normal in the
perpendicular plane, independent of the rotation about the axis by a normal angle. -/
theorem C100_given_axis_perpendicular {n : ℕ} (T : Fin n → M4) (hT : ∀ r, IsRigid (T r)) (rs ts : ℝ) (a : V3) (ha : IsUnitV a) :
    ∃ D : Measure V3, PlanarNormal a ts D ∧
      (samplePerturbationsLaw T rs ts (some a) true).map (fun P r => noise (T r) (P r)) =
        Measure.pi fun _ => D.prod ((normal rs).map fun θ => rotAbout a θ) := by
  refine ⟨_, planarNormal ts a ha, ?_⟩
  rw [noise_law T hT, rowLaw_given]

/-- transforms and an axis to which the theorems apply: two different rigid transforms, and an oblique axis -/
example : (∀ r : Fin 2, IsRigid (hom !![0, -1, 0; 1, 0, 0; 0, 0, 1] ![(r : ℝ), 2, 3])) ∧ IsUnitV ![3/5, 0, 4/5] := by
  refine ⟨fun r => ?_, by simp [IsUnitV]; norm_num⟩
  rw [hom_eq_mkHom]
  apply isRigid_mkHom
  apply isRot_of_eqs <;> simp [Matrix.det_fin_three]

/-- some rotation takes the first coordinate axis to any given unit vector -/
theorem exists_rot_to {v : V3} (hv : IsUnitV v) : ∃ S : M3, IsRot S ∧ S *ᵥ ![1, 0, 0] = v := by
  unfold IsUnitV at hv
  by_cases h : v 0 = -1
  · have h1 : v 1 = 0 := by nlinarith [sq_nonneg (v 1), sq_nonneg (v 2)]
    have h2 : v 2 = 0 := by nlinarith [sq_nonneg (v 1), sq_nonneg (v 2)]
    refine ⟨!![-1, 0, 0; 0, -1, 0; 0, 0, 1], by apply isRot_of_eqs <;> simp [Matrix.det_fin_three], ?_⟩
    apply v3_ext <;> simp [Matrix.mulVec, dotProduct, Fin.sum_univ_three, h, h1, h2]
  · have hne : 1 + v 0 ≠ 0 := fun h' => h (by linarith)
    have hn : (⟨0, 1 + v 0, v 1, v 2⟩ : Quat).normSq = 2 * (1 + v 0) := by
      simp only [Quat.normSq]; linear_combination hv
    refine ⟨quaternionToMatrix ⟨0, 1 + v 0, v 1, v 2⟩, quaternionToMatrix_isRot ?_, ?_⟩
    · rw [hn]; exact mul_ne_zero two_ne_zero hne
    · apply v3_ext <;> simp [Matrix.mulVec, dotProduct, Fin.sum_univ_three, quaternionToMatrix, hn] <;> field_simp
      linear_combination -hv

/-- C100: there is exactly one uniform law of directions, so the symmetry determines the law of the axis. -/
theorem C100_uniform_direction_unique {μ ν : Measure V3} (hμ : UniformDir μ) (hν : UniformDir ν) : μ = ν := by
  have hU := rotOf_uniform
  generalize (randn 4).map rotOf = U at hU
  haveI := hU.prob
  have key : ∀ {κ : Measure V3}, UniformDir κ → ∀ A, MeasurableSet A → κ A = U {R | R *ᵥ ![1, 0, 0] ∈ A} := by
    intro κ hκ A hA
    haveI := hκ.prob
    have hm : MeasurableSet {p : M3 × V3 | p.1 *ᵥ p.2 ∈ A} := measurable_mulVec3 hA
    have h1 : (U.prod κ) {p : M3 × V3 | p.1 *ᵥ p.2 ∈ A} = κ A := by
      rw [Measure.prod_apply hm]
      have : ∀ᵐ R ∂U, κ (Prod.mk R ⁻¹' {p : M3 × V3 | p.1 *ᵥ p.2 ∈ A}) = κ A := by
        filter_upwards [hU.rot] with R hR
        conv_rhs => rw [← hκ.inv R hR, Measure.map_apply (measurable_mulVec_left3 R) hA]
        rfl
      rw [lintegral_congr_ae this]; simp
    have h2 : (U.prod κ) {p : M3 × V3 | p.1 *ᵥ p.2 ∈ A} = U {R | R *ᵥ ![1, 0, 0] ∈ A} := by
      rw [Measure.prod_apply_symm hm]
      have hmA : MeasurableSet {R : M3 | R *ᵥ ![1, 0, 0] ∈ A} := by
        have : Measurable fun R : M3 => R *ᵥ (![1, 0, 0] : V3) := measurable_mulVec3.comp (measurable_id.prodMk measurable_const)
        exact this hA
      have : ∀ᵐ v ∂κ, U ((fun R => (R, v)) ⁻¹' {p : M3 × V3 | p.1 *ᵥ p.2 ∈ A}) = U {R | R *ᵥ ![1, 0, 0] ∈ A} := by
        filter_upwards [hκ.unit] with v hv
        obtain ⟨S, hS, rfl⟩ := exists_rot_to hv
        conv_rhs => rw [← hU.right S hS, Measure.map_apply (measurable_mul_right3 S) hmA]
        congr 1
        ext R
        simp [Matrix.mulVec_mulVec]
      rw [lintegral_congr_ae this]; simp
    rw [← h1, h2]
  ext A hA
  rw [key hμ A hA, key hν A hA]

end PK
