import Verif.Lemmas.LocalConv
import Verif.Lemmas.Smooth
import Verif.Props.Descent
import Mathlib.Analysis.InnerProductSpace.PiL2

/-!
# The damped least squares step near a solution
-/

namespace PK
open Spec Matrix Filter Topology

variable {d : ℕ}

/-- a smooth pose error: the difference of positions and the axis of the relative rotation times the sine of its angle -/
noncomputable def softErr (t m : M4) : Fin 6 → ℝ :=
  let M := rotPart t * (rotPart m)ᵀ
  ![posPart t 0 - posPart m 0, posPart t 1 - posPart m 1, posPart t 2 - posPart m 2,
    (M 2 1 - M 1 2) / 2, (M 0 2 - M 2 0) / 2, (M 1 0 - M 0 1) / 2]

/-- ratio of the rotation part of `delta_pose` and of the smooth error, for small angles -/
noncomputable def softRatio (θ : ℝ) : ℝ := 1 / ((0.5 - θ * θ / 48) * (2 * Real.cos (θ / 2)))

theorem softRatio_continuousAt : ContinuousAt softRatio 0 := by
  unfold softRatio
  refine ContinuousAt.div continuousAt_const ?_ (by norm_num)
  fun_prop

theorem softRatio_zero : softRatio 0 = 1 := by norm_num [softRatio]

theorem deltaPose_soft {m t : M4} (hm : IsRigid m) (ht : IsRigid t) (hθ : rotAngle (rotPart t * (rotPart m)ᵀ) < 1e-6) :
    let dx := deltaPose m (posPart t) (matrixToQuaternion (rotPart t))
    let g := softRatio (rotAngle (rotPart t * (rotPart m)ᵀ))
    dx = fun a => (![1, 1, 1, g, g, g] : Fin 6 → ℝ) a * softErr t m a := by
  intro dx g
  obtain ⟨h1, h2, h3⟩ := diffQuat_spec hm.1 ht.1
  change quaternionToMatrix (quaternionMultiply (matrixToQuaternion (rotPart t)) (quaternionInvert (matrixToQuaternion (rotPart m)))) =
    rotPart t * (rotPart m)ᵀ at h3
  change (quaternionMultiply (matrixToQuaternion (rotPart t)) (quaternionInvert (matrixToQuaternion (rotPart m)))).normSq = 1 at h1
  change 0 ≤ (quaternionMultiply (matrixToQuaternion (rotPart t)) (quaternionInvert (matrixToQuaternion (rotPart m)))).w at h2
  obtain ⟨e, hpi⟩ := rotAngle_quaternionToMatrix h1 h2
  obtain ⟨c1, -, c3, -⟩ := halfAngle_spec h1
  have hdx : dx = cat33 (fun i => posPart t i - posPart m i) (quaternionToAxisAngle
    (quaternionMultiply (matrixToQuaternion (rotPart t)) (quaternionInvert (matrixToQuaternion (rotPart m))))) := rfl
  rw [hdx]
  unfold softErr
  rw [← h3] at hθ ⊢
  have hg : g = softRatio (2 * halfAngle (quaternionMultiply (matrixToQuaternion (rotPart t))
    (quaternionInvert (matrixToQuaternion (rotPart m))))) := by rw [← e, h3]
  rw [e] at hθ
  generalize quaternionMultiply (matrixToQuaternion (rotPart t)) (quaternionInvert (matrixToQuaternion (rotPart m))) = q at *
  rw [quaternionToAxisAngle_small c3 hθ]
  have hcos : 0 < q.w := by
    rw [← c1]
    exact Real.cos_pos_of_mem_Ioo ⟨by linarith [Real.pi_pos], by linarith [Real.two_le_pi, show (1e-6 : ℝ) < 2 by norm_num]⟩
  have hsm : (0 : ℝ) < 0.5 - 2 * halfAngle q * (2 * halfAngle q) / 48 := by
    have : 2 * halfAngle q < 1 := lt_trans hθ (by norm_num)
    nlinarith
  have hg' : g = 1 / ((0.5 - 2 * halfAngle q * (2 * halfAngle q) / 48) * (2 * q.w)) := by
    rw [hg, softRatio, ← c1]; congr 4; ring
  funext a
  have hns : 2 / q.normSq = 2 := by rw [h1]; norm_num
  fin_cases a
  · simp [cat33]
  · simp [cat33]
  · simp [cat33]
  all_goals
    simp only [cat33, quaternionToMatrix, hns, hg']
    simp
    field_simp
    ring

theorem rotAngle_one : rotAngle (1 : M3) = 0 := by
  rw [rotAngle, Matrix.trace_one]; norm_num

/-- close to a solution the pose error is the smooth error up to a small relative error -/
theorem soft_close {E : (Fin d → ℝ) → M4} (hE : ∀ i l, Continuous (fun q => E q i l)) (hrig : ∀ q, IsRigid (E q)) (q0 : Fin d → ℝ)
    (w : Fin 6 → ℝ) {ε : ℝ} (hε : 0 < ε) :
    ∀ᶠ q in 𝓝 q0, ∀ a, |w a * deltaPose (E q) (posPart (E q0)) (matrixToQuaternion (rotPart (E q0))) a - w a * softErr (E q0) (E q) a| ≤
      ε * |w a * softErr (E q0) (E q) a| := by
  have h1 : rotPart (E q0) * (rotPart (E q0))ᵀ = 1 := (Matrix.mem_orthogonalGroup_iff _ _).1 (hrig q0).1.1
  have hc : Continuous (fun q => rotAngle (rotPart (E q0) * (rotPart (E q))ᵀ)) := by
    unfold rotAngle
    refine Real.continuous_arccos.comp ((Continuous.sub ?_ continuous_const).div_const 2)
    simp only [Matrix.trace, Matrix.diag_apply, Matrix.mul_apply, Matrix.transpose_apply, rotPart]
    exact continuous_finset_sum _ fun i _ => continuous_finset_sum _ fun j _ => continuous_const.mul (hE _ _)
  have h0 : (fun q => rotAngle (rotPart (E q0) * (rotPart (E q))ᵀ)) q0 = 0 := by simp only [h1]; exact rotAngle_one
  have hs : ContinuousAt (fun q => softRatio (rotAngle (rotPart (E q0) * (rotPart (E q))ᵀ))) q0 :=
    ContinuousAt.comp (f := fun q => rotAngle (rotPart (E q0) * (rotPart (E q))ᵀ)) (g := softRatio)
      (by rw [h1, rotAngle_one]; exact softRatio_continuousAt) hc.continuousAt
  have hs1 : ∀ᶠ q in 𝓝 q0, |softRatio (rotAngle (rotPart (E q0) * (rotPart (E q))ᵀ)) - 1| < ε := by
    have := Metric.continuousAt_iff'.1 hs ε hε
    simp only [h1, rotAngle_one, softRatio_zero, Real.dist_eq] at this
    exact this
  have hs2 : ∀ᶠ q in 𝓝 q0, rotAngle (rotPart (E q0) * (rotPart (E q))ᵀ) < 1e-6 :=
    hc.continuousAt.eventually_lt_const (by rw [h0]; norm_num)
  filter_upwards [hs1, hs2] with q b1 b2 a
  rw [deltaPose_soft (hrig q) (hrig q0) b2]
  dsimp only
  set g := softRatio (rotAngle (rotPart (E q0) * (rotPart (E q))ᵀ))
  have hfac : |(![1, 1, 1, g, g, g] : Fin 6 → ℝ) a - 1| ≤ ε := by
    fin_cases a
    · simpa using hε.le
    · simpa using hε.le
    · simpa using hε.le
    all_goals exact b1.le
  have : w a * ((![1, 1, 1, g, g, g] : Fin 6 → ℝ) a * softErr (E q0) (E q) a) - w a * softErr (E q0) (E q) a =
      ((![1, 1, 1, g, g, g] : Fin 6 → ℝ) a - 1) * (w a * softErr (E q0) (E q) a) := by ring
  rw [this, abs_mul]
  exact mul_le_mul_of_nonneg_right hfac (abs_nonneg _)

theorem softErr_contDiff {E : (Fin d → ℝ) → M4} (hE : ∀ i l, ContDiff ℝ 1 (fun q => E q i l)) (t : M4) :
    ContDiff ℝ 1 (fun q => softErr t (E q)) := by
  have hM : ∀ i j : Fin 3, ContDiff ℝ 1 (fun q => (rotPart t * (rotPart (E q))ᵀ) i j) := by
    intro i j
    simp only [Matrix.mul_apply, Matrix.transpose_apply, rotPart]
    exact ContDiff.sum fun s _ => contDiff_const.mul (hE _ _)
  have hp : ∀ i : Fin 3, ContDiff ℝ 1 (fun q => posPart t i - posPart (E q) i) := fun i => contDiff_const.sub (hE _ _)
  rw [contDiff_pi]
  intro a
  fin_cases a
  · exact hp 0
  · exact hp 1
  · exact hp 2
  · exact ((hM 2 1).sub (hM 1 2)).div_const 2
  · exact ((hM 0 2).sub (hM 2 0)).div_const 2
  · exact ((hM 1 0).sub (hM 0 1)).div_const 2

/-- the derivative of the smooth error at a solution is minus the Jacobian -/
theorem softErr_deriv {E : (Fin d → ℝ) → M4} (hE : ∀ i l, ContDiff ℝ 1 (fun q => E q i l)) {q0 : Fin d → ℝ}
    (hrig : IsRigid (E q0)) {J : Matrix (Fin 6) (Fin d) ℝ}
    (hJ : ∀ v, HasTwistAt (fun t : ℝ => E (q0 + t • v)) ![(J *ᵥ v) 0, (J *ᵥ v) 1, (J *ᵥ v) 2] ![(J *ᵥ v) 3, (J *ᵥ v) 4, (J *ᵥ v) 5] 0) :
    HasStrictFDerivAt (fun q => softErr (E q0) (E q)) (-(LinearMap.toContinuousLinearMap J.mulVecLin)) q0 := by
  have hs := (softErr_contDiff hE (E q0)).contDiffAt.hasStrictFDerivAt (x := q0) (by norm_num)
  have h1 : rotPart (E q0) * (rotPart (E q0))ᵀ = 1 := (Matrix.mem_orthogonalGroup_iff _ _).1 hrig.1.1
  have hfd : -(LinearMap.toContinuousLinearMap J.mulVecLin) = fderiv ℝ (fun q => softErr (E q0) (E q)) q0 := by
   apply ContinuousLinearMap.ext
   intro v
   funext a
   have hline : HasDerivAt (fun t : ℝ => q0 + t • v) v 0 := by
     simpa using ((hasDerivAt_id (0 : ℝ)).smul_const v).const_add q0
   have hs' : HasFDerivAt (fun q => softErr (E q0) (E q)) (fderiv ℝ (fun q => softErr (E q0) (E q)) q0) (q0 + (0 : ℝ) • v) := by
     simpa using hs.hasFDerivAt
   have h2 := hasDerivAt_pi.1 (hs'.comp_hasDerivAt 0 hline) a
   refine HasDerivAt.unique ?_ h2
   have hp : ∀ i : Fin 3, HasDerivAt (fun t : ℝ => posPart (E q0) i - posPart (E (q0 + t • v)) i)
       (-(![(J *ᵥ v) 0, (J *ᵥ v) 1, (J *ᵥ v) 2] : V3) i) 0 := fun i => ((hJ v).1 i).const_sub _
   have hM : ∀ i j : Fin 3, HasDerivAt (fun t : ℝ => (rotPart (E q0) * (rotPart (E (q0 + t • v)))ᵀ) i j)
       (hat ![(J *ᵥ v) 3, (J *ᵥ v) 4, (J *ᵥ v) 5] j i) 0 := by
     intro i j
     have e : hat ![(J *ᵥ v) 3, (J *ᵥ v) 4, (J *ᵥ v) 5] j i = (rotPart (E q0) * (hat ![(J *ᵥ v) 3, (J *ᵥ v) 4, (J *ᵥ v) 5] * rotPart (E q0))ᵀ) i j := by
       rw [Matrix.transpose_mul, ← Matrix.mul_assoc, h1, Matrix.one_mul]; rfl
     rw [e]
     simp only [Matrix.mul_apply (M := rotPart (E q0)), Matrix.transpose_apply]
     refine HasDerivAt.fun_sum fun s _ => HasDerivAt.const_mul _ ?_
     have := (hJ v).2 j s
     simp only [zero_smul, add_zero] at this
     exact this
   fin_cases a
   · exact hp 0
   · exact hp 1
   · exact hp 2
   · have := ((hM 2 1).sub (hM 1 2)).div_const 2
     refine this.congr_deriv ?_
     rw [hat_eq]; simp; ring
   · have := ((hM 0 2).sub (hM 2 0)).div_const 2
     refine this.congr_deriv ?_
     rw [hat_eq]; simp; ring
   · have := ((hM 1 0).sub (hM 0 1)).div_const 2
     refine this.congr_deriv ?_
     rw [hat_eq]; simp; ring
  rw [hfd]; exact hs

theorem norm6_eq (y : Fin 6 → ℝ) : norm6 y = ‖(PiLp.continuousLinearEquiv 2 ℝ (fun _ : Fin 6 => ℝ)).symm y‖ := by
  rw [EuclideanSpace.norm_eq, norm6]
  congr 1
  refine Finset.sum_congr rfl fun i _ => ?_
  rw [Real.norm_eq_abs, sq_abs, sq]; rfl

theorem norm6_sq (y : Fin 6 → ℝ) : norm6 y ^ 2 = y ⬝ᵥ y := Real.sq_sqrt (dotSelf_nonneg y)

theorem norm6_nonneg (y : Fin 6 → ℝ) : 0 ≤ norm6 y := Real.sqrt_nonneg _

theorem abs_le_norm6 (y : Fin 6 → ℝ) (a : Fin 6) : |y a| ≤ norm6 y :=
  Real.abs_le_sqrt (by
    rw [sq]
    exact Finset.single_le_sum (f := fun i => y i * y i) (fun i _ => mul_self_nonneg _) (Finset.mem_univ a))

theorem norm6_mono {x y : Fin 6 → ℝ} {c : ℝ} (hc : 0 ≤ c) (h : ∀ a, |x a| ≤ c * |y a|) : norm6 x ≤ c * norm6 y := by
  refine Real.sqrt_le_iff.2 ⟨mul_nonneg hc (norm6_nonneg _), ?_⟩
  rw [mul_pow, norm6_sq, dotProduct, Finset.mul_sum]
  refine Finset.sum_le_sum fun a _ => ?_
  have := pow_le_pow_left₀ (abs_nonneg _) (h a) 2
  rw [mul_pow, sq_abs, sq_abs] at this
  linarith [sq (x a), sq (y a)]

theorem norm6_sub_ge {x y : Fin 6 → ℝ} {ε : ℝ} (hε : 0 ≤ ε) (h : ∀ a, |x a - y a| ≤ ε * |y a|) :
    norm6 x ≤ (1 + ε) * norm6 y ∧ (1 - ε) * norm6 y ≤ norm6 x := by
  have h1 := norm6_mono (x := fun a => x a - y a) hε h
  have e : (fun a => x a - y a) = x - y := rfl
  rw [e, norm6_eq, norm6_eq, map_sub] at h1
  rw [norm6_eq, norm6_eq]
  set X := (PiLp.continuousLinearEquiv 2 ℝ (fun _ : Fin 6 => ℝ)).symm x
  set Y := (PiLp.continuousLinearEquiv 2 ℝ (fun _ : Fin 6 => ℝ)).symm y
  have h2 := norm_sub_norm_le X Y
  have h3 := norm_sub_norm_le Y X
  rw [norm_sub_rev] at h3
  constructor <;> nlinarith

/-- entries bounded by `δ` give a linear map bounded by `6 δ` -/
theorem mulVec_small {M : Matrix (Fin d) (Fin 6) ℝ} {δ : ℝ} (hM : ∀ j a, |M j a| ≤ δ) (y : Fin 6 → ℝ) {b : ℝ}
    (hy : ∀ a, |y a| ≤ b) (hδ : 0 ≤ δ) (hb : 0 ≤ b) : ‖M *ᵥ y‖ ≤ 6 * (δ * b) := by
  refine (pi_norm_le_iff_of_nonneg (by positivity)).2 fun j => ?_
  rw [Real.norm_eq_abs, Matrix.mulVec, dotProduct]
  calc |∑ a, M j a * y a| ≤ ∑ a, |M j a * y a| := Finset.abs_sum_le_sum_abs _ _
    _ ≤ ∑ _a : Fin 6, δ * b := Finset.sum_le_sum fun a _ => by
        rw [abs_mul]; exact mul_le_mul (hM j a) (hy a) (abs_nonneg _) hδ
    _ = _ := by simp

/-- the matrix that maps the weighted error to the step -/
noncomputable def stepMatrix (A : Matrix (Fin 6) (Fin d) ℝ) (lam : ℝ) : Matrix (Fin d) (Fin 6) ℝ :=
  Aᵀ * (A * Aᵀ + lam • (1 : Matrix (Fin 6) (Fin 6) ℝ))⁻¹

theorem stepMatrix_continuousAt {Q : Type*} [TopologicalSpace Q] {q0 : Q} {A : Q → Matrix (Fin 6) (Fin d) ℝ} {lam : Q → ℝ}
    (hA : ContinuousAt A q0) (hlam : ContinuousAt lam q0) (hpos : 0 < lam q0) :
    ContinuousAt (fun q => stepMatrix (A q) (lam q)) q0 := by
  have hT : Continuous (fun M : Matrix (Fin 6) (Fin d) ℝ => Mᵀ) := Continuous.matrix_transpose continuous_id
  have hAT : ContinuousAt (fun q => (A q)ᵀ) q0 := hT.continuousAt.comp hA
  have hmul : ∀ {l m n : ℕ}, Continuous (fun x : Matrix (Fin l) (Fin m) ℝ × Matrix (Fin m) (Fin n) ℝ => x.1 * x.2) :=
    Continuous.matrix_mul continuous_fst continuous_snd
  have h1 : ContinuousAt (fun q => A q * (A q)ᵀ) q0 := hmul.continuousAt.comp (f := fun q => (A q, (A q)ᵀ)) (hA.prodMk hAT)
  have h2 : ContinuousAt (fun q => A q * (A q)ᵀ + lam q • (1 : Matrix (Fin 6) (Fin 6) ℝ)) q0 := h1.add (hlam.smul continuousAt_const)
  have hdet := (Matrix.isUnit_iff_isUnit_det _).1 (gram_isUnit (A q0) hpos)
  have h3 : ContinuousAt (fun q => (A q * (A q)ᵀ + lam q • (1 : Matrix (Fin 6) (Fin 6) ℝ))⁻¹) q0 := by
    refine ContinuousAt.comp (g := Inv.inv) (continuousAt_matrix_inv _ ?_) h2
    have : (Ring.inverse : ℝ → ℝ) = fun x => x⁻¹ := by funext x; simp
    rw [this]
    exact continuousAt_inv₀ hdet.ne_zero
  exact hmul.continuousAt.comp (f := fun q => ((A q)ᵀ, (A q * (A q)ᵀ + lam q • (1 : Matrix (Fin 6) (Fin 6) ℝ))⁻¹)) (hAT.prodMk h3)

/-- near a solution at which the arm is not singular, every step with a learning rate from `a` to 2 shrinks the weighted pose
error by a fixed factor, and arbitrarily small neighbourhoods are not left -/
theorem ik_local {E : (Fin d → ℝ) → M4} (hE : ∀ i l, ContDiff ℝ 1 (fun q => E q i l)) (hrig : ∀ q, IsRigid (E q))
    {Jm : (Fin d → ℝ) → Matrix (Fin 6) (Fin d) ℝ} (hJc : ∀ a j, Continuous (fun q => Jm q a j)) {q0 : Fin d → ℝ}
    (hJ : ∀ v, HasTwistAt (fun t : ℝ => E (q0 + t • v)) ![(Jm q0 *ᵥ v) 0, (Jm q0 *ᵥ v) 1, (Jm q0 *ᵥ v) 2]
      ![(Jm q0 *ᵥ v) 3, (Jm q0 *ᵥ v) 4, (Jm q0 *ᵥ v) 5] 0)
    {reg lm : ℝ} (hreg : 0 < reg) {w : Option (Fin 6 → ℝ)} (hw : ∀ a, wVec w a ≠ 0)
    (hns : Function.Surjective (fun v => Jm q0 *ᵥ v) ∨ Function.Injective (fun v => Jm q0 *ᵥ v)) {a : ℝ} (ha : 0 < a) :
    let K := fun q => ikStepKernel (E q) (posPart (E q0)) (matrixToQuaternion (rotPart (E q0))) (Jm q) reg lm w
    ∃ ρ, 0 ≤ ρ ∧ ρ < 1 ∧ ∀ U ∈ 𝓝 q0, ∃ W ∈ 𝓝 q0, W ⊆ U ∧ ∀ x ∈ W, norm6 (weightDx w (K x).2) ≤ 1 ∧ ∀ c, a ≤ c → c ≤ 2 →
      x + c • (K x).1 ∈ W ∧ norm6 (weightDx w (K (x + c • (K x).1)).2) ≤ ρ * norm6 (weightDx w (K x).2) := by
  intro K
  set T := (PiLp.continuousLinearEquiv 2 ℝ (fun _ : Fin 6 => ℝ)).symm with hT
  set f : (Fin d → ℝ) → Fin 6 → ℝ := fun q a => wVec w a * softErr (E q0) (E q) a with hf
  set A : (Fin d → ℝ) → Matrix (Fin 6) (Fin d) ℝ := fun q => weightJ w (Jm q) with hA
  let Dw : (Fin 6 → ℝ) →L[ℝ] (Fin 6 → ℝ) := LinearMap.toContinuousLinearMap (Matrix.diagonal (wVec w)).mulVecLin
  let TD : (Fin 6 → ℝ) →L[ℝ] EuclideanSpace ℝ (Fin 6) := (T : (Fin 6 → ℝ) →L[ℝ] EuclideanSpace ℝ (Fin 6)).comp Dw
  let L : (Fin d → ℝ) →L[ℝ] EuclideanSpace ℝ (Fin 6) := TD.comp (LinearMap.toContinuousLinearMap (Jm q0).mulVecLin)
  let B : EuclideanSpace ℝ (Fin 6) →L[ℝ] (Fin d → ℝ) :=
    (LinearMap.toContinuousLinearMap (stepMatrix (A q0) reg).mulVecLin).comp (T.symm : EuclideanSpace ℝ (Fin 6) →L[ℝ] (Fin 6 → ℝ))
  have hDw : ∀ y a, Dw y a = wVec w a * y a := fun y a => by
    change (Matrix.diagonal (wVec w) *ᵥ y) a = _
    rw [Matrix.mulVec_diagonal]
  have hL : ∀ v, L v = T (A q0 *ᵥ v) := by
    intro v
    change T (Dw (Jm q0 *ᵥ v)) = _
    congr 1
    funext a
    rw [hDw, Matrix.mulVec, Matrix.mulVec, dotProduct, dotProduct, Finset.mul_sum]
    refine Finset.sum_congr rfl fun j _ => ?_
    simp only [hA, weightJ_apply]; ring
  have hB : ∀ y, B (T y) = stepMatrix (A q0) reg *ᵥ y := by
    intro y
    change stepMatrix (A q0) reg *ᵥ (T.symm (T y)) = _
    rw [ContinuousLinearEquiv.symm_apply_apply]
  have hF : HasStrictFDerivAt (fun q => T (f q)) (-L) q0 := by
    have h1 := TD.hasStrictFDerivAt.comp q0 (softErr_deriv hE (hrig q0) hJ)
    have e : (fun q => TD (softErr (E q0) (E q))) = fun q => T (f q) := by
      funext q
      change T (Dw (softErr (E q0) (E q))) = T (f q)
      congr 1
      funext a
      rw [hDw]
    rw [e, ContinuousLinearMap.comp_neg] at h1
    exact h1
  have h11 : rotPart (E q0) * (rotPart (E q0))ᵀ = 1 := (Matrix.mem_orthogonalGroup_iff _ _).1 (hrig q0).1.1
  have hf0 : f q0 = 0 := by
    funext a
    simp only [hf]
    have : softErr (E q0) (E q0) a = 0 := by
      unfold softErr; rw [h11]; fin_cases a <;> simp
    rw [this, mul_zero]; rfl
  have hTinj : Function.Injective T := T.injective
  have hDinj : Function.Injective Dw := by
    intro x y hxy
    funext a
    have := congrFun hxy a
    rw [hDw, hDw] at this
    exact mul_left_cancel₀ (hw a) this
  have hDsurj : Function.Surjective Dw := by
    intro y
    refine ⟨fun a => (wVec w a)⁻¹ * y a, ?_⟩
    funext a
    rw [hDw, mul_inv_cancel_left₀ (hw a)]
  have hR : ∀ ε > (0 : ℝ), ∀ᶠ x in 𝓝 q0, ∃ v, ‖T (f x) - L v‖ ≤ ε * ‖T (f x)‖ := by
    rcases hns with h | h
    · intro ε hε
      refine Eventually.of_forall fun x => ?_
      obtain ⟨y, hy⟩ := hDsurj (f x)
      obtain ⟨v, hv⟩ := h y
      refine ⟨v, ?_⟩
      have : L v = T (f x) := by
        change T (Dw (Jm q0 *ᵥ v)) = _
        rw [show Jm q0 *ᵥ v = y from hv, hy]
      rw [this, sub_self, norm_zero]
      positivity
    · exact range_of_injective hF.hasFDerivAt (by rw [hf0, map_zero]) (fun x y hxy => h (hDinj (hTinj hxy)))
  -- contraction
  obtain ⟨κ, k1, k2, k3⟩ := dls_contract (A q0) hreg ha (gram_isUnit (A q0) hreg)
  have hc : ∀ c, a ≤ c → c ≤ 2 → ∀ v, ‖L v - c • L (B (L v))‖ ≤ Real.sqrt (1 - κ) * ‖L v‖ := by
    intro c c1 c2 v
    have h1 := k3 c c1 c2 v
    dsimp only at h1
    have e : L v - c • L (B (L v)) = T (A q0 *ᵥ v - c • (A q0 *ᵥ ((A q0)ᵀ *ᵥ ((A q0 * (A q0)ᵀ + reg • (1 : Matrix (Fin 6) (Fin 6) ℝ))⁻¹ *ᵥ (A q0 *ᵥ v))))) := by
      rw [hL v, hB, hL, map_sub, map_smul, stepMatrix, ← Matrix.mulVec_mulVec]
    rw [e, hL v, ← norm6_eq, ← norm6_eq]
    refine Real.sqrt_le_iff.2 ⟨mul_nonneg (Real.sqrt_nonneg _) (norm6_nonneg _), ?_⟩
    rw [mul_pow, Real.sq_sqrt (by linarith), norm6_sq]
    exact h1
  -- the step is close to the linear one
  have hEc : ∀ i l, Continuous (fun q => E q i l) := fun i l => (hE i l).continuous
  have hclose : ∀ ε > (0 : ℝ), ∀ᶠ q in 𝓝 q0, ∀ a, |weightDx w (K q).2 a - f q a| ≤ ε * |f q a| := by
    intro ε hε
    filter_upwards [soft_close hEc hrig q0 (wVec w) hε] with q hq a
    rw [weightDx_apply]
    exact hq a
  have hfc : ∀ a, ContinuousAt (fun q => f q a) q0 := by
    intro a
    have : Continuous (fun q => softErr (E q0) (E q)) := (softErr_contDiff hE (E q0)).continuous
    exact (continuous_const.mul ((continuous_apply a).comp this)).continuousAt
  have hK0 : ∀ a, weightDx w (K q0).2 a = 0 := by
    intro a
    have : (K q0).2 = 0 := (C58_zero_iff (E q0) (E q0) (hrig q0) (hrig q0)).2 rfl
    rw [this, weightDx_apply]; simp
  have hdxc : ∀ a, ContinuousAt (fun q => weightDx w (K q).2 a) q0 := by
    intro a
    rw [ContinuousAt, hK0]
    have hlim : Tendsto (fun q => 2 * |f q a|) (𝓝 q0) (𝓝 0) := by
      have := ((hfc a).abs).const_mul 2
      simpa [ContinuousAt, hf0] using this
    refine squeeze_zero_norm' ?_ hlim
    filter_upwards [hclose 1 one_pos] with q hq
    have := hq a
    have h2 := abs_sub_abs_le_abs_sub (weightDx w (K q).2 a) (f q a)
    rw [Real.norm_eq_abs]
    linarith
  set lam : (Fin d → ℝ) → ℝ := fun q => damping reg lm (wVec w) (K q).2 with hlam
  have hlamc : ContinuousAt lam q0 := by
    simp only [hlam, damping]
    refine continuousAt_const.add ?_
    split_ifs
    · refine continuousAt_const.mul (tendsto_finset_sum _ fun k _ => ?_)
      have := (hdxc k).pow 2
      simp only [weightDx_apply] at this
      exact this
    · exact continuousAt_const
  have hlam0 : lam q0 = reg := by
    simp only [hlam, damping]
    have : ∑ k, (wVec w k * (K q0).2 k) ^ 2 = 0 := Finset.sum_eq_zero fun k _ => by rw [← weightDx_apply, hK0]; norm_num
    rw [this]; simp
  have hAc : ContinuousAt A q0 := by
    refine Continuous.continuousAt (continuous_matrix fun i j => ?_)
    simp only [hA, weightJ_apply]
    exact continuous_const.mul (hJc i j)
  have hPc := stepMatrix_continuousAt hAc hlamc (by rw [hlam0]; exact hreg)
  have hS1 : ∀ q, (K q).1 = stepMatrix (A q) (lam q) *ᵥ weightDx w (K q).2 := by
    intro q
    change (weightJ w (Jm q))ᵀ *ᵥ ((dlsMatrix (weightJ w (Jm q)) (weightDx w (K q).2) reg lm)⁻¹ *ᵥ weightDx w (K q).2) = _
    rw [dlsMatrix_eq, Matrix.mulVec_mulVec]; rfl
  set C0 : ℝ := ∑ j, ∑ a, |stepMatrix (A q0) reg j a| with hC0
  have hC00 : 0 ≤ C0 := Finset.sum_nonneg fun j _ => Finset.sum_nonneg fun a _ => abs_nonneg _
  have hC0le : ∀ j a, |stepMatrix (A q0) reg j a| ≤ C0 := fun j a =>
    (Finset.single_le_sum (f := fun a => |stepMatrix (A q0) reg j a|) (fun _ _ => abs_nonneg _) (Finset.mem_univ a)).trans
      (Finset.single_le_sum (f := fun j => ∑ a, |stepMatrix (A q0) reg j a|)
        (fun _ _ => Finset.sum_nonneg fun _ _ => abs_nonneg _) (Finset.mem_univ j))
  have hS : ∀ ε > (0 : ℝ), ∀ᶠ x in 𝓝 q0, ‖(K x).1 - B (T (f x))‖ ≤ ε * ‖T (f x)‖ := by
    intro ε hε
    set ε' : ℝ := min 1 (ε / (12 * (C0 + 1))) with hε'
    have hε'0 : 0 < ε' := lt_min one_pos (by positivity)
    have hP : ∀ᶠ q in 𝓝 q0, ∀ j a, |(stepMatrix (A q) (lam q) - stepMatrix (A q0) reg) j a| ≤ ε / 24 := by
      rw [eventually_all]; intro j
      rw [eventually_all]; intro b
      have h1 : ContinuousAt (fun q => stepMatrix (A q) (lam q) j b) q0 :=
        ContinuousAt.comp (g := fun M : Matrix (Fin d) (Fin 6) ℝ => M j b) (f := fun q => stepMatrix (A q) (lam q))
          (continuous_apply_apply j b).continuousAt hPc
      have h2 := Metric.continuousAt_iff'.1 h1 (ε / 24) (by positivity)
      filter_upwards [h2] with q hq
      rw [Real.dist_eq, hlam0] at hq
      exact hq.le
    filter_upwards [hP, hclose ε' hε'0] with q h1 h2
    have e : (K q).1 - B (T (f q)) = (stepMatrix (A q) (lam q) - stepMatrix (A q0) reg) *ᵥ weightDx w (K q).2 +
        stepMatrix (A q0) reg *ᵥ (weightDx w (K q).2 - f q) := by
      rw [hB, hS1, Matrix.sub_mulVec, Matrix.mulVec_sub]; abel
    rw [e, ← norm6_eq]
    have hn := norm6_nonneg (f q)
    have n1 : ∀ b, |f q b| ≤ norm6 (f q) := abs_le_norm6 _
    have hε'1 : ε' ≤ 1 := min_le_left _ _
    have n2 : ∀ b, |weightDx w (K q).2 b - f q b| ≤ ε' * norm6 (f q) := fun b =>
      (h2 b).trans (mul_le_mul_of_nonneg_left (n1 b) hε'0.le)
    have n3 : ∀ b, |weightDx w (K q).2 b| ≤ 2 * norm6 (f q) := fun b => by
      have h3 := abs_sub_abs_le_abs_sub (weightDx w (K q).2 b) (f q b)
      have h4 := n2 b
      have h5 := n1 b
      nlinarith
    have m1 := mulVec_small h1 (weightDx w (K q).2) n3 (by positivity) (by positivity)
    have m2 := mulVec_small hC0le (weightDx w (K q).2 - f q) n2 hC00 (by positivity)
    have m3 : 6 * (C0 * (ε' * norm6 (f q))) ≤ ε / 2 * norm6 (f q) := by
      have : ε' ≤ ε / (12 * (C0 + 1)) := min_le_right _ _
      have h6 : C0 * ε' ≤ ε / 12 := by
        calc C0 * ε' ≤ C0 * (ε / (12 * (C0 + 1))) := mul_le_mul_of_nonneg_left this hC00
          _ ≤ (C0 + 1) * (ε / (12 * (C0 + 1))) := by gcongr; linarith
          _ = ε / 12 := by field_simp
      nlinarith
    calc _ ≤ _ := norm_add_le _ _
      _ ≤ 6 * (ε / 24 * (2 * norm6 (f q))) + 6 * (C0 * (ε' * norm6 (f q))) := add_le_add m1 m2
      _ ≤ _ := by linarith
  obtain ⟨ρ, r1, r2, r3⟩ := local_contraction (F := fun q => T (f q)) hF (by rw [hf0, map_zero]) hS hR ha.le (Real.sqrt_nonneg (1 - κ))
    ((Real.sqrt_lt' one_pos).2 (by linarith)) hc
  refine ⟨(1 + ρ) / 2, by linarith, by linarith, fun U hU => ?_⟩
  set ε : ℝ := (1 - ρ) / 8 with hε
  have hε0 : 0 < ε := by simp only [hε]; linarith
  have hbound : ∀ᶠ q in 𝓝 q0, norm6 (weightDx w (K q).2) < 1 := by
    have h1 : ContinuousAt (fun q => norm6 (weightDx w (K q).2)) q0 := by
      unfold norm6
      refine Real.continuous_sqrt.continuousAt.comp (f := fun q => ∑ b, weightDx w (K q).2 b * weightDx w (K q).2 b) ?_
      exact tendsto_finset_sum _ fun b _ => (hdxc b).mul (hdxc b)
    refine h1.eventually_lt_const ?_
    have : norm6 (weightDx w (K q0).2) = 0 := by simp [norm6, hK0]
    show norm6 (weightDx w (K q0).2) < 1
    rw [this]; exact one_pos
  obtain ⟨W, w1, w2, w3⟩ := r3 _ (inter_mem (inter_mem hU hbound) (hclose ε hε0))
  refine ⟨W, w1, fun x hx => (w2 hx).1.1, fun x hx => ⟨le_of_lt (w2 hx).1.2, fun c c1 c2 => ?_⟩⟩
  obtain ⟨y1, y2⟩ := w3 x hx c c1 c2
  refine ⟨y1, ?_⟩
  have u1 := (norm6_sub_ge hε0.le (w2 y1).2).1
  have u2 := (norm6_sub_ge hε0.le (w2 hx).2).2
  simp only [← norm6_eq, hT] at y2
  have hn := norm6_nonneg (f x)
  have u3 : (1 + ε) * ρ ≤ (1 + ρ) / 2 * (1 - ε) := by simp only [hε]; nlinarith
  calc _ ≤ (1 + ε) * norm6 (f (x + c • (K x).1)) := u1
    _ ≤ (1 + ε) * (ρ * norm6 (f x)) := mul_le_mul_of_nonneg_left y2 (by linarith)
    _ = ((1 + ε) * ρ) * norm6 (f x) := by ring
    _ ≤ ((1 + ρ) / 2 * (1 - ε)) * norm6 (f x) := mul_le_mul_of_nonneg_right u3 hn
    _ = (1 + ρ) / 2 * ((1 - ε) * norm6 (f x)) := by ring
    _ ≤ _ := mul_le_mul_of_nonneg_left u2 (by linarith)

end PK
