import Verif.Props.Velocity
import Verif.Props.IKStart
import Mathlib.Analysis.SpecialFunctions.Trigonometric.InverseDeriv
import Mathlib.Analysis.SpecialFunctions.Trigonometric.Bounds

/-!
# C91: the solver's step is a descent direction of the pose error
-/

namespace PK
open Matrix

namespace Spec
/-- The weighted squared pose error: `wp² |p* - p|² + wr² angle(R* Rᵀ)²`. -/
noncomputable def poseError (wp wr : ℝ) (target m : M4) : ℝ :=
  wp ^ 2 * vlen (posPart target - posPart m) ^ 2 + wr ^ 2 * rotAngle (rotPart target * (rotPart m)ᵀ) ^ 2
end Spec

open Spec

/-- derivative of `tr(R* Rᵀ)` for a rotating `R` -/
theorem trace_deriv {P : ℝ → M4} {v w : V3} {x : ℝ} (hP : HasTwistAt P v w x) (S : M3) :
    HasDerivAt (fun y => (S * (rotPart (P y))ᵀ).trace) ((S * (rotPart (P x))ᵀ * (hat w)ᵀ).trace) x := by
  have e : ∀ y, (S * (rotPart (P y))ᵀ).trace = ∑ i : Fin 3, ∑ j : Fin 3, S i j * P y i.castSucc j.castSucc := by
    intro y; simp [Matrix.trace, Matrix.mul_apply, rotPart]
  simp only [e]
  have h : HasDerivAt (fun y => ∑ i : Fin 3, ∑ j : Fin 3, S i j * P y i.castSucc j.castSucc)
      (∑ i : Fin 3, ∑ j : Fin 3, S i j * ((hat w * Matrix.of fun r s : Fin 3 => P x r.castSucc s.castSucc) i j)) x :=
    HasDerivAt.fun_sum fun i _ => HasDerivAt.fun_sum fun j _ => (hP.2 i j).const_mul _
  convert h using 1
  rw [Matrix.mul_assoc, ← Matrix.transpose_mul]
  simp [Matrix.trace, Matrix.mul_apply, rotPart, mul_comm]

theorem trace_rotAbout_hat (k : V3) (θ : ℝ) (w : V3) :
    (rotAbout k θ * (hat w)ᵀ).trace = 2 * Real.sin θ * (k 0 * w 0 + k 1 * w 1 + k 2 * w 2) := by
  rw [← axisAndAngleToMatrix33_eq_rotAbout]
  simp only [Matrix.trace, Matrix.diag_apply, Matrix.mul_apply, Fin.sum_univ_three, Matrix.transpose_apply, hat_eq,
    axisAndAngleToMatrix33]
  simp
  ring

theorem trace_rotAbout {k : V3} (hk : IsUnitV k) (θ : ℝ) : ((rotAbout k θ).trace - 1) / 2 = Real.cos θ := by
  unfold IsUnitV at hk
  rw [← axisAndAngleToMatrix33_eq_rotAbout]
  simp [Matrix.trace, Fin.sum_univ_three, axisAndAngleToMatrix33]
  linear_combination (1 - Real.cos θ) / 2 * hk

/-- derivative of the squared angle between the target orientation and a rotating one -/
theorem angle_sq_deriv {P : ℝ → M4} {v w : V3} (hP : HasTwistAt P v w 0) {t : M4} {k : V3} {θ : ℝ} (hk : IsUnitV k)
    (h0 : 0 ≤ θ) (hpi : θ < Real.pi) (hR : rotPart t * (rotPart (P 0))ᵀ = rotAbout k θ)
    (hc : ∀ y, (((rotPart t * (rotPart (P y))ᵀ).trace - 1) / 2) ∈ Set.Icc (-1 : ℝ) 1) :
    HasDerivAt (fun y => rotAngle (rotPart t * (rotPart (P y))ᵀ) ^ 2)
      (-2 * θ * (k 0 * w 0 + k 1 * w 1 + k 2 * w 2)) 0 := by
  set c : ℝ → ℝ := fun y => ((rotPart t * (rotPart (P y))ᵀ).trace - 1) / 2 with hcd
  have hdc : HasDerivAt c (Real.sin θ * (k 0 * w 0 + k 1 * w 1 + k 2 * w 2)) 0 := by
    have := ((trace_deriv hP (rotPart t)).sub_const 1).div_const 2
    refine this.congr_deriv ?_
    rw [hR, trace_rotAbout_hat]; ring
  have hc0 : c 0 = Real.cos θ := by simp only [hcd, hR]; exact trace_rotAbout hk θ
  have hθ0 : Real.arccos (c 0) = θ := by rw [hc0, Real.arccos_cos h0 hpi.le]
  change HasDerivAt (fun y => Real.arccos (c y) ^ 2) _ 0
  rcases h0.eq_or_lt with h | h
  · subst h
    simp only [mul_zero, zero_mul, Real.sin_zero] at hdc ⊢
    have hb : ∀ y, Real.arccos (c y) ^ 2 ≤ Real.pi ^ 2 / 2 * (1 - c y) := by
      intro y
      have h1 := Real.cos_le_one_sub_mul_cos_sq (x := Real.arccos (c y))
        (by rw [abs_of_nonneg (Real.arccos_nonneg _)]; exact Real.arccos_le_pi _)
      rw [Real.cos_arccos (hc y).1 (hc y).2] at h1
      change c y ≤ _ at h1
      have hp := Real.pi_pos
      have : 2 / Real.pi ^ 2 * Real.arccos (c y) ^ 2 ≤ 1 - c y := by linarith
      calc Real.arccos (c y) ^ 2 = Real.pi ^ 2 / 2 * (2 / Real.pi ^ 2 * Real.arccos (c y) ^ 2) := by field_simp
        _ ≤ _ := mul_le_mul_of_nonneg_left this (by positivity)
    have hd2 : HasDerivAt (fun y => Real.pi ^ 2 / 2 * (1 - c y)) 0 0 := by
      simpa using (hdc.const_sub 1).const_mul (Real.pi ^ 2 / 2)
    rw [hasDerivAt_iff_isLittleO] at hd2 ⊢
    refine Asymptotics.IsBigO.trans_isLittleO (Asymptotics.IsBigO.of_bound 1 (Filter.Eventually.of_forall fun y => ?_)) hd2
    rw [hθ0, hc0, Real.cos_zero]
    simp only [sub_self, mul_zero, smul_zero, sub_zero, one_mul, ne_eq, OfNat.ofNat_ne_zero, not_false_eq_true, zero_pow]
    rw [Real.norm_of_nonneg (sq_nonneg _)]
    exact (hb y).trans (le_abs_self _)
  · have hs := Real.sin_pos_of_pos_of_lt_pi h hpi
    have hne1 : c 0 ≠ -1 := by
      rw [hc0]; intro e
      have := Real.sin_sq_add_cos_sq θ
      rw [e] at this; nlinarith
    have hne2 : c 0 ≠ 1 := by
      rw [hc0]; intro e
      have := Real.sin_sq_add_cos_sq θ
      rw [e] at this; nlinarith
    have h1 := ((Real.hasDerivAt_arccos hne1 hne2).comp 0 hdc).pow 2
    refine h1.congr_deriv ?_
    rw [Function.comp_apply, hθ0, hc0]
    have : Real.sqrt (1 - Real.cos θ ^ 2) = Real.sin θ := by
      rw [show 1 - Real.cos θ ^ 2 = Real.sin θ ^ 2 by linarith [Real.sin_sq_add_cos_sq θ], Real.sqrt_sq hs.le]
    rw [this]
    field_simp
    norm_num
    ring

/-- derivative of the pose error of a moving end effector: minus twice the product of the weighted error of `delta_pose`
and the weighted velocity -/
theorem poseError_deriv {P : ℝ → M4} {v w : V3} (hP : HasTwistAt P v w 0) {t : M4} (ht : IsRigid t) (hrig : ∀ y, IsRigid (P y))
    (wp wr : ℝ) (hθ : rotAngle (rotPart t * (rotPart (P 0))ᵀ) = 0 ∨ 1e-6 ≤ rotAngle (rotPart t * (rotPart (P 0))ᵀ))
    (hpi : rotAngle (rotPart t * (rotPart (P 0))ᵀ) < Real.pi) :
    let dx := deltaPose (P 0) (posPart t) (matrixToQuaternion (rotPart t))
    HasDerivAt (fun y => poseError wp wr t (P y))
      (-2 * (wp ^ 2 * (dx 0 * v 0 + dx 1 * v 1 + dx 2 * v 2) + wr ^ 2 * (dx 3 * w 0 + dx 4 * w 1 + dx 5 * w 2))) 0 := by
  intro dx
  obtain ⟨h1, ⟨k, k1, k2, k3⟩, h2, h3, h4, h5, h6⟩ := C58_delta_pose (P 0) t (hrig 0) ht
  set θ := rotAngle (rotPart t * (rotPart (P 0))ᵀ) with hθd
  have hl : vlen (tail3 dx) = θ := by
    rcases hθ with h | h
    · rw [h] at h2 h3
      rw [h]; exact le_antisymm (by simpa using h3) h2
    · exact h4 h
  have hR : rotPart t * (rotPart (P 0))ᵀ = rotAbout k θ := by
    rw [← k3, Matrix.mul_assoc]
    have : rotPart (P 0) * (rotPart (P 0))ᵀ = 1 := (Matrix.mem_orthogonalGroup_iff _ _).1 (hrig 0).1.1
    rw [this, Matrix.mul_one]
  have ha := angle_sq_deriv hP k1 h5 hpi hR (fun y => ?_)
  · have hpos : ∀ i : Fin 3, HasDerivAt (fun y => posPart t i - posPart (P y) i) (-(v i)) 0 := fun i => (hP.1 i).const_sub _
    have e : ∀ y, vlen (posPart t - posPart (P y)) ^ 2 =
        (posPart t 0 - posPart (P y) 0) ^ 2 + (posPart t 1 - posPart (P y) 1) ^ 2 + (posPart t 2 - posPart (P y) 2) ^ 2 := by
      intro y; rw [vlen, Real.sq_sqrt (by positivity)]; rfl
    unfold poseError
    simp only [e]
    have hall := (((((hpos 0).pow 2).add ((hpos 1).pow 2)).add ((hpos 2).pow 2)).const_mul (wp ^ 2)).add (ha.const_mul (wr ^ 2))
    refine hall.congr_deriv ?_
    have t3 : dx 3 = θ * k 0 := by have := congrFun k2 0; rw [hl] at this; exact this
    have t4 : dx 4 = θ * k 1 := by have := congrFun k2 1; rw [hl] at this; exact this
    have t5 : dx 5 = θ * k 2 := by have := congrFun k2 2; rw [hl] at this; exact this
    have t0 : dx 0 = posPart t 0 - posPart (P 0) 0 := h1 0
    have t1 : dx 1 = posPart t 1 - posPart (P 0) 1 := h1 1
    have t2 : dx 2 = posPart t 2 - posPart (P 0) 2 := h1 2
    rw [t0, t1, t2, t3, t4, t5]
    norm_num
    ring
  · obtain ⟨k', l, a1, -, a3, -⟩ := deltaPose_rot (hrig y) ht
    have : rotPart (P y) * (rotPart (P y))ᵀ = 1 := (Matrix.mem_orthogonalGroup_iff _ _).1 (hrig y).1.1
    rw [← a3, Matrix.mul_assoc, this, Matrix.mul_one, trace_rotAbout a1]
    exact ⟨Real.neg_one_le_cos _, Real.cos_le_one _⟩

/-- the step `dq`: its product with the weighted error is at least `reg |dq|²`, and it vanishes only with the gradient -/
theorem step_gradient {d : ℕ} (m : M4) (tpos : V3) (tq : Quat) (J : Matrix (Fin 6) (Fin d) ℝ) (reg lm : ℝ)
    (w : Option (Fin 6 → ℝ)) (hreg : 0 < reg) :
    let k := ikStepKernel m tpos tq J reg lm w
    reg * (k.1 ⬝ᵥ k.1) ≤ weightDx w k.2 ⬝ᵥ (weightJ w J *ᵥ k.1) ∧ (k.1 = 0 ↔ (weightJ w J)ᵀ *ᵥ weightDx w k.2 = 0) := by
  intro k
  set dq := k.1 with hdq0
  set dx := k.2 with hdx
  have hlam := damping_pos (lm := lm) hreg (wVec w) dx
  have hge : reg ≤ damping reg lm (wVec w) dx := by
    unfold damping
    split_ifs with hl
    · have : 0 ≤ ∑ k, (wVec w k * dx k) ^ 2 := Finset.sum_nonneg fun k _ => sq_nonneg _
      have := mul_nonneg hl.le this
      linarith
    · linarith
  set lam := damping reg lm (wVec w) dx with hl
  set A := weightJ w J with hA
  set b := weightDx w dx with hb
  have hu := gram_isUnit A hlam
  have hd := (Matrix.isUnit_iff_isUnit_det _).1 hu
  set a := (A * Aᵀ + lam • (1 : Matrix (Fin 6) (Fin 6) ℝ))⁻¹ *ᵥ b with ha
  have hdq : dq = Aᵀ *ᵥ a := by
    change Aᵀ *ᵥ ((dlsMatrix A (weightDx w dx) reg lm)⁻¹ *ᵥ weightDx w dx) = _
    rw [dlsMatrix_eq]
  have hsol : b = A *ᵥ dq + lam • a := by
    have : (A * Aᵀ + lam • (1 : Matrix (Fin 6) (Fin 6) ℝ)) *ᵥ a = b := by
      rw [ha, Matrix.mulVec_mulVec, Matrix.mul_nonsing_inv _ hd, Matrix.one_mulVec]
    rw [Matrix.add_mulVec, Matrix.smul_mulVec, Matrix.one_mulVec, ← Matrix.mulVec_mulVec] at this
    rw [← this, hdq]
  have hself : a ⬝ᵥ (A *ᵥ dq) = dq ⬝ᵥ dq := by
    rw [Matrix.dotProduct_mulVec, ← Matrix.mulVec_transpose, ← hdq]
  have h1 := dotSelf_nonneg dq
  have h2 := dotSelf_nonneg (A *ᵥ dq)
  refine ⟨?_, fun h => ?_, fun h => ?_⟩
  · rw [hsol, add_dotProduct, smul_dotProduct, hself, smul_eq_mul]
    nlinarith
  · rw [hsol, Matrix.mulVec_add, Matrix.mulVec_smul, ← hdq, h]
    simp
  · have h3 : (Aᵀ *ᵥ b) ⬝ᵥ dq = 0 := by rw [h, zero_dotProduct]
    rw [hsol, Matrix.mulVec_add, Matrix.mulVec_smul, ← hdq, add_dotProduct, smul_dotProduct, smul_eq_mul,
      dotProduct_comm (Aᵀ *ᵥ _), Matrix.dotProduct_mulVec, Matrix.vecMul_transpose] at h3
    refine dot_self_eq_zero ?_
    by_contra hne
    have : 0 < dq ⬝ᵥ dq := lt_of_le_of_ne h1 (Ne.symm hne)
    nlinarith

variable {N d : ℕ}

/-- C91: the step that the solver takes at joint values `q` is a descent direction of the weighted squared pose error
`wp² |p* - p|² + wr² angle²`: the derivative of the error along it is at most `-2 reg |dq|²`, the error is smaller after
every sufficiently short step along it, and the step is zero exactly when `q` is a critical point of the error.
Away from half turns, and from angles below 1e-6 other than 0, where the reported rotation vector is not exact (C58). -/
theorem C91_descent {root rf fe : Frame} {rootName : Name} {path : List Frame} (h : WF root) (hr : RigidTree root)
    (hs : StartsAt root rf rootName) (hp : IsPath rf path) (hl : path.getLast? = some fe)
    (hd : d = (pathJoints path).length) {targets : Fin N → M4} (ht : ∀ i, IsRigid (targets i))
    {s : SerialChain} (hse : SerialChain.init root fe.name rootName = .ok s) (wp wr reg lm : ℝ) (hreg : 0 < reg)
    {ev : Eval N d} (hev : Realises s targets reg lm (some ![wp, wp, wp, wr, wr, wr]) ev) (i : Fin N) (q : Fin d → ℝ) :
    ∃ (E : (Fin d → ℝ) → M4) (dq : Fin d → ℝ),
      (∀ q', s.fkEnd (.tensor 1 (List.ofFn fun j _ => q' j)) = .ok ⟨1, fun _ => E q'⟩) ∧
      (ev i (fun j => .fin (q j))).1 = (fun j => .fin (dq j)) ∧
      let θ := rotAngle (rotPart (targets i) * (rotPart (E q))ᵀ)
      ((θ = 0 ∨ 1e-6 ≤ θ) → θ < Real.pi →
        (∃ D, HasDerivAt (fun t : ℝ => poseError wp wr (targets i) (E (q + t • dq))) D 0 ∧ D ≤ -2 * reg * ∑ j, dq j ^ 2) ∧
        (dq ≠ 0 → ∃ ε > (0 : ℝ), ∀ t : ℝ, 0 < t → t < ε →
          poseError wp wr (targets i) (E (q + t • dq)) < poseError wp wr (targets i) (E q)) ∧
        (dq = 0 ↔ ∀ v : Fin d → ℝ, HasDerivAt (fun t : ℝ => poseError wp wr (targets i) (E (q + t • v))) 0 0)) := by
  obtain ⟨rest, rfl⟩ := isPath_head hp
  have hws := serialRoot_wf (h.sub hs.1) hp
  have hrs := serialRoot_rigid (hr.sub hs.1) hp
  obtain rfl := Except.ok.inj (hse.symm.trans (serialInit_ok h hs hp hl rfl))
  have hlen : ∀ x : Fin d → ℝ, (List.ofFn fun j (_ : Fin 1) => x j).length = (pathJoints (rf :: rest)).length := by
    intro x; rw [List.length_ofFn, hd]
  set E : (Fin d → ℝ) → M4 := fun x =>
    poseAt (serialRoot rf rest) (List.ofFn fun j (_ : Fin 1) => x j) (posOf (serialRoot rf rest) (lastName rf rest)) 0 with hE
  have hrig : ∀ x, IsRigid (E x) := by
    intro x
    obtain ⟨fl, -, hfn, hfm⟩ := exists_last rf rest
    obtain ⟨pp, hpp, hpl⟩ := exists_path hfm
    simp only [hE]
    rw [← hfn, hws.pose_path _ hpp hpl]
    exact pathT_rigid hrs _ (isPath_mem hpp)
  obtain ⟨J, m, e1, e2, e3⟩ := hev.finite i q
  rw [jacobianTensor_ok hws _ (hlen q)] at e1
  obtain ⟨rfl, rfl⟩ := Prod.mk.inj (Except.ok.inj e1)
  set Jm : Matrix (Fin 6) (Fin d) ℝ := Matrix.of fun k (j : Fin d) =>
    ((jacCols rf rest (List.ofFn fun j (_ : Fin 1) => q j)).getD j fun _ _ => 0) 0 k with hJm
  set w6 : Option (Fin 6 → ℝ) := some ![wp, wp, wp, wr, wr, wr] with hw6
  set K := ikStepKernel (E q) (posPart (targets i)) (matrixToQuaternion (rotPart (targets i))) Jm reg lm w6 with hK
  have e3' : ev i (fun j => .fin (q j)) = (fun j => .fin (K.1 j), fun a => .fin (K.2 a)) := e3
  obtain ⟨g1, g2⟩ := step_gradient (E q) (posPart (targets i)) (matrixToQuaternion (rotPart (targets i))) Jm reg lm w6 hreg
  change reg * (K.1 ⬝ᵥ K.1) ≤ weightDx w6 K.2 ⬝ᵥ (weightJ w6 Jm *ᵥ K.1) at g1
  change K.1 = 0 ↔ (weightJ w6 Jm)ᵀ *ᵥ weightDx w6 K.2 = 0 at g2
  refine ⟨E, K.1, fun x => ?_, by rw [e3'], ?_⟩
  · rw [serial_fkEnd hws _ (hlen x)]
    congr 2
    funext b
    rw [Subsingleton.elim b 0]
  intro θ hθ hpi
  have hdir : ∀ v : Fin d → ℝ, HasDerivAt (fun t : ℝ => poseError wp wr (targets i) (E (q + t • v)))
      (-2 * (weightDx w6 K.2 ⬝ᵥ (weightJ w6 Jm *ᵥ v))) 0 := by
    intro v
    have hv := velocity_core hws hrs (B := 1) (fun t => List.ofFn fun j (_ : Fin 1) => (q + t • v) j) (fun t => hlen _) 0 0
      (fun k => if hk : k < d then v ⟨k, hk⟩ else 0) (fun k hk => by
        rw [← hd] at hk
        rw [dif_pos hk]; simpa using line_curve q v 0 k hk 0)
    have hq0 : q + (0 : ℝ) • v = q := by simp
    have hj : ∀ a : Fin 6, jacTimes (jacCols rf rest (List.ofFn fun j (_ : Fin 1) => (q + (0 : ℝ) • v) j)) 0
        (fun k => if hk : k < d then v ⟨k, hk⟩ else 0) a = (Jm *ᵥ v) a := by
      intro a
      rw [hq0, jacTimes, e2, Finset.sum_range, Matrix.mulVec, dotProduct]
      exact Finset.sum_congr rfl fun k _ => by simp [hJm]
    simp only [hj] at hv
    have hv' : HasTwistAt (fun t : ℝ => E (q + t • v)) ![(Jm *ᵥ v) 0, (Jm *ᵥ v) 1, (Jm *ᵥ v) 2]
      ![(Jm *ᵥ v) 3, (Jm *ᵥ v) 4, (Jm *ᵥ v) 5] 0 := hv
    have := poseError_deriv hv' (ht i) (fun y => hrig _) wp wr (by rw [hq0]; exact hθ) (by rw [hq0]; exact hpi)
    refine this.congr_deriv ?_
    have hA : weightJ w6 Jm *ᵥ v = fun a => (![wp, wp, wp, wr, wr, wr] : Fin 6 → ℝ) a * (Jm *ᵥ v) a := by
      funext a
      simp only [Matrix.mulVec, dotProduct, Finset.mul_sum]
      refine Finset.sum_congr rfl fun k _ => ?_
      rw [weightJ_apply, hw6]
      simp only [wVec, Option.getD_some]
      ring
    rw [hA, hq0]
    have hK2 : deltaPose (E q) (posPart (targets i)) (matrixToQuaternion (rotPart (targets i))) = K.2 := rfl
    rw [hK2]
    simp only [dotProduct, Fin.sum_univ_six, weightDx_apply, hw6, wVec, Option.getD_some]
    simp
    ring
  have hD : ∃ D, HasDerivAt (fun t : ℝ => poseError wp wr (targets i) (E (q + t • K.1))) D 0 ∧ D ≤ -2 * reg * ∑ j, K.1 j ^ 2 := by
    refine ⟨_, hdir K.1, ?_⟩
    have : ∑ j, K.1 j ^ 2 = K.1 ⬝ᵥ K.1 := Finset.sum_congr rfl fun j _ => sq _
    rw [this]; linarith
  refine ⟨hD, fun hne => ?_, fun h0 v => ?_, fun hv => ?_⟩
  · obtain ⟨D, h1, h2⟩ := hD
    have hpos : 0 < ∑ j, K.1 j ^ 2 := by
      obtain ⟨j, hj⟩ := Function.ne_iff.1 hne
      exact Finset.sum_pos' (fun _ _ => sq_nonneg _) ⟨j, Finset.mem_univ j, by have : K.1 j ≠ 0 := hj; positivity⟩
    have hneg : D < 0 := by nlinarith
    have h3 := h1.tendsto_slope_zero_right.eventually_lt_const hneg
    rw [eventually_nhdsWithin_iff, Metric.eventually_nhds_iff] at h3
    obtain ⟨ε, hε, h4⟩ := h3
    refine ⟨ε, hε, fun t t0 t1 => ?_⟩
    have h5 := h4 (y := t) (by simpa [abs_of_pos t0] using t1) t0
    simp only [zero_add, zero_smul, add_zero, smul_eq_mul] at h5
    by_contra hn
    have := mul_nonneg (inv_pos.2 t0).le (sub_nonneg.2 (not_lt.1 hn))
    linarith
  · refine (hdir v).congr_deriv ?_
    rw [Matrix.dotProduct_mulVec, ← Matrix.mulVec_transpose, g2.1 h0, zero_dotProduct, mul_zero]
  · refine g2.2 (dot_self_eq_zero ?_)
    have := (hdir ((weightJ w6 Jm)ᵀ *ᵥ weightDx w6 K.2)).unique (hv _)
    rw [Matrix.dotProduct_mulVec, ← Matrix.mulVec_transpose] at this
    linarith

/-- at any joint values of any chain, for the target one unit away with the same orientation -/
example (root rf fe : Frame) (rootName : Name) (path : List Frame) (h : WF root) (hr : RigidTree root)
    (hs : StartsAt root rf rootName) (hp : IsPath rf path) (hl : path.getLast? = some fe)
    (q : Fin (pathJoints path).length → ℝ) :
    ∃ (s : SerialChain) (target : M4) (ev : Eval 1 (pathJoints path).length) (E : (Fin (pathJoints path).length → ℝ) → M4)
      (dq : Fin (pathJoints path).length → ℝ),
      SerialChain.init root fe.name rootName = .ok s ∧ Realises s (fun _ => target) 1e-9 0.1 (some ![1, 1, 1, 1, 1, 1]) ev ∧
      (∀ q', s.fkEnd (.tensor 1 (List.ofFn fun j _ => q' j)) = .ok ⟨1, fun _ => E q'⟩) ∧
      poseError 1 1 target (E q) = 1 ∧ (ev 0 (fun j => .fin (q j))).1 = (fun j => .fin (dq j)) ∧
      (dq ≠ 0 → ∃ ε > (0 : ℝ), ∀ t : ℝ, 0 < t → t < ε → poseError 1 1 target (E (q + t • dq)) < 1) := by
  obtain ⟨s, ev0, h1, h2⟩ := realises_exists root rf fe rootName path h hs hp hl rfl (N := 1) (fun _ => 1) 1e-9 0.1 none
  obtain ⟨T, -, e1, e2, -⟩ := start_err h hr hs hp hl rfl (fun _ => isRigid_one) h1 h2.reportsError 0 q
  set target : M4 := mkHom (rotPart (T 0)) (posPart (T 0) + ![1, 0, 0]) with htg
  have hrt : rotPart target = rotPart (T 0) := by
    ext i j; fin_cases i <;> fin_cases j <;> rfl
  have hpt : posPart target = posPart (T 0) + ![1, 0, 0] := by
    ext i; fin_cases i <;> rfl
  have htr : IsRigid target := ⟨by have h' : IsRot (rotPart (T 0)) := e2.1; rw [← hrt] at h'; exact h', by ext i; fin_cases i <;> rfl⟩
  obtain ⟨s', ev, h1', h3⟩ := realises_exists root rf fe rootName path h hs hp hl rfl (N := 1) (fun _ => target) 1e-9 0.1
    (some ![1, 1, 1, 1, 1, 1])
  obtain rfl := Except.ok.inj (h1.symm.trans h1')
  obtain ⟨E, dq, a1, a2, a3⟩ := C91_descent h hr hs hp hl rfl (fun _ => htr) h1 1 1 1e-9 0.1 (by norm_num) h3 0 q
  have hEq : E q = T 0 := by
    have := (a1 q).symm.trans e1
    simpa using congrFun (by simpa using this) (0 : Fin 1)
  have hθ : rotAngle (rotPart target * (rotPart (E q))ᵀ) = 0 := by
    have : rotPart (T 0) * (rotPart (T 0))ᵀ = 1 := (Matrix.mem_orthogonalGroup_iff _ _).1 e2.1.1
    rw [hEq, hrt, this, rotAngle, Matrix.trace_one]; norm_num
  have herr : poseError 1 1 target (E q) = 1 := by
    rw [poseError, hθ, hEq, hpt]
    rw [add_sub_cancel_left]
    simp [vlen]
  obtain ⟨-, b2, -⟩ := a3 (Or.inl hθ) (by rw [hθ]; exact Real.pi_pos)
  exact ⟨s, target, ev, E, dq, h1, h3, a1, herr, a2, fun hne => by simpa [herr] using b2 hne⟩

end PK
