import Verif.Model.IK
import Verif.Props.Quaternion
import Verif.Props.AxisAngle
import Verif.Props.Math

/-! # C58: the pose error -/

namespace PK
open Matrix Spec Real

theorem quaternionToMatrix_invert {q : Quat} (hq : q.normSq = 1) :
    quaternionToMatrix (quaternionInvert q) = (quaternionToMatrix q)ᵀ ∧ (quaternionInvert q).normSq = 1 := by
  have e : (quaternionInvert q).normSq = 1 := by
    unfold Quat.normSq quaternionInvert at *; simp only; linarith
  refine ⟨?_, e⟩
  apply m3_ext9 <;> simp only [Matrix.transpose_apply, quaternionToMatrix, e, hq, Matrix.of_apply, Matrix.cons_val] <;>
    simp only [quaternionInvert] <;> ring

/-- the difference quaternion of `delta_pose` -/
theorem diffQuat_spec {R Rt : M3} (h : IsRot R) (ht : IsRot Rt) :
    let q := quaternionMultiply (matrixToQuaternion Rt) (quaternionInvert (matrixToQuaternion R))
    q.normSq = 1 ∧ 0 ≤ q.w ∧ quaternionToMatrix q = Rt * Rᵀ := by
  intro q
  have u := matrixToQuaternion_unit h
  have ut := matrixToQuaternion_unit ht
  obtain ⟨ei, ui⟩ := quaternionToMatrix_invert u
  have ne : ∀ p : Quat, p.normSq = 1 → p ≠ ⟨0, 0, 0, 0⟩ := by
    rintro p hp rfl; simp [Quat.normSq] at hp
  obtain ⟨h1, _, h3⟩ := C36_multiply _ _ (ne _ ut) (ne _ ui)
  refine ⟨?_, h1, ?_⟩
  · obtain ⟨_, h2⟩ := C36_standardize (quaternionRawMultiply (matrixToQuaternion Rt) (quaternionInvert (matrixToQuaternion R)))
    have hr := normSq_rawMul (matrixToQuaternion Rt) (quaternionInvert (matrixToQuaternion R))
    rw [ut, ui, one_mul] at hr
    change (standardizeQuaternion _).normSq = 1
    rcases h2 with h2 | h2 <;> rw [h2]
    · exact hr
    · unfold negQ Quat.normSq at *; simp only; linarith
  · rw [h3, ei, quaternionToMatrix_matrixToQuaternion ht, quaternionToMatrix_matrixToQuaternion h]

/-- a unit quaternion is the rotation about its vector part by twice its half angle -/
theorem quaternionToMatrix_rotAbout {q : Quat} (hq : q.normSq = 1) {k : V3}
    (hk : ∀ i, (![q.x, q.y, q.z] : V3) i = sin (halfAngle q) * k i) (hu : IsUnitV k) :
    quaternionToMatrix q = rotAbout k (2 * halfAngle q) := by
  obtain ⟨h1, _, _, _⟩ := halfAngle_spec hq
  rw [← axisAndAngleToMatrix33_eq_rotAbout]
  have x0 := hk 0; have x1 := hk 1; have x2 := hk 2
  simp only [Matrix.cons_val] at x0 x1 x2
  have hsc := Real.sin_sq_add_cos_sq (halfAngle q)
  have hc := Real.cos_two_mul (halfAngle q)
  have hs := Real.sin_two_mul (halfAngle q)
  unfold IsUnitV at hu
  apply m3_ext9 <;>
   simp only [quaternionToMatrix, hq, axisAndAngleToMatrix33, Matrix.of_apply, Matrix.cons_val, hc, hs, x0, x1, x2, ← h1] <;>
   generalize sin (halfAngle q) = s at * <;> generalize cos (halfAngle q) = c at * <;> grind

theorem rotAngle_quaternionToMatrix {q : Quat} (hq : q.normSq = 1) (hw : 0 ≤ q.w) :
    rotAngle (quaternionToMatrix q) = 2 * halfAngle q ∧ halfAngle q ≤ π / 2 := by
  obtain ⟨h1, h2, h3, h4⟩ := halfAngle_spec hq
  have hpi : halfAngle q ≤ π / 2 := by
    by_contra hc
    have := Real.cos_neg_of_pi_div_two_lt_of_lt (not_le.1 hc) (by linarith [Real.pi_pos])
    linarith
  refine ⟨?_, hpi⟩
  have ht : ((quaternionToMatrix q).trace - 1) / 2 = cos (2 * halfAngle q) := by
    rw [Real.cos_two_mul, h1]
    have hq' := hq
    unfold Quat.normSq at hq'
    simp only [Matrix.trace, Matrix.diag, Fin.sum_univ_three, quaternionToMatrix, hq, Matrix.of_apply, Matrix.cons_val]
    linarith
  rw [rotAngle, ht, Real.arccos_cos (by linarith) (by linarith)]

/-- the rotation vector of a unit quaternion with non-negative real part -/
theorem quaternionToAxisAngle_spec {q : Quat} (hq : q.normSq = 1) (hw : 0 ≤ q.w) :
    ∃ (k : V3) (l : ℝ), IsUnitV k ∧ quaternionToAxisAngle q = (fun i => l * k i) ∧
      quaternionToMatrix q = rotAbout k (2 * halfAngle q) ∧ 2 * halfAngle q ≤ l ∧
      l ≤ (2 * halfAngle q) * (1 + 1e-13) ∧ (1e-6 ≤ 2 * halfAngle q → l = 2 * halfAngle q) := by
  obtain ⟨h1, h2, h3, h4⟩ := halfAngle_spec hq
  obtain ⟨_, hpi⟩ := rotAngle_quaternionToMatrix hq hw
  rcases h3.eq_or_lt with h0 | h0
  · have hv : norm3 ![q.x, q.y, q.z] = 0 := by rw [← h2, ← h0, Real.sin_zero]
    have hv := norm3_eq_zero.1 hv
    have hx : q.x = 0 := congrFun hv 0
    have hy : q.y = 0 := congrFun hv 1
    have hz : q.z = 0 := congrFun hv 2
    refine ⟨![1, 0, 0], 0, by simp [IsUnitV], ?_, ?_, by rw [← h0]; simp, by rw [← h0]; simp, by rw [← h0]; norm_num⟩
    · rw [quaternionToAxisAngle_small h3 (by rw [← h0]; norm_num), hx, hy, hz]
      apply v3_ext <;> simp
    · apply quaternionToMatrix_rotAbout hq _ (by simp [IsUnitV])
      intro i; rw [← h0, Real.sin_zero, zero_mul, hx, hy, hz]; fin_cases i <;> rfl
  · have hpp := Real.pi_pos
    have hs : 0 < sin (halfAngle q) := Real.sin_pos_of_pos_of_lt_pi h0 (by linarith)
    have hn : norm3 ![q.x, q.y, q.z] ≠ 0 := by rw [← h2]; exact hs.ne'
    have hu := dot_unit_of_norm hn
    have hku : IsUnitV (fun i => (![q.x, q.y, q.z] : V3) i / norm3 ![q.x, q.y, q.z]) := by
      unfold IsUnitV; unfold dot at hu; linarith
    have hkm := quaternionToMatrix_rotAbout hq (k := fun i => (![q.x, q.y, q.z] : V3) i / norm3 ![q.x, q.y, q.z])
      (fun i => by rw [h2]; field_simp) hku
    by_cases hb : 1e-6 ≤ 2 * halfAngle q
    · refine ⟨_, 2 * halfAngle q, hku, ?_, hkm, le_rfl, ?_, fun _ => rfl⟩
      · rw [quaternionToAxisAngle_large hb, ← h2]
        apply v3_ext <;> simp <;> field_simp
      · nlinarith
    · have hb := not_le.1 hb
      have hlt : 2 * halfAngle q < 1 := lt_trans hb (by norm_num)
      have hsm : 0 < 0.5 - (2 * halfAngle q) * (2 * halfAngle q) / 48 := by nlinarith
      have hge : sin (halfAngle q) / (0.5 - (2 * halfAngle q) * (2 * halfAngle q) / 48) ≥ 2 * halfAngle q := by
        rw [ge_iff_le, le_div_iff₀ hsm]
        have := sub_cube_le_sin h3
        nlinarith
      refine ⟨_, sin (halfAngle q) / (0.5 - (2 * halfAngle q) * (2 * halfAngle q) / 48), hku, ?_, hkm, hge, ?_,
        fun h => absurd h (not_le.2 hb)⟩
      · rw [quaternionToAxisAngle_small h3 hb, ← h2]
        apply v3_ext <;> simp <;> field_simp
      · rw [div_le_iff₀ hsm]
        have hsl := (Real.sin_lt h0).le
        have hb2 : (2 * halfAngle q) ^ 2 ≤ 1e-12 := by
          calc (2 * halfAngle q) ^ 2 ≤ (1e-6) ^ 2 := pow_le_pow_left₀ (by linarith) hb.le 2
            _ = 1e-12 := by norm_num
        generalize halfAngle q = x at *
        have : x ≤ 2 * x * (1 + 1e-13) * (0.5 - (2 * x) * (2 * x) / 48) := by
          have hh : (1:ℝ) ≤ 2 * (1 + 1e-13) * (0.5 - (2 * x) * (2 * x) / 48) := by
            norm_num at hb2 ⊢; nlinarith
          nlinarith
        linarith

theorem head3_cat (a b : V3) : head3 (cat33 a b) = a := by apply v3_ext <;> rfl
theorem tail3_cat (a b : V3) : tail3 (cat33 a b) = b := by apply v3_ext <;> rfl

theorem cat33_eq_zero {a b : V3} : cat33 a b = 0 ↔ a = 0 ∧ b = 0 := by
  constructor
  · intro h
    exact ⟨by rw [← head3_cat a b, h]; apply v3_ext <;> rfl, by rw [← tail3_cat a b, h]; apply v3_ext <;> rfl⟩
  · rintro ⟨rfl, rfl⟩; ext i; fin_cases i <;> rfl

/-- rotation part of the error for rigid poses -/
theorem deltaPose_rot {m t : M4} (hm : IsRigid m) (ht : IsRigid t) :
    let v := tail3 (deltaPose m (posPart t) (matrixToQuaternion (rotPart t)))
    let θ := rotAngle (rotPart t * (rotPart m)ᵀ)
    ∃ (k : V3) (l : ℝ), IsUnitV k ∧ v = (fun i => l * k i) ∧ rotAbout k θ * rotPart m = rotPart t ∧
      θ ≤ l ∧ l ≤ θ * (1 + 1e-13) ∧ (1e-6 ≤ θ → l = θ) ∧ 0 ≤ θ ∧ θ ≤ π := by
  intro v θ
  obtain ⟨h1, h2, h3⟩ := diffQuat_spec hm.1 ht.1
  have hm1 : IsRot (rotPart m) := hm.1
  obtain ⟨e, hpi⟩ := rotAngle_quaternionToMatrix h1 h2
  obtain ⟨k, l, k1, k2, k3, k4, k5, k6⟩ := quaternionToAxisAngle_spec h1 h2
  have hθ : θ = 2 * halfAngle (quaternionMultiply (matrixToQuaternion fun i j => t i.castSucc j.castSucc)
      (quaternionInvert (matrixToQuaternion fun i j => m i.castSucc j.castSucc))) := by
    rw [← e, h3]; rfl
  obtain ⟨_, _, h0, _⟩ := halfAngle_spec h1
  refine ⟨k, l, k1, ?_, ?_, by rw [hθ]; exact k4, by rw [hθ]; exact k5, by rw [hθ]; exact k6,
    by rw [hθ]; linarith, by rw [hθ]; linarith⟩
  · exact (tail3_cat (fun i => posPart t i - posPart m i) _).trans k2
  · rw [hθ, ← k3, h3]
    change rotPart t * (rotPart m)ᵀ * rotPart m = rotPart t
    rw [Matrix.mul_assoc, hm1.transpose_mul, Matrix.mul_one]

theorem rigid_ext {m t : M4} (hm : IsRigid m) (ht : IsRigid t) (hr : rotPart m = rotPart t) (hp : posPart m = posPart t) :
    m = t := by
  ext i j
  fin_cases i
  all_goals fin_cases j
  all_goals first
    | exact congrFun (congrFun hr 0) 0 | exact congrFun (congrFun hr 0) 1 | exact congrFun (congrFun hr 0) 2
    | exact congrFun (congrFun hr 1) 0 | exact congrFun (congrFun hr 1) 1 | exact congrFun (congrFun hr 1) 2
    | exact congrFun (congrFun hr 2) 0 | exact congrFun (congrFun hr 2) 1 | exact congrFun (congrFun hr 2) 2
    | exact congrFun hp 0 | exact congrFun hp 1 | exact congrFun hp 2
    | exact (congrFun (hm.2.trans ht.2.symm) _)

/-- C58: for rigid poses the position part of the error is the difference of positions, and the rotation part points
along the axis of the rotation taking the current orientation to the target; its length is the angle `θ ∈ [0, π]`
of that rotation, exactly when `θ ≥ 1e-6` or `θ = 0` and up to a relative `1e-13` below. -/
theorem C58_delta_pose (m t : M4) (hm : IsRigid m) (ht : IsRigid t) :
    let dx := deltaPose m (posPart t) (matrixToQuaternion (rotPart t))
    let v := tail3 dx
    let θ := rotAngle (rotPart t * (rotPart m)ᵀ)
    (∀ i, head3 dx i = posPart t i - posPart m i) ∧
    (∃ k : V3, IsUnitV k ∧ v = (fun i => vlen v * k i) ∧ rotAbout k θ * rotPart m = rotPart t) ∧
    θ ≤ vlen v ∧ vlen v ≤ θ * (1 + 1e-13) ∧ (1e-6 ≤ θ → vlen v = θ) ∧ 0 ≤ θ ∧ θ ≤ π := by
  intro dx v θ
  obtain ⟨k, l, k1, k2, k3, k4, k5, k6, k7, k8⟩ := deltaPose_rot hm ht
  have hl : vlen v = l := by
    have hk : norm3 k = 1 := by
      unfold IsUnitV at k1
      rw [← vlen_eq_norm3, vlen, k1, Real.sqrt_one]
    rw [vlen_eq_norm3, show v = _ from k2, norm3_smul, hk, mul_one, abs_of_nonneg (le_trans k7 k4)]
  refine ⟨fun i => ?_, ⟨k, k1, by rw [hl]; exact k2, k3⟩, by rw [hl]; exact k4, by rw [hl]; exact k5,
    by rw [hl]; exact k6, k7, k8⟩
  have : head3 dx = fun i => posPart t i - posPart m i :=
    head3_cat (fun i => posPart t i - posPart m i) (quaternionToAxisAngle _)
  rw [this]

/-- C58: the error vanishes exactly at the target. -/
theorem C58_zero_iff (m t : M4) (hm : IsRigid m) (ht : IsRigid t) :
    deltaPose m (posPart t) (matrixToQuaternion (rotPart t)) = 0 ↔ m = t := by
  obtain ⟨h1, ⟨k, k1, k2, k3⟩, h2, h3, _, h5, h6⟩ := C58_delta_pose m t hm ht
  have hcat : deltaPose m (posPart t) (matrixToQuaternion (rotPart t)) =
    cat33 (head3 (deltaPose m (posPart t) (matrixToQuaternion (rotPart t))))
      (tail3 (deltaPose m (posPart t) (matrixToQuaternion (rotPart t)))) := by ext i; fin_cases i <;> rfl
  have hz : ∀ k, rotAbout k 0 = 1 := by
    intro k; rw [← axisAndAngleToMatrix33_eq_rotAbout, axisAndAngle_zero]
  constructor
  · intro h
    rw [h] at h1 h2
    have hv : vlen (tail3 (0 : Fin 6 → ℝ)) = 0 := by simp [vlen, tail3]
    rw [hv] at h2
    have hθ := le_antisymm h2 h5
    rw [hθ, hz, Matrix.one_mul] at k3
    refine rigid_ext hm ht k3 ?_
    ext i
    have := h1 i
    have h0 : head3 (0 : Fin 6 → ℝ) i = 0 := by fin_cases i <;> rfl
    rw [h0] at this
    linarith
  · rintro rfl
    have hθ : rotAngle (rotPart m * (rotPart m)ᵀ) = 0 := by
      have hr : IsRot (rotPart m) := hm.1
      rw [hr.mul_transpose, rotAngle, Matrix.trace_one]
      norm_num
    rw [hθ, zero_mul] at h3
    rw [hcat, cat33_eq_zero]
    refine ⟨funext fun i => by rw [h1]; simp, ?_⟩
    have : vlen (tail3 (deltaPose m (posPart m) (matrixToQuaternion (rotPart m)))) = 0 :=
      le_antisymm h3 (Real.sqrt_nonneg _)
    rw [k2, this]; ext i; simp

/-- a quarter turn about z with an offset -/
example : IsRigid !![0, -1, 0, 2; 1, 0, 0, 3; 0, 0, 1, -1; 0, 0, 0, 1] := by
  refine ⟨?_, rfl⟩
  have : (fun i j : Fin 3 => (!![0, -1, 0, 2; 1, 0, 0, 3; 0, 0, 1, -1; 0, 0, 0, 1] : M4) i.castSucc j.castSucc) =
      (!![0, -1, 0; 1, 0, 0; 0, 0, 1] : M3) := by ext i j; fin_cases i <;> fin_cases j <;> rfl
  rw [this]
  apply isRot_of_eqs <;> simp [Matrix.det_fin_three]

end PK
