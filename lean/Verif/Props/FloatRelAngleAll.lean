import Verif.Props.FloatRelAngleReject

/-!
# C147: relative angles near a half turn, and a bound for every pair of rotations
-/

namespace PK
open Spec Matrix

/-- near a half turn the extended arccos is a number around `π - 0.01` -/
theorem acosExtrap_large (m : LogMachine) {g x : ℝ} (hu : m.u ≤ g) (h0 : 0 ≤ g) (h1 : g ≤ 5e-6) (hκ : m.κ ≤ g)
    (hx1 : x ≤ -(1 - 2.32e-4)) (hx2 : -(1 + 3.2e-5) ≤ x) :
    Real.pi - 0.022 ≤ acosExtrapFl m (1 - 1e-4) x ∧ acosExtrapFl m (1 - 1e-4) x ≤ Real.pi - 0.004 := by
  have hpi := Real.pi_gt_three
  have hpi' := Real.pi_lt_d2
  obtain ⟨b1, b2⟩ := rnd_betweenL m hu h0 h1 (x := 1 - 1e-4) (a := 0.999894) (b := 0.999906) (by norm_num) (by norm_num) (by norm_num)
  unfold acosExtrapFl
  split_ifs with h h'
  · obtain ⟨q1, q2⟩ := bandAngle_bounds
    obtain ⟨s1, s2⟩ := sqrt_bound
    unfold acosLinearFl
    have hb : Real.arccos (-(1 - 1e-4)) = Real.pi - bandAngle := Real.arccos_neg _
    rw [hb]
    obtain ⟨r1, r2⟩ := rnd_betweenL m hu h0 h1 (x := Real.pi - bandAngle) (a := Real.pi - 0.01424) (b := Real.pi - 0.01406)
      (by norm_num at *; linarith) (by norm_num at *; linarith) (by norm_num at *; linarith)
    rw [m.rnd_neg] at h ⊢
    have hd : x - -m.rnd (1 - 1e-4) = -(-x - m.rnd (1 - 1e-4)) := by ring
    rw [hd, m.rnd_neg]
    obtain ⟨d1, d2⟩ := rnd_betweenL m hu h0 h1 (x := -x - m.rnd (1 - 1e-4)) (a := 0) (b := 1.39e-4) (by linarith)
      (by norm_num at *; linarith) (by norm_num at *; linarith)
    have hD : dacosDx (-(1 - 1e-4)) = -(1 / Real.sqrt (1 - (1 - 1e-4) * (1 - 1e-4))) := by
      unfold dacosDx; rw [neg_mul_neg]; ring
    rw [hD, m.rnd_neg]
    generalize Real.sqrt (1 - (1 - 1e-4) * (1 - 1e-4)) = s at *
    have hs : 0 < s := lt_of_lt_of_le (by norm_num) s1
    have i1 : 1 / s ≤ 71 := by rw [div_le_iff₀ hs]; norm_num at *; linarith
    have i0 : 0 < 1 / s := by positivity
    obtain ⟨e1, e2⟩ := rnd_betweenL m hu h0 h1 (x := 1 / s) (a := 0) (b := 71.1) i0.le (by norm_num at *; linarith)
      (by norm_num at *; linarith)
    rw [neg_mul_neg]
    have p0 : 0 ≤ m.rnd (-x - m.rnd (1 - 1e-4)) * m.rnd (1 / s) := mul_nonneg d1 e1
    have p1 : m.rnd (-x - m.rnd (1 - 1e-4)) * m.rnd (1 / s) ≤ 1.39e-4 * 71.1 := mul_le_mul d2 e2 e1 (by norm_num)
    obtain ⟨f1, f2⟩ := rnd_betweenL m hu h0 h1 (a := 0) (b := 0.0099) p0 (by norm_num at *; linarith) (by norm_num at *; linarith)
    generalize m.rnd (m.rnd (-x - m.rnd (1 - 1e-4)) * m.rnd (1 / s)) = y at *
    generalize m.rnd (Real.pi - bandAngle) = z at *
    exact rnd_betweenL m hu h0 h1 (x := y + z) (by norm_num at *; linarith) (by norm_num at *; linarith) (by norm_num at *; linarith)
  · exfalso; norm_num at *; linarith
  · push Not at h
    rw [m.rnd_neg] at h
    have hx : -0.999906 ≤ x := by linarith
    have hxa : |x| ≤ 1 := by rw [abs_le]; constructor <;> norm_num at * <;> linarith
    have hn : Real.arccos x = Real.pi - Real.arccos (-x) := by rw [Real.arccos_neg]; ring
    have l1 : 0.0136 ≤ Real.arccos (-x) := by
      rw [← Real.arccos_cos (x := 0.0136) (by norm_num) (by norm_num; linarith)]
      apply Real.arccos_le_arccos
      have := Real.one_sub_sq_div_two_le_cos (x := 0.0136)
      norm_num at this hx ⊢; linarith
    have l2 : Real.arccos (-x) ≤ 0.0217 := by
      rw [← Real.arccos_cos (x := 0.0217) (by norm_num) (by norm_num; linarith)]
      apply Real.arccos_le_arccos
      have := Real.cos_bound (x := 0.0217) (by rw [abs_of_pos] <;> norm_num)
      rw [abs_of_pos (a := (0.0217 : ℝ)) (by norm_num)] at this
      have := (abs_le.1 this).2
      norm_num at this hx1 ⊢; linarith
    have h2 := abs_le.1 (m.acos_err x hxa)
    have h3 : m.κ * Real.arccos x ≤ 5e-6 * 3.15 :=
      mul_le_mul (hκ.trans h1) ((Real.arccos_le_pi x).trans hpi'.le) (Real.arccos_nonneg x) (by norm_num)
    norm_num at *
    constructor <;> linarith

/-- C147: for angles from `π - 0.02` on, the result is between `π - 0.022` and `π - 0.004` -/
theorem C147_half_turn (m : LogMachine) {τ η : ℝ} (hu : m.u ≤ τ) (hκ : m.κ ≤ τ) (hγ : m.γ ≤ τ) (h0 : 0 ≤ τ) (hsmall : η + τ ≤ 7e-7)
    {N : ℕ} {R1 R2 U1 U2 : Fin N → M3} (hU1 : ∀ n, IsRot (U1 n)) (hU2 : ∀ n, IsRot (U2 n)) (h1 : ∀ n i j, |R1 n i j - U1 n i j| ≤ η)
    (h2 : ∀ n i j, |R2 n i j - U2 n i j| ≤ η) (hη : 0 ≤ η) {φ : Fin N → ℝ} (hφ : ∀ n, φ n = rotAngle (U1 n * (U2 n)ᵀ)) :
    ∃ r, so3RelativeAngleFl m R1 R2 false = .ok r ∧ ∀ n, Real.pi - 0.02 ≤ φ n → Real.pi - 0.022 ≤ r n ∧ r n ≤ Real.pi - 0.004 := by
  obtain ⟨g, hg⟩ : ∃ g, g = 6.1 * η + 3.1 * τ := ⟨_, rfl⟩
  have g0 : 0 ≤ g := by rw [hg]; positivity
  have g1 : g ≤ 5e-6 := by norm_num at *; linarith
  have ug : m.u ≤ g := by norm_num at *; linarith
  have κg : m.κ ≤ g := by norm_num at *; linarith
  have hR : ∀ n i j, |mul3Fl m.toMachine (R1 n) (R2 n)ᵀ i j - (U1 n * (U2 n)ᵀ) i j| ≤ g := fun n i j => by
    rw [hg]; exact relFl_near m hγ h0 hsmall (hU1 n) (hU2 n) (h1 n) (h2 n) i j
  have hU : ∀ n, IsRot (U1 n * (U2 n)ᵀ) := fun n => (hU1 n).mul (hU2 n).transpose
  unfold so3RelativeAngleFl so3RotationAngleFl
  simp only [Bool.false_eq_true, if_false]
  rw [if_neg (trace_accepted m ug g0 g1 hU hR)]
  refine ⟨_, rfl, fun n hs => ?_⟩
  have ht := rotTrace_near m ug g0 g1 (hR n) (isRot_entry (hU n))
  rw [rot_cos (hU n), ← hφ n] at ht
  have hcn := abs_le.1 (rotCos_near m ug g0 g1 ht (Real.abs_cos_le_one _))
  have fp : φ n ≤ Real.pi := by rw [hφ]; exact rotAngle_le_pi _
  have hcos : Real.cos (φ n) ≤ -(1 - 2e-4) := by
    have e : Real.cos (φ n) = -Real.cos (Real.pi - φ n) := by rw [Real.cos_pi_sub, neg_neg]
    rw [e]
    have k := Real.one_sub_sq_div_two_le_cos (x := Real.pi - φ n)
    have := pow_le_pow_left₀ (by linarith) (show Real.pi - φ n ≤ 0.02 by linarith) 2
    norm_num at *; linarith
  exact acosExtrap_large m ug g0 g1 κg (by norm_num at *; linarith)
    (by have := Real.neg_one_le_cos (φ n); norm_num at *; linarith)

/-- C147: for every batch of near rotations, the computed relative angle is between 0.004 and `π - 0.004` and within 0.022 of the exact one -/
theorem C147_every_pair (m : LogMachine) {τ η : ℝ} (hu : m.u ≤ τ) (hκ : m.κ ≤ τ) (hγ : m.γ ≤ τ) (h0 : 0 ≤ τ) (hsmall : η + τ ≤ 7e-7)
    {N : ℕ} {R1 R2 U1 U2 : Fin N → M3} (hU1 : ∀ n, IsRot (U1 n)) (hU2 : ∀ n, IsRot (U2 n)) (h1 : ∀ n i j, |R1 n i j - U1 n i j| ≤ η)
    (h2 : ∀ n i j, |R2 n i j - U2 n i j| ≤ η) (hη : 0 ≤ η) {φ : Fin N → ℝ} (hφ : ∀ n, φ n = rotAngle (U1 n * (U2 n)ᵀ)) :
    ∃ r, so3RelativeAngleFl m R1 R2 false = .ok r ∧ ∀ n, |r n - φ n| ≤ 0.022 ∧ 0.004 ≤ r n ∧ r n ≤ Real.pi - 0.004 := by
  have hpi := Real.pi_gt_three
  obtain ⟨r, e, hr⟩ := C147_angle m hu hκ hγ h0 hsmall hU1 hU2 h1 h2 hη hφ
  obtain ⟨r', e', hr'⟩ := C147_half_turn m hu hκ hγ h0 hsmall hU1 hU2 h1 h2 hη hφ
  obtain rfl : r = r' := Except.ok.inj (e.symm.trans e')
  refine ⟨r, e, fun n => ?_⟩
  have f0 : 0 ≤ φ n := by rw [hφ]; exact rotAngle_nonneg _
  have fp : φ n ≤ Real.pi := by rw [hφ]; exact rotAngle_le_pi _
  rcases le_total (φ n) 0.02 with a | a
  · obtain ⟨k1, k2⟩ := (hr n).2 a
    refine ⟨?_, k1, ?_⟩
    · rw [abs_le]; constructor <;> norm_num at * <;> linarith
    · norm_num at *; linarith
  rcases le_total (Real.pi - 0.02) (φ n) with b | b
  · obtain ⟨k1, k2⟩ := hr' n b
    refine ⟨?_, ?_, k2⟩
    · rw [abs_le]; constructor <;> norm_num at * <;> linarith
    · norm_num at *; linarith
  · have hk := (hr n).1 a b
    have hSb : 0.0199 ≤ Real.sin (φ n) := by
      have b1 : Real.sin 0.02 ≤ Real.sin (φ n) := by
        rcases le_total (φ n) (Real.pi / 2) with h | h
        · exact Real.sin_le_sin_of_le_of_le_pi_div_two (by norm_num; linarith) h a
        · rw [← Real.sin_pi_sub (φ n)]
          exact Real.sin_le_sin_of_le_of_le_pi_div_two (by norm_num; linarith) (by linarith) (by linarith)
      have b2 : (0.02 : ℝ) - 0.02 ^ 3 / 6 ≤ Real.sin 0.02 := sub_cube_le_sin (by norm_num)
      norm_num at *; linarith
    have hq : (140 * η + 72 * τ) / Real.sin (φ n) ≤ 0.005 := by
      rw [div_le_iff₀ (lt_of_lt_of_le (by norm_num) hSb)]
      norm_num at *; linarith
    have := abs_le.1 (hk.trans hq)
    refine ⟨?_, ?_, ?_⟩
    · rw [abs_le]; constructor <;> norm_num at * <;> linarith
    · norm_num at *; linarith
    · norm_num at *; linarith

/-- C147: in `float32`, for exact rotations -/
theorem C147_every_pair_float32 {N : ℕ} {U1 U2 : Fin N → M3} (hU1 : ∀ n, IsRot (U1 n)) (hU2 : ∀ n, IsRot (U2 n)) :
    ∃ r, so3RelativeAngleFl (binaryLog 24 (by norm_num)) U1 U2 false = .ok r ∧ ∀ n, |r n - rotAngle (U1 n * (U2 n)ᵀ)| ≤ 0.022 := by
  obtain ⟨hU, hK, hG⟩ := binaryLog_u 24 (by norm_num)
  obtain ⟨r, e, hr⟩ := C147_every_pair (binaryLog 24 (by norm_num)) (τ := 5 * (1 / 2 ^ 24)) (η := 0) (by rw [hU]; norm_num)
    (by rw [hK]; norm_num) hG (by norm_num) (by norm_num) hU1 hU2 (fun n i j => by simp) (fun n i j => by simp) le_rfl
    (R1 := U1) (R2 := U2) (φ := fun n => rotAngle (U1 n * (U2 n)ᵀ)) (fun _ => rfl)
  exact ⟨r, e, fun n => (hr n).1⟩

/-- C147: in `float32` the computed angle between a rotation and itself is at least 0.004, not 0 -/
theorem C147_self_not_zero {N : ℕ} {U : Fin N → M3} (hU : ∀ n, IsRot (U n)) :
    ∃ r, so3RelativeAngleFl (binaryLog 24 (by norm_num)) U U false = .ok r ∧ ∀ n, 0.004 ≤ r n := by
  obtain ⟨hu, hK, hG⟩ := binaryLog_u 24 (by norm_num)
  obtain ⟨r, e, hr⟩ := C147_every_pair (binaryLog 24 (by norm_num)) (τ := 5 * (1 / 2 ^ 24)) (η := 0) (by rw [hu]; norm_num)
    (by rw [hK]; norm_num) hG (by norm_num) (by norm_num) hU hU (fun n i j => by simp) (fun n i j => by simp) le_rfl
    (R1 := U) (R2 := U) (φ := fun n => rotAngle (U n * (U n)ᵀ)) (fun _ => rfl)
  exact ⟨r, e, fun n => (hr n).2.1⟩

end PK
