import Verif.Model.FloatRelAngle
import Verif.Lemmas.Angle
import Verif.Props.FloatSo3

/-!
# C147: accuracy of `so3_relative_angle`
-/

namespace PK
open Spec Matrix

/-- the cosine of the angle of a rotation -/
theorem rot_cos {R : M3} (h : IsRot R) : R 0 0 + R 1 1 + R 2 2 = 1 + 2 * Real.cos (rotAngle R) := by
  obtain ⟨q, hq, -, rfl⟩ := exists_quat h
  have ht : (quaternionToMatrix q).trace = 4 * q.w ^ 2 - 1 := by
    have hq' := hq
    unfold Quat.normSq at hq'
    simp only [Matrix.trace, Matrix.diag, Fin.sum_univ_three, quaternionToMatrix, hq, Matrix.of_apply, Matrix.cons_val]
    linarith
  have hw : q.w ^ 2 ≤ 1 := by
    have hq' := hq
    unfold Quat.normSq at hq'
    nlinarith [sq_nonneg q.x, sq_nonneg q.y, sq_nonneg q.z]
  have e : quaternionToMatrix q 0 0 + quaternionToMatrix q 1 1 + quaternionToMatrix q 2 2 = (quaternionToMatrix q).trace := by
    rw [Matrix.trace, Fin.sum_univ_three]; rfl
  rw [e, rotAngle_quat hq, Real.cos_arccos (by nlinarith [sq_nonneg q.w]) (by linarith), ht]
  ring

/-- the trace test passes on a batch of near rotations -/
theorem trace_accepted (m : LogMachine) {N : ℕ} {g : ℝ} (hu : m.u ≤ g) (h0 : 0 ≤ g) (h1 : g ≤ 5e-6) {R U : Fin N → M3}
    (hU : ∀ n, IsRot (U n)) (hR : ∀ n i j, |R n i j - U n i j| ≤ g) :
    ¬ ∃ n, rotTraceFl m.toMachine (R n) < m.rnd (-1 - 1e-4) ∨ m.rnd (3 + 1e-4) < rotTraceFl m.toMachine (R n) := by
  rintro ⟨n, hn⟩
  have ht := rotTrace_near m hu h0 h1 (hR n) (isRot_entry (hU n))
  rw [rot_cos (hU n)] at ht
  rcases hn with hn | hn
  · have e : m.rnd (-1 - 1e-4) = -m.rnd (1 + 1e-4) := by rw [← m.rnd_neg]; congr 1; ring
    rw [e] at hn
    obtain ⟨z1, _⟩ := rnd_betweenL m hu h0 h1 (x := 1 + 1e-4) (a := 1 + 0.9e-4) (b := 1.1) (by norm_num) (by norm_num) (by norm_num)
    have := (abs_le.1 ht).1
    have := Real.neg_one_le_cos (rotAngle (U n))
    norm_num at *; linarith
  · obtain ⟨z1, _⟩ := rnd_betweenL m hu h0 h1 (x := 3 + 1e-4) (a := 3 + 0.8e-4) (b := 3.1) (by norm_num) (by norm_num) (by norm_num)
    have := (abs_le.1 ht).2
    have := Real.cos_le_one (rotAngle (U n))
    norm_num at *; linarith

/-- the computed product of a near rotation with the transpose of another -/
theorem relFl_near (m : LogMachine) {τ η : ℝ} (hγ : m.γ ≤ τ) (h0 : 0 ≤ τ) (hsmall : η + τ ≤ 7e-7) {R1 R2 U1 U2 : M3}
    (hU1 : IsRot U1) (hU2 : IsRot U2) (h1 : ∀ i j, |R1 i j - U1 i j| ≤ η) (h2 : ∀ i j, |R2 i j - U2 i j| ≤ η) (i j : Fin 3) :
    |mul3Fl m.toMachine R1 R2ᵀ i j - (U1 * U2ᵀ) i j| ≤ 6.1 * η + 3.1 * τ := by
  have η0 := (abs_nonneg _).trans (h1 0 0)
  refine (mul3Fl_near m.toMachine h1 (B' := R2ᵀ) (B := U2ᵀ) (fun i j => h2 j i) (isRot_entry hU1) (isRot_entry hU2.transpose) i j).trans ?_
  have hη : η ≤ 1 / 1000 := by norm_num at *; linarith
  have ηη : η * η ≤ 1 / 1000 * η := mul_le_mul_of_nonneg_right hη η0
  have γ0 := m.γ_nonneg
  have k : m.γ * ((1 + η) * (1 + η)) ≤ τ * 1.01 := mul_le_mul hγ (by norm_num at *; nlinarith) (by positivity) h0
  norm_num at *; linarith

/-- C147: `so3_relative_angle` with `cos_angle=True` accepts near rotations and returns the cosine of the angle between them up to
`38 η + 20 τ`, whatever the angle -/
theorem C147_cosine (m : LogMachine) {τ η : ℝ} (hu : m.u ≤ τ) (hγ : m.γ ≤ τ) (h0 : 0 ≤ τ) (hsmall : η + τ ≤ 7e-7) {N : ℕ}
    {R1 R2 U1 U2 : Fin N → M3} (hU1 : ∀ n, IsRot (U1 n)) (hU2 : ∀ n, IsRot (U2 n)) (h1 : ∀ n i j, |R1 n i j - U1 n i j| ≤ η)
    (h2 : ∀ n i j, |R2 n i j - U2 n i j| ≤ η) (hη : 0 ≤ η) :
    ∃ c, so3RelativeAngleFl m R1 R2 true = .ok c ∧ ∀ n, |c n - Real.cos (rotAngle (U1 n * (U2 n)ᵀ))| ≤ 38 * η + 20 * τ := by
  obtain ⟨g, hg⟩ : ∃ g, g = 6.1 * η + 3.1 * τ := ⟨_, rfl⟩
  have g0 : 0 ≤ g := by rw [hg]; positivity
  have g1 : g ≤ 5e-6 := by norm_num at *; linarith
  have ug : m.u ≤ g := by norm_num at *; linarith
  have hR : ∀ n i j, |mul3Fl m.toMachine (R1 n) (R2 n)ᵀ i j - (U1 n * (U2 n)ᵀ) i j| ≤ g := fun n i j => by
    rw [hg]; exact relFl_near m hγ h0 hsmall (hU1 n) (hU2 n) (h1 n) (h2 n) i j
  have hU : ∀ n, IsRot (U1 n * (U2 n)ᵀ) := fun n => (hU1 n).mul (hU2 n).transpose
  unfold so3RelativeAngleFl so3RotationCosFl
  simp only [if_true]
  rw [if_neg (trace_accepted m ug g0 g1 hU hR)]
  refine ⟨_, rfl, fun n => ?_⟩
  have ht := rotTrace_near m ug g0 g1 (hR n) (isRot_entry (hU n))
  rw [rot_cos (hU n)] at ht
  refine (rotCos_near m ug g0 g1 ht (Real.abs_cos_le_one _)).trans ?_
  rw [hg]; norm_num; linarith

/-- C147: with `cos_angle=False` the result is the angle itself, up to `(140 η + 72 τ) / sin φ` for angles `φ` from 0.02 to `π - 0.02`;
below 0.02 it is between 0.004 and 0.022, because of the linear extension of the arccos -/
theorem C147_angle (m : LogMachine) {τ η : ℝ} (hu : m.u ≤ τ) (hκ : m.κ ≤ τ) (hγ : m.γ ≤ τ) (h0 : 0 ≤ τ) (hsmall : η + τ ≤ 7e-7) {N : ℕ}
    {R1 R2 U1 U2 : Fin N → M3} (hU1 : ∀ n, IsRot (U1 n)) (hU2 : ∀ n, IsRot (U2 n)) (h1 : ∀ n i j, |R1 n i j - U1 n i j| ≤ η)
    (h2 : ∀ n i j, |R2 n i j - U2 n i j| ≤ η) (hη : 0 ≤ η) {φ : Fin N → ℝ} (hφ : ∀ n, φ n = rotAngle (U1 n * (U2 n)ᵀ)) :
    ∃ r, so3RelativeAngleFl m R1 R2 false = .ok r ∧ ∀ n,
      (0.02 ≤ φ n → φ n ≤ Real.pi - 0.02 → |r n - φ n| ≤ (140 * η + 72 * τ) / Real.sin (φ n)) ∧
      (φ n ≤ 0.02 → 0.004 ≤ r n ∧ r n ≤ 0.022) := by
  have hpi := Real.pi_gt_three
  have hpi' := Real.pi_lt_d2
  obtain ⟨g, hg⟩ : ∃ g, g = 6.1 * η + 3.1 * τ := ⟨_, rfl⟩
  have g0 : 0 ≤ g := by rw [hg]; positivity
  have g1 : g ≤ 5e-6 := by norm_num at *; linarith
  have ug : m.u ≤ g := by norm_num at *; linarith
  have κg : m.κ ≤ g := by norm_num at *; linarith
  have hR : ∀ n i j, |mul3Fl m.toMachine (R1 n) (R2 n)ᵀ i j - (U1 n * (U2 n)ᵀ) i j| ≤ g := fun n i j => by
    rw [hg]; exact relFl_near m hγ h0 hsmall (hU1 n) (hU2 n) (h1 n) (h2 n) i j
  have hU : ∀ n, IsRot (U1 n * (U2 n)ᵀ) := fun n => (hU1 n).mul (hU2 n).transpose
  unfold so3RelativeAngleFl so3RotationAngleFl
  simp only [Bool.false_eq_true, if_false]
  rw [if_neg (trace_accepted m ug g0 g1 hU hR)]
  refine ⟨_, rfl, fun n => ?_⟩
  have ht := rotTrace_near m ug g0 g1 (hR n) (isRot_entry (hU n))
  rw [rot_cos (hU n), ← hφ n] at ht
  have hc := rotCos_near m ug g0 g1 ht (Real.abs_cos_le_one _)
  obtain ⟨c, hcd⟩ : ∃ c, c = m.rnd (m.rnd (rotTraceFl m.toMachine (mul3Fl m.toMachine (R1 n) (R2 n)ᵀ) - 1) * 0.5) := ⟨_, rfl⟩
  beta_reduce
  rw [← hcd] at hc ⊢
  have hcn := abs_le.1 hc
  have f0 : 0 ≤ φ n := by rw [hφ]; exact rotAngle_nonneg _
  constructor
  · intro hs hs'
    have hSb : 0.0199 ≤ Real.sin (φ n) := by
      have b1 : Real.sin 0.02 ≤ Real.sin (φ n) := by
        rcases le_total (φ n) (Real.pi / 2) with h | h
        · exact Real.sin_le_sin_of_le_of_le_pi_div_two (by norm_num; linarith) h hs
        · rw [← Real.sin_pi_sub (φ n)]
          exact Real.sin_le_sin_of_le_of_le_pi_div_two (by norm_num; linarith) (by linarith) (by linarith)
      have b2 : (0.02 : ℝ) - 0.02 ^ 3 / 6 ≤ Real.sin 0.02 := sub_cube_le_sin (by norm_num)
      norm_num at *; linarith
    have hSp : 0 < Real.sin (φ n) := lt_of_lt_of_le (by norm_num) hSb
    have hcb : |Real.cos (φ n)| ≤ 1 - 1.9e-4 := by
      have hsc := Real.cos_sq' (φ n)
      apply abs_le_of_sq_le_sq _ (by norm_num)
      have h2 := pow_le_pow_left₀ (by norm_num) hSb 2
      rw [hsc]
      norm_num at h2 ⊢; linarith only [h2]
    have hcb' := abs_le.1 hcb
    have hc1 : |c| ≤ 1 := by rw [abs_le]; norm_num at *; constructor <;> linarith
    obtain ⟨z1, z2⟩ := rnd_betweenL m ug g0 g1 (x := 1 - 1e-4) (a := 0.999894) (b := 0.999906) (by norm_num) (by norm_num) (by norm_num)
    have hφe : acosExtrapFl m (1 - 1e-4) c = m.acos c := by
      unfold acosExtrapFl
      rw [if_neg (by rw [m.rnd_neg]; push Not; norm_num at *; linarith), if_neg (by push Not; norm_num at *; linarith)]
    rw [hφe]
    have e1 := arccos_near hc1 f0 (by linarith) hSp hc
    have e2 : m.κ * Real.arccos c ≤ τ * Real.pi := mul_le_mul hκ (Real.arccos_le_pi c) (Real.arccos_nonneg c) h0
    have e3 := (abs_sub_le _ _ _).trans (add_le_add ((m.acos_err c hc1).trans e2) e1)
    refine e3.trans ?_
    have e4 : τ ≤ τ / Real.sin (φ n) := by
      rw [le_div_iff₀ hSp]; exact mul_le_of_le_one_right h0 (Real.sin_le_one _)
    have q1 : 0 ≤ τ / Real.sin (φ n) := div_nonneg h0 hSp.le
    have q2 : 0 ≤ η / Real.sin (φ n) := div_nonneg hη hSp.le
    have e5 : 6.2 * g / Real.sin (φ n) = 37.82 * (η / Real.sin (φ n)) + 19.22 * (τ / Real.sin (φ n)) := by rw [hg]; ring
    have e6 : (140 * η + 72 * τ) / Real.sin (φ n) = 140 * (η / Real.sin (φ n)) + 72 * (τ / Real.sin (φ n)) := by ring
    rw [e5, e6]
    have e7 : Real.pi * (37.82 * (η / Real.sin (φ n)) + 19.22 * (τ / Real.sin (φ n))) ≤
        3.15 * (37.82 * (η / Real.sin (φ n)) + 19.22 * (τ / Real.sin (φ n))) := mul_le_mul_of_nonneg_right hpi'.le (by positivity)
    have e8 : τ * Real.pi ≤ τ * 3.15 := mul_le_mul_of_nonneg_left hpi'.le h0
    norm_num at *; linarith
  · intro hs
    have hcos : 1 - 2e-4 ≤ Real.cos (φ n) := by
      refine le_trans ?_ (Real.one_sub_sq_div_two_le_cos)
      have := pow_le_pow_left₀ f0 hs 2
      norm_num at *; linarith
    exact acosExtrap_small m ug g0 g1 κg (x := c) (by norm_num at *; linarith)
      (by have := Real.cos_le_one (φ n); norm_num at *; linarith)

/-- C147 in a binary format with `q ≥ 24` bits, for matrices within 4 units of the last place of rotations -/
theorem C147_precision (q : ℕ) (hq : 24 ≤ q) {N : ℕ} {R1 R2 U1 U2 : Fin N → M3} (hU1 : ∀ n, IsRot (U1 n)) (hU2 : ∀ n, IsRot (U2 n))
    (h1 : ∀ n i j, |R1 n i j - U1 n i j| ≤ 4 / 2 ^ q) (h2 : ∀ n i j, |R2 n i j - U2 n i j| ≤ 4 / 2 ^ q) {φ : Fin N → ℝ}
    (hφ : ∀ n, φ n = rotAngle (U1 n * (U2 n)ᵀ)) :
    ∃ r, so3RelativeAngleFl (binaryLog q (by omega)) R1 R2 false = .ok r ∧
      ∀ n, 0.02 ≤ φ n → φ n ≤ Real.pi - 0.02 → |r n - φ n| ≤ 920 / 2 ^ q / Real.sin (φ n) := by
  obtain ⟨hU, hK, hG⟩ := binaryLog_u q (by omega)
  have h0 : (0 : ℝ) ≤ 1 / 2 ^ q := by positivity
  have hl : (1 : ℝ) / 2 ^ q ≤ 1 / 2 ^ 24 := one_div_le_one_div_of_le (by positivity) (pow_le_pow_right₀ (by norm_num) hq)
  have e4 : (4 : ℝ) / 2 ^ q = 4 * (1 / 2 ^ q) := by ring
  obtain ⟨r, e, hr⟩ := C147_angle (binaryLog q (by omega)) (τ := 5 * (1 / 2 ^ q)) (η := 4 / 2 ^ q) (by rw [hU]; linarith)
    (by rw [hK]; linarith) hG (by linarith) (by rw [e4]; norm_num at *; linarith) hU1 hU2 h1 h2 (by positivity) hφ
  refine ⟨r, e, fun n a b => ((hr n).1 a b).trans (le_of_eq ?_)⟩
  ring

/-- the identity and a quarter turn, whose relative angle has cosine 0 -/
example : IsRot (rotAbout ![0, 0, 1] (Real.pi / 2)) ∧
    Real.cos (rotAngle (1 * (rotAbout ![0, 0, 1] (Real.pi / 2))ᵀ)) = 0 ∧ IsRot (1 : M3) := by
  have hk : IsUnitV ![0, 0, 1] := by simp [IsUnitV]
  have h := isRot_rotAbout hk (Real.pi / 2)
  refine ⟨h, ?_, isRot_one⟩
  have e := rot_cos (isRot_one.mul h.transpose)
  have t := rotAbout_trace hk (Real.pi / 2)
  rw [Real.cos_pi_div_two] at t
  rw [one_mul] at e ⊢
  simp only [Matrix.transpose_apply] at e
  linarith

end PK
