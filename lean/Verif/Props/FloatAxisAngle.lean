import Verif.Model.FloatAxisAngle
import Verif.Lemmas.MatRound
import Verif.Props.FloatSo3
import Verif.Props.FloatIK

/-!
# C142: accuracy of the conversions of rotation vectors
-/

namespace PK
open Spec Matrix

/-- the factor of the vector part, times the length of the vector, is the sine of half the length -/
theorem a2qFactor_near (m : TrigMachine) {τ : ℝ} (hu : m.u ≤ τ) (hκ : m.κ ≤ τ) (h0 : 0 ≤ τ) (h1 : τ ≤ 1 / 1000)
    {θ N h : ℝ} (hθ : 0 ≤ θ) (hN : |N - θ| ≤ τ * θ) (hh : |h - θ / 2| ≤ 1.01 * (τ * θ)) {f : ℝ}
    (hf : f = open Classical in if |N| < 1e-6 then m.rnd (0.5 - m.rnd (m.rnd (N * N) / 48)) else m.rnd (m.sin h / N)) :
    |θ * f - Real.sin (θ / 2)| ≤ τ * (3.1 + 1.01 * θ) + 3e-19 ∧ |θ * f| ≤ 1.01 := by
  have hτθ : τ * θ ≤ 1 / 1000 * θ := mul_le_mul_of_nonneg_right h1 hθ
  have hτθ0 : 0 ≤ τ * θ := mul_nonneg h0 hθ
  have hr : ∀ x, |m.rnd x - x| ≤ τ * |x| := fun x => (m.rnd_err x).trans (mul_le_mul_of_nonneg_right hu (abs_nonneg x))
  have hN' := abs_le.1 hN
  split_ifs at hf with hs
  · have hNs := abs_lt.1 hs
    have ht : θ ≤ 1.002e-6 := by norm_num at *; linarith
    have q1 : |N * N| ≤ 1e-12 := by
      rw [abs_mul]
      calc |N| * |N| ≤ 1e-6 * 1e-6 := mul_le_mul hs.le hs.le (abs_nonneg _) (by norm_num)
        _ = 1e-12 := by norm_num
    have grow : ∀ {x c : ℝ}, |x| ≤ c → |m.rnd x| ≤ 1.001 * c := fun {x c} hx => by
      have a := hr x
      have b := abs_add_le (m.rnd x - x) x
      rw [sub_add_cancel] at b
      have c' : τ * |x| ≤ 1 / 1000 * |x| := mul_le_mul_of_nonneg_right h1 (abs_nonneg x)
      norm_num at *; linarith
    have q2 := grow q1
    have q3 : |m.rnd (N * N) / 48| ≤ 2.1e-14 := by
      rw [abs_div]; norm_num at q2 ⊢; linarith
    have q4 := grow q3
    have q5 : |0.5 - m.rnd (m.rnd (N * N) / 48) - 0.5| ≤ 2.2e-14 := by
      rw [show (0.5 : ℝ) - m.rnd (m.rnd (N * N) / 48) - 0.5 = -m.rnd (m.rnd (N * N) / 48) by ring, abs_neg]
      norm_num at q4 ⊢; linarith
    have q6 := rnd_near m.toMachine hu q5 (M := 0.5) (by norm_num)
    rw [← hf] at q6
    have q7 : |f - 0.5| ≤ τ + 2.2e-14 := by norm_num at q6 ⊢; linarith
    have q8 := abs_le.1 q7
    have hsin1 : Real.sin (θ / 2) ≤ θ / 2 := Real.sin_le (by linarith)
    have hsin2 : θ / 2 - Real.sin (θ / 2) ≤ 1.6e-19 := by
      rcases hθ.eq_or_lt with rfl | hp
      · norm_num
      have := Real.sin_gt_sub_cube (x := θ / 2) (by linarith)
      have c : (θ / 2) ^ 3 / 6 ≤ 1.6e-19 := by
        have : (θ / 2) ^ 3 ≤ (1.002e-6 / 2) ^ 3 := pow_le_pow_left₀ (by linarith) (by linarith) 3
        norm_num at this ⊢; linarith
      linarith
    have e : θ * f - Real.sin (θ / 2) = θ * (f - 0.5) + (θ / 2 - Real.sin (θ / 2)) := by ring
    have t1 : |θ * (f - 0.5)| ≤ 1.002e-6 * (τ + 2.2e-14) := by
      rw [abs_mul, abs_of_nonneg hθ]; exact mul_le_mul ht q7 (abs_nonneg _) (by norm_num)
    constructor
    · rw [e]
      refine (abs_add_le _ _).trans ?_
      rw [abs_of_nonneg (a := θ / 2 - _) (by linarith)]
      norm_num at *; linarith
    · rw [abs_mul, abs_of_nonneg hθ]
      have : |f| ≤ 1 := by rw [abs_le]; norm_num at *; constructor <;> linarith
      calc θ * |f| ≤ 1.002e-6 * 1 := mul_le_mul ht this (abs_nonneg _) (by norm_num)
        _ ≤ 1.01 := by norm_num
  · have hs : 1e-6 ≤ |N| := not_lt.1 hs
    have hp : 0 < θ := by
      rcases hθ.eq_or_lt with rfl | hp
      · simp at hN; rw [hN] at hs; norm_num at hs
      · exact hp
    have hNp : 0 < N := by linarith
    have r1 : |θ / N - 1| ≤ 1.002 * τ := by
      rw [show θ / N - 1 = (θ - N) / N by field_simp, abs_div, abs_of_pos hNp, div_le_iff₀ hNp, abs_sub_comm]
      refine hN.trans ?_
      have : θ ≤ 1.002 * N := by norm_num; linarith
      calc τ * θ ≤ τ * (1.002 * N) := mul_le_mul_of_nonneg_left this h0
        _ = _ := by ring
    obtain ⟨s, hs'⟩ : ∃ s, s = m.sin h := ⟨_, rfl⟩
    rw [← hs'] at hf
    have s1 : |s - Real.sin h| ≤ τ := by rw [hs']; exact (m.sin_err h).trans hκ
    have s2 : |Real.sin h - Real.sin (θ / 2)| ≤ 1.01 * (τ * θ) := (Real.abs_sin_sub_sin_le _ _).trans hh
    have s3 : |s| ≤ 1.001 := by
      have := abs_add_le (s - Real.sin h) (Real.sin h)
      rw [sub_add_cancel] at this
      have := Real.abs_sin_le_one h
      norm_num; linarith
    have r2 : |θ / N| ≤ 1.002 := by
      have := abs_add_le (θ / N - 1) 1
      rw [sub_add_cancel, abs_one] at this
      norm_num at *; linarith
    have g1 : |s * (θ / N - 1)| ≤ 1.001 * (1.002 * τ) := by
      rw [abs_mul]; exact mul_le_mul s3 r1 (abs_nonneg _) (by norm_num)
    have g2 : |s * (θ / N)| ≤ 1.001 * 1.002 := by
      rw [abs_mul]; exact mul_le_mul s3 r2 (abs_nonneg _) (by norm_num)
    have g3 : |θ * f - s * (θ / N)| ≤ τ * (1.001 * 1.002) := by
      have a := hr (s / N)
      rw [← hf] at a
      have e : θ * f - s * (θ / N) = θ * (f - s / N) := by ring
      rw [e, abs_mul, abs_of_pos hp]
      have e2 : θ * (τ * |s / N|) = τ * |s * (θ / N)| := by
        rw [abs_mul, abs_div, abs_div, abs_of_pos hp]; ring
      exact (mul_le_mul_of_nonneg_left a hθ).trans (e2 ▸ mul_le_mul_of_nonneg_left g2 h0)
    constructor
    · have e : θ * f - Real.sin (θ / 2) = (θ * f - s * (θ / N)) + s * (θ / N - 1) + ((s - Real.sin h) + (Real.sin h - Real.sin (θ / 2))) := by
        ring
      rw [e]
      refine (abs_add_three _ _ _).trans ?_
      have := abs_add_le (s - Real.sin h) (Real.sin h - Real.sin (θ / 2))
      norm_num at *; linarith
    · have := abs_add_le (θ * f - s * (θ / N)) (s * (θ / N))
      rw [sub_add_cancel] at this
      norm_num at *; linarith

/-- C142: `axis_angle_to_quaternion(theta * a)` with rounding is the quaternion of the rotation by `theta` about the unit vector
`a`, up to `τ (5 + 2 θ) + 1e-18` in every component.  The last term is the truncated series that the code uses below `1e-6`. -/
theorem C142_quaternion (m : TrigMachine) {τ : ℝ} (hu : m.u ≤ τ) (hκ : m.κ ≤ τ) (hγ : m.γ ≤ τ) (h0 : 0 ≤ τ) (h1 : τ ≤ 1 / 1000)
    {a : V3} (ha : IsUnitV a) {θ : ℝ} (hθ : 0 ≤ θ) :
    QNear (τ * (5 + 2 * θ) + 1e-18) (axisAngleToQuaternionFl m (θ • a))
      ⟨Real.cos (θ / 2), Real.sin (θ / 2) * a 0, Real.sin (θ / 2) * a 1, Real.sin (θ / 2) * a 2⟩ := by
  have hτθ : τ * θ ≤ 1 / 1000 * θ := mul_le_mul_of_nonneg_right h1 hθ
  have hτθ0 : 0 ≤ τ * θ := mul_nonneg h0 hθ
  have hn3 : norm3 (θ • a) = θ := by
    have h : a 0 ^ 2 + a 1 ^ 2 + a 2 ^ 2 = 1 := ha
    have : dot (θ • a) (θ • a) = θ ^ 2 := by
      simp only [dot, Pi.smul_apply, smul_eq_mul]; linear_combination θ ^ 2 * h
    rw [norm3, this, Real.sqrt_sq hθ]
  obtain ⟨N, hNe⟩ : ∃ N, N = m.norm (θ • a) := ⟨_, rfl⟩
  have hN : |N - θ| ≤ τ * θ := by
    have := m.norm_err (θ • a)
    rw [hn3, ← hNe] at this
    exact this.trans (mul_le_mul_of_nonneg_right hγ hθ)
  obtain ⟨h, hhe⟩ : ∃ h, h = m.rnd (0.5 * N) := ⟨_, rfl⟩
  have hh : |h - θ / 2| ≤ 1.01 * (τ * θ) := by
    have a1 : |0.5 * N - θ / 2| ≤ 0.5 * (τ * θ) := by
      rw [show 0.5 * N - θ / 2 = 0.5 * (N - θ) by ring, abs_mul, abs_of_pos (by norm_num : (0 : ℝ) < 0.5)]
      exact mul_le_mul_of_nonneg_left hN (by norm_num)
    have a2 := rnd_near m.toMachine hu a1 (M := θ / 2) (by rw [abs_of_nonneg (by linarith)])
    rw [← hhe] at a2
    refine a2.trans ?_
    have : τ * (τ * θ) ≤ 1 / 1000 * (τ * θ) := mul_le_mul_of_nonneg_right h1 hτθ0
    norm_num; linarith
  obtain ⟨f, hf⟩ : ∃ f, f = open Classical in if |N| < 1e-6 then m.rnd (0.5 - m.rnd (m.rnd (N * N) / 48)) else m.rnd (m.sin h / N) :=
    ⟨_, rfl⟩
  obtain ⟨F1, F2⟩ := a2qFactor_near m hu hκ h0 h1 hθ hN hh hf
  have hq : axisAngleToQuaternionFl m (θ • a) = ⟨m.cos h, m.rnd ((θ • a) 0 * f), m.rnd ((θ • a) 1 * f), m.rnd ((θ • a) 2 * f)⟩ := by
    rw [hf, hhe, hNe]; rfl
  have hv : ∀ i, |m.rnd ((θ • a) i * f) - Real.sin (θ / 2) * a i| ≤ τ * (5 + 2 * θ) + 1e-18 := fun i => by
    have al := unit_comp_le ha i
    have b1 : |(θ • a) i * f - Real.sin (θ / 2) * a i| ≤ τ * (3.1 + 1.01 * θ) + 3e-19 := by
      rw [Pi.smul_apply, smul_eq_mul, show θ * a i * f - Real.sin (θ / 2) * a i = (θ * f - Real.sin (θ / 2)) * a i by ring, abs_mul]
      exact (mul_le_of_le_one_right (abs_nonneg _) al).trans F1
    have b2 : |(θ • a) i * f| ≤ 1.01 := by
      rw [Pi.smul_apply, smul_eq_mul, show θ * a i * f = θ * f * a i by ring, abs_mul]
      exact (mul_le_of_le_one_right (abs_nonneg _) al).trans F2
    have b3 : |m.rnd ((θ • a) i * f) - (θ • a) i * f| ≤ τ * 1.01 :=
      (m.rnd_err _).trans (mul_le_mul hu b2 (abs_nonneg _) h0)
    have := abs_add_le (m.rnd ((θ • a) i * f) - (θ • a) i * f) ((θ • a) i * f - Real.sin (θ / 2) * a i)
    rw [sub_add_sub_cancel] at this
    norm_num at *; linarith
  rw [hq]
  intro i
  fin_cases i
  · show |m.cos h - Real.cos (θ / 2)| ≤ _
    have a1 := m.cos_err h
    have a2 := Real.abs_cos_sub_cos_le h (θ / 2)
    have := abs_add_le (m.cos h - Real.cos h) (Real.cos h - Real.cos (θ / 2))
    rw [sub_add_sub_cancel] at this
    norm_num at *; linarith
  · exact hv 0
  · exact hv 1
  · exact hv 2

theorem quat_rotAbout {a : V3} (ha : IsUnitV a) (θ : ℝ) :
    quaternionToMatrix ⟨Real.cos (θ / 2), Real.sin (θ / 2) * a 0, Real.sin (θ / 2) * a 1, Real.sin (θ / 2) * a 2⟩ = rotAbout a θ := by
  have h : a 0 ^ 2 + a 1 ^ 2 + a 2 ^ 2 = 1 := ha
  have hc : Real.cos θ = 2 * Real.cos (θ / 2) ^ 2 - 1 := by rw [← Real.cos_two_mul]; congr 1; ring
  have hs : Real.sin θ = 2 * Real.sin (θ / 2) * Real.cos (θ / 2) := by rw [← Real.sin_two_mul]; congr 1; ring
  have hsc := Real.sin_sq_add_cos_sq (θ / 2)
  rw [← axisAndAngleToMatrix33_eq_rotAbout]
  have hu : (⟨Real.cos (θ / 2), Real.sin (θ / 2) * a 0, Real.sin (θ / 2) * a 1, Real.sin (θ / 2) * a 2⟩ : Quat).normSq = 1 := by
    unfold Quat.normSq
    linear_combination Real.sin (θ / 2) ^ 2 * h + hsc
  apply m3_ext9 <;>
   simp only [quaternionToMatrix, hu, axisAndAngleToMatrix33, Matrix.of_apply, Matrix.cons_val, hc, hs] <;>
   clear hu hc hs <;> generalize Real.sin (θ / 2) = s at * <;> generalize Real.cos (θ / 2) = c at * <;> grind

/-- C142: `axis_angle_to_matrix(theta * a)` with rounding is the rotation by `theta` about `a`, up to `τ (63 + 18 θ) + 9e-18` in every
entry -/
theorem C142_matrix (m : TrigMachine) {τ : ℝ} (hu : m.u ≤ τ) (hκ : m.κ ≤ τ) (hγ : m.γ ≤ τ) (h0 : 0 ≤ τ) (h1 : τ ≤ 1 / 1000)
    {a : V3} (ha : IsUnitV a) {θ : ℝ} (hθ : 0 ≤ θ) (h2 : τ * (5 + 2 * θ) ≤ 1 / 100) (i j : Fin 3) :
    |axisAngleToMatrixFl m (θ • a) i j - rotAbout a θ i j| ≤ τ * (63 + 18 * θ) + 9e-18 := by
  have hq := C142_quaternion m hu hκ hγ h0 h1 ha hθ
  have hun : IsUnitQ ⟨Real.cos (θ / 2), Real.sin (θ / 2) * a 0, Real.sin (θ / 2) * a 1, Real.sin (θ / 2) * a 2⟩ := by
    have h : a 0 ^ 2 + a 1 ^ 2 + a 2 ^ 2 = 1 := ha
    have hsc := Real.sin_sq_add_cos_sq (θ / 2)
    unfold IsUnitQ
    linear_combination Real.sin (θ / 2) ^ 2 * h + hsc
  obtain ⟨hpos, hl⟩ := quaternionToMatrix_lip (by norm_num at *; linarith) hun hq
  have b := hl i j
  rw [quat_rotAbout ha] at b
  have c := quaternionToMatrixFl_near m.toMachine hu h0 h1 hpos i j
  have := abs_add_le (quaternionToMatrixFl m.toMachine (axisAngleToQuaternionFl m (θ • a)) i j -
    quaternionToMatrix (axisAngleToQuaternionFl m (θ • a)) i j) (quaternionToMatrix (axisAngleToQuaternionFl m (θ • a)) i j - rotAbout a θ i j)
  rw [sub_add_sub_cancel] at this
  refine this.trans ((add_le_add c b).trans ?_)
  norm_num; linarith

/-- the factor by which `quaternion_to_axis_angle` divides the vector part is positive and not small -/
theorem q2aFactor_lower (m : TrigMachine) {τ : ℝ} (hu : m.u ≤ τ) (hκ : m.κ ≤ τ) (h0 : 0 ≤ τ) (h1 : τ ≤ 1 / 1000) {n w : ℝ}
    (hn0 : 0 ≤ n) (hw : 0 ≤ w) (H0 : 0 ≤ atan2 n w) (H1 : atan2 n w ≤ Real.pi / 2) {a A f : ℝ} (ha : a = m.atan2 n w)
    (hA : A = m.rnd (2 * a))
    (hf : f = open Classical in if |A| < 1e-6 then m.rnd (0.5 - m.rnd (m.rnd (A * A) / 48)) else m.rnd (m.sin a / A)) : 0.3 ≤ f := by
  obtain ⟨H, hH⟩ : ∃ H, H = atan2 n w := ⟨_, rfl⟩
  have hat := m.atan2_err n w hn0 hw
  rw [← hH] at H0 H1 hat
  rw [← ha] at hat
  have hpi := Real.pi_lt_d2
  have hpp := Real.pi_pos
  have hr : ∀ x, |m.rnd x - x| ≤ τ * |x| := fun x => (m.rnd_err x).trans (mul_le_mul_of_nonneg_right hu (abs_nonneg x))
  have grow : ∀ {x c : ℝ}, |x| ≤ c → |m.rnd x| ≤ 1.001 * c := fun {x c} hx => by
    have a := hr x
    have b := abs_add_le (m.rnd x - x) x
    rw [sub_add_cancel] at b
    have c' : τ * |x| ≤ 1 / 1000 * |x| := mul_le_mul_of_nonneg_right h1 (abs_nonneg x)
    norm_num at *; linarith
  split_ifs at hf with hs
  · have q1 : |A * A| ≤ 1e-12 := by
      rw [abs_mul]
      calc |A| * |A| ≤ 1e-6 * 1e-6 := mul_le_mul hs.le hs.le (abs_nonneg _) (by norm_num)
        _ = 1e-12 := by norm_num
    have q2 := grow q1
    have q3 : |m.rnd (A * A) / 48| ≤ 2.1e-14 := by
      rw [abs_div]; norm_num at q2 ⊢; linarith
    have q4 := grow q3
    have q5 : |0.5 - m.rnd (m.rnd (A * A) / 48) - 0.5| ≤ 2.2e-14 := by
      rw [show (0.5 : ℝ) - m.rnd (m.rnd (A * A) / 48) - 0.5 = -m.rnd (m.rnd (A * A) / 48) by ring, abs_neg]
      norm_num at q4 ⊢; linarith
    have q6 := (abs_le.1 (rnd_near m.toMachine hu q5 (M := 0.5) (by norm_num))).1
    rw [← hf] at q6
    norm_num at q6 ⊢; linarith
  · have hκH : m.κ * H ≤ 1 / 1000 * H := mul_le_mul_of_nonneg_right (hκ.trans h1) H0
    have ha' := abs_le.1 (hat.trans hκH)
    have hHp : 0 < H := by
      rcases H0.eq_or_lt with hz | hz
      · exfalso
        rw [← hz] at ha'
        have : a = 0 := by linarith [ha'.1, ha'.2]
        have hA0 := hr (2 * a)
        rw [← hA, this] at hA0
        simp at hA0
        rw [hA0] at hs
        norm_num at hs
      · exact hz
    have hap : 0 < a := by linarith
    have hsa : 0.62 * a ≤ Real.sin a := by
      rcases le_total a (Real.pi / 2) with h | h
      · have := Real.mul_le_sin hap.le h
        refine le_trans (mul_le_mul_of_nonneg_right ?_ hap.le) this
        rw [le_div_iff₀ hpp]; norm_num at *; linarith
      · have c1 : |Real.sin a - Real.sin (Real.pi / 2)| ≤ |a - Real.pi / 2| := Real.abs_sin_sub_sin_le _ _
        rw [Real.sin_pi_div_two, abs_of_nonneg (a := a - _) (by linarith)] at c1
        have := (abs_le.1 c1).1
        norm_num at *; linarith
    have hsr := m.sin_rel a (by rw [abs_of_pos hap]; norm_num at *; linarith)
    have hspos : 0 < Real.sin a := lt_of_lt_of_le (by positivity) hsa
    rw [abs_of_pos hspos] at hsr
    have hsr' := (abs_le.1 (hsr.trans (mul_le_mul_of_nonneg_right (hκ.trans h1) hspos.le))).1
    have hA1 := hr (2 * a)
    rw [← hA, abs_of_pos (by linarith : 0 < 2 * a)] at hA1
    have hA2 := abs_le.1 (hA1.trans (mul_le_mul_of_nonneg_right h1 (by linarith : 0 ≤ 2 * a)))
    have hAp : 0 < A := by linarith
    have g1 : 0.309 ≤ m.sin a / A := by
      rw [le_div_iff₀ hAp]; norm_num at *; linarith
    have g0 : 0 < m.sin a / A := lt_of_lt_of_le (by norm_num) g1
    have g2 := hr (m.sin a / A)
    rw [← hf, abs_of_pos g0] at g2
    have g3 := (abs_le.1 (g2.trans (mul_le_mul_of_nonneg_right h1 g0.le))).1
    norm_num at *; linarith

/-- C142: `quaternion_to_axis_angle` of a quaternion that is near that of the rotation by `θ ≤ π` about `a`, and whose real part
has not become negative, is near `θ a`, however small the angle -/
theorem C142_rotation_vector (m : TrigMachine) {τ η : ℝ} (hu : m.u ≤ τ) (hκ : m.κ ≤ τ) (hγ : m.γ ≤ τ) (h0 : 0 ≤ τ)
    (h1 : τ ≤ 1 / 1000) (hη : η ≤ 1 / 20) {a : V3} (ha : IsUnitV a) {θ : ℝ} (hθ : 0 ≤ θ) (hθ' : θ ≤ Real.pi) {q : Quat} (hw : 0 ≤ q.w)
    (hq : QNear η q ⟨Real.cos (θ / 2), Real.sin (θ / 2) * a 0, Real.sin (θ / 2) * a 1, Real.sin (θ / 2) * a 2⟩) (i : Fin 3) :
    |quaternionToAxisAngleFl m q i - (θ • a) i| ≤ 31 * η + 103 * τ + 1e-17 := by
  have η0 := (abs_nonneg _).trans (hq 0)
  have h : a 0 ^ 2 + a 1 ^ 2 + a 2 ^ 2 = 1 := ha
  have hpp := Real.pi_pos
  have hun : IsUnitQ ⟨Real.cos (θ / 2), Real.sin (θ / 2) * a 0, Real.sin (θ / 2) * a 1, Real.sin (θ / 2) * a 2⟩ := by
    have hsc := Real.sin_sq_add_cos_sq (θ / 2)
    unfold IsUnitQ
    linear_combination Real.sin (θ / 2) ^ 2 * h + hsc
  have hang := axisAngleFl_near m hu hκ (hγ.trans (by linarith)) h0 h1 hη hun (υ := 1) (.inl rfl) hw (by
    intro k
    have := hq k
    fin_cases k <;> simpa [scaleQ, Quat.get] using this)
  rw [quat_rotAbout ha, rotAngle, trace_rotAbout ha, Real.arccos_cos hθ hθ'] at hang
  set s := Real.sin (θ / 2) with hs
  have hs0 : 0 ≤ s := Real.sin_nonneg_of_nonneg_of_le_pi (by linarith) (by linarith)
  have hs1 : s ≤ 1 := Real.sin_le_one _
  obtain ⟨v, hv⟩ : ∃ v : V3, v = ![q.x, q.y, q.z] := ⟨_, rfl⟩
  have hvi : ∀ k, |v k - s * a k| ≤ η := fun k => by
    rw [hv]
    fin_cases k
    · exact hq 1
    · exact hq 2
    · exact hq 3
  have hva : vlen (s • a) = s := by
    rw [vlen_smul, abs_of_nonneg hs0, vlen, h, Real.sqrt_one, mul_one]
  have hvn : |vlen v - s| ≤ 2 * η := by
    have := vlen_sub_abs (v := v) (w := s • a) (vlen_le_of_entries η0 fun k => by simpa using hvi k)
    rwa [hva] at this
  have hvl : vlen v ≤ 1.1 := by
    have := (abs_le.1 hvn).2
    norm_num at *; linarith
  obtain ⟨n, hn⟩ : ∃ n, n = m.norm v := ⟨_, rfl⟩
  have hnv : |n - vlen v| ≤ τ * vlen v := by
    rw [hn, vlen_eq_norm3]
    exact (m.norm_err v).trans (mul_le_mul_of_nonneg_right hγ (norm3_nonneg _))
  have hv0 := vlen_nonneg v
  have hτv : τ * vlen v ≤ 1 / 1000 * vlen v := mul_le_mul_of_nonneg_right h1 hv0
  have hn0 : 0 ≤ n := by
    have := (abs_le.1 hnv).1
    linarith
  have hns : |n - s| ≤ 0.1012 := by
    have := abs_add_le (n - vlen v) (vlen v - s)
    rw [sub_add_sub_cancel] at this
    norm_num at *; linarith
  have hwn : |q.w - Real.cos (θ / 2)| ≤ 0.05 := (hq 0).trans (by norm_num at *; linarith)
  obtain ⟨ρ, H, H0, H1, hat, -, -, -⟩ := quadrant_near hn0 hw (by linarith : 0 ≤ θ / 2) (by linarith) hwn hns (by norm_num)
  obtain ⟨f, hf⟩ : ∃ f, f = open Classical in if |m.rnd (2 * m.atan2 n q.w)| < 1e-6 then
      m.rnd (0.5 - m.rnd (m.rnd (m.rnd (2 * m.atan2 n q.w) * m.rnd (2 * m.atan2 n q.w)) / 48))
      else m.rnd (m.sin (m.atan2 n q.w) / m.rnd (2 * m.atan2 n q.w)) := ⟨_, rfl⟩
  have hfl := q2aFactor_lower m hu hκ h0 h1 hn0 hw (hat ▸ H0) (hat ▸ H1) rfl rfl hf
  have hfp : 0 < f := lt_of_lt_of_le (by norm_num) hfl
  have hr : quaternionToAxisAngleFl m q = fun k => m.rnd (v k / f) := by
    rw [hf, hn, hv]
    funext k
    fin_cases k <;> rfl
  obtain ⟨g, hg⟩ : ∃ g, g = f⁻¹ := ⟨_, rfl⟩
  have hg0 : 0 < g := by rw [hg]; positivity
  have hg1 : g ≤ 10 / 3 := by
    rw [hg, inv_le_comm₀ hfp (by norm_num)]; norm_num at *; linarith
  have hri : ∀ k, Rel τ (m.rnd (v k / f)) ((g • v) k) := fun k => by
    have := m.rel hu (v k / f)
    rw [Pi.smul_apply, smul_eq_mul, hg, ← div_eq_inv_mul]; exact this
  have hgv : vlen (g • v) ≤ 3.7 := by
    rw [vlen_smul, abs_of_pos hg0]
    calc g * vlen v ≤ 10 / 3 * 1.1 := mul_le_mul hg1 hvl hv0 (by norm_num)
      _ ≤ 3.7 := by norm_num
  have hlen := (vlen_rel hri).abs_sub
  rw [abs_of_nonneg (vlen_nonneg _)] at hlen
  have hlen' : |vlen (quaternionToAxisAngleFl m q) - g * vlen v| ≤ 3.7 * τ := by
    rw [hr]
    have e : vlen (g • v) = g * vlen v := by rw [vlen_smul, abs_of_pos hg0]
    rw [e] at hlen hgv
    refine hlen.trans ?_
    rw [mul_comm]; exact mul_le_mul_of_nonneg_right hgv h0
  -- the length
  have hgs : |g * s - θ| ≤ 83 / 3 * η + 99 * τ + 1e-17 := by
    have e : g * s - θ = -(vlen (quaternionToAxisAngleFl m q) - g * vlen v) + (vlen (quaternionToAxisAngleFl m q) - θ) +
        -(g * (vlen v - s)) := by ring
    rw [e]
    refine (abs_add_three _ _ _).trans ?_
    rw [abs_neg, abs_neg, abs_mul, abs_of_pos hg0]
    have : g * |vlen v - s| ≤ 10 / 3 * (2 * η) := mul_le_mul hg1 hvn (abs_nonneg _) (by norm_num)
    norm_num at *; linarith
  have c1 : |m.rnd (v i / f) - (g • v) i| ≤ 3.7 * τ := by
    refine (hri i).abs_sub.trans ?_
    rw [mul_comm]
    refine mul_le_mul_of_nonneg_right ?_ h0
    refine le_trans ?_ hgv
    apply abs_le_of_sq_le_sq _ (vlen_nonneg _)
    have hn : 0 ≤ (g • v) 0 ^ 2 + (g • v) 1 ^ 2 + (g • v) 2 ^ 2 := by positivity
    rw [vlen, Real.sq_sqrt hn]
    have p0 := sq_nonneg ((g • v) 0); have p1 := sq_nonneg ((g • v) 1); have p2 := sq_nonneg ((g • v) 2)
    fin_cases i <;> simp only [] <;> first
      | (show (g • v) 0 ^ 2 ≤ _; linarith)
      | (show (g • v) 1 ^ 2 ≤ _; linarith)
      | (show (g • v) 2 ^ 2 ≤ _; linarith)
  have c2 : |g * (v i - s * a i)| ≤ 10 / 3 * η := by
    rw [abs_mul, abs_of_pos hg0]; exact mul_le_mul hg1 (hvi i) (abs_nonneg _) (by norm_num)
  have c3 : |(g * s - θ) * a i| ≤ 83 / 3 * η + 99 * τ + 1e-17 := by
    rw [abs_mul]; exact (mul_le_of_le_one_right (abs_nonneg _) (unit_comp_le ha i)).trans hgs
  rw [hr]
  have e : m.rnd (v i / f) - (θ • a) i = (m.rnd (v i / f) - (g • v) i) + g * (v i - s * a i) + (g * s - θ) * a i := by
    simp only [Pi.smul_apply, smul_eq_mul]; ring
  show |m.rnd (v i / f) - (θ • a) i| ≤ _
  rw [e]
  refine (abs_add_three _ _ _).trans ?_
  norm_num at *; linarith

/-- C142: `quaternion_to_axis_angle(axis_angle_to_quaternion(v))`, with rounding in both, returns `v` for lengths up to `π - 0.05` -/
theorem C142_round_trip (m : TrigMachine) {τ : ℝ} (hu : m.u ≤ τ) (hκ : m.κ ≤ τ) (hγ : m.γ ≤ τ) (h0 : 0 ≤ τ) (h1 : τ ≤ 1 / 1000)
    {a : V3} (ha : IsUnitV a) {θ : ℝ} (hθ : 0 ≤ θ) (hθ' : θ ≤ Real.pi - 0.05) (i : Fin 3) :
    |quaternionToAxisAngleFl m (axisAngleToQuaternionFl m (θ • a)) i - (θ • a) i| ≤ τ * (265 + 65 * θ) + 5e-17 := by
  have hq := C142_quaternion m hu hκ hγ h0 h1 ha hθ
  have hpi := Real.pi_lt_d2
  have hτθ : τ * θ ≤ 1 / 1000 * θ := mul_le_mul_of_nonneg_right h1 hθ
  have hτθ0 : 0 ≤ τ * θ := mul_nonneg h0 hθ
  have hη : τ * (5 + 2 * θ) + 1e-18 ≤ 0.0113 := by norm_num at *; linarith
  have hc : 0.024 ≤ Real.cos (θ / 2) := by
    rw [← Real.sin_pi_div_two_sub]
    have g : 0.025 ≤ Real.pi / 2 - θ / 2 := by norm_num at *; linarith
    have m1 := Real.mul_le_sin (x := 0.025) (by norm_num) (by linarith [Real.pi_gt_three])
    have m2 : Real.sin 0.025 ≤ Real.sin (Real.pi / 2 - θ / 2) :=
      Real.sin_le_sin_of_le_of_le_pi_div_two (by norm_num; linarith [Real.pi_gt_three]) (by linarith) g
    have m3 := Real.sin_gt_sub_cube (x := 0.025) (by norm_num)
    norm_num at m3 m2 ⊢
    linarith
  have hw : 0 ≤ (axisAngleToQuaternionFl m (θ • a)).w := by
    have := (abs_le.1 (hq 0)).1
    have h2 : (axisAngleToQuaternionFl m (θ • a)).get 0 = (axisAngleToQuaternionFl m (θ • a)).w := rfl
    have h3 : (⟨Real.cos (θ / 2), Real.sin (θ / 2) * a 0, Real.sin (θ / 2) * a 1, Real.sin (θ / 2) * a 2⟩ : Quat).get 0 =
      Real.cos (θ / 2) := rfl
    rw [h2, h3] at this
    norm_num at *; linarith
  refine (C142_rotation_vector m hu hκ hγ h0 h1 (by norm_num at *; linarith) ha hθ (by norm_num at *; linarith) hw hq i).trans ?_
  norm_num; linarith

/-- C142 in a binary format with `q ≥ 20` bits, for angles up to `1000` -/
theorem C142_precision (q : ℕ) (hq : 20 ≤ q) {a : V3} (ha : IsUnitV a) {θ : ℝ} (hθ : 0 ≤ θ) (h2 : θ ≤ 1000) (i j : Fin 3) :
    |axisAngleToMatrixFl (binaryTrig q (by omega)) (θ • a) i j - rotAbout a θ i j| ≤ (315 + 90 * θ) / 2 ^ q + 9e-18 := by
  obtain ⟨hU, hK, hG⟩ := binaryTrig_bounds q (by omega)
  have hp : (0 : ℝ) ≤ 1 / 2 ^ q := by positivity
  have hl : (1 : ℝ) / 2 ^ q ≤ 1 / 2 ^ 20 := one_div_le_one_div_of_le (by positivity) (pow_le_pow_right₀ (by norm_num) hq)
  refine (C142_matrix (binaryTrig q (by omega)) (τ := 5 * (1 / 2 ^ q)) (by linarith) (by linarith) hG (by linarith)
    (by norm_num at *; linarith) ha hθ ?_ i j).trans (le_of_eq ?_)
  · have : 5 * (1 / 2 ^ q) * (5 + 2 * θ) ≤ 5 * (1 / 2 ^ 20) * 2005 :=
      mul_le_mul (by linarith) (by linarith) (by linarith) (by positivity)
    refine this.trans ?_
    norm_num
  · ring

/-- the round trip of C142 in a binary format with `q ≥ 13` bits -/
theorem C142_round_trip_precision (q : ℕ) (hq : 13 ≤ q) {a : V3} (ha : IsUnitV a) {θ : ℝ} (hθ : 0 ≤ θ) (h2 : θ ≤ Real.pi - 0.05)
    (i : Fin 3) : |quaternionToAxisAngleFl (binaryTrig q (by omega)) (axisAngleToQuaternionFl (binaryTrig q (by omega)) (θ • a)) i -
      (θ • a) i| ≤ (1325 + 325 * θ) / 2 ^ q + 5e-17 := by
  obtain ⟨hU, hK, hG⟩ := binaryTrig_bounds q (by omega)
  have hp : (0 : ℝ) ≤ 1 / 2 ^ q := by positivity
  have hl : (1 : ℝ) / 2 ^ q ≤ 1 / 2 ^ 13 := one_div_le_one_div_of_le (by positivity) (pow_le_pow_right₀ (by norm_num) hq)
  refine (C142_round_trip (binaryTrig q (by omega)) (τ := 5 * (1 / 2 ^ q)) (by linarith) (by linarith) hG (by linarith)
    (by norm_num at *; linarith) ha hθ h2 i).trans (le_of_eq ?_)
  ring

example : IsUnitV ![2 / 3, -1 / 3, 2 / 3] ∧ (0 : ℝ) ≤ 2 ∧ (2 : ℝ) ≤ 1000 ∧ (2 : ℝ) ≤ Real.pi - 0.05 := by
  refine ⟨?_, by norm_num, by norm_num, by norm_num; linarith [Real.pi_gt_three]⟩
  show (2 / 3 : ℝ) ^ 2 + (-1 / 3) ^ 2 + (2 / 3) ^ 2 = 1
  norm_num

end PK
