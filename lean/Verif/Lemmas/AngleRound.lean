import Verif.Lemmas.QuatRound2
import Verif.Lemmas.AxisAngle
import Verif.Lemmas.Angle
import Verif.Props.AxisAngle
import Mathlib.Analysis.Real.Pi.Bounds

/-!
# Rounding errors of the rotation angle
-/

namespace PK
open Spec Matrix

/-- `x` is `y` up to a relative error of `c` -/
def Rel (c x y : ℝ) : Prop := ∃ ε, |ε| ≤ c ∧ x = y * (1 + ε)

theorem Rel.mono {c d x y : ℝ} (h : Rel c x y) (hcd : c ≤ d) : Rel d x y := by
  obtain ⟨ε, h1, h2⟩ := h
  exact ⟨ε, h1.trans hcd, h2⟩

theorem Rel.refl (x : ℝ) : Rel 0 x x := ⟨0, by simp, by simp⟩

theorem Rel.of_abs {c x y : ℝ} (hc : 0 ≤ c) (h : |x - y| ≤ c * |y|) : Rel c x y := by
  rcases eq_or_ne y 0 with rfl | hy
  · refine ⟨0, by simpa using hc, ?_⟩
    have : x - 0 = 0 := abs_eq_zero.1 (le_antisymm (by simpa using h) (abs_nonneg _))
    linarith
  · refine ⟨(x - y) / y, ?_, by field_simp; ring⟩
    rw [abs_div, div_le_iff₀ (abs_pos.2 hy)]
    exact h

theorem Rel.abs_sub {c x y : ℝ} (h : Rel c x y) : |x - y| ≤ c * |y| := by
  obtain ⟨ε, h1, rfl⟩ := h
  rw [show y * (1 + ε) - y = ε * y by ring, abs_mul]
  exact mul_le_mul_of_nonneg_right h1 (abs_nonneg _)

theorem Rel.nonneg {c x y : ℝ} (h : Rel c x y) : 0 ≤ c := by
  obtain ⟨ε, h1, -⟩ := h
  exact (abs_nonneg _).trans h1

theorem one_add_abs {ε δ c d : ℝ} (h1 : |ε| ≤ c) (h2 : |δ| ≤ d) : |ε + δ + ε * δ| ≤ c + d + c * d := by
  have := abs_add_le (ε + δ) (ε * δ)
  have := abs_add_le ε δ
  have := mul_le_mul h1 h2 (abs_nonneg _) ((abs_nonneg _).trans h1)
  rw [← abs_mul] at this
  linarith

theorem Rel.trans {c d x y z : ℝ} (h1 : Rel c x y) (h2 : Rel d y z) : Rel (c + d + c * d) x z := by
  obtain ⟨ε, a1, rfl⟩ := h1
  obtain ⟨δ, b1, rfl⟩ := h2
  exact ⟨ε + δ + ε * δ, one_add_abs a1 b1, by ring⟩

theorem Rel.mul {c d x y x' y' : ℝ} (h1 : Rel c x y) (h2 : Rel d x' y') : Rel (c + d + c * d) (x * x') (y * y') := by
  obtain ⟨ε, a1, rfl⟩ := h1
  obtain ⟨δ, b1, rfl⟩ := h2
  exact ⟨ε + δ + ε * δ, one_add_abs a1 b1, by ring⟩

theorem Rel.mul_left {c x y : ℝ} (z : ℝ) (h1 : Rel c x y) : Rel c (z * x) (z * y) := by
  obtain ⟨ε, a1, rfl⟩ := h1
  exact ⟨ε, a1, by ring⟩

theorem Rel.inv {c d x y : ℝ} (h : Rel c x y) (hc : c ≤ 1 / 2) (hd : c ≤ d * (1 - c)) : Rel d x⁻¹ y⁻¹ := by
  have h0 := h.nonneg
  obtain ⟨ε, a1, rfl⟩ := h
  have hb := abs_le.1 a1
  have hpos : 0 < 1 + ε := by linarith
  refine ⟨-ε / (1 + ε), ?_, ?_⟩
  · rw [abs_div, abs_neg, abs_of_pos hpos, div_le_iff₀ hpos]
    have hd0 : 0 ≤ d := by
      by_contra hn
      have := mul_neg_of_neg_of_pos (not_le.1 hn) (show (0 : ℝ) < 1 - c by linarith)
      linarith
    have := mul_le_mul_of_nonneg_left (show 1 - c ≤ 1 + ε by linarith) hd0
    linarith
  · rw [mul_inv]
    congr 1
    field_simp
    ring

theorem Rel.div {c d d' x y x' y' : ℝ} (h1 : Rel c x y) (h2 : Rel d x' y') (hd : d ≤ 1 / 2) (hd' : d ≤ d' * (1 - d)) :
    Rel (c + d' + c * d') (x / x') (y / y') := by
  rw [div_eq_mul_inv, div_eq_mul_inv]
  exact h1.mul (h2.inv hd hd')

theorem Rel.symm {c d x y : ℝ} (h : Rel c x y) (hc : c ≤ 1 / 2) (hd : c ≤ d * (1 - c)) : Rel d y x := by
  have h0 := h.nonneg
  obtain ⟨ε, a1, rfl⟩ := h
  have hb := abs_le.1 a1
  have hpos : 0 < 1 + ε := by linarith
  refine ⟨-ε / (1 + ε), ?_, by field_simp; ring⟩
  rw [abs_div, abs_neg, abs_of_pos hpos, div_le_iff₀ hpos]
  have hd0 : 0 ≤ d := by
    by_contra hn
    have := mul_neg_of_neg_of_pos (not_le.1 hn) (show (0 : ℝ) < 1 - c by linarith)
    linarith
  have := mul_le_mul_of_nonneg_left (show 1 - c ≤ 1 + ε by linarith) hd0
  linarith

theorem Machine.rel (m : Machine) {τ : ℝ} (hu : m.u ≤ τ) (x : ℝ) : Rel τ (m.rnd x) x :=
  .of_abs (m.u_nonneg.trans hu) ((m.rnd_err x).trans (mul_le_mul_of_nonneg_right hu (abs_nonneg x)))

/-- the rotation angle of a unit quaternion, from its half angle in the first quadrant -/
theorem rotAngle_half {D : Quat} (hD : IsUnitQ D) : ∃ h, 0 ≤ h ∧ h ≤ Real.pi / 2 ∧ Real.cos h = |D.w| ∧
    Real.sin h = vlen ![D.x, D.y, D.z] ∧ rotAngle (quaternionToMatrix D) = 2 * h := by
  have hn : D.normSq = 1 := by unfold IsUnitQ at hD; unfold Quat.normSq; linarith
  have hw : |D.w| ≤ 1 := quat_abs_le hD 0
  have hcos : Real.cos (Real.arccos |D.w|) = |D.w| := Real.cos_arccos (by linarith [abs_nonneg D.w]) hw
  have h2 : Real.arccos |D.w| ≤ Real.pi / 2 := Real.arccos_le_pi_div_two.2 (abs_nonneg _)
  refine ⟨Real.arccos |D.w|, Real.arccos_nonneg _, h2, hcos, ?_, ?_⟩
  · rw [Real.sin_arccos, sq_abs, vlen]
    congr 1
    unfold IsUnitQ at hD
    simp only [Matrix.cons_val]
    linarith
  · rw [rotAngle_quat hn, ← sq_abs, ← hcos, ← Real.cos_two_mul, Real.arccos_cos]
    · rw [hcos]
    · have := Real.arccos_nonneg |D.w|; positivity
    · linarith

/-- rounding the components rounds the length -/
theorem vlen_rel {c : ℝ} {v w : V3} (h : ∀ i, Rel c (v i) (w i)) : Rel c (vlen v) (vlen w) := by
  have hc := (h 0).nonneg
  refine .of_abs hc ?_
  rw [abs_of_nonneg (vlen_nonneg w)]
  have h1 : vlen (v - w) ≤ c * vlen w := by
    have : vlen (v - w) ≤ vlen (c • absV w) := by
      refine vlen_le_of_abs fun i => ?_
      have := (h i).abs_sub
      simpa [absV] using this
    rwa [vlen_smul, vlen_absV, abs_of_nonneg hc] at this
  have h2 := vlen_add_le (v - w) w
  have h3 := vlen_add_le (w - v) v
  have h4 : vlen (w - v) = vlen (v - w) := by
    rw [← neg_sub, ← neg_one_smul ℝ, vlen_smul]; norm_num
  rw [sub_add_cancel] at h2 h3
  rw [abs_le]
  constructor <;> linarith

theorem vlen_sub_abs {v w : V3} {e : ℝ} (h : vlen (v - w) ≤ e) : |vlen v - vlen w| ≤ e := by
  have h2 := vlen_add_le (v - w) w
  have h3 := vlen_add_le (w - v) v
  have h4 : vlen (w - v) = vlen (v - w) := by
    rw [← neg_sub, ← neg_one_smul ℝ, vlen_smul]; norm_num
  rw [sub_add_cancel] at h2 h3
  rw [abs_le]
  constructor <;> linarith

/-- two points of the first quadrant that are close, one of them on the unit circle: their angles are close -/
theorem quadrant_near {n w h δ ε : ℝ} (hn : 0 ≤ n) (hw : 0 ≤ w) (h0 : 0 ≤ h) (h1 : h ≤ Real.pi / 2) (hc : |w - Real.cos h| ≤ δ)
    (hs : |n - Real.sin h| ≤ ε) (hδ : δ + ε ≤ 1 / 6) :
    ∃ ρ H, 0 ≤ H ∧ H ≤ Real.pi / 2 ∧ atan2 n w = H ∧ n = ρ * Real.sin H ∧ |ρ - 1| ≤ δ + ε ∧ |H - h| ≤ 1.9 * (δ + ε) := by
  obtain ⟨p1, p2, p3, p4⟩ := atan2_polar n w
  set H := atan2 n w with hH
  set ρ := Real.sqrt (w ^ 2 + n ^ 2) with hρ
  have hH0 : 0 ≤ H := atan2_nonneg hn
  have hρ0 : 0 ≤ ρ := Real.sqrt_nonneg _
  have s0 : 0 ≤ Real.sin h := Real.sin_nonneg_of_nonneg_of_le_pi h0 (by linarith [Real.pi_pos])
  have c0 : 0 ≤ Real.cos h := Real.cos_nonneg_of_neg_pi_div_two_le_of_le (by linarith [Real.pi_pos]) h1
  have s1 := Real.sin_le_one h
  have c1 := Real.cos_le_one h
  have sc := Real.sin_sq_add_cos_sq h
  have hc' := abs_le.1 hc
  have hs' := abs_le.1 hs
  have d0 := (abs_nonneg _).trans hc
  have e0 := (abs_nonneg _).trans hs
  have rlo : 1 - (δ + ε) ≤ ρ := by
    have a1 : w * Real.cos h + n * Real.sin h ≤ ρ := by
      have : w * Real.cos h + n * Real.sin h = ρ * Real.cos (H - h) := by
        rw [Real.cos_sub]; nth_rw 1 [← p1]; nth_rw 1 [← p2]; ring
      rw [this]
      nlinarith [Real.cos_le_one (H - h)]
    have k1 := mul_le_mul_of_nonneg_right hc'.1 c0
    have k2 := mul_le_mul_of_nonneg_right hs'.1 s0
    have k3 := mul_le_mul_of_nonneg_left c1 d0
    have k4 := mul_le_mul_of_nonneg_left s1 e0
    linarith
  have rhi : ρ ≤ 1 + (δ + ε) := by
    rw [hρ, Real.sqrt_le_iff]
    constructor
    · linarith
    · have h1 : w ^ 2 ≤ (Real.cos h + δ) ^ 2 := pow_le_pow_left₀ hw (by linarith) 2
      have h2 : n ^ 2 ≤ (Real.sin h + ε) ^ 2 := pow_le_pow_left₀ hn (by linarith) 2
      have k3 := mul_le_mul_of_nonneg_left c1 d0
      have k4 := mul_le_mul_of_nonneg_left s1 e0
      have k5 := mul_nonneg d0 e0
      linarith
  have rpos : 0 < ρ := by linarith
  have hH2 : H ≤ Real.pi / 2 := by
    by_contra hn
    have hneg := Real.cos_neg_of_pi_div_two_lt_of_lt (not_le.1 hn) (by linarith [Real.pi_pos])
    have := mul_neg_of_pos_of_neg rpos hneg
    linarith
  refine ⟨ρ, H, hH0, hH2, rfl, p2.symm, by rw [abs_le]; constructor <;> linarith, ?_⟩
  have hsin : |Real.sin (H - h)| ≤ 1.2 * (δ + ε) := by
    have e1 : ρ * Real.sin (H - h) = (n - Real.sin h) * Real.cos h - (w - Real.cos h) * Real.sin h := by
      rw [Real.sin_sub]
      linear_combination Real.cos h * p2 - Real.sin h * p1
    have e2 : |ρ * Real.sin (H - h)| ≤ δ + ε := by
      rw [e1]
      refine (abs_sub _ _).trans ?_
      rw [abs_mul, abs_mul, abs_of_nonneg c0, abs_of_nonneg s0]
      have := mul_le_mul hs c1 c0 e0
      have := mul_le_mul hc s1 s0 d0
      linarith
    rw [abs_mul, abs_of_pos rpos] at e2
    have := mul_le_mul_of_nonneg_right (show 5 / 6 ≤ ρ by linarith) (abs_nonneg (Real.sin (H - h)))
    linarith
  have hle : |H - h| ≤ Real.pi / 2 := by rw [abs_le]; constructor <;> linarith
  have hj := Real.mul_abs_le_abs_sin hle
  have hpi := Real.pi_lt_d2
  have hpp := Real.pi_pos
  have : |H - h| = Real.pi / 2 * (2 / Real.pi * |H - h|) := by field_simp
  rw [this]
  have h3 := mul_le_mul_of_nonneg_left (hj.trans hsin) (show 0 ≤ Real.pi / 2 by positivity)
  have h4 := mul_le_mul_of_nonneg_right (show Real.pi / 2 * 1.2 ≤ 1.9 by linarith) (show 0 ≤ δ + ε by linarith)
  linarith

/-- the large branch: length of the vector part divided by `sin (half) / angle` -/
theorem large_branch {τ ρ H V f L A S : ℝ} (h0 : 0 ≤ τ) (h1 : τ ≤ 1 / 1000) (hH : 0 < H) (hsH : 0 < Real.sin H) (hρ0 : 0 ≤ ρ)
    (hρH : ρ * H ≤ 1.9) (hS : Rel (2.7 * τ) S (Real.sin H)) (hA : Rel (2.01 * τ) A (2 * H)) (hf : Rel τ f (S / A))
    (hV : Rel (5.1 * τ) V (ρ * Real.sin H)) (hL : Rel τ L (V / |f|)) : |L - 2 * (ρ * H)| ≤ 55 * τ := by
  have t2 : τ * τ ≤ 0.001 * τ := by
    have := mul_le_mul_of_nonneg_right h1 h0; linarith
  have t20 := mul_nonneg h0 h0
  have t3 : τ * τ * τ ≤ 0.000001 * τ := by
    have := mul_le_mul_of_nonneg_right t2 h0; linarith
  have hfr : Rel (6 * τ) f (Real.sin H / (2 * H)) :=
    (hf.trans (hS.div hA (d' := 2.05 * τ) (by linarith) (by linarith))).mono (by linarith)
  have hfa : |f| = f := by
    obtain ⟨ε, e1, e2⟩ := hfr
    have := (abs_le.1 e1).1
    rw [e2]
    exact abs_of_nonneg (mul_nonneg (by positivity) (by linarith))
  rw [hfa] at hL
  have hr := (hL.trans (hV.div hfr (d' := 6.1 * τ) (by linarith) (by linarith))).mono (show _ ≤ 12.5 * τ by linarith)
  have e : ρ * Real.sin H / (Real.sin H / (2 * H)) = 2 * (ρ * H) := by field_simp
  rw [e] at hr
  have := hr.abs_sub
  rw [abs_of_nonneg (show 0 ≤ 2 * (ρ * H) by positivity)] at this
  have h5 := mul_le_mul_of_nonneg_left hρH h0
  linarith

/-- the small branch: the factor is 1/2 up to a few units in the last place -/
theorem small_branch (m : Machine) {τ ρ H V L A : ℝ} (hu : m.u ≤ τ) (h0 : 0 ≤ τ) (h1 : τ ≤ 1 / 1000) (H0 : 0 ≤ H)
    (hρ0 : 0 ≤ ρ) (hρ : ρ ≤ 1.2) (hA : Rel (2.01 * τ) A (2 * H)) (hs : |A| < 1e-6) (hV : Rel (5.1 * τ) V (ρ * Real.sin H))
    (hL : Rel τ L (V / |m.rnd (0.5 - m.rnd (m.rnd (A * A) / 48))|)) : |L - 2 * (ρ * H)| ≤ 55 * τ + 1e-17 := by
  have t2 : τ * τ ≤ 0.001 * τ := by
    have := mul_le_mul_of_nonneg_right h1 h0; linarith
  have t20 := mul_nonneg h0 h0
  have hH6 : H ≤ 1e-6 := by
    have h2 := hA.abs_sub
    rw [abs_of_nonneg (show 0 ≤ 2 * H by linarith)] at h2
    have h3 := (abs_le.1 h2).1
    have h4 := le_abs_self A
    have h5 := mul_le_mul_of_nonneg_right (show 2.01 * τ ≤ 0.01 by linarith) (show 0 ≤ 2 * H by linarith)
    linarith
  have hAA : |A * A| ≤ 1e-12 := by
    rw [abs_mul]
    have := mul_le_mul hs.le hs.le (abs_nonneg _) (by norm_num)
    norm_num at this ⊢
    exact this
  have step : ∀ {x B : ℝ}, |x| ≤ B → |m.rnd x| ≤ 1.001 * B := by
    intro x B hx
    have h2 := (m.rel hu x).abs_sub
    have h3 := abs_add_le (m.rnd x - x) x
    rw [sub_add_cancel] at h3
    have h4 := mul_le_mul_of_nonneg_right h1 (abs_nonneg x)
    have h5 := abs_nonneg x
    linarith
  have s1 := step hAA
  have s2 : |m.rnd (m.rnd (A * A) / 48)| ≤ 3e-14 := by
    have : |m.rnd (A * A) / 48| ≤ 1.001 * 1e-12 / 48 := by
      rw [abs_div, abs_of_pos (by norm_num : (0 : ℝ) < 48)]
      exact div_le_div_of_nonneg_right s1 (by norm_num)
    refine (step this).trans (by norm_num)
  have hg : Rel 1e-13 (0.5 - m.rnd (m.rnd (A * A) / 48)) 0.5 := by
    refine .of_abs (by norm_num) ?_
    rw [sub_sub_cancel_left, abs_neg]
    refine s2.trans (by norm_num)
  have hf := (m.rel hu (0.5 - m.rnd (m.rnd (A * A) / 48))).trans hg
  set f := m.rnd (0.5 - m.rnd (m.rnd (A * A) / 48)) with hfd
  have hf' : Rel (1.01 * τ + 1e-13) f 0.5 := hf.mono (by linarith)
  have hfa : |f| = f := by
    obtain ⟨ε, e1, e2⟩ := hf'
    have := (abs_le.1 e1).1
    rw [e2]
    exact abs_of_nonneg (mul_nonneg (by norm_num) (by linarith))
  rw [hfa] at hL
  have hr := (hL.trans (hV.div hf' (d' := 1.02 * τ + 1.1e-13) (by linarith) (by linarith))).mono
    (show _ ≤ 7.5 * τ + 1.2e-13 by
      have t3 : τ * τ * τ ≤ 0.000001 * τ := by
        have := mul_le_mul_of_nonneg_right t2 h0; linarith
      linarith)
  have hsH := Real.sin_le H0
  have hsl := sub_cube_le_sin H0
  have hsH0 : 0 ≤ Real.sin H := Real.sin_nonneg_of_nonneg_of_le_pi H0 (by linarith [Real.pi_gt_three])
  have e : ρ * Real.sin H / 0.5 = 2 * ρ * Real.sin H := by norm_num; ring
  rw [e] at hr
  have h2 := hr.abs_sub
  rw [abs_of_nonneg (show 0 ≤ 2 * ρ * Real.sin H by positivity)] at h2
  have k1 : 2 * ρ * Real.sin H ≤ 2.4e-6 := by
    have : 2 * ρ * Real.sin H ≤ 2.4 * 1e-6 := mul_le_mul (by linarith) (by linarith) hsH0 (by norm_num)
    linarith
  have k2 : |2 * ρ * Real.sin H - 2 * (ρ * H)| ≤ 1e-18 := by
    have e2 : 2 * ρ * Real.sin H - 2 * (ρ * H) = 2 * ρ * (Real.sin H - H) := by ring
    rw [e2, abs_mul, abs_of_nonneg (show 0 ≤ 2 * ρ by positivity)]
    have h3 : |Real.sin H - H| ≤ 2e-19 := by
      have : H ^ 3 ≤ (1e-6) ^ 3 := pow_le_pow_left₀ H0 hH6 3
      norm_num at this
      rw [abs_le]
      constructor <;> norm_num <;> linarith
    have := mul_le_mul (show 2 * ρ ≤ 2.4 by linarith) h3 (abs_nonneg _) (by norm_num)
    refine this.trans (by norm_num)
  have k3 := mul_le_mul_of_nonneg_left k1 (show 0 ≤ 7.5 * τ + 1.2e-13 by positivity)
  have h4 := abs_add_le (L - 2 * ρ * Real.sin H) (2 * ρ * Real.sin H - 2 * (ρ * H))
  rw [sub_add_sub_cancel] at h4
  norm_num at k3 k2 h2 ⊢
  linarith

/-- the angle that `quaternion_to_axis_angle` finds is that of the rotation, up to the errors of the quaternion and of the
arithmetic -/
theorem axisAngleFl_near (m : TrigMachine) {τ η : ℝ} (hu : m.u ≤ τ) (hκ : m.κ ≤ τ) (hγ : m.γ ≤ 5 * τ) (h0 : 0 ≤ τ)
    (h1 : τ ≤ 1 / 1000) (hη : η ≤ 1 / 20) {D q : Quat} (hD : IsUnitQ D) {υ : ℝ} (hυ : υ = 1 ∨ υ = -1) (hw : 0 ≤ q.w)
    (hq : QNear η q (scaleQ υ D)) :
    |vlen (quaternionToAxisAngleFl m q) - rotAngle (quaternionToMatrix D)| ≤ 21 * η + 95 * τ + 1e-17 := by
  obtain ⟨h, hh0, hh1, hcos, hsin, hθ⟩ := rotAngle_half hD
  rw [hθ]
  have η0 := (abs_nonneg _).trans (hq 0)
  have t2 : τ * τ ≤ 0.001 * τ := by
    have := mul_le_mul_of_nonneg_right h1 h0; linarith
  have t20 := mul_nonneg h0 h0
  have hυa : |υ| = 1 := by rcases hυ with rfl | rfl <;> norm_num
  have hγ0 := m.γ_nonneg
  -- the real part
  have hwn : |q.w - Real.cos h| ≤ η := by
    rw [hcos]
    have a : |q.w - υ * D.w| ≤ η := hq 0
    have b : |υ * D.w| = |D.w| := by rw [abs_mul, hυa, one_mul]
    rw [← abs_of_nonneg hw, ← b]
    exact (abs_abs_sub_abs_le _ _).trans a
  -- the vector part
  set v : V3 := ![q.x, q.y, q.z] with hv
  have hvn : |vlen v - Real.sin h| ≤ 2 * η := by
    have e : vlen (υ • ![D.x, D.y, D.z]) = Real.sin h := by rw [vlen_smul, hυa, one_mul, hsin]
    rw [← e]
    refine vlen_sub_abs (vlen_le_of_entries η0 fun i => ?_)
    fin_cases i
    · exact hq 1
    · exact hq 2
    · exact hq 3
  have hsin1 := Real.sin_le_one h
  have hnrel : Rel (5 * τ) (m.norm v) (vlen v) := by
    refine .of_abs (by positivity) ?_
    rw [vlen_eq_norm3, abs_of_nonneg (norm3_nonneg _)]
    exact (m.norm_err v).trans (mul_le_mul_of_nonneg_right hγ (norm3_nonneg _))
  set n := m.norm v with hn
  have hvl : vlen v ≤ 1.1 := by have := (abs_le.1 hvn).2; linarith
  have hn1 : |n - Real.sin h| ≤ 2 * η + 5.5 * τ := by
    have a := hnrel.abs_sub
    rw [abs_of_nonneg (vlen_nonneg _)] at a
    have b := abs_add_le (n - vlen v) (vlen v - Real.sin h)
    rw [sub_add_sub_cancel] at b
    have c := mul_le_mul_of_nonneg_left hvl h0
    linarith
  have hn0 : 0 ≤ n := by
    obtain ⟨ε, e1, e2⟩ := hnrel
    rw [e2]
    have := (abs_le.1 e1).1
    exact mul_nonneg (vlen_nonneg _) (by linarith)
  obtain ⟨ρ, H, H0, H1, hat, hpol, hρ, hHh⟩ := quadrant_near hn0 hw hh0 hh1 hwn hn1 (by linarith)
  have hpi := Real.pi_lt_d2
  have hpp := Real.pi_pos
  have hsH0 : 0 ≤ Real.sin H := Real.sin_nonneg_of_nonneg_of_le_pi H0 (by linarith)
  have hρ' := abs_le.1 hρ
  have hJ : H ≤ Real.pi / 2 * Real.sin H := by
    have := Real.mul_le_sin H0 H1
    have h2 := mul_le_mul_of_nonneg_left this (show 0 ≤ Real.pi / 2 by positivity)
    have h3 : Real.pi / 2 * (2 / Real.pi * H) = H := by field_simp
    linarith
  -- half angle
  have ha : Rel τ (m.atan2 n q.w) H := by
    refine .of_abs h0 ?_
    have := m.atan2_err n q.w hn0 hw
    rw [hat] at this
    rw [abs_of_nonneg H0]
    exact this.trans (mul_le_mul_of_nonneg_right hκ H0)
  set a := m.atan2 n q.w with haa
  have ha' := ha.abs_sub
  rw [abs_of_nonneg H0] at ha'
  have hAng : Rel (2.01 * τ) (m.rnd (2 * a)) (2 * H) :=
    ((m.rel hu _).trans (ha.mul_left 2)).mono (by linarith)
  set A := m.rnd (2 * a) with hA
  -- the sine of the half angle
  have hsr : Rel (2.7 * τ) (m.sin a) (Real.sin H) := by
    have b1 : Rel τ (m.sin a) (Real.sin a) := by
      refine .of_abs h0 ((m.sin_rel a ?_).trans (mul_le_mul_of_nonneg_right hκ (abs_nonneg _)))
      have := abs_add_le (a - H) H
      rw [sub_add_cancel, abs_of_nonneg H0] at this
      have h3 := mul_le_mul_of_nonneg_right h1 H0
      linarith
    have b2 : Rel (1.6 * τ) (Real.sin a) (Real.sin H) := by
      refine .of_abs (by positivity) ?_
      rw [abs_of_nonneg hsH0]
      refine (Real.abs_sin_sub_sin_le a H).trans (ha'.trans ?_)
      have h3 := mul_le_mul_of_nonneg_left hJ h0
      have h4 := mul_le_mul_of_nonneg_right (show Real.pi / 2 ≤ 1.6 by linarith) (mul_nonneg h0 hsH0)
      linarith
    exact (b1.trans b2).mono (by linarith)
  -- length of the result
  set f := (if |A| < 1e-6 then m.rnd (0.5 - m.rnd (m.rnd (A * A) / 48)) else m.rnd (m.sin a / A)) with hf
  have hres : Rel τ (vlen (quaternionToAxisAngleFl m q)) (vlen v / |f|) := by
    have e : vlen v / |f| = vlen (f⁻¹ • v) := by rw [vlen_smul, abs_inv]; ring
    rw [e]
    refine vlen_rel fun i => ?_
    have : ∀ x : ℝ, Rel τ (m.rnd (x / f)) (f⁻¹ * x) := fun x => by
      have := m.rel hu (x / f)
      rwa [div_eq_inv_mul] at this ⊢
    unfold quaternionToAxisAngleFl
    fin_cases i
    · exact this q.x
    · exact this q.y
    · exact this q.z
  have hvrel : Rel (5.1 * τ) (vlen v) (ρ * Real.sin H) := by
    rw [← hpol]
    exact hnrel.symm (by linarith) (by linarith)
  have hρH : ρ * H ≤ 1.9 := by
    have : ρ ≤ 1.16 := by linarith
    have : H ≤ 1.58 := by linarith
    have := mul_le_mul ‹ρ ≤ 1.16› this H0 (by norm_num)
    linarith
  have hρ0 : 0 ≤ ρ := by linarith
  -- close to `2 ρ H`
  have hmain : |vlen (quaternionToAxisAngleFl m q) - 2 * (ρ * H)| ≤ 55 * τ + 1e-17 := by
    by_cases hsm : |A| < 1e-6
    · rw [if_pos hsm] at hf
      rw [hf] at hres
      exact small_branch m.toMachine hu h0 h1 H0 hρ0 (by linarith) hAng hsm hvrel hres
    · rw [if_neg hsm] at hf
      have hH : 0 < H := by
        rcases H0.eq_or_lt with hz | hz
        · exfalso
          have : A = 0 := by
            have := hAng.abs_sub
            rw [← hz] at this
            simp at this
            exact this
          rw [this] at hsm
          norm_num at hsm
        · exact hz
      have hsH : 0 < Real.sin H := Real.sin_pos_of_pos_of_lt_pi hH (by linarith)
      have := large_branch h0 h1 hH hsH hρ0 hρH hsr hAng (by rw [hf]; exact m.rel hu _) hvrel hres
      linarith [show (0 : ℝ) ≤ 1e-17 by norm_num]
  have e : vlen (quaternionToAxisAngleFl m q) - 2 * h =
      (vlen (quaternionToAxisAngleFl m q) - 2 * (ρ * H)) + (2 * H * (ρ - 1) + 2 * (H - h)) := by ring
  rw [e]
  refine (abs_add_le _ _).trans ((add_le_add hmain (abs_add_le _ _)).trans ?_)
  rw [abs_mul, abs_mul 2 (H - h), abs_of_nonneg (show 0 ≤ 2 * H by positivity), abs_two]
  have hH2 : H ≤ 1.58 := by linarith
  have := mul_le_mul (show 2 * H ≤ 3.16 by linarith) hρ (abs_nonneg _) (by norm_num)
  linarith

end PK
