import Verif.Model.FloatSo3
import Verif.Lemmas.Round
import Verif.Props.So3

/-!
# Rounding errors of `so3_exp_map`
-/

namespace PK
open Spec Matrix

theorem sqrt_near {a b τ : ℝ} (hb : 0 < b) (h : |a - b| ≤ τ * b) : |Real.sqrt a - Real.sqrt b| ≤ τ * Real.sqrt b := by
  have hs : 0 < Real.sqrt b := Real.sqrt_pos.2 hb
  have hsq := Real.sq_sqrt hb.le
  have ha0 := Real.sqrt_nonneg a
  have h1 : |Real.sqrt a - Real.sqrt b| * Real.sqrt b ≤ |a - b| := by
    rcases le_total 0 a with ha | ha
    · have hsa := Real.sq_sqrt ha
      have e : a - b = (Real.sqrt a - Real.sqrt b) * (Real.sqrt a + Real.sqrt b) := by nlinarith
      rw [e, abs_mul, abs_of_nonneg (a := Real.sqrt a + Real.sqrt b) (by linarith)]
      exact mul_le_mul_of_nonneg_left (by linarith) (abs_nonneg _)
    · rw [Real.sqrt_eq_zero_of_nonpos ha, zero_sub, abs_neg, abs_of_pos hs, abs_of_nonpos (by linarith)]
      nlinarith
  have h2 : |Real.sqrt a - Real.sqrt b| * Real.sqrt b ≤ τ * Real.sqrt b * Real.sqrt b := by
    rw [mul_assoc, ← sq, hsq]; exact h1.trans h
  exact le_of_mul_le_mul_right h2 hs

theorem dot3_near (m : Machine) {τ : ℝ} (hγ : m.γ ≤ τ) (a b : V3) :
    |m.dot a b - (a 0 * b 0 + a 1 * b 1 + a 2 * b 2)| ≤ τ * (|a 0 * b 0| + |a 1 * b 1| + |a 2 * b 2|) := by
  obtain ⟨θ, hθ, e⟩ := m.dot_err a b
  rw [e, Fin.sum_univ_three]
  have e2 : a 0 * b 0 * (1 + θ 0) + a 1 * b 1 * (1 + θ 1) + a 2 * b 2 * (1 + θ 2) - (a 0 * b 0 + a 1 * b 1 + a 2 * b 2) =
      a 0 * b 0 * θ 0 + a 1 * b 1 * θ 1 + a 2 * b 2 * θ 2 := by ring
  rw [e2]
  have hk : ∀ k, |a k * b k * θ k| ≤ τ * |a k * b k| := fun k => by
    rw [abs_mul, mul_comm]; exact mul_le_mul_of_nonneg_right ((hθ k).trans hγ) (abs_nonneg _)
  refine (abs_add_three _ _ _).trans ?_
  have := hk 0; have := hk 1; have := hk 2
  linarith

theorem hatV_sq_apply (v : V3) (i j : Fin 3) :
    (hatV v * hatV v) i j = hatV v i 0 * hatV v 0 j + hatV v i 1 * hatV v 1 j + hatV v i 2 * hatV v 2 j := by
  rw [Matrix.mul_apply, Fin.sum_univ_three]

theorem hatV_entry_le {v : V3} {s : ℝ} (hs : 0 ≤ s) (h : dot v v ≤ s ^ 2) (i j : Fin 3) : |hatV v i j| ≤ s := by
  have h' : v 0 * v 0 + v 1 * v 1 + v 2 * v 2 ≤ s ^ 2 := h
  have hk : ∀ k, |v k| ≤ s := fun k => by
    apply abs_le_of_sq_le_sq _ hs
    fin_cases k <;> simp <;> nlinarith [sq_nonneg (v 0), sq_nonneg (v 1), sq_nonneg (v 2)]
  have := hk 0; have := hk 1; have := hk 2
  fin_cases i <;> fin_cases j <;> simp [hatV] <;> assumption

theorem hatV_sq_abs_le {v : V3} {s : ℝ} (h : dot v v ≤ s ^ 2) (i j : Fin 3) :
    |hatV v i 0 * hatV v 0 j| + |hatV v i 1 * hatV v 1 j| + |hatV v i 2 * hatV v 2 j| ≤ s ^ 2 := by
  have h' : v 0 * v 0 + v 1 * v 1 + v 2 * v 2 ≤ s ^ 2 := h
  have e0 := sq_abs (v 0); have e1 := sq_abs (v 1); have e2 := sq_abs (v 2)
  have n0 := abs_nonneg (v 0); have n1 := abs_nonneg (v 1); have n2 := abs_nonneg (v 2)
  fin_cases i <;> fin_cases j <;> simp [hatV, abs_mul] <;>
    nlinarith [sq_nonneg (|v 0| - |v 1|), sq_nonneg (|v 0| - |v 2|), sq_nonneg (|v 1| - |v 2|), sq_nonneg (v 0), sq_nonneg (v 1),
      sq_nonneg (v 2)]

set_option maxHeartbeats 1000000 in
/-- the computed exponential map against the formula evaluated without rounding; `s` is the clamped angle -/
theorem so3ExpMapFl_near (m : Machine) {τ : ℝ} (hu : m.u ≤ τ) (hκ : m.κ ≤ τ) (hγ : m.γ ≤ τ) (h0 : 0 ≤ τ) (h1 : τ ≤ 1 / 1000)
    (v : V3) {eps : ℝ} (he : 0 < eps) (i j : Fin 3) :
    |so3ExpMapFl m v eps i j - so3ExpMap v eps i j| ≤ τ * (37 + 5 * Real.sqrt (max (dot v v) eps)) := by
  unfold so3ExpMapFl so3ExpMap
  simp only
  set M := max (dot v v) eps with hM
  have hMe : eps ≤ M := le_max_right _ _
  have hMv : dot v v ≤ M := le_max_left _ _
  have hMp : 0 < M := he.trans_le hMe
  set s := Real.sqrt M with hs
  have hsp : 0 < s := Real.sqrt_pos.2 hMp
  have hss : s ^ 2 = M := Real.sq_sqrt hMp.le
  -- the angle
  have c1 : |m.dot v v - dot v v| ≤ τ * M := by
    have := dot3_near m hγ v v
    rw [abs_mul_self, abs_mul_self, abs_mul_self] at this
    exact this.trans (mul_le_mul_of_nonneg_left hMv h0)
  have c2 : |m.rnd eps - eps| ≤ τ * M := by
    refine (m.rnd_err eps).trans ?_
    rw [abs_of_pos he]
    exact mul_le_mul hu hMe he.le h0
  have c3 : |max (m.dot v v) (m.rnd eps) - M| ≤ τ * M :=
    (abs_max_sub_max_le_max _ _ _ _).trans (max_le c1 c2)
  have c4 := sqrt_near hMp c3
  rw [← hs] at c4
  have c5 := rnd_near m hu c4 (abs_of_pos hsp).le
  set s' := m.rnd (Real.sqrt (max (m.dot v v) (m.rnd eps)))
  have c6 : |s' - s| ≤ 2.01 * τ * s := by
    refine c5.trans ?_
    nlinarith [mul_nonneg (mul_nonneg h0 (sub_nonneg.2 h1)) hsp.le]
  have hs' : 0.997 * s ≤ s' := by
    have := (abs_le.1 c6).1
    nlinarith
  have hsp' : 0 < s' := by linarith
  have d1 : |1 / s' - 1 / s| ≤ 2.02 * τ / s := by
    rw [div_sub_div _ _ hsp'.ne' hsp.ne', abs_div, abs_of_pos (mul_pos hsp' hsp), div_le_div_iff₀ (mul_pos hsp' hsp) hsp,
      one_mul, mul_one, abs_sub_comm]
    have : |s' - s| * s ≤ 2.01 * τ * s * s := mul_le_mul_of_nonneg_right c6 hsp.le
    have h3 : 2.02 * τ * (0.997 * s * s) ≤ 2.02 * τ * (s' * s) :=
      mul_le_mul_of_nonneg_left (mul_le_mul_of_nonneg_right hs' hsp.le) (by linarith)
    have h4 : 0 ≤ τ * (s * s) := by positivity
    nlinarith
  set w := 1 / s with hw
  have hwp : 0 < w := by positivity
  have hws : w * s = 1 := by rw [hw]; field_simp
  have d1' : |1 / s' - w| ≤ 2.02 * τ * w := by rw [hw, mul_one_div]; exact d1
  have d2 : |m.rnd (1 / s') - w| ≤ 3.03 * τ * w := by
    refine (rnd_near m hu d1' (abs_of_pos hwp).le).trans ?_
    nlinarith [mul_nonneg (mul_nonneg h0 (sub_nonneg.2 h1)) hwp.le]
  set w' := m.rnd (1 / s')
  -- sine and cosine
  have hlip : |s' - s| ≤ 2.01 * (τ * s) := by rw [← mul_assoc]; exact c6
  have g1 : |m.sin s' - Real.sin s| ≤ τ + 2.01 * (τ * s) := by
    have a1 := m.sin_err s'
    have a2 := Real.abs_sin_sub_sin_le s' s
    have := abs_sub_le (m.sin s') (Real.sin s') (Real.sin s)
    linarith
  have g2 : |m.cos s' - Real.cos s| ≤ τ + 2.01 * (τ * s) := by
    have a1 := m.cos_err s'
    have a2 := Real.abs_cos_sub_cos_le s' s
    have := abs_sub_le (m.cos s') (Real.cos s') (Real.cos s)
    linarith
  have hts : 0 ≤ τ * s := by positivity
  -- `q` is the error of the angle
  obtain ⟨q, hq⟩ : ∃ q, q = τ * s := ⟨_, rfl⟩
  rw [← hq] at g1 g2 hts
  have hτq : τ * q ≤ 0.001 * q := by nlinarith only [h1, hts]
  have hττ : τ * τ ≤ 0.001 * τ := by nlinarith only [h0, h1]
  -- the first factor, times an entry of the skew matrix
  have f1 : |w' * m.sin s' - w * Real.sin s| ≤ (4.04 * τ + 2.02 * q) * w := by
    refine (mul_near d2 (abs_of_pos hwp).le g1 (Real.abs_sin_le_one s)).trans ?_
    have : w * (τ + 2.01 * q) + 1 * (3.03 * τ * w) + 3.03 * τ * w * (τ + 2.01 * q) =
        (4.03 * τ + 2.01 * q + 3.03 * (τ * τ) + 6.0903 * (τ * q)) * w := by ring
    rw [this]
    exact mul_le_mul_of_nonneg_right (by linarith only [hττ, hτq, h0, hts]) hwp.le
  have f2 : |m.rnd (w' * m.sin s') - w * Real.sin s| ≤ (5.05 * τ + 2.03 * q) * w := by
    have hB : |w * Real.sin s| ≤ w := by
      rw [abs_mul, abs_of_pos hwp]
      exact mul_le_of_le_one_right hwp.le (Real.abs_sin_le_one s)
    refine (rnd_near m hu f1 hB).trans ?_
    have : (4.04 * τ + 2.02 * q) * w + τ * (w + (4.04 * τ + 2.02 * q) * w) =
        (5.04 * τ + 2.02 * q + 4.04 * (τ * τ) + 2.02 * (τ * q)) * w := by ring
    rw [this]
    exact mul_le_mul_of_nonneg_right (by linarith only [hττ, hτq, h0, hts]) hwp.le
  have hvs : dot v v ≤ s ^ 2 := by rw [hss]; exact hMv
  have hS := hatV_entry_le hsp.le hvs i j
  have hB1 : |w * Real.sin s * hatV v i j| ≤ 1 := by
    rw [abs_mul, abs_mul, abs_of_pos hwp]
    calc w * |Real.sin s| * |hatV v i j| ≤ w * 1 * s :=
          mul_le_mul (mul_le_mul_of_nonneg_left (Real.abs_sin_le_one s) hwp.le) hS (abs_nonneg _) (by linarith only [hwp])
      _ = 1 := by rw [mul_one, hws]
  have f3 : |m.rnd (w' * m.sin s') * hatV v i j - w * Real.sin s * hatV v i j| ≤ 5.05 * τ + 2.03 * q := by
    rw [← sub_mul, abs_mul]
    calc _ ≤ (5.05 * τ + 2.03 * q) * w * s := mul_le_mul f2 hS (abs_nonneg _) (by positivity)
      _ = 5.05 * τ + 2.03 * q := by rw [mul_assoc, hws, mul_one]
  have f4 : |m.rnd (m.rnd (w' * m.sin s') * hatV v i j) - w * Real.sin s * hatV v i j| ≤ 6.06 * τ + 2.04 * q := by
    refine (rnd_near m hu f3 hB1).trans ?_
    have : τ * (1 + (5.05 * τ + 2.03 * q)) = τ + 5.05 * (τ * τ) + 2.03 * (τ * q) := by ring
    rw [this]; linarith only [hττ, hτq, h0, hts]
  -- the second factor, times an entry of the square
  have hw2 : 0 < w * w := mul_pos hwp hwp
  have k1 : |w' * w' - w * w| ≤ 6.07 * τ * (w * w) := by
    refine (mul_near d2 (abs_of_pos hwp).le d2 (abs_of_pos hwp).le).trans ?_
    have : w * (3.03 * τ * w) + w * (3.03 * τ * w) + 3.03 * τ * w * (3.03 * τ * w) =
        (6.06 * τ + 9.1809 * (τ * τ)) * (w * w) := by ring
    rw [this]
    exact mul_le_mul_of_nonneg_right (by linarith only [hττ, hτq, h0, hts]) hw2.le
  have k2 : |m.rnd (w' * w') - w * w| ≤ 7.08 * τ * (w * w) := by
    refine (rnd_near m hu k1 (abs_of_pos hw2).le).trans ?_
    have : 6.07 * τ * (w * w) + τ * (w * w + 6.07 * τ * (w * w)) = (7.07 * τ + 6.07 * (τ * τ)) * (w * w) := by ring
    rw [this]
    exact mul_le_mul_of_nonneg_right (by linarith only [hττ, hτq, h0, hts]) hw2.le
  have hc2 : |1 - Real.cos s| ≤ 2 := by
    rw [abs_le]; constructor <;> linarith only [Real.cos_le_one s, Real.neg_one_le_cos s]
  have k3 : |1 - m.cos s' - (1 - Real.cos s)| ≤ τ + 2.01 * q := by
    rw [show 1 - m.cos s' - (1 - Real.cos s) = -(m.cos s' - Real.cos s) by ring, abs_neg]; exact g2
  have k4 : |m.rnd (1 - m.cos s') - (1 - Real.cos s)| ≤ 3.01 * τ + 2.02 * q := by
    refine (rnd_near m hu k3 hc2).trans ?_
    have : τ * (2 + (τ + 2.01 * q)) = 2 * τ + τ * τ + 2.01 * (τ * q) := by ring
    rw [this]; linarith only [hττ, hτq, h0, hts]
  have k5 : |m.rnd (w' * w') * m.rnd (1 - m.cos s') - w * w * (1 - Real.cos s)| ≤ (17.2 * τ + 2.04 * q) * (w * w) := by
    refine (mul_near k2 (abs_of_pos hw2).le k4 hc2).trans ?_
    have : w * w * (3.01 * τ + 2.02 * q) + 2 * (7.08 * τ * (w * w)) + 7.08 * τ * (w * w) * (3.01 * τ + 2.02 * q) =
        (17.17 * τ + 2.02 * q + 21.3108 * (τ * τ) + 14.3016 * (τ * q)) * (w * w) := by ring
    rw [this]
    exact mul_le_mul_of_nonneg_right (by linarith only [hττ, hτq, h0, hts]) hw2.le
  have hB2 : |w * w * (1 - Real.cos s)| ≤ 2 * (w * w) := by
    rw [abs_mul, abs_of_pos hw2, mul_comm]
    exact mul_le_mul_of_nonneg_right hc2 hw2.le
  have k6 : |m.rnd (m.rnd (w' * w') * m.rnd (1 - m.cos s')) - w * w * (1 - Real.cos s)| ≤ (19.22 * τ + 2.05 * q) * (w * w) := by
    refine (rnd_near m hu k5 hB2).trans ?_
    have : (17.2 * τ + 2.04 * q) * (w * w) + τ * (2 * (w * w) + (17.2 * τ + 2.04 * q) * (w * w)) =
        (19.2 * τ + 2.04 * q + 17.2 * (τ * τ) + 2.04 * (τ * q)) * (w * w) := by ring
    rw [this]
    exact mul_le_mul_of_nonneg_right (by linarith only [hττ, hτq, h0, hts]) hw2.le
  have hQ := hatV_sq_abs_le hvs i j
  have hT : |(hatV v * hatV v) i j| ≤ s ^ 2 := by
    rw [hatV_sq_apply]; exact (abs_add_three _ _ _).trans hQ
  have hE : |m.dot (hatV v i) (fun k => hatV v k j) - (hatV v * hatV v) i j| ≤ τ * s ^ 2 := by
    rw [hatV_sq_apply]
    exact (dot3_near m hγ _ _).trans (mul_le_mul_of_nonneg_left hQ h0)
  have hww : w * w * s ^ 2 = 1 := by
    calc w * w * s ^ 2 = (w * s) * (w * s) := by ring
      _ = 1 := by rw [hws, one_mul]
  have hB3 : |w * w * (1 - Real.cos s) * (hatV v * hatV v) i j| ≤ 2 := by
    rw [abs_mul]
    calc _ ≤ 2 * (w * w) * s ^ 2 := mul_le_mul hB2 hT (abs_nonneg _) (by positivity)
      _ = 2 := by rw [mul_assoc, hww, mul_one]
  have k7 : |m.rnd (m.rnd (w' * w') * m.rnd (1 - m.cos s')) * m.dot (hatV v i) (fun k => hatV v k j) -
      w * w * (1 - Real.cos s) * (hatV v * hatV v) i j| ≤ 21.25 * τ + 2.06 * q := by
    refine (mul_near k6 hB2 hE hT).trans ?_
    have : 2 * (w * w) * (τ * s ^ 2) + s ^ 2 * ((19.22 * τ + 2.05 * q) * (w * w)) + (19.22 * τ + 2.05 * q) * (w * w) * (τ * s ^ 2) =
        (21.22 * τ + 2.05 * q + 19.22 * (τ * τ) + 2.05 * (τ * q)) * (w * w * s ^ 2) := by ring
    rw [this, hww, mul_one]
    linarith only [hττ, hτq, h0, hts]
  have k8 : |m.rnd (m.rnd (m.rnd (w' * w') * m.rnd (1 - m.cos s')) * m.dot (hatV v i) (fun k => hatV v k j)) -
      w * w * (1 - Real.cos s) * (hatV v * hatV v) i j| ≤ 23.28 * τ + 2.07 * q := by
    refine (rnd_near m hu k7 hB3).trans ?_
    have : τ * (2 + (21.25 * τ + 2.06 * q)) = 2 * τ + 21.25 * (τ * τ) + 2.06 * (τ * q) := by ring
    rw [this]; linarith only [hττ, hτq, h0, hts]
  -- the sums
  have l1 := add_near f4 k8
  have hB4 : |w * Real.sin s * hatV v i j + w * w * (1 - Real.cos s) * (hatV v * hatV v) i j| ≤ 3 := by
    refine (abs_add_le _ _).trans ?_; linarith only [hB1, hB3]
  have l2 := rnd_near m hu l1 hB4
  have l3 := add_near l2 (show |(1 : M3) i j - (1 : M3) i j| ≤ 0 by simp)
  have hI : |(1 : M3) i j| ≤ 1 := by rw [Matrix.one_apply]; split_ifs <;> simp
  have hB5 : |w * Real.sin s * hatV v i j + w * w * (1 - Real.cos s) * (hatV v * hatV v) i j + (1 : M3) i j| ≤ 4 := by
    refine (abs_add_le _ _).trans ?_; linarith only [hB4, hI]
  have l4 := rnd_near m hu l3 hB5
  have e : ((w * Real.sin s) • hatV v + (w * w * (1 - Real.cos s)) • (hatV v * hatV v) + 1 : M3) i j =
      w * Real.sin s * hatV v i j + w * w * (1 - Real.cos s) * (hatV v * hatV v) i j + (1 : M3) i j := by
    rfl
  rw [e]
  refine l4.trans ?_
  have hτττ : τ * (τ * τ) ≤ 0.001 * τ := by
    have := mul_le_mul_of_nonneg_left hττ h0
    linarith only [this, hττ, h0]
  have hττq : τ * (τ * q) ≤ 0.001 * q := by
    have := mul_le_mul_of_nonneg_left hτq h0
    linarith only [this, hτq, hts]
  have e2 : τ * (37 + 5 * s) = 37 * τ + 5 * q := by rw [hq]; ring
  rw [e2]
  have e3 : 6.06 * τ + 2.04 * q + (23.28 * τ + 2.07 * q) + τ * (3 + (6.06 * τ + 2.04 * q + (23.28 * τ + 2.07 * q))) + 0 +
      τ * (4 + (6.06 * τ + 2.04 * q + (23.28 * τ + 2.07 * q) + τ * (3 + (6.06 * τ + 2.04 * q + (23.28 * τ + 2.07 * q))) + 0)) =
      36.34 * τ + 4.11 * q + 61.68 * (τ * τ) + 8.22 * (τ * q) + 29.34 * (τ * (τ * τ)) + 4.11 * (τ * (τ * q)) := by ring
  rw [e3]
  linarith only [hττ, hτq, h0, hts, hτττ, hττq]

end PK
