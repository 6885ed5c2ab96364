import Verif.Lemmas.So3Round
import Verif.Lemmas.MatRound

/-!
# Rounding errors of `so3_log_map`

`g` bounds the errors of the machine and those of the entries of the matrix.
-/

namespace PK
open Spec Matrix

section
variable (m : LogMachine) {g : ℝ} (hu : m.u ≤ g) (hκ : m.κ ≤ g) (h0 : 0 ≤ g) (h1 : g ≤ 5e-6)

theorem rnd_zeroL (m : Machine) : m.rnd 0 = 0 := by
  have := m.rnd_err 0
  rw [abs_zero, mul_zero, sub_zero] at this
  exact abs_nonpos_iff.1 this

include hu h0 h1

theorem gg_le : g * g ≤ 5e-6 * g := mul_le_mul_of_nonneg_right h1 h0

/-- the trace -/
theorem rotTrace_near {R R' : M3} (hR : ∀ i j, |R i j - R' i j| ≤ g) (hR' : ∀ i j, |R' i j| ≤ 1) :
    |rotTraceFl m.toMachine R - (R' 0 0 + R' 1 1 + R' 2 2)| ≤ 8.2 * g := by
  have hg := gg_le m hu h0 h1
  have a1 := add_near (hR 0 0) (hR 1 1)
  have b1 : |R' 0 0 + R' 1 1| ≤ 2 := (abs_add_le _ _).trans (by linarith [hR' 0 0, hR' 1 1])
  have a2 : |m.rnd (R 0 0 + R 1 1) - (R' 0 0 + R' 1 1)| ≤ 4.01 * g := by
    refine (rnd_near m.toMachine hu a1 b1).trans ?_
    have : g + g + g * (2 + (g + g)) = 4 * g + 2 * (g * g) := by ring
    rw [this]; norm_num at hg ⊢; linarith only [hg, h0]
  have a3 := add_near a2 (hR 2 2)
  have b2 : |R' 0 0 + R' 1 1 + R' 2 2| ≤ 3 := (abs_add_le _ _).trans (by linarith [hR' 2 2])
  refine (rnd_near m.toMachine hu a3 b2).trans ?_
  have : 4.01 * g + g + g * (3 + (4.01 * g + g)) = 8.01 * g + 5.01 * (g * g) := by ring
  rw [this]; norm_num at hg ⊢; linarith only [hg, h0]

/-- the cosine of the angle -/
theorem rotCos_near {t c : ℝ} (ht : |t - (1 + 2 * c)| ≤ 8.2 * g) (hc : |c| ≤ 1) :
    |m.rnd (m.rnd (t - 1) * 0.5) - c| ≤ 6.2 * g := by
  have hg := gg_le m hu h0 h1
  have a1 : |t - 1 - 2 * c| ≤ 8.2 * g := by rw [show t - 1 - 2 * c = t - (1 + 2 * c) by ring]; exact ht
  have b1 : |2 * c| ≤ 2 := by rw [abs_mul, abs_two]; linarith
  have a2 := rnd_near m.toMachine hu a1 b1
  have a3 : |m.rnd (t - 1) * 0.5 - c| ≤ 5.11 * g := by
    rw [show m.rnd (t - 1) * 0.5 - c = (m.rnd (t - 1) - 2 * c) * 0.5 by ring, abs_mul, abs_of_pos (a := (0.5 : ℝ)) (by norm_num)]
    have : (8.2 * g + g * (2 + 8.2 * g)) * 0.5 = 5.1 * g + 4.1 * (g * g) := by ring
    have h2 := mul_le_mul_of_nonneg_right a2 (show (0 : ℝ) ≤ 0.5 by norm_num)
    rw [this] at h2
    refine h2.trans ?_
    norm_num at hg ⊢; linarith only [hg, h0]
  refine (rnd_near m.toMachine hu a3 hc).trans ?_
  have : 5.11 * g + g * (1 + 5.11 * g) = 6.11 * g + 5.11 * (g * g) := by ring
  rw [this]; norm_num at hg ⊢; linarith only [hg, h0]

theorem rnd_relL (x : ℝ) : |m.rnd x - x| ≤ g * |x| := (m.rnd_err x).trans (mul_le_mul_of_nonneg_right hu (abs_nonneg _))

theorem rnd_betweenL {x a b : ℝ} (h : 0 ≤ x) (ha : a ≤ (1 - 5e-6) * x) (hb : (1 + 5e-6) * x ≤ b) : a ≤ m.rnd x ∧ m.rnd x ≤ b := by
  have h2 := abs_le.1 (rnd_relL m hu h0 h1 x)
  rw [abs_of_nonneg h] at h2
  have h3 : g * x ≤ 5e-6 * x := mul_le_mul_of_nonneg_right h1 h
  norm_num at *
  constructor <;> linarith

/-- near the identity the angle is some number around 0.01 -/
theorem acosExtrap_small {x : ℝ} (hκ : m.κ ≤ g) (hx1 : 1 - 2.32e-4 ≤ x) (hx2 : x ≤ 1 + 3.2e-5) :
    0.004 ≤ acosExtrapFl m (1 - 1e-4) x ∧ acosExtrapFl m (1 - 1e-4) x ≤ 0.022 := by
  obtain ⟨b1, b2⟩ := rnd_betweenL m hu h0 h1 (x := 1 - 1e-4) (a := 0.999894) (b := 0.999906) (by norm_num) (by norm_num) (by norm_num)
  unfold acosExtrapFl
  rw [if_neg (by rw [m.rnd_neg]; push Not; norm_num at *; linarith)]
  split_ifs with h
  · obtain ⟨q1, q2⟩ := bandAngle_bounds
    obtain ⟨s1, s2⟩ := sqrt_bound
    unfold acosLinearFl
    have hb : Real.arccos (1 - 1e-4) = bandAngle := rfl
    rw [hb]
    obtain ⟨r1, r2⟩ := rnd_betweenL m hu h0 h1 (x := bandAngle) (a := 0.01409) (b := 0.01421) (by norm_num at *; linarith)
      (by norm_num at *; linarith) (by norm_num at *; linarith)
    obtain ⟨d1, d2⟩ := rnd_betweenL m hu h0 h1 (x := x - m.rnd (1 - 1e-4)) (a := 0) (b := 1.39e-4) (by linarith)
      (by norm_num at *; linarith) (by norm_num at *; linarith)
    have hD : dacosDx (1 - 1e-4) = -(1 / Real.sqrt (1 - (1 - 1e-4) * (1 - 1e-4))) := by unfold dacosDx; ring
    rw [hD, m.rnd_neg]
    generalize Real.sqrt (1 - (1 - 1e-4) * (1 - 1e-4)) = s at *
    have hs : 0 < s := lt_of_lt_of_le (by norm_num) s1
    have i1 : 1 / s ≤ 71 := by rw [div_le_iff₀ hs]; norm_num at *; linarith
    have i0 : 0 < 1 / s := by positivity
    obtain ⟨e1, e2⟩ := rnd_betweenL m hu h0 h1 (x := 1 / s) (a := 0) (b := 71.1) i0.le (by norm_num at *; linarith)
      (by norm_num at *; linarith)
    rw [mul_neg, m.rnd_neg]
    have p0 : 0 ≤ m.rnd (x - m.rnd (1 - 1e-4)) * m.rnd (1 / s) := mul_nonneg d1 e1
    have p1 : m.rnd (x - m.rnd (1 - 1e-4)) * m.rnd (1 / s) ≤ 1.39e-4 * 71.1 := mul_le_mul d2 e2 e1 (by norm_num)
    obtain ⟨f1, f2⟩ := rnd_betweenL m hu h0 h1 (a := 0) (b := 0.0099) p0 (by norm_num at *; linarith) (by norm_num at *; linarith)
    generalize m.rnd (m.rnd (x - m.rnd (1 - 1e-4)) * m.rnd (1 / s)) = y at *
    generalize m.rnd bandAngle = z at *
    have := rnd_betweenL m hu h0 h1 (x := -y + z) (a := 0.004) (b := 0.022) (by norm_num at *; linarith)
      (by norm_num at *; linarith) (by norm_num at *; linarith)
    exact this
  · push Not at h
    have hx : x ≤ 0.999906 := by linarith
    have hxa : |x| ≤ 1 := by rw [abs_le]; constructor <;> norm_num at * <;> linarith
    have hpi := Real.two_le_pi
    have l1 : 0.0136 ≤ Real.arccos x := by
      rw [← Real.arccos_cos (x := 0.0136) (by norm_num) (by norm_num; linarith)]
      apply Real.arccos_le_arccos
      have := Real.one_sub_sq_div_two_le_cos (x := 0.0136)
      norm_num at this hx ⊢; linarith
    have l2 : Real.arccos x ≤ 0.0217 := by
      rw [← Real.arccos_cos (x := 0.0217) (by norm_num) (by norm_num; linarith)]
      apply Real.arccos_le_arccos
      have := Real.cos_bound (x := 0.0217) (by rw [abs_of_pos] <;> norm_num)
      rw [abs_of_pos (a := (0.0217 : ℝ)) (by norm_num)] at this
      have := (abs_le.1 this).2
      norm_num at this hx1 ⊢; linarith
    have h2 := abs_le.1 (m.acos_err x hxa)
    have h3 : m.κ * Real.arccos x ≤ 5e-6 * 0.0217 := by
      refine mul_le_mul (hκ.trans h1) l2 (Real.arccos_nonneg x) (by norm_num)
    norm_num at *
    constructor <;> linarith

/-- the denominator, where the clamp is not active -/
theorem phiDenom_near {φ : ℝ} (hs : 1.1e-4 ≤ m.sin φ) :
    |m.rnd (2 * phiDenomFl m.toMachine φ 1e-4) - 2 * m.sin φ| ≤ 6.1 * g * m.sin φ := by
  have hg := gg_le m hu h0 h1
  have hp : 0 < m.sin φ := lt_of_lt_of_le (by norm_num) hs
  obtain ⟨_, e2⟩ := rnd_betweenL m hu h0 h1 (x := 1e-4) (a := 0) (b := 1.1e-4) (by norm_num) (by norm_num) (by norm_num)
  unfold phiDenomFl signR
  simp only
  rw [abs_of_pos hp, max_eq_left (e2.trans hs), if_pos hp, if_neg hp.ne', mul_one, zero_mul, rnd_zeroL, add_zero]
  generalize m.sin φ = s at *
  have a1 := rnd_relL m hu h0 h1 s
  rw [abs_of_pos hp] at a1
  have a2 : |m.rnd (m.rnd s) - s| ≤ 2.01 * g * s := by
    refine (rnd_near m.toMachine hu a1 (abs_of_pos hp).le).trans ?_
    have : g * s + g * (s + g * s) = (2 * g + g * g) * s := by ring
    rw [this]
    exact mul_le_mul_of_nonneg_right (by norm_num at hg ⊢; linarith only [hg, h0]) hp.le
  have a3 : |2 * m.rnd (m.rnd s) - 2 * s| ≤ 4.02 * g * s := by
    rw [← mul_sub, abs_mul, abs_two]; linarith only [a2]
  refine (rnd_near m.toMachine hu a3 (M := 2 * s) (abs_of_pos (by linarith only [hp])).le).trans ?_
  have : 4.02 * g * s + g * (2 * s + 4.02 * g * s) = (6.02 * g + 4.02 * (g * g)) * s := by ring
  rw [this]
  exact mul_le_mul_of_nonneg_right (by norm_num at hg ⊢; linarith only [hg, h0]) hp.le

/-- near the identity the factor is almost 1/2 -/
theorem factor_small {φ : ℝ} (hκ : m.κ ≤ g) (p1 : 0.004 ≤ φ) (p2 : φ ≤ 0.022) :
    |m.rnd (φ / m.rnd (2 * phiDenomFl m.toMachine φ 1e-4)) - 1 / 2| ≤ 6e-5 := by
  have hφ : 0 < φ := lt_of_lt_of_le (by norm_num) p1
  have s1 := sub_cube_le_sin hφ.le
  have s2 := Real.sin_le hφ.le
  have s3 : (1 - 8.1e-5) * φ ≤ Real.sin φ := by
    have : φ ^ 3 = φ ^ 2 * φ := by ring
    have h2 : φ ^ 2 ≤ 0.022 ^ 2 := pow_le_pow_left₀ hφ.le p2 2
    have h3 : φ ^ 2 * φ ≤ 0.022 ^ 2 * φ := mul_le_mul_of_nonneg_right h2 hφ.le
    rw [this] at s1
    norm_num at *
    linarith
  have s0 : 0 ≤ Real.sin φ := le_trans (by norm_num; exact hφ.le) s3
  have t := abs_le.1 (m.sin_rel φ (by rw [abs_of_pos hφ]; linarith))
  rw [abs_of_nonneg s0] at t
  have t' : m.κ * Real.sin φ ≤ 5e-6 * φ := mul_le_mul (hκ.trans h1) s2 s0 (by norm_num)
  have u1 : (1 - 8.7e-5) * φ ≤ m.sin φ := by norm_num at *; linarith
  have u2 : m.sin φ ≤ (1 + 6e-6) * φ := by norm_num at *; linarith
  have hs : 1.1e-4 ≤ m.sin φ := by norm_num at *; linarith
  have d := abs_le.1 (phiDenom_near m hu h0 h1 hs)
  have d' : 6.1 * g * m.sin φ ≤ 6.1 * 5e-6 * ((1 + 6e-6) * φ) :=
    mul_le_mul (mul_le_mul_of_nonneg_left h1 (by norm_num)) u2 (le_trans (by norm_num) hs) (by norm_num)
  generalize m.rnd (2 * phiDenomFl m.toMachine φ 1e-4) = D at *
  have v1 : 2 * (1 - 1.03e-4) * φ ≤ D := by norm_num at *; linarith
  have v2 : D ≤ 2 * (1 + 2.3e-5) * φ := by norm_num at *; linarith
  have hD : 0 < D := lt_of_lt_of_le (by norm_num; exact hφ) v1
  have w1 : φ / D ≤ 0.500052 := by rw [div_le_iff₀ hD]; norm_num at *; linarith
  have w2 : 0.499988 ≤ φ / D := by rw [le_div_iff₀ hD]; norm_num at *; linarith
  obtain ⟨z1, z2⟩ := rnd_betweenL m hu h0 h1 (x := φ / D) (a := 0.49998) (b := 0.50006) (by positivity) (by norm_num at *; linarith)
    (by norm_num at *; linarith)
  rw [abs_le]
  norm_num at *
  constructor <;> linarith

theorem diff_near {x y x' y' d : ℝ} (hx : |x - x'| ≤ g) (hy : |y - y'| ≤ g) (hd : x' - y' = d) (hb : |d| ≤ 2) :
    |m.rnd (x - y) - d| ≤ 4.1 * g := by
  have hg := gg_le m hu h0 h1
  have a := sub_near hx hy
  rw [hd] at a
  refine (rnd_near m.toMachine hu a hb).trans ?_
  have : g + g + g * (2 + (g + g)) = 4 * g + 2 * (g * g) := by ring
  rw [this]; norm_num at hg ⊢; linarith only [hg, h0]

/-- a component of the logarithm near the identity -/
theorem log_small {F δ θ a : ℝ} (hF : |F - 1 / 2| ≤ 6e-5) (hθ : 0 ≤ θ) (hθ' : θ ≤ 0.02) (ha : |a| ≤ 1)
    (hδ : |δ - 2 * Real.sin θ * a| ≤ 4.1 * g) : |m.rnd (F * δ) - θ * a| ≤ 2e-4 * θ + 3 * g := by
  have hg := gg_le m hu h0 h1
  have s2 := Real.sin_le hθ
  have s1 := sub_cube_le_sin hθ
  have hpi := Real.two_le_pi
  have s0 : 0 ≤ Real.sin θ := Real.sin_nonneg_of_nonneg_of_le_pi hθ (by norm_num at *; linarith)
  have b1 : |2 * Real.sin θ * a| ≤ 2 * θ := by
    rw [abs_mul, abs_of_nonneg (by linarith)]
    have := mul_le_mul_of_nonneg_left ha (show 0 ≤ 2 * Real.sin θ by linarith)
    linarith
  have c1 := mul_near hF (show |(1 / 2 : ℝ)| ≤ 1 / 2 by norm_num) hδ b1
  have e : 1 / 2 * (2 * Real.sin θ * a) = Real.sin θ * a := by ring
  rw [e] at c1
  have b2 : |Real.sin θ * a| ≤ θ := by
    rw [abs_mul, abs_of_nonneg s0]
    have := mul_le_mul_of_nonneg_left ha s0
    linarith
  have c2 := rnd_near m.toMachine hu c1 b2
  have c3 : |Real.sin θ * a - θ * a| ≤ 6.7e-5 * θ := by
    rw [← sub_mul, abs_mul, abs_of_nonpos (by linarith)]
    have h3 : θ ^ 3 = θ ^ 2 * θ := by ring
    have h2 : θ ^ 2 ≤ 0.02 ^ 2 := pow_le_pow_left₀ hθ hθ' 2
    have h4 : θ ^ 2 * θ ≤ 0.02 ^ 2 * θ := mul_le_mul_of_nonneg_right h2 hθ
    rw [h3] at s1
    have := mul_le_mul_of_nonneg_left ha (show 0 ≤ -(Real.sin θ - θ) by linarith)
    norm_num at *
    linarith
  refine (abs_sub_le _ (Real.sin θ * a) _).trans ?_
  refine (add_le_add c2 c3).trans ?_
  have e2 : 1 / 2 * (4.1 * g) + 2 * θ * 6e-5 + 6e-5 * (4.1 * g) + g * (θ + (1 / 2 * (4.1 * g) + 2 * θ * 6e-5 + 6e-5 * (4.1 * g)))
      + 6.7e-5 * θ = 2.050246 * g + 1.87e-4 * θ + (1 + 1.2e-4) * (g * θ) + 2.050246 * (g * g) := by ring
  rw [e2]
  have h5 : g * θ ≤ 0.02 * g := by rw [mul_comm]; exact mul_le_mul_of_nonneg_right hθ' h0
  norm_num at *
  linarith

/-- a component of the logarithm at the other angles; `k` is `g / sin² θ` -/
theorem log_mid {φ δ θ a k : ℝ} (hκ : m.κ ≤ g) (hθ : 0 ≤ θ) (hθ' : θ ≤ 3.15) (ha : |a| ≤ 1) (hS : 0.0199 ≤ Real.sin θ)
    (hk : g = k * Real.sin θ ^ 2) (hk' : k ≤ 1 / 200) (hφ : |φ - θ| ≤ 22.7 * (k * Real.sin θ))
    (hδ : |δ - 2 * Real.sin θ * a| ≤ 4.1 * g) :
    |m.rnd (m.rnd (φ / m.rnd (2 * phiDenomFl m.toMachine φ 1e-4)) * δ) - θ * a| ≤ 150 * k := by
  have hsin := (abs_sub_le _ (Real.sin φ) (Real.sin θ)).trans
    (add_le_add (m.sin_err φ) (Real.abs_sin_sub_sin_le φ θ))
  have hS1 := Real.sin_le_one θ
  set S := Real.sin θ with hSd
  clear_value S
  have hSp : 0 < S := lt_of_lt_of_le (by norm_num) hS
  have hk0 : 0 ≤ k := by
    by_contra h
    push Not at h
    have : k * S ^ 2 < 0 := mul_neg_of_neg_of_pos h (by positivity)
    linarith
  obtain ⟨r, hr⟩ : ∃ r, r = k * S := ⟨_, rfl⟩
  have hr0 : 0 ≤ r := by rw [hr]; positivity
  have hrk : r ≤ k := by rw [hr]; exact mul_le_of_le_one_right hk0 hS1
  have hgr : g = r * S := by rw [hk, hr]; ring
  have hgr' : g ≤ r := by rw [hgr]; exact mul_le_of_le_one_right hr0 hS1
  have hrS : r ≤ S / 200 := by rw [hr]; have := mul_le_mul_of_nonneg_right hk' hSp.le; linarith
  rw [← hr] at hφ
  have c1 : |m.sin φ - S| ≤ 23.7 * r := by norm_num at *; linarith
  have c1' := abs_le.1 c1
  have lo : 0.88 * S ≤ m.sin φ := by norm_num at *; linarith
  have hi : m.sin φ ≤ 1.12 * S := by norm_num at *; linarith
  have d := phiDenom_near m hu h0 h1 (φ := φ) (by norm_num at *; linarith)
  have d2 : 6.1 * g * m.sin φ ≤ 6.9 * r := by
    have h2 : 6.1 * g * m.sin φ ≤ 6.1 * r * 1.12 :=
      mul_le_mul (mul_le_mul_of_nonneg_left hgr' (by norm_num)) (hi.trans (by norm_num at *; linarith)) (by norm_num at *; linarith)
        (by linarith)
    norm_num at *; linarith
  generalize m.rnd (2 * phiDenomFl m.toMachine φ 1e-4) = D at *
  have c2 : |D - 2 * S| ≤ 54.4 * r := by
    have := abs_sub_le D (2 * m.sin φ) (2 * S)
    rw [← mul_sub 2 (m.sin φ), abs_mul, abs_two] at this
    norm_num at *; linarith
  have c2' := abs_le.1 c2
  have hD : 1.72 * S ≤ D := by norm_num at *; linarith
  have hDp : 0 < D := by norm_num at *; linarith
  -- the quotient
  have q1 : |φ / D - θ / (2 * S)| ≤ 63.5 * k / S := by
    rw [div_sub_div _ _ hDp.ne' (by positivity), abs_div, abs_of_pos (show 0 < D * (2 * S) by positivity),
      div_le_div_iff₀ (by positivity) hSp]
    have e : φ * (2 * S) - D * θ = 2 * S * (φ - θ) - θ * (D - 2 * S) := by ring
    have h2 : |φ * (2 * S) - D * θ| ≤ 2 * S * (22.7 * r) + 3.15 * (54.4 * r) := by
      rw [e]
      refine (abs_sub _ _).trans (add_le_add ?_ ?_)
      · rw [abs_mul, abs_of_pos (by positivity)]; exact mul_le_mul_of_nonneg_left hφ (by positivity)
      · rw [abs_mul, abs_of_nonneg hθ]; exact mul_le_mul hθ' c2 (abs_nonneg _) (by norm_num)
    have h3 : 2 * S * (22.7 * r) ≤ 45.4 * r := by
      have := mul_le_of_le_one_right hr0 hS1
      linarith only [this]
    have h4 : |φ * (2 * S) - D * θ| * S ≤ 217 * r * S := by
      apply mul_le_mul_of_nonneg_right _ hSp.le
      norm_num at *; linarith only [h2, h3, hr0]
    refine h4.trans ?_
    have h5 : 63.5 * k * (1.72 * S * (2 * S)) ≤ 63.5 * k * (D * (2 * S)) :=
      mul_le_mul_of_nonneg_left (mul_le_mul_of_nonneg_right hD (by positivity)) (by positivity)
    refine le_trans ?_ h5
    rw [hr]
    have h6 : 0 ≤ k * (S * S) := by positivity
    have e7 : 63.5 * k * (1.72 * S * (2 * S)) = 218.44 * (k * (S * S)) := by ring
    rw [e7]
    linarith only [h6]
  have hf : |θ / (2 * S)| ≤ 1.58 / S := by
    rw [abs_of_nonneg (by positivity), div_le_div_iff₀ (by positivity) hSp]
    norm_num at *; nlinarith only [hθ', hSp]
  have q2 : |m.rnd (φ / D) - θ / (2 * S)| ≤ 65.5 * k / S := by
    refine (rnd_near m.toMachine hu q1 hf).trans ?_
    have e : 63.5 * k / S + g * (1.58 / S + 63.5 * k / S) = (63.5 * k + 1.58 * g + 63.5 * (g * k)) / S := by ring
    rw [e]
    apply div_le_div_of_nonneg_right _ hSp.le
    have : g * k ≤ g * (1 / 200) := mul_le_mul_of_nonneg_left hk' h0
    norm_num at *; linarith only [this, hgr', hrk, h0]
  have b2 : |2 * S * a| ≤ 2 * S := by
    rw [abs_mul, abs_of_pos (by positivity)]
    exact mul_le_of_le_one_right (by positivity) ha
  have q3 := mul_near q2 hf hδ b2
  have e3 : θ / (2 * S) * (2 * S * a) = θ * a := by field_simp
  rw [e3] at q3
  have q4 : |m.rnd (φ / D) * δ - θ * a| ≤ 139 * k := by
    refine q3.trans ?_
    have e4 : 1.58 / S * (4.1 * g) + 2 * S * (65.5 * k / S) + 65.5 * k / S * (4.1 * g) = 6.478 * r + 131 * k + 268.55 * (k * r) := by
      rw [hgr]; field_simp; ring
    rw [e4]
    have : k * r ≤ 1 / 200 * r := mul_le_mul_of_nonneg_right hk' hr0
    norm_num at *; linarith only [this, hrk, hr0, hk0]
  have b3 : |θ * a| ≤ 3.15 := by
    rw [abs_mul, abs_of_nonneg hθ]
    exact (mul_le_of_le_one_right hθ ha).trans hθ'
  refine (rnd_near m.toMachine hu q4 b3).trans ?_
  have h9 : g * (139 * k) ≤ g * (139 * (1 / 200)) := mul_le_mul_of_nonneg_left (by linarith only [hk']) h0
  have e5 : 139 * k + g * (3.15 + 139 * k) = 139 * k + 3.15 * g + g * (139 * k) := by ring
  rw [e5]
  norm_num at *; linarith only [h9, hgr', hrk, hk0]

end

/-- arccos is stable away from 0 and π -/
theorem arccos_near {x θ E : ℝ} (hx : |x| ≤ 1) (h0 : 0 ≤ θ) (hπ : θ ≤ Real.pi) (hS : 0 < Real.sin θ) (h : |x - Real.cos θ| ≤ E) :
    |Real.arccos x - θ| ≤ Real.pi * (E / Real.sin θ) := by
  have hx' := abs_le.1 hx
  set φ := Real.arccos x with hφ
  have e : x = Real.cos φ := (Real.cos_arccos hx'.1 hx'.2).symm
  have p0 : 0 ≤ φ := Real.arccos_nonneg x
  have p1 : φ ≤ Real.pi := Real.arccos_le_pi x
  have hpi := Real.pi_pos
  rw [e, Real.cos_sub_cos, abs_mul, abs_mul] at h
  have s1 : Real.sin θ / 2 ≤ |Real.sin ((φ + θ) / 2)| := by
    have a1 : 0 ≤ Real.sin ((φ + θ) / 2) := Real.sin_nonneg_of_nonneg_of_le_pi (by linarith) (by linarith)
    have a2 : 0 ≤ Real.sin φ := Real.sin_nonneg_of_nonneg_of_le_pi p0 p1
    have a3 : 2 * Real.sin ((φ + θ) / 2) * Real.cos ((φ - θ) / 2) = Real.sin φ + Real.sin θ := by
      have b1 := Real.sin_add ((φ + θ) / 2) ((φ - θ) / 2)
      have b2 := Real.sin_sub ((φ + θ) / 2) ((φ - θ) / 2)
      rw [show (φ + θ) / 2 + (φ - θ) / 2 = φ by ring] at b1
      rw [show (φ + θ) / 2 - (φ - θ) / 2 = θ by ring] at b2
      rw [b1, b2]; ring
    have a4 := mul_le_of_le_one_right a1 (Real.cos_le_one ((φ - θ) / 2))
    rw [abs_of_nonneg a1]
    linarith
  have s2 : 2 / Real.pi * |(φ - θ) / 2| ≤ |Real.sin ((φ - θ) / 2)| := by
    apply Real.mul_abs_le_abs_sin
    rw [abs_le]; constructor <;> linarith
  have s3 := mul_le_mul s1 s2 (by positivity) (abs_nonneg _)
  have e2 : Real.sin θ / 2 * (2 / Real.pi * |(φ - θ) / 2|) = Real.sin θ * |φ - θ| / (2 * Real.pi) := by
    rw [abs_div, abs_two]; field_simp
  rw [e2] at s3
  have h4 : |(-2 : ℝ)| = 2 := by norm_num
  rw [h4] at h
  have h5 : Real.sin θ * |φ - θ| / (2 * Real.pi) * 2 ≤ E := by nlinarith only [s3, h]
  have e6 : Real.sin θ * |φ - θ| / (2 * Real.pi) * 2 = Real.sin θ * |φ - θ| / Real.pi := by field_simp
  rw [e6, div_le_iff₀ hpi] at h5
  rw [← mul_div_assoc, le_div_iff₀ hS]
  linarith

end PK
