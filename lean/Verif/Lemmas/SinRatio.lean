import Mathlib.Analysis.SpecialFunctions.Trigonometric.Bounds
import Mathlib.Analysis.SpecialFunctions.Trigonometric.Deriv
import Mathlib.Analysis.Calculus.MeanValue
import Mathlib.Analysis.Real.Pi.Bounds

/-!
# The ratio `sin(r x) / sin x`, the weights of spherical interpolation
-/

namespace PK

theorem sin_ge_cube {x : ℝ} (h : 0 ≤ x) : x - x ^ 3 / 6 ≤ Real.sin x := by
  rcases h.eq_or_lt with rfl | h
  · simp
  · exact (Real.sin_gt_sub_cube h).le

theorem sinRatio_num {r x : ℝ} (r0 : 0 ≤ r) (r1 : r ≤ 1) (x0 : 0 ≤ x) (x1 : x ≤ Real.pi / 2) :
    |r * Real.cos (r * x) * Real.sin x - Real.sin (r * x) * Real.cos x| ≤ 2 / 3 * x ^ 3 := by
  have hpp := Real.pi_pos
  have rx0 : 0 ≤ r * x := mul_nonneg r0 x0
  have rx1 : r * x ≤ x := mul_le_of_le_one_left x0 r1
  have s0 : 0 ≤ Real.sin x := Real.sin_nonneg_of_nonneg_of_le_pi x0 (by linarith)
  have s1 := Real.sin_le x0
  have s2 := sin_ge_cube x0
  have t0 : 0 ≤ Real.sin (r * x) := Real.sin_nonneg_of_nonneg_of_le_pi rx0 (by linarith)
  have t1 := Real.sin_le rx0
  have t2 := sin_ge_cube rx0
  have c1 := Real.cos_le_one x
  have c2 := Real.one_sub_sq_div_two_le_cos (x := x)
  have d1 := Real.cos_le_one (r * x)
  have d2 := Real.one_sub_sq_div_two_le_cos (x := r * x)
  have x2 := sq_nonneg x
  have x3 : 0 ≤ x ^ 3 := by positivity
  have hr2 : r ^ 2 ≤ 1 := pow_le_one₀ r0 r1
  have hr3 : r ^ 3 ≤ 1 := pow_le_one₀ r0 r1
  have p1 : r ^ 3 * x ^ 3 ≤ x ^ 3 := mul_le_of_le_one_left x3 hr3
  have p2 : r * x ^ 3 ≤ x ^ 3 := mul_le_of_le_one_left x3 r1
  rw [abs_le]
  constructor
  · have a1 : r * (Real.sin x - x * (r * x) ^ 2 / 2) ≤ r * (Real.cos (r * x) * Real.sin x) := by
      refine mul_le_mul_of_nonneg_left ?_ r0
      have := mul_le_mul_of_nonneg_right d2 s0
      have := mul_le_mul_of_nonneg_right s1 (sq_nonneg (r * x))
      linarith
    have a2 : Real.sin (r * x) * Real.cos x ≤ r * x := (mul_le_of_le_one_right t0 c1).trans t1
    have a3 := mul_le_mul_of_nonneg_left s2 r0
    have e1 : r * (x * (r * x) ^ 2 / 2) = r ^ 3 * x ^ 3 / 2 := by ring
    have e2 : r * (x - x ^ 3 / 6) = r * x - r * x ^ 3 / 6 := by ring
    rw [mul_sub, e1] at a1
    linarith
  · have a1 : r * Real.cos (r * x) * Real.sin x ≤ r * x := by
      have := mul_le_mul (mul_le_of_le_one_right r0 d1) s1 s0 r0
      linarith
    have a2 := mul_le_mul_of_nonneg_left c2 t0
    have a3 := mul_le_mul_of_nonneg_right t1 (by positivity : 0 ≤ x ^ 2 / 2)
    have e1 : r * x * (x ^ 2 / 2) = r * x ^ 3 / 2 := by ring
    have e2 : (r * x) ^ 3 = r ^ 3 * x ^ 3 := by ring
    rw [e2] at t2
    rw [e1] at a3
    linarith

theorem sin_pos_half {x : ℝ} (x0 : 0 < x) (x1 : x ≤ Real.pi / 2) : 0 < Real.sin x :=
  Real.sin_pos_of_pos_of_lt_pi x0 (by linarith [Real.pi_pos])

theorem le_sin_half {x : ℝ} (x0 : 0 ≤ x) (x1 : x ≤ Real.pi / 2) : x ≤ 1.575 * Real.sin x := by
  have hpi := Real.pi_lt_d2
  have hpp := Real.pi_pos
  have h2 := mul_le_mul_of_nonneg_left (Real.mul_le_sin x0 x1) (show 0 ≤ Real.pi / 2 by positivity)
  have h3 : Real.pi / 2 * (2 / Real.pi * x) = x := by field_simp
  have s0 : 0 ≤ Real.sin x := Real.sin_nonneg_of_nonneg_of_le_pi x0 (by linarith)
  have := mul_le_mul_of_nonneg_right (show Real.pi / 2 ≤ 1.575 by norm_num at *; linarith) s0
  linarith

/-- the ratio is Lipschitz with a constant proportional to the angle -/
theorem sinRatio_lipschitz {r x y : ℝ} (r0 : 0 ≤ r) (r1 : r ≤ 1) (x0 : 0 < x) (xy : x ≤ y) (y1 : y ≤ Real.pi / 2) :
    |Real.sin (r * y) / Real.sin y - Real.sin (r * x) / Real.sin x| ≤ 1.66 * y * (y - x) := by
  have key := Convex.norm_image_sub_le_of_norm_hasDerivWithin_le (s := Set.Icc x y) (f := fun z => Real.sin (r * z) / Real.sin z)
    (f' := fun z => (r * Real.cos (r * z) * Real.sin z - Real.sin (r * z) * Real.cos z) / Real.sin z ^ 2) (C := 1.66 * y)
    (x := x) (y := y) ?_ ?_ (convex_Icc x y) (Set.left_mem_Icc.2 xy) (Set.right_mem_Icc.2 xy)
  · rw [Real.norm_eq_abs, Real.norm_eq_abs, abs_of_nonneg (sub_nonneg.2 xy)] at key
    exact key
  · intro z hz
    have zs := sin_pos_half (x0.trans_le hz.1) (hz.2.trans y1)
    have h1 : HasDerivAt (fun z => Real.sin (r * z)) (r * Real.cos (r * z)) z := by
      have := ((hasDerivAt_id z).const_mul r).sin
      simp only [id, mul_one] at this
      rw [mul_comm r (Real.cos _)]
      exact this
    exact (h1.div (Real.hasDerivAt_sin z) zs.ne').hasDerivWithinAt
  · intro z hz
    have z0 := x0.trans_le hz.1
    have zs := sin_pos_half z0 (hz.2.trans y1)
    rw [Real.norm_eq_abs, abs_div, abs_of_pos (pow_pos zs 2), div_le_iff₀ (pow_pos zs 2)]
    refine (sinRatio_num r0 r1 z0.le (hz.2.trans y1)).trans ?_
    have a := le_sin_half z0.le (hz.2.trans y1)
    have b : z ^ 2 ≤ (1.575 * Real.sin z) ^ 2 := pow_le_pow_left₀ z0.le a 2
    have c : z ^ 3 ≤ y * (1.575 * Real.sin z) ^ 2 := by
      have : z ^ 3 = z * z ^ 2 := by ring
      rw [this]
      exact mul_le_mul hz.2 b (sq_nonneg _) (z0.le.trans hz.2)
    have d : 0 ≤ y * Real.sin z ^ 2 := mul_nonneg (z0.le.trans hz.2) (sq_nonneg _)
    rw [mul_pow] at c
    norm_num at *
    linarith

/-- so that it depends on the cosine in a Lipschitz way, however small the angle -/
theorem sinRatio_cos {r x y : ℝ} (r0 : 0 ≤ r) (r1 : r ≤ 1) (x0 : 0 < x) (x1 : x ≤ Real.pi / 2) (y0 : 0 < y) (y1 : y ≤ Real.pi / 2) :
    |Real.sin (r * y) / Real.sin y - Real.sin (r * x) / Real.sin x| ≤ 8.3 * |Real.cos y - Real.cos x| := by
  wlog h : x ≤ y generalizing x y
  · rw [abs_sub_comm, abs_sub_comm (Real.cos y)]
    exact this y0 y1 x0 x1 (le_of_not_ge h)
  refine (sinRatio_lipschitz r0 r1 x0 h y1).trans ?_
  have a1 := le_sin_half (x := (y + x) / 2) (by linarith) (by linarith)
  have a2 := le_sin_half (x := (y - x) / 2) (by linarith) (by linarith)
  rw [Real.cos_sub_cos, abs_mul, abs_mul, abs_neg, abs_two,
    abs_of_nonneg (Real.sin_nonneg_of_nonneg_of_le_pi (x := (y + x) / 2) (by linarith) (by linarith)),
    abs_of_nonneg (Real.sin_nonneg_of_nonneg_of_le_pi (x := (y - x) / 2) (by linarith) (by linarith))]
  have a3 := mul_le_mul a1 a2 (by linarith) (by linarith)
  have a5 : 0 ≤ Real.sin ((y + x) / 2) * Real.sin ((y - x) / 2) := mul_nonneg
    (Real.sin_nonneg_of_nonneg_of_le_pi (by linarith) (by linarith)) (Real.sin_nonneg_of_nonneg_of_le_pi (by linarith) (by linarith))
  have a4 : y * (y - x) ≤ (y + x) * (y - x) := mul_le_mul_of_nonneg_right (by linarith) (by linarith)
  norm_num at *
  linarith

/-- the ratio is at most 1 -/
theorem sinRatio_le {r x : ℝ} (r0 : 0 ≤ r) (r1 : r ≤ 1) (x0 : 0 < x) (x1 : x ≤ Real.pi / 2) :
    0 ≤ Real.sin (r * x) / Real.sin x ∧ Real.sin (r * x) / Real.sin x ≤ 1 := by
  have s := sin_pos_half x0 x1
  have rx : r * x ≤ x := mul_le_of_le_one_left x0.le r1
  have rx0 : 0 ≤ r * x := mul_nonneg r0 x0.le
  refine ⟨div_nonneg (Real.sin_nonneg_of_nonneg_of_le_pi rx0 (by linarith [Real.pi_pos])) s.le, (div_le_one s).2 ?_⟩
  exact Real.sin_le_sin_of_le_of_le_pi_div_two (by linarith [Real.pi_pos]) x1 rx

/-- the ratio is close to `r` for small angles -/
theorem sinRatio_small {r x : ℝ} (r0 : 0 ≤ r) (r1 : r ≤ 1) (x0 : 0 < x) (x1 : x ≤ Real.pi / 2) :
    |Real.sin (r * x) / Real.sin x - r| ≤ 0.27 * x ^ 2 := by
  have s := sin_pos_half x0 x1
  have rx0 : 0 ≤ r * x := mul_nonneg r0 x0.le
  rw [show Real.sin (r * x) / Real.sin x - r = (Real.sin (r * x) - r * Real.sin x) / Real.sin x by field_simp, abs_div,
    abs_of_pos s, div_le_iff₀ s]
  have a := le_sin_half x0.le x1
  have b := mul_le_mul_of_nonneg_left a (sq_nonneg x)
  have x3 : 0 ≤ x ^ 3 := by positivity
  have p1 : r ^ 3 * x ^ 3 ≤ x ^ 3 := mul_le_of_le_one_left x3 (pow_le_one₀ r0 r1)
  have p2 : r * x ^ 3 ≤ x ^ 3 := mul_le_of_le_one_left x3 r1
  have t1 := Real.sin_le rx0
  have t2 := sin_ge_cube rx0
  have s1 := mul_le_mul_of_nonneg_left (Real.sin_le x0.le) r0
  have s2 := mul_le_mul_of_nonneg_left (sin_ge_cube x0.le) r0
  have e1 : r * (x - x ^ 3 / 6) = r * x - r * x ^ 3 / 6 := by ring
  have e2 : (r * x) ^ 3 = r ^ 3 * x ^ 3 := by ring
  have e3 : x ^ 2 * x = x ^ 3 := by ring
  have xs : 0 ≤ x ^ 2 * Real.sin x := by positivity
  rw [e1] at s2
  rw [e2] at t2
  rw [e3] at b
  rw [abs_le]
  norm_num at *
  constructor <;> linarith

end PK
