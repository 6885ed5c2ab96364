import Verif.Model.FloatAcos
import Verif.Props.FloatSlerp

/-!
# C146: accuracy of `acos_linear_extrapolation`
-/

namespace PK

/-- the slope -/
theorem dacosDxFl_near (m : Machine) {τ x w : ℝ} (hu : m.u ≤ τ) (h0 : 0 ≤ τ) (hw : w = 1 - x ^ 2) (hτ : 1000 * τ ≤ w) (w0 : 0 < w) :
    0 < dacosRadicandFl m x ∧ |dacosDxFl m x - -1 / Real.sqrt w| ≤ 3.1 * (τ / w) * (1 / Real.sqrt w) := by
  have x2 := sq_nonneg x
  have w1 : w ≤ 1 := by linarith
  have h1 : τ ≤ 1 / 1000 := by linarith
  obtain ⟨δ, hδ⟩ : ∃ δ, δ = τ / w := ⟨_, rfl⟩
  have δ0 : 0 ≤ δ := hδ ▸ div_nonneg h0 w0.le
  have δ1 : δ ≤ 1 / 1000 := by rw [hδ, div_le_iff₀ w0]; linarith
  have τδ : τ ≤ δ := by rw [hδ, le_div_iff₀ w0]; exact mul_le_of_le_one_right h0 w1
  have δw : δ * w = τ := by rw [hδ]; field_simp
  have ττ : τ * τ ≤ 1 / 1000 * τ := mul_le_mul_of_nonneg_right h1 h0
  have δδ : δ * δ ≤ 1 / 1000 * δ := mul_le_mul_of_nonneg_right δ1 δ0
  have τδ' : τ * δ ≤ 1 / 1000 * δ := mul_le_mul_of_nonneg_right h1 δ0
  rw [← hδ]
  have hy : |dacosRadicandFl m x - w| ≤ 1.01 * τ := by
    unfold dacosRadicandFl
    have a1 : |m.rnd (x * x) - x ^ 2| ≤ τ * x ^ 2 := by
      have := m.rnd_err (x * x)
      rw [← sq, abs_of_nonneg x2] at this
      rw [← sq]
      exact this.trans (mul_le_mul_of_nonneg_right hu x2)
    have a2 : |1 - m.rnd (x * x) - w| ≤ τ * x ^ 2 := by
      rw [show 1 - m.rnd (x * x) - w = -(m.rnd (x * x) - x ^ 2) by rw [hw]; ring, abs_neg]; exact a1
    refine (rnd_near m hu a2 (le_of_eq (abs_of_nonneg w0.le))).trans ?_
    have a3 : τ * (τ * x ^ 2) ≤ τ * (τ * 1) := mul_le_mul_of_nonneg_left (mul_le_mul_of_nonneg_left (by linarith) h0) h0
    have a4 : τ * x ^ 2 = τ - τ * w := by rw [hw]; ring
    norm_num at *; linarith
  obtain ⟨y, hye⟩ : ∃ y, y = dacosRadicandFl m x := ⟨_, rfl⟩
  unfold dacosDxFl
  rw [← hye] at hy ⊢
  have y0 : 0 < y := by
    have := (abs_le.1 hy).1
    norm_num at *; linarith
  refine ⟨y0, ?_⟩
  have hs := sqrt_near (a := y) (b := w) (τ := 1.01 * δ) w0 (by rw [mul_assoc, δw]; exact hy)
  obtain ⟨q, hq⟩ : ∃ q, q = Real.sqrt w := ⟨_, rfl⟩
  have q0 : 0 < q := hq ▸ Real.sqrt_pos.2 w0
  rw [← hq] at hs ⊢
  have δq : 0 ≤ δ * q := mul_nonneg δ0 q0.le
  have τq : τ * q ≤ δ * q := mul_le_mul_of_nonneg_right τδ q0.le
  obtain ⟨p, hp⟩ : ∃ p, p = m.rnd (Real.sqrt y) := ⟨_, rfl⟩
  rw [← hp]
  have hpq : |p - q| ≤ 2.02 * (δ * q) := by
    have := rnd_near m hu hs (le_of_eq (abs_of_nonneg q0.le))
    rw [← hp] at this
    refine this.trans ?_
    have a : τ * (1.01 * δ * q) ≤ 1 / 1000 * (1.01 * δ * q) := mul_le_mul_of_nonneg_right h1 (by positivity)
    norm_num at *; linarith
  have δq1 : δ * q ≤ 1 / 1000 * q := mul_le_mul_of_nonneg_right δ1 q0.le
  have p1 : 0.997 * q ≤ p := by
    have := (abs_le.1 hpq).1
    norm_num at *; linarith
  have p0 : 0 < p := lt_of_lt_of_le (by positivity) p1
  have hinv : |-1 / p - -1 / q| ≤ 2.03 * (δ * (1 / q)) := by
    rw [show -1 / p - -1 / q = (p - q) / (p * q) by field_simp; ring, abs_div, abs_of_pos (mul_pos p0 q0), div_le_iff₀ (mul_pos p0 q0)]
    refine hpq.trans ?_
    have e : 2.03 * (δ * (1 / q)) * (p * q) = 2.03 * (δ * p) := by field_simp
    rw [e]
    have := mul_le_mul_of_nonneg_left p1 δ0
    norm_num at *; linarith
  have i0 : 0 < 1 / q := by positivity
  have hM : |-1 / q| ≤ 1 / q := by rw [abs_div, abs_neg, abs_one, abs_of_pos q0]
  refine (rnd_near m hu hinv hM).trans ?_
  have a1 : τ * (1 / q) ≤ δ * (1 / q) := mul_le_mul_of_nonneg_right τδ i0.le
  have a2 : 0 ≤ δ * (1 / q) := mul_nonneg δ0 i0.le
  have a3 : τ * (δ * (1 / q)) ≤ 1 / 1000 * (δ * (1 / q)) := mul_le_mul_of_nonneg_right h1 a2
  norm_num at *; linarith

/-- the tangent -/
theorem acosTangentFl_near (m : SlerpMachine) {τ x x0 w : ℝ} (hu : m.u ≤ τ) (hκ : m.κ ≤ τ) (h0 : 0 ≤ τ) (hw : w = 1 - x0 ^ 2)
    (hτ : 1000 * τ ≤ w) (w0 : 0 < w) :
    |acosLinearApproximationFl m x x0 - (Real.arccos x0 - (x - x0) / Real.sqrt w)| ≤
      7 * (τ / w) * (|x - x0| / Real.sqrt w) + 7 * τ := by
  have x2 := sq_nonneg x0
  have w1 : w ≤ 1 := by linarith
  have h1 : τ ≤ 1 / 1000 := by linarith
  have hs := (dacosDxFl_near m.toMachine hu h0 hw hτ w0).2
  obtain ⟨δ, hδ⟩ : ∃ δ, δ = τ / w := ⟨_, rfl⟩
  have δ0 : 0 ≤ δ := hδ ▸ div_nonneg h0 w0.le
  have δ1 : δ ≤ 1 / 1000 := by rw [hδ, div_le_iff₀ w0]; linarith
  have τδ : τ ≤ δ := by rw [hδ, le_div_iff₀ w0]; exact mul_le_of_le_one_right h0 w1
  obtain ⟨q, hq⟩ : ∃ q, q = Real.sqrt w := ⟨_, rfl⟩
  have q0 : 0 < q := hq ▸ Real.sqrt_pos.2 w0
  rw [← hδ, ← hq] at hs ⊢
  obtain ⟨d, hd⟩ : ∃ d, d = x - x0 := ⟨_, rfl⟩
  unfold acosLinearApproximationFl
  rw [← hd]
  obtain ⟨D, hD⟩ : ∃ D, D = |d| / q := ⟨_, rfl⟩
  have D0 : 0 ≤ D := hD ▸ by positivity
  have eD : |d| * (1 / q) = D := by rw [hD]; ring
  have hd' : |m.rnd d - d| ≤ δ * |d| := (m.rnd_err d).trans (mul_le_mul_of_nonneg_right (hu.trans τδ) (abs_nonneg _))
  have hM : |-1 / q| ≤ 1 / q := by rw [abs_div, abs_neg, abs_one, abs_of_pos q0]
  have δD : 0 ≤ δ * D := mul_nonneg δ0 D0
  have δδD : δ * (δ * D) ≤ 1 / 1000 * (δ * D) := mul_le_mul_of_nonneg_right δ1 δD
  have e1 : |m.rnd d * dacosDxFl m.toMachine x0 - d * (-1 / q)| ≤ 4.11 * (δ * D) := by
    refine (mul_near hd' le_rfl hs hM).trans ?_
    have e : |d| * (3.1 * δ * (1 / q)) + 1 / q * (δ * |d|) + δ * |d| * (3.1 * δ * (1 / q)) =
        4.1 * (δ * (|d| * (1 / q))) + 3.1 * (δ * (δ * (|d| * (1 / q)))) := by ring
    rw [e, eD]
    norm_num at *; linarith
  have g1 : |d * (-1 / q)| ≤ D := by
    rw [abs_mul, ← eD]; exact mul_le_mul_of_nonneg_left hM (abs_nonneg _)
  have τD : τ * D ≤ δ * D := mul_le_mul_of_nonneg_right τδ D0
  have τδD : τ * (δ * D) ≤ 1 / 1000 * (δ * D) := mul_le_mul_of_nonneg_right h1 δD
  have e2 : |m.rnd (m.rnd d * dacosDxFl m.toMachine x0) - d * (-1 / q)| ≤ 5.12 * (δ * D) := by
    refine (rnd_near m.toMachine hu e1 g1).trans ?_
    norm_num at *; linarith
  have hx0 : |x0| ≤ 1 := by rw [← sq_le_one_iff_abs_le_one]; linarith
  have a0 := Real.arccos_nonneg x0
  have a1 : Real.arccos x0 ≤ 3.15 := (Real.arccos_le_pi x0).trans Real.pi_lt_d2.le
  have e3 : |m.acos x0 - Real.arccos x0| ≤ 3.15 * τ := by
    refine (m.acos_err x0 hx0).trans ?_
    have := mul_le_mul hκ a1 a0 h0
    linarith
  have e4 := add_near e2 e3
  have g4 : |d * (-1 / q) + Real.arccos x0| ≤ D + 3.15 := by
    refine (abs_add_le _ _).trans (add_le_add g1 ?_)
    rwa [abs_of_nonneg a0]
  have e5 := rnd_near m.toMachine hu e4 g4
  rw [show d * (-1 / q) + Real.arccos x0 = Real.arccos x0 - d / q by ring] at e5
  rw [← hD]
  refine e5.trans ?_
  have ττ : τ * τ ≤ 1 / 1000 * τ := mul_le_mul_of_nonneg_right h1 h0
  norm_num at *; linarith

/-- C146: `acos_linear_extrapolation` in `torch.float64`. The arguments of both square roots are positive; between the bounds the result
is the arccos up to the precision of `acos`, and outside it is the tangent at the bound, up to an error that grows with the distance -/
theorem C146_acos (m : SlerpMachine) {τ l u : ℝ} (hu : m.u ≤ τ) (hκ : m.κ ≤ τ) (h0 : 0 ≤ τ) (hlu : l ≤ u)
    (hl1 : -1 < l) (hu1 : u < 1) (hl : 1000 * τ ≤ 1 - l ^ 2) (hU : 1000 * τ ≤ 1 - u ^ 2) (x : ℝ) :
    0 < dacosRadicandFl m.toMachine l ∧ 0 < dacosRadicandFl m.toMachine u ∧
    (l < x → x < u → |acosExtrapF64 m l u x - Real.arccos x| ≤ τ * Real.arccos x) ∧
    (x ≤ l → |acosExtrapF64 m l u x - (Real.arccos l - (x - l) / Real.sqrt (1 - l ^ 2))| ≤
      7 * (τ / (1 - l ^ 2)) * (|x - l| / Real.sqrt (1 - l ^ 2)) + 7 * τ) ∧
    (l < x → u ≤ x → |acosExtrapF64 m l u x - (Real.arccos u - (x - u) / Real.sqrt (1 - u ^ 2))| ≤
      7 * (τ / (1 - u ^ 2)) * (|x - u| / Real.sqrt (1 - u ^ 2)) + 7 * τ) := by
  have wl : 0 < 1 - l ^ 2 := by nlinarith
  have wu : 0 < 1 - u ^ 2 := by nlinarith
  refine ⟨(dacosDxFl_near m.toMachine hu h0 rfl hl wl).1, (dacosDxFl_near m.toMachine hu h0 rfl hU wu).1, fun a b => ?_, fun a => ?_, fun a b => ?_⟩
  · unfold acosExtrapF64
    rw [if_neg (not_le.2 a), if_neg (not_le.2 b)]
    exact (m.acos_err x (abs_le.2 ⟨by linarith, by linarith⟩)).trans (mul_le_mul_of_nonneg_right hκ (Real.arccos_nonneg x))
  · unfold acosExtrapF64
    rw [if_pos a]
    exact acosTangentFl_near m hu hκ h0 rfl hl wl
  · unfold acosExtrapF64
    rw [if_neg (not_le.2 a), if_pos b]
    exact acosTangentFl_near m hu hκ h0 rfl hU wu

/-- C146 in `torch.float64` for a bound at most the default `1 - 1e-4`, for cosines that rounding has moved out of the bounds -/
theorem C146_precision {b x : ℝ} (b0 : 0 ≤ b) (hb : b ≤ 1 - 1e-4) (hx : b ≤ x) (hpos : -b < x) :
    |acosExtrapF64 (binarySlerp 53 (by norm_num)) (-b) b x - (Real.arccos b - (x - b) / Real.sqrt (1 - b ^ 2))| ≤
      (2.5e6 * (x - b) + 7) / 2 ^ 53 := by
  obtain ⟨hU, hK, -⟩ := binaryTrig_bounds 53 (by norm_num)
  have hw : 1.9999e-4 ≤ 1 - b ^ 2 := by
    have : b ^ 2 ≤ (1 - 1e-4) ^ 2 := pow_le_pow_left₀ b0 hb 2
    norm_num at *; linarith
  obtain ⟨w, hwe⟩ : ∃ w, w = 1 - b ^ 2 := ⟨_, rfl⟩
  have := (C146_acos (binarySlerp 53 (by norm_num)) (τ := 1 / 2 ^ 53) (l := -b) (u := b) hU hK (by positivity) (by linarith)
    (by norm_num at *; linarith) (by norm_num at *; linarith) (by rw [neg_sq]; norm_num at *; linarith) (by norm_num at *; linarith) x).2.2.2.2
    hpos hx
  refine this.trans ?_
  rw [← hwe] at hw ⊢
  have w0 : 0 < w := lt_of_lt_of_le (by norm_num) hw
  have hs : 0.01414 ≤ Real.sqrt w := Real.le_sqrt_of_sq_le (le_trans (by norm_num) hw)
  have s0 : 0 < Real.sqrt w := Real.sqrt_pos.2 w0
  have d0 : 0 ≤ x - b := by linarith
  rw [abs_of_nonneg d0]
  have p : 1.9999e-4 * 0.01414 ≤ w * Real.sqrt w := mul_le_mul hw hs (by norm_num) w0.le
  have e : 7 * (1 / 2 ^ 53 / w) * ((x - b) / Real.sqrt w) = 7 * (x - b) / (w * Real.sqrt w) / 2 ^ 53 := by
    field_simp
  have k : 7 * (x - b) / (w * Real.sqrt w) ≤ 2.5e6 * (x - b) := by
    rw [div_le_iff₀ (mul_pos w0 s0)]
    have := mul_le_mul_of_nonneg_left p (show 0 ≤ 2.5e6 * (x - b) by positivity)
    norm_num at *; linarith
  rw [e, add_div, mul_one_div]
  exact add_le_add (div_le_div_of_nonneg_right k (by positivity)) le_rfl

/-- the default bound, and a cosine above 1 -/
example : (1000 : ℝ) * (1 / 2 ^ 53) ≤ 1 - (1 - 1e-4) ^ 2 ∧ (1 - 1e-4 : ℝ) ≤ 1.0001 ∧ -(1 - 1e-4 : ℝ) < 1.0001 := by norm_num

end PK
