import Mathlib.Analysis.Calculus.FDeriv.Basic
import Mathlib.Analysis.Normed.Module.FiniteDimension
import Mathlib.Data.Matrix.Mul
import Mathlib.LinearAlgebra.Matrix.NonsingularInverse
import Mathlib.LinearAlgebra.Matrix.ToLin

/-!
# Local convergence of damped least squares iterations
`F` is the error, `-L` its derivative at a solution `x₀`, a step is `c • S x` with `S x` close to `B (F x)`.
-/

namespace PK
open Filter Topology Matrix

section abstract_
variable {X Y : Type*} [NormedAddCommGroup X] [NormedSpace ℝ X] [NormedAddCommGroup Y] [NormedSpace ℝ Y]

/-- around a solution there are arbitrarily small neighbourhoods that the steps do not leave and on which every step shrinks
the error by a fixed factor -/
theorem local_contraction {F : X → Y} {L : X →L[ℝ] Y} {x₀ : X} (hF : HasStrictFDerivAt F (-L) x₀) (h0 : F x₀ = 0)
    {S : X → X} {B : Y →L[ℝ] X} (hS : ∀ ε > (0 : ℝ), ∀ᶠ x in 𝓝 x₀, ‖S x - B (F x)‖ ≤ ε * ‖F x‖)
    (hR : ∀ ε > (0 : ℝ), ∀ᶠ x in 𝓝 x₀, ∃ v, ‖F x - L v‖ ≤ ε * ‖F x‖)
    {a b ρ : ℝ} (ha : 0 ≤ a) (hρ0 : 0 ≤ ρ) (hρ : ρ < 1)
    (hc : ∀ c, a ≤ c → c ≤ b → ∀ v, ‖L v - c • L (B (L v))‖ ≤ ρ * ‖L v‖) :
    ∃ ρ', 0 ≤ ρ' ∧ ρ' < 1 ∧ ∀ U ∈ 𝓝 x₀, ∃ W ∈ 𝓝 x₀, W ⊆ U ∧ ∀ x ∈ W, ∀ c, a ≤ c → c ≤ b →
      x + c • S x ∈ W ∧ ‖F (x + c • S x)‖ ≤ ρ' * ‖F x‖ := by
  by_cases hab : a ≤ b
  swap
  · exact ⟨ρ, hρ0, hρ, fun U hU => ⟨U, hU, subset_rfl, fun x _ c h1 h2 => absurd (h1.trans h2) hab⟩⟩
  have hb : 0 ≤ b := ha.trans hab
  set C : ℝ := b * (‖B‖ + 1) with hC
  have hC0 : 0 ≤ C := by positivity
  set M : ℝ := 2 + b * ‖L‖ * ‖B‖ + b * ‖L‖ + C with hM
  have hM0 : 0 < M := by positivity
  set η : ℝ := min 1 ((1 - ρ) / (2 * M)) with hη
  have hη0 : 0 < η := lt_min one_pos (div_pos (by linarith) (by linarith))
  have hη1 : η ≤ 1 := min_le_left _ _
  have hηM : η * M ≤ (1 - ρ) / 2 := by
    have : η ≤ (1 - ρ) / (2 * M) := min_le_right _ _
    calc η * M ≤ (1 - ρ) / (2 * M) * M := mul_le_mul_of_nonneg_right this hM0.le
      _ = _ := by field_simp
  set ρ' : ℝ := (1 + ρ) / 2 with hρ'
  set K : ℝ := C / (1 - ρ') with hK
  have h1ρ : 0 < 1 - ρ' := by simp only [hρ']; linarith
  have hKC : C + K * ρ' = K := by simp only [hK]; field_simp; ring
  have hK0 : 0 ≤ K := div_nonneg hC0 h1ρ.le
  have hρ'0 : 0 ≤ ρ' := by simp only [hρ']; linarith
  refine ⟨ρ', hρ'0, by linarith, fun U hU => ?_⟩
  -- a ball on which all estimates hold
  have hstrict : ∀ᶠ z : X × X in 𝓝 (x₀, x₀), ‖F z.1 - F z.2 - (-L) (z.1 - z.2)‖ ≤ η * ‖z.1 - z.2‖ :=
    (hF.isLittleO.def hη0)
  rw [nhds_prod_eq, eventually_prod_iff] at hstrict
  obtain ⟨t1, ht1, t2, ht2, hst⟩ := hstrict
  obtain ⟨δ, hδ, hball⟩ := Metric.eventually_nhds_iff.1 ((ht1.and ht2).and ((hS η hη0).and ((hR η hη0).and hU)))
  set φ : X → ℝ := fun x => ‖x - x₀‖ + K * ‖F x‖ with hφ
  have hφc : ContinuousAt φ x₀ := by
    have := hF.continuousAt
    simp only [hφ]
    exact ((continuousAt_id.sub continuousAt_const).norm).add (continuousAt_const.mul this.norm)
  have hφ0 : φ x₀ = 0 := by simp [hφ, h0]
  refine ⟨{x | φ x < δ}, hφc.eventually_lt_const (by rw [hφ0]; exact hδ), fun x hx => ?_, fun x hx c hca hcb => ?_⟩
  · refine (hball ?_).2.2.2
    rw [dist_eq_norm]
    have : 0 ≤ K * ‖F x‖ := by positivity
    have hx : ‖x - x₀‖ + K * ‖F x‖ < δ := hx
    linarith
  have hx : ‖x - x₀‖ + K * ‖F x‖ < δ := hx
  have hKF : 0 ≤ K * ‖F x‖ := by positivity
  have hF0 : 0 ≤ ‖F x‖ := norm_nonneg _
  have hc0 : 0 ≤ c := ha.trans hca
  obtain ⟨b1, b2, ⟨v, b3⟩, -⟩ := hball (y := x) (by rw [dist_eq_norm]; linarith)
  have hstep : ‖c • S x‖ ≤ C * ‖F x‖ := by
    have h1 : ‖S x‖ ≤ (‖B‖ + 1) * ‖F x‖ := by
      calc ‖S x‖ = ‖(S x - B (F x)) + B (F x)‖ := by rw [sub_add_cancel]
        _ ≤ η * ‖F x‖ + ‖B‖ * ‖F x‖ := (norm_add_le _ _).trans (add_le_add b2 (B.le_opNorm _))
        _ ≤ _ := by nlinarith
    rw [norm_smul, Real.norm_of_nonneg hc0, hC, mul_assoc]
    exact mul_le_mul hcb h1 (norm_nonneg _) hb
  have hCK : C ≤ K := by nlinarith
  have hdist : ‖x + c • S x - x₀‖ ≤ ‖x - x₀‖ + C * ‖F x‖ := by
    calc ‖x + c • S x - x₀‖ = ‖(x - x₀) + c • S x‖ := by congr 1; abel
      _ ≤ _ := (norm_add_le _ _).trans (add_le_add le_rfl hstep)
  have hCF : C * ‖F x‖ ≤ K * ‖F x‖ := mul_le_mul_of_nonneg_right hCK hF0
  obtain ⟨y1, -⟩ := hball (y := x + c • S x) (by rw [dist_eq_norm]; linarith)
  have hr3 := hst y1.1 b1.2
  simp only [add_sub_cancel_left] at hr3
  have hcontr : ‖F (x + c • S x)‖ ≤ ρ' * ‖F x‖ := by
    have e : F (x + c • S x) = (F (x + c • S x) - F x - (-L) (c • S x)) - c • L (S x - B (F x)) +
        ((F x - L v) - c • L (B (F x - L v))) + (L v - c • L (B (L v))) := by
      simp only [map_sub, ContinuousLinearMap.neg_apply, map_smul, smul_sub]
      module
    have n1 : ‖c • L (S x - B (F x))‖ ≤ b * ‖L‖ * (η * ‖F x‖) := by
      rw [norm_smul, Real.norm_of_nonneg hc0, mul_assoc]
      refine mul_le_mul hcb ((L.le_opNorm _).trans (mul_le_mul_of_nonneg_left b2 (norm_nonneg _))) (norm_nonneg _) hb
    have n2 : ‖c • L (B (F x - L v))‖ ≤ b * ‖L‖ * ‖B‖ * (η * ‖F x‖) := by
      rw [norm_smul, Real.norm_of_nonneg hc0, mul_assoc, mul_assoc]
      refine mul_le_mul hcb ((L.le_opNorm _).trans (mul_le_mul_of_nonneg_left ((B.le_opNorm _).trans
        (mul_le_mul_of_nonneg_left b3 (norm_nonneg _))) (norm_nonneg _))) (norm_nonneg _) hb
    have n3 : ‖L v‖ ≤ (1 + η) * ‖F x‖ := by
      calc ‖L v‖ = ‖F x - (F x - L v)‖ := by rw [sub_sub_cancel]
        _ ≤ ‖F x‖ + η * ‖F x‖ := (norm_sub_le _ _).trans (add_le_add le_rfl b3)
        _ = _ := by ring
    have n4 : ‖L v - c • L (B (L v))‖ ≤ ρ * ((1 + η) * ‖F x‖) := (hc c hca hcb v).trans (mul_le_mul_of_nonneg_left n3 hρ0)
    have n5 : ‖F (x + c • S x) - F x - (-L) (c • S x)‖ ≤ η * (C * ‖F x‖) := hr3.trans (mul_le_mul_of_nonneg_left hstep hη0.le)
    have total : ‖F (x + c • S x)‖ ≤ η * (C * ‖F x‖) + b * ‖L‖ * (η * ‖F x‖) + (η * ‖F x‖ + b * ‖L‖ * ‖B‖ * (η * ‖F x‖)) +
        ρ * ((1 + η) * ‖F x‖) := by
      rw [e]
      exact (norm_add_le _ _).trans (add_le_add ((norm_add_le _ _).trans (add_le_add ((norm_sub_le _ _).trans (add_le_add n5 n1))
        ((norm_sub_le _ _).trans (add_le_add b3 n2)))) n4)
    have : η * (C * ‖F x‖) + b * ‖L‖ * (η * ‖F x‖) + (η * ‖F x‖ + b * ‖L‖ * ‖B‖ * (η * ‖F x‖)) + ρ * ((1 + η) * ‖F x‖) ≤
        (ρ + η * M) * ‖F x‖ := by
      have : ρ * η * ‖F x‖ ≤ 1 * η * ‖F x‖ := by gcongr
      simp only [hM]
      nlinarith
    have h2 : (ρ + η * M) * ‖F x‖ ≤ ρ' * ‖F x‖ := mul_le_mul_of_nonneg_right (by simp only [hρ']; linarith) hF0
    linarith
  refine ⟨?_, hcontr⟩
  change ‖x + c • S x - x₀‖ + K * ‖F (x + c • S x)‖ < δ
  have h1 : K * ‖F (x + c • S x)‖ ≤ K * (ρ' * ‖F x‖) := mul_le_mul_of_nonneg_left hcontr hK0
  have h2 : C * ‖F x‖ + K * (ρ' * ‖F x‖) = K * ‖F x‖ := by
    calc C * ‖F x‖ + K * (ρ' * ‖F x‖) = (C + K * ρ') * ‖F x‖ := by ring
      _ = _ := by rw [hKC]
  linarith

/-- near a solution where the derivative is injective, the error is close to its range -/
theorem range_of_injective [FiniteDimensional ℝ X] {F : X → Y} {L : X →L[ℝ] Y} {x₀ : X} (hF : HasFDerivAt F (-L) x₀) (h0 : F x₀ = 0)
    (hL : Function.Injective L) : ∀ ε > (0 : ℝ), ∀ᶠ x in 𝓝 x₀, ∃ v, ‖F x - L v‖ ≤ ε * ‖F x‖ := by
  intro ε hε
  obtain ⟨k, hk, hanti⟩ := LinearMap.exists_antilipschitzWith L.toLinearMap (LinearMap.ker_eq_bot.2 hL)
  have hk' : 0 < (k : ℝ) := hk
  have hbd : ∀ v, ‖v‖ ≤ k * ‖L v‖ := fun v => by
    simpa using hanti.le_mul_dist v 0
  have hη : 0 < min (ε / (2 * k)) (1 / (2 * k)) := lt_min (by positivity) (by positivity)
  filter_upwards [hF.isLittleO.def hη] with x hx
  refine ⟨-(x - x₀), ?_⟩
  rw [h0, sub_zero] at hx
  have e : F x - L (-(x - x₀)) = F x - (-L) (x - x₀) := by simp
  rw [e]
  set u := x - x₀
  have h1 := hbd u
  have h2 : ‖L u‖ ≤ ‖F x‖ + ‖F x - (-L) u‖ := by
    calc ‖L u‖ = ‖(F x - (-L) u) - F x‖ := by simp
      _ ≤ _ := (norm_sub_le _ _).trans (by rw [add_comm])
  have h3 : ‖F x - (-L) u‖ ≤ 1 / (2 * k) * ‖u‖ := hx.trans (mul_le_mul_of_nonneg_right (min_le_right _ _) (norm_nonneg _))
  have h4 : ‖u‖ ≤ 2 * k * ‖F x‖ := by
    have h5 : k * (1 / (2 * k) * ‖u‖) = ‖u‖ / 2 := by field_simp
    have h6 : (k : ℝ) * ‖L u‖ ≤ k * (‖F x‖ + 1 / (2 * k) * ‖u‖) := mul_le_mul_of_nonneg_left (h2.trans (by linarith)) hk'.le
    nlinarith
  calc _ ≤ ε / (2 * k) * ‖u‖ := hx.trans (mul_le_mul_of_nonneg_right (min_le_left _ _) (norm_nonneg _))
    _ ≤ ε / (2 * k) * (2 * k * ‖F x‖) := mul_le_mul_of_nonneg_left h4 (by positivity)
    _ = _ := by field_simp

end abstract_

theorem dot_le_norm {m : ℕ} (x : Fin m → ℝ) : x ⬝ᵥ x ≤ m * ‖x‖ ^ 2 := by
  calc x ⬝ᵥ x ≤ ∑ _i : Fin m, ‖x‖ ^ 2 := Finset.sum_le_sum fun i _ => by
        have := norm_le_pi_norm x i
        rw [← sq, ← sq_abs]
        exact pow_le_pow_left₀ (abs_nonneg _) this 2
    _ = _ := by simp

theorem norm_le_dot {m : ℕ} (x : Fin m → ℝ) : ‖x‖ ^ 2 ≤ x ⬝ᵥ x := by
  have h0 : 0 ≤ x ⬝ᵥ x := Finset.sum_nonneg fun i _ => mul_self_nonneg _
  have h : ‖x‖ ≤ Real.sqrt (x ⬝ᵥ x) := (pi_norm_le_iff_of_nonneg (Real.sqrt_nonneg _)).2 fun i =>
    Real.abs_le_sqrt (by
      rw [sq]
      exact Finset.single_le_sum (f := fun i => x i * x i) (fun i _ => mul_self_nonneg _) (Finset.mem_univ i))
  calc ‖x‖ ^ 2 ≤ Real.sqrt (x ⬝ᵥ x) ^ 2 := pow_le_pow_left₀ (norm_nonneg _) h 2
    _ = _ := Real.sq_sqrt h0

/-- damped least squares shrinks every error in the range of the matrix by a fixed factor, for all learning rates from `a` to 2 -/
theorem dls_contract {m n : ℕ} (A : Matrix (Fin m) (Fin n) ℝ) {lam a : ℝ} (hl : 0 < lam) (ha : 0 < a)
    (hu : IsUnit (A * Aᵀ + lam • (1 : Matrix (Fin m) (Fin m) ℝ))) :
    ∃ κ, 0 < κ ∧ κ ≤ 1 ∧ ∀ c, a ≤ c → c ≤ 2 → ∀ v : Fin n → ℝ,
      let y := A *ᵥ v
      let r := y - c • (A *ᵥ (Aᵀ *ᵥ ((A * Aᵀ + lam • (1 : Matrix (Fin m) (Fin m) ℝ))⁻¹ *ᵥ y)))
      r ⬝ᵥ r ≤ (1 - κ) * (y ⬝ᵥ y) := by
  have h00 : ∀ {k : ℕ} (x : Fin k → ℝ), 0 ≤ x ⬝ᵥ x := fun x => Finset.sum_nonneg fun i _ => mul_self_nonneg _
  have hdet := (Matrix.isUnit_iff_isUnit_det _).1 hu
  set G := A * Aᵀ + lam • (1 : Matrix (Fin m) (Fin m) ℝ) with hG
  let f : LinearMap.range A.mulVecLin →ₗ[ℝ] (Fin n → ℝ) := Aᵀ.mulVecLin.domRestrict (LinearMap.range A.mulVecLin)
  have hf : LinearMap.ker f = ⊥ := by
    rw [LinearMap.ker_eq_bot']
    rintro ⟨z, v, rfl⟩ h
    have h : Aᵀ *ᵥ (A *ᵥ v) = 0 := h
    have h1 : (A *ᵥ v) ⬝ᵥ (A *ᵥ v) = 0 := by
      rw [Matrix.dotProduct_mulVec, ← Matrix.mulVec_transpose, h, zero_dotProduct]
    have h2 := norm_le_dot (A *ᵥ v)
    rw [h1] at h2
    have h3 : ‖A *ᵥ v‖ = 0 := by nlinarith [norm_nonneg (A *ᵥ v)]
    exact Subtype.ext (norm_eq_zero.1 h3)
  obtain ⟨k, -, hanti⟩ := LinearMap.exists_antilipschitzWith f hf
  have hbd : ∀ v, ‖A *ᵥ v‖ ≤ k * ‖Aᵀ *ᵥ (A *ᵥ v)‖ := fun v => by
    have := hanti.le_mul_dist ⟨A *ᵥ v, v, rfl⟩ 0
    rw [map_zero, dist_zero_right, dist_zero_right] at this
    exact this
  let g : (Fin m → ℝ) →L[ℝ] (Fin m → ℝ) := LinearMap.toContinuousLinearMap G.mulVecLin
  set D : ℝ := m * (‖g‖ * k) ^ 2 with hD
  have hD0 : 0 ≤ D := by positivity
  refine ⟨min 1 (2 * a * lam / (D + 1)), lt_min one_pos (by positivity), min_le_left _ _, fun c hc1 hc2 v => ?_⟩
  intro y r
  set κ := min 1 (2 * a * lam / (D + 1)) with hκ
  have hκ0 : 0 < κ := lt_min one_pos (by positivity)
  set z := G⁻¹ *ᵥ y with hz
  set u := Aᵀ *ᵥ z with hu'
  have hGz : G *ᵥ z = y := by rw [hz, Matrix.mulVec_mulVec, Matrix.mul_nonsing_inv _ hdet, Matrix.one_mulVec]
  have hy : y = A *ᵥ u + lam • z := by
    rw [← hGz, hG, Matrix.add_mulVec, Matrix.smul_mulVec, Matrix.one_mulVec, ← Matrix.mulVec_mulVec]
  have hzr : z = A *ᵥ (lam⁻¹ • (v - u)) := by
    rw [Matrix.mulVec_smul, Matrix.mulVec_sub]
    change z = lam⁻¹ • (y - A *ᵥ u)
    rw [hy, add_sub_cancel_left, smul_smul, inv_mul_cancel₀ hl.ne', one_smul]
  have hzu : ‖z‖ ≤ k * ‖u‖ := by
    rw [hu', hzr]; exact hbd _
  have hyu : y ⬝ᵥ y ≤ D * (u ⬝ᵥ u) := by
    have h1 : ‖y‖ ≤ ‖g‖ * k * ‖u‖ := by
      calc ‖y‖ = ‖g z‖ := by rw [← hGz]; rfl
        _ ≤ ‖g‖ * ‖z‖ := g.le_opNorm _
        _ ≤ ‖g‖ * (k * ‖u‖) := mul_le_mul_of_nonneg_left hzu (norm_nonneg _)
        _ = _ := by ring
    calc y ⬝ᵥ y ≤ m * ‖y‖ ^ 2 := dot_le_norm y
      _ ≤ m * (‖g‖ * k * ‖u‖) ^ 2 := mul_le_mul_of_nonneg_left (pow_le_pow_left₀ (norm_nonneg _) h1 2) (by positivity)
      _ = D * ‖u‖ ^ 2 := by rw [hD]; ring
      _ ≤ _ := mul_le_mul_of_nonneg_left (norm_le_dot u) hD0
  have hself : z ⬝ᵥ (A *ᵥ u) = u ⬝ᵥ u := by
    rw [Matrix.dotProduct_mulVec, ← Matrix.mulVec_transpose]
  have hyg : y ⬝ᵥ (A *ᵥ u) = (A *ᵥ u) ⬝ᵥ (A *ᵥ u) + lam * (u ⬝ᵥ u) := by
    conv_lhs => rw [hy]
    rw [add_dotProduct, smul_dotProduct, hself, smul_eq_mul]
  have hr : r ⬝ᵥ r = y ⬝ᵥ y - c * (2 - c) * ((A *ᵥ u) ⬝ᵥ (A *ᵥ u)) - 2 * c * lam * (u ⬝ᵥ u) := by
    change (y - c • (A *ᵥ u)) ⬝ᵥ (y - c • (A *ᵥ u)) = _
    rw [sub_dotProduct, dotProduct_sub, dotProduct_sub, smul_dotProduct, smul_dotProduct, dotProduct_smul, dotProduct_smul,
      dotProduct_comm (A *ᵥ u) y, hyg]
    simp only [smul_eq_mul]
    ring
  have h1 := h00 u
  have h2 := mul_nonneg (mul_nonneg (ha.le.trans hc1) (sub_nonneg.2 hc2)) (h00 (A *ᵥ u))
  have h3 : κ * (y ⬝ᵥ y) ≤ 2 * a * lam * (u ⬝ᵥ u) := by
    calc κ * (y ⬝ᵥ y) ≤ κ * (D * (u ⬝ᵥ u)) := mul_le_mul_of_nonneg_left hyu hκ0.le
      _ ≤ κ * ((D + 1) * (u ⬝ᵥ u)) := by gcongr; linarith
      _ ≤ 2 * a * lam / (D + 1) * ((D + 1) * (u ⬝ᵥ u)) := mul_le_mul_of_nonneg_right (min_le_right _ _) (by positivity)
      _ = _ := by field_simp
  have h4 : 2 * a * lam * (u ⬝ᵥ u) ≤ 2 * c * lam * (u ⬝ᵥ u) := by gcongr
  rw [hr]
  linarith

end PK
