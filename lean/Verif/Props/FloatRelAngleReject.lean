import Verif.Props.FloatRelAngle

/-!
# C147: `so3_relative_angle` rejects matrices that are not rotations
-/

namespace PK
open Spec Matrix

/-- a diagonal entry of the computed product `A Bᵀ` -/
theorem relDiag_near (m : Machine) {τ : ℝ} (hγ : m.γ ≤ τ) {A B : M3} (hA : ∀ i j, |A i j| ≤ 2) (hB : ∀ i j, |B i j| ≤ 2) (i : Fin 3) :
    |mul3Fl m A Bᵀ i i - ∑ k, A i k * B i k| ≤ 12 * τ := by
  obtain ⟨θ, h1, h2⟩ := m.dot_err (A i) fun k => Bᵀ k i
  have e : mul3Fl m A Bᵀ i i = ∑ k, A i k * B i k * (1 + θ k) := h2
  have e2 : mul3Fl m A Bᵀ i i - ∑ k, A i k * B i k = ∑ k, A i k * B i k * θ k := by
    rw [e, ← Finset.sum_sub_distrib]; exact Finset.sum_congr rfl fun k _ => by ring
  rw [e2]
  refine (Finset.abs_sum_le_sum_abs _ _).trans ?_
  have hk : ∀ k ∈ Finset.univ, |A i k * B i k * θ k| ≤ 4 * τ := fun k _ => by
    rw [abs_mul, abs_mul]
    have a : |A i k| * |B i k| ≤ 2 * 2 := mul_le_mul (hA i k) (hB i k) (abs_nonneg _) (by norm_num)
    have b := mul_le_mul a ((h1 k).trans hγ) (abs_nonneg _) (by norm_num)
    linarith
  refine (Finset.sum_le_card_nsmul _ _ _ hk).trans (le_of_eq ?_)
  simp
  ring

/-- the computed trace of the product `A Bᵀ` -/
theorem relTrace_near (m : Machine) {τ : ℝ} (hu : m.u ≤ τ) (hγ : m.γ ≤ τ) (h0 : 0 ≤ τ) (h1 : τ ≤ 7e-7) {A B : M3}
    (hA : ∀ i j, |A i j| ≤ 2) (hB : ∀ i j, |B i j| ≤ 2) :
    |rotTraceFl m (mul3Fl m A Bᵀ) - ∑ i, ∑ k, A i k * B i k| ≤ 7e-5 := by
  have d := relDiag_near m hγ hA hB
  have hd : ∀ i, |∑ k, A i k * B i k| ≤ 12 := fun i => by
    refine (Finset.abs_sum_le_sum_abs _ _).trans ?_
    have hk : ∀ k ∈ Finset.univ, |A i k * B i k| ≤ 4 := fun k _ => by
      rw [abs_mul]
      have := mul_le_mul (hA i k) (hB i k) (abs_nonneg _) (by norm_num : (0:ℝ) ≤ 2)
      linarith
    refine (Finset.sum_le_card_nsmul _ _ _ hk).trans (le_of_eq ?_)
    simp
    norm_num
  have hττ : τ * τ ≤ 7e-7 * τ := mul_le_mul_of_nonneg_right h1 h0
  have s1 : |(∑ k, A 0 k * B 0 k) + ∑ k, A 1 k * B 1 k| ≤ 24 := (abs_add_le _ _).trans (by linarith [hd 0, hd 1])
  have a1 := rnd_near m hu (add_near (d 0) (d 1)) s1
  have a1' := a1.trans (show _ ≤ 48.1 * τ by norm_num at *; linarith)
  have s2 : |(∑ k, A 0 k * B 0 k) + (∑ k, A 1 k * B 1 k) + ∑ k, A 2 k * B 2 k| ≤ 36 := (abs_add_le _ _).trans (by linarith [hd 2])
  have a2 := rnd_near m hu (add_near a1' (d 2)) s2
  rw [Fin.sum_univ_three (fun i => ∑ k, A i k * B i k)]
  refine a2.trans ?_
  norm_num at *; linarith

/-- C147: if for some element of the batch the exact trace of `R1 R2ᵀ` is outside `[-1, 3]` by more than 0.0002 (entries up to 2 in
absolute value), `so3_relative_angle` raises `ValueError`, with either value of `cos_angle` -/
theorem C147_rejects (m : LogMachine) {τ : ℝ} (hu : m.u ≤ τ) (hγ : m.γ ≤ τ) (h0 : 0 ≤ τ) (h1 : τ ≤ 7e-7) {N : ℕ} {R1 R2 : Fin N → M3}
    (n : Fin N) (hA : ∀ i j, |R1 n i j| ≤ 2) (hB : ∀ i j, |R2 n i j| ≤ 2)
    (ht : ∑ i, ∑ k, R1 n i k * R2 n i k ≤ -1 - 2e-4 ∨ 3 + 2e-4 ≤ ∑ i, ∑ k, R1 n i k * R2 n i k) (cosAngle : Bool) :
    so3RelativeAngleFl m R1 R2 cosAngle = .error .valueError := by
  have hn := abs_le.1 (relTrace_near m.toMachine hu hγ h0 h1 hA hB)
  have h5 : τ ≤ 5e-6 := h1.trans (by norm_num)
  have hex : ∃ n, rotTraceFl m.toMachine (mul3Fl m.toMachine (R1 n) (R2 n)ᵀ) < m.rnd (-1 - 1e-4) ∨
      m.rnd (3 + 1e-4) < rotTraceFl m.toMachine (mul3Fl m.toMachine (R1 n) (R2 n)ᵀ) := by
    refine ⟨n, ht.imp (fun h => ?_) fun h => ?_⟩
    · have e : m.rnd (-1 - 1e-4) = -m.rnd (1 + 1e-4) := by rw [← m.rnd_neg]; congr 1; ring
      rw [e]
      obtain ⟨_, z⟩ := rnd_betweenL m hu h0 h5 (x := 1 + 1e-4) (a := 0) (b := 1 + 1.1e-4) (by norm_num) (by norm_num) (by norm_num)
      norm_num at *; linarith
    · obtain ⟨_, z⟩ := rnd_betweenL m hu h0 h5 (x := 3 + 1e-4) (a := 0) (b := 3 + 1.2e-4) (by norm_num) (by norm_num) (by norm_num)
      norm_num at *; linarith
  unfold so3RelativeAngleFl so3RotationCosFl so3RotationAngleFl
  cases cosAngle
  · simp only [Bool.false_eq_true, if_false]; rw [if_pos hex]
  · simp only [if_true]; rw [if_pos hex]

/-- C147: `float32` rejects the relative angle of the identity and a point reflection, and of a matrix scaled by 1.1 with itself -/
theorem C147_rejects_cases (cosAngle : Bool) :
    so3RelativeAngleFl (binaryLog 24 (by norm_num)) (fun _ : Fin 1 => 1) (fun _ => -1) cosAngle = .error .valueError ∧
    so3RelativeAngleFl (binaryLog 24 (by norm_num)) (fun _ : Fin 1 => (1.1 : ℝ) • (1 : M3)) (fun _ => (1.1 : ℝ) • (1 : M3)) cosAngle =
      .error .valueError := by
  obtain ⟨hU, hK, hG⟩ := binaryLog_u 24 (by norm_num)
  have b1 : ∀ i j : Fin 3, |(1 : M3) i j| ≤ 1 := fun i j => by
    by_cases h : i = j <;> simp [Matrix.one_apply, h]
  constructor
  · refine C147_rejects _ (τ := 5 * (1 / 2 ^ 24)) (by rw [hU]; norm_num) hG (by norm_num) (by norm_num) 0
      (fun i j => (b1 i j).trans (by norm_num)) (fun i j => ?_) (.inl ?_) _
    · rw [Matrix.neg_apply, abs_neg]; exact (b1 i j).trans (by norm_num)
    · simp [Fin.sum_univ_three, Matrix.one_apply]; norm_num
  · have b2 : ∀ i j : Fin 3, |((1.1 : ℝ) • (1 : M3)) i j| ≤ 2 := fun i j => by
      rw [Matrix.smul_apply, smul_eq_mul, abs_mul, abs_of_pos (by norm_num : (0:ℝ) < 1.1)]
      have := b1 i j
      norm_num at *; linarith
    refine C147_rejects _ (τ := 5 * (1 / 2 ^ 24)) (by rw [hU]; norm_num) hG (by norm_num) (by norm_num) 0 b2 b2 (.inr ?_) _
    simp [Fin.sum_univ_three, Matrix.one_apply]; norm_num

end PK
