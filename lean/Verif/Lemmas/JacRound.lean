import Verif.Lemmas.Round
import Verif.Model.FloatJac

/-!
# Rounding errors of axes, differences and cross products
-/

namespace PK
open Spec Matrix

theorem vlen_sub_le (v w : V3) : vlen (v - w) ≤ vlen v + vlen w := by
  have := vlen_add_le v ((-1 : ℝ) • w)
  rw [vlen_smul] at this
  simpa [sub_eq_add_neg] using this

theorem vlen_le_of_near {v w : V3} {e l : ℝ} (h : vlen (v - w) ≤ e) (hw : vlen w ≤ l) : vlen v ≤ l + e := by
  have := vlen_add_le w (v - w)
  rw [add_sub_cancel] at this
  linarith

theorem vlen_tri {a b c : V3} {e e' : ℝ} (h : vlen (a - b) ≤ e) (h' : vlen (b - c) ≤ e') : vlen (a - c) ≤ e + e' := by
  have := vlen_add_le (a - b) (b - c)
  rw [sub_add_sub_cancel] at this
  linarith

theorem vlen_cross_le (a b : V3) : vlen (cross a b) ≤ vlen a * vlen b := by
  unfold vlen
  rw [← Real.sqrt_mul (by positivity)]
  apply Real.sqrt_le_sqrt
  simp only [cross]
  simp
  nlinarith [sq_nonneg (a 0 * b 0 + a 1 * b 1 + a 2 * b 2)]

theorem cross_sub_left (a a' b : V3) : cross (a - a') b = cross a b - cross a' b := by
  funext i; fin_cases i <;> simp [cross] <;> ring

theorem cross_sub_right (a b b' : V3) : cross a (b - b') = cross a b - cross a b' := by
  funext i; fin_cases i <;> simp [cross] <;> ring

theorem abs_pair_le (a : V3) (b : V3) (i j : Fin 3) (hij : i ≠ j) : |a i| * |b j| + |a j| * |b i| ≤ vlen a * vlen b := by
  have h1 : |a i| ^ 2 + |a j| ^ 2 ≤ vlen a ^ 2 := by
    rw [vlen_sq, dotProduct, Fin.sum_univ_three, sq_abs, sq_abs]
    fin_cases i <;> fin_cases j <;> simp at hij ⊢ <;>
      nlinarith [mul_self_nonneg (a 0), mul_self_nonneg (a 1), mul_self_nonneg (a 2)]
  have h2 : |b i| ^ 2 + |b j| ^ 2 ≤ vlen b ^ 2 := by
    rw [vlen_sq, dotProduct, Fin.sum_univ_three, sq_abs, sq_abs]
    fin_cases i <;> fin_cases j <;> simp at hij ⊢ <;>
      nlinarith [mul_self_nonneg (b 0), mul_self_nonneg (b 1), mul_self_nonneg (b 2)]
  have h3 := vlen_nonneg a
  have h4 := vlen_nonneg b
  apply abs_le_of_sq_le_sq' _ (by positivity) |>.2
  have h5 : (|a i| ^ 2 + |a j| ^ 2) * (|b i| ^ 2 + |b j| ^ 2) ≤ vlen a ^ 2 * vlen b ^ 2 :=
    mul_le_mul h1 h2 (by positivity) (by positivity)
  nlinarith [sq_nonneg (|a i| * |b i| - |a j| * |b j|)]

/-- rounding every component -/
theorem rnd_vec (m : Machine) (v : V3) : vlen ((fun i => m.rnd (v i)) - v) ≤ m.u * vlen v := by
  have h : ∀ i, |((fun i => m.rnd (v i)) - v) i| ≤ (m.u • absV v) i := fun i => by
    simpa [absV] using m.rnd_err (v i)
  refine (vlen_le_of_abs h).trans ?_
  rw [vlen_smul, vlen_absV, abs_of_nonneg m.u_nonneg]

theorem det2_near (m : Machine) (a b c d : ℝ) : |m.det2 a b c d - (a * b - c * d)| ≤ m.γ * (|a| * |b| + |c| * |d|) := by
  obtain ⟨θ, θ', h, h', e⟩ := m.det2_err a b c d
  rw [e, show a * b * (1 + θ) - c * d * (1 + θ') - (a * b - c * d) = θ * (a * b) - θ' * (c * d) by ring]
  refine (abs_sub _ _).trans ?_
  rw [abs_mul, abs_mul, abs_mul, abs_mul, mul_add]
  exact add_le_add (mul_le_mul_of_nonneg_right h (by positivity)) (mul_le_mul_of_nonneg_right h' (by positivity))

theorem crossFl_near (m : Machine) (a b : V3) : vlen (crossFl m a b - cross a b) ≤ 2 * m.γ * (vlen a * vlen b) := by
  have hγ := m.γ_nonneg
  have ha := vlen_nonneg a
  have hb := vlen_nonneg b
  refine (vlen_le_of_entries (e := m.γ * (vlen a * vlen b)) (by positivity) fun i => ?_).trans (le_of_eq (by ring))
  fin_cases i
  · refine (show |m.det2 (a 1) (b 2) (a 2) (b 1) - _| ≤ _ from det2_near m ..).trans ?_
    exact mul_le_mul_of_nonneg_left (abs_pair_le a b 1 2 (by decide)) hγ
  · refine (show |m.det2 (a 2) (b 0) (a 0) (b 2) - _| ≤ _ from det2_near m ..).trans ?_
    exact mul_le_mul_of_nonneg_left (abs_pair_le a b 2 0 (by decide)) hγ
  · refine (show |m.det2 (a 0) (b 1) (a 1) (b 0) - _| ≤ _ from det2_near m ..).trans ?_
    exact mul_le_mul_of_nonneg_left (abs_pair_le a b 0 1 (by decide)) hγ

/-- the cross product of approximate vectors -/
theorem crossFl_within (m : Machine) {z' z d' d : V3} {ez ed l : ℝ} (hz : vlen (z' - z) ≤ ez) (hz1 : vlen z ≤ 1)
    (hd : vlen (d' - d) ≤ ed * l) (hdl : vlen d ≤ l) :
    vlen (crossFl m z' d' - cross z d) ≤ ((1 + ez) * (1 + ed) * (1 + 2 * m.γ) - 1) * l := by
  have hγ := m.γ_nonneg
  have h1 := vlen_le_of_near hz hz1
  have h2 := vlen_le_of_near hd hdl
  have hez : 0 ≤ ez := (vlen_nonneg _).trans hz
  have hl : 0 ≤ l := (vlen_nonneg _).trans hdl
  have hed : 0 ≤ ed * l := (vlen_nonneg _).trans hd
  have h3 := crossFl_near m z' d'
  have h4 : vlen (cross z' d' - cross z d) ≤ ez * (l + ed * l) + ed * l := by
    have e : cross z' d' - cross z d = cross (z' - z) d' + cross z (d' - d) := by
      rw [cross_sub_left, cross_sub_right]; abel
    rw [e]
    refine (vlen_add_le _ _).trans (add_le_add ((vlen_cross_le _ _).trans ?_) ((vlen_cross_le _ _).trans ?_))
    · exact mul_le_mul hz h2 (vlen_nonneg _) hez
    · calc vlen z * vlen (d' - d) ≤ 1 * (ed * l) := mul_le_mul hz1 hd (vlen_nonneg _) (by norm_num)
        _ = ed * l := one_mul _
  have h5 : vlen z' * vlen d' ≤ (1 + ez) * (l + ed * l) := mul_le_mul h1 h2 (vlen_nonneg _) (by linarith)
  have h6 := mul_le_mul_of_nonneg_left h5 (show 0 ≤ 2 * m.γ by linarith)
  refine (vlen_tri (h3.trans h6) h4).trans (le_of_eq ?_)
  ring

/-- the axis of a joint in the base frame -/
theorem axisFl_within (m : Machine) {g l τ : ℝ} {T' T : M4} (h : Within g l T' T) {a' a : V3} (hun : IsUnitV a)
    (ha : ∀ i, |a' i - a i| ≤ τ) :
    vlen (axisFl m T' a' - rotPart T *ᵥ a) ≤ (1 + g) * (1 + 2 * τ) * (1 + 2 * m.γ) - 1 ∧ vlen (rotPart T *ᵥ a) = 1 := by
  have hγ := m.γ_nonneg
  have hg := h.g_nonneg
  have hτ : 0 ≤ τ := (abs_nonneg _).trans (ha 0)
  have hR : IsRot (rotPart T) := h.rigid.1
  have h1 : vlen (a' - a) ≤ 2 * τ := vlen_le_of_entries hτ fun i => ha i
  have h2 := vlen_le_of_near h1 (vlen_unit hun).le
  have h3 : vlen (axisFl m T' a' - rotPart T' *ᵥ a') ≤ m.γ * (fro (rotPart T') * vlen a') := by
    have hc : ∀ i, |(axisFl m T' a' - rotPart T' *ᵥ a') i| ≤ (m.γ • (absM (rotPart T') *ᵥ absV a')) i := by
      intro i
      obtain ⟨θ, hθ, e⟩ := m.dot_err (rotPart T' i) a'
      rw [Pi.sub_apply, axisFl, e, Pi.smul_apply, Matrix.mulVec, Matrix.mulVec, dotProduct, dotProduct, smul_eq_mul,
        Finset.mul_sum, ← Finset.sum_sub_distrib]
      refine (Finset.abs_sum_le_sum_abs _ _).trans (Finset.sum_le_sum fun k _ => ?_)
      have : rotPart T' i k * a' k * (1 + θ k) - rotPart T' i k * a' k = θ k * (rotPart T' i k * a' k) := by ring
      rw [this, abs_mul, abs_mul]
      exact mul_le_mul_of_nonneg_right (hθ k) (by positivity)
    refine (vlen_le_of_abs hc).trans ?_
    rw [vlen_smul, abs_of_nonneg hγ]
    refine mul_le_mul_of_nonneg_left ((vlen_mulVec_le _ _).trans ?_) hγ
    rw [fro_absM, vlen_absV]
  have h4 : vlen (rotPart T' *ᵥ a' - rotPart T *ᵥ a) ≤ g * (1 + 2 * τ) + 2 * τ := by
    have e : rotPart T' *ᵥ a' - rotPart T *ᵥ a = (rotPart T' - rotPart T) *ᵥ a' + rotPart T *ᵥ (a' - a) := by
      rw [Matrix.sub_mulVec, Matrix.mulVec_sub]; abel
    rw [e]
    refine (vlen_add_le _ _).trans (add_le_add ((vlen_mulVec_le _ _).trans ?_) ?_)
    · exact mul_le_mul h.rot h2 (vlen_nonneg _) hg
    · rw [vlen_rot hR]; exact h1
  have hs : Real.sqrt 3 ≤ 2 := by
    rw [show (2 : ℝ) = Real.sqrt (2 ^ 2) by rw [Real.sqrt_sq]; norm_num]
    exact Real.sqrt_le_sqrt (by norm_num)
  have h5 : fro (rotPart T') ≤ 2 * (1 + g) := (fro_sub_bound hR h.rot).trans (by linarith)
  have h6 : fro (rotPart T') * vlen a' ≤ 2 * (1 + g) * (1 + 2 * τ) := mul_le_mul h5 h2 (vlen_nonneg _) (by linarith)
  have h7 := mul_le_mul_of_nonneg_left h6 hγ
  refine ⟨(vlen_tri (h3.trans h7) h4).trans (le_of_eq (by ring)), ?_⟩
  rw [vlen_rot hR, vlen_unit hun]

/-- differences of positions -/
theorem diffFl_within (m : Machine) {g l τ : ℝ} (hu : m.u ≤ τ) {p' p q' q : V3} (hp : vlen (p' - p) ≤ g * l) (hq : vlen (q' - q) ≤ g * l)
    (hl : vlen (p - q) ≤ l) :
    vlen ((fun i => m.rnd (p' i - q' i)) - (p - q)) ≤ ((1 + 2 * g) * (1 + τ) - 1) * l := by
  have h1 := rnd_vec m (p' - q')
  have h2 : vlen (p' - q' - (p - q)) ≤ 2 * g * l := by
    have e : p' - q' - (p - q) = (p' - p) - (q' - q) := by abel
    rw [e]
    exact (vlen_sub_le _ _).trans (by linarith)
  have h3 := vlen_le_of_near h2 hl
  have h4 : m.u * vlen (p' - q') ≤ τ * (l + 2 * g * l) := mul_le_mul hu h3 (vlen_nonneg _) (m.u_nonneg.trans hu)
  exact (vlen_tri (h1.trans h4) h2).trans (le_of_eq (by ring))

end PK
