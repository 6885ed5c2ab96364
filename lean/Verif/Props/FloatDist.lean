import Verif.Model.FloatDist
import Verif.Props.FloatApply
import Verif.Props.Math

/-!
# C144: accuracy of `quaternion_angular_distance`
-/

namespace PK
open Spec Matrix

theorem inner4_abs_sum_le {A B : Quat} (hA : IsUnitQ A) (hB : IsUnitQ B) :
    |A.w * B.w| + |A.x * B.x| + |A.y * B.y| + |A.z * B.z| ≤ 1 := by
  unfold IsUnitQ at hA hB
  have := prod_le_half A.w B.w; have := prod_le_half A.x B.x; have := prod_le_half A.y B.y; have := prod_le_half A.z B.z
  linarith

theorem qdotFl_near (m : Machine) {τ η : ℝ} (hu : m.u ≤ τ) (h0 : 0 ≤ τ) (h1 : τ ≤ 1 / 1000) (hη : η ≤ 1 / 50) {a b A B : Quat}
    (hA : IsUnitQ A) (hB : IsUnitQ B) (ha : QNear η a A) (hb : QNear η b B) :
    |qdotFl m a b - qdot A B| ≤ 4.1 * η + 4.5 * τ := by
  have η0 := (abs_nonneg _).trans (ha 0)
  have hr : ∀ x, |m.rnd x - x| ≤ τ * |x| := fun x => (m.rnd_err x).trans (mul_le_mul_of_nonneg_right hu (abs_nonneg x))
  have hηη : η * η ≤ 1 / 50 * η := mul_le_mul_of_nonneg_right hη η0
  have sA := quat_sum_le hA
  have sB := quat_sum_le hB
  have p0 := prod_near (ha 0) (hb 0)
  have p1 := prod_near (ha 1) (hb 1)
  have p2 := prod_near (ha 2) (hb 2)
  have p3 := prod_near (ha 3) (hb 3)
  change |a.w * b.w - A.w * B.w| ≤ η * (|A.w| + |B.w|) + η * η at p0
  change |a.x * b.x - A.x * B.x| ≤ η * (|A.x| + |B.x|) + η * η at p1
  change |a.y * b.y - A.y * B.y| ≤ η * (|A.y| + |B.y|) + η * η at p2
  change |a.z * b.z - A.z * B.z| ≤ η * (|A.z| + |B.z|) + η * η at p3
  have mA := mul_le_mul_of_nonneg_left sA η0
  have mB := mul_le_mul_of_nonneg_left sB η0
  have hsum : |a.w * b.w - A.w * B.w| + |a.x * b.x - A.x * B.x| + |a.y * b.y - A.y * B.y| + |a.z * b.z - A.z * B.z| ≤ 4.1 * η := by
    norm_num; linarith
  have s4 : ∀ x y z w : ℝ, |x + y + z + w| ≤ |x| + |y| + |z| + |w| := fun x y z w => by
    have := abs_add_le (x + y + z) w
    have := abs_add_three x y z
    linarith
  have e1 : |(a.w * b.w + a.x * b.x + a.y * b.y + a.z * b.z) - qdot A B| ≤ 4.1 * η := by
    have : a.w * b.w + a.x * b.x + a.y * b.y + a.z * b.z - qdot A B =
        (a.w * b.w - A.w * B.w) + (a.x * b.x - A.x * B.x) + (a.y * b.y - A.y * B.y) + (a.z * b.z - A.z * B.z) := by
      unfold qdot; ring
    rw [this]; exact (s4 _ _ _ _).trans hsum
  have gr : ∀ x y : ℝ, |x| ≤ |y| + |x - y| := fun x y => by
    have := abs_add_le (x - y) y
    rw [sub_add_cancel] at this
    linarith
  have hS : |a.w * b.w| + |a.x * b.x| + |a.y * b.y| + |a.z * b.z| ≤ 1.09 := by
    have := inner4_abs_sum_le hA hB
    have := gr (a.w * b.w) (A.w * B.w); have := gr (a.x * b.x) (A.x * B.x)
    have := gr (a.y * b.y) (A.y * B.y); have := gr (a.z * b.z) (A.z * B.z)
    norm_num at *; linarith
  have e2 := (sum4_round m hu h0 h1 (hr (a.w * b.w)) (hr (a.x * b.x)) (hr (a.y * b.y)) (hr (a.z * b.z))).trans
    (mul_le_mul_of_nonneg_left hS (by positivity))
  have := abs_add_le (qdotFl m a b - (a.w * b.w + a.x * b.x + a.y * b.y + a.z * b.z))
    ((a.w * b.w + a.x * b.x + a.y * b.y + a.z * b.z) - qdot A B)
  rw [sub_add_sub_cancel] at this
  refine this.trans ((add_le_add e2 e1).trans ?_)
  norm_num; linarith

/-- `1 - x²`, rounded twice -/
theorem oneSub_near (m : Machine) {τ E x c : ℝ} (hu : m.u ≤ τ) (h0 : 0 ≤ τ) (h1 : τ ≤ 1 / 1000) (hE : E ≤ 1 / 20) (h : |x - c| ≤ E)
    (hc : |c| ≤ 1) : |m.rnd (1 - m.rnd (x ^ 2)) - (1 - c ^ 2)| ≤ 2.1 * E + 2.3 * τ := by
  have E0 := (abs_nonneg _).trans h
  have hEE : E * E ≤ 1 / 20 * E := mul_le_mul_of_nonneg_right hE E0
  have hτE : τ * E ≤ τ * (1 / 20) := mul_le_mul_of_nonneg_left hE h0
  have hττ : τ * τ ≤ 1 / 1000 * τ := mul_le_mul_of_nonneg_right h1 h0
  have a1 := mul_near h hc h hc
  have a2 : |x ^ 2 - c ^ 2| ≤ 2.05 * E := by
    rw [sq, sq]; refine a1.trans ?_; norm_num; linarith
  have c2 : |c ^ 2| ≤ 1 := by rw [abs_pow]; exact pow_le_one₀ (abs_nonneg _) hc
  have a3 : |m.rnd (x ^ 2) - c ^ 2| ≤ 2.05 * E + 1.11 * τ := by
    refine (rnd_near m hu a2 c2).trans ?_; norm_num; linarith
  have a4 : |1 - m.rnd (x ^ 2) - (1 - c ^ 2)| ≤ 2.05 * E + 1.11 * τ := by
    rw [show 1 - m.rnd (x ^ 2) - (1 - c ^ 2) = -(m.rnd (x ^ 2) - c ^ 2) by ring, abs_neg]; exact a3
  have c3 : |1 - c ^ 2| ≤ 1 := by
    rw [abs_of_nonneg (by linarith [le_abs_self (c ^ 2)])]; linarith [sq_nonneg c]
  refine (rnd_near m hu a4 c3).trans ?_
  norm_num; linarith

theorem clampR_unit_near {x c E : ℝ} (h : |x - c| ≤ E) (hc : |c| ≤ 1) : abs (|clampR x (-1) 1| - |c|) ≤ E := by
  have h' := abs_le.1 h
  have c' := abs_le.1 hc
  refine (abs_abs_sub_abs_le _ _).trans ?_
  unfold clampR
  rw [abs_le]
  constructor
  · rcases le_total x (-1) with h2 | h2
    · rw [max_eq_right h2]; norm_num; linarith
    · rw [max_eq_left h2]
      rcases le_total x 1 with h3 | h3
      · rw [min_eq_left h3]; linarith
      · rw [min_eq_right h3]; linarith
  · rcases le_total x (-1) with h2 | h2
    · rw [max_eq_right h2]; norm_num; linarith
    · rw [max_eq_left h2]
      have := min_le_left x 1
      linarith

/-- half the rotation angle between two unit quaternions -/
theorem half_relative {A B : Quat} (hA : IsUnitQ A) (hB : IsUnitQ B) :
    ∃ φ, 0 ≤ φ ∧ φ ≤ Real.pi / 2 ∧ Real.cos φ = |qdot A B| ∧ Real.sin φ ^ 2 = 1 - qdot A B ^ 2 ∧ |qdot A B| ≤ 1 ∧
      rotAngle (quaternionToMatrix A * (quaternionToMatrix B)ᵀ) = 2 * φ := by
  have hd : |qdot A B| ≤ 1 := by
    have := inner4_abs_sum_le hA hB
    have h3 := abs_add_three (A.w * B.w) (A.x * B.x) (A.y * B.y)
    have h4 := abs_add_le (A.w * B.w + A.x * B.x + A.y * B.y) (A.z * B.z)
    unfold qdot; linarith
  have hcos : Real.cos (Real.arccos |qdot A B|) = |qdot A B| := Real.cos_arccos (by linarith [abs_nonneg (qdot A B)]) hd
  refine ⟨Real.arccos |qdot A B|, Real.arccos_nonneg _, Real.arccos_le_pi_div_two.2 (abs_nonneg _), hcos, ?_, hd, ?_⟩
  · rw [Real.sin_sq, hcos, sq_abs]
  · rw [rotAngle_relative hA hB]; rfl

/-- the distance of one pair, computed without the test for closeness -/
theorem distFl_near (m : TrigMachine) {τ η : ℝ} (hu : m.u ≤ τ) (hκ : m.κ ≤ τ) (h0 : 0 ≤ τ) (h1 : τ ≤ 1 / 1000) {a b A B : Quat}
    (hA : IsUnitQ A) (hB : IsUnitQ B) (ha : QNear η a A) (hb : QNear η b B) {φ : ℝ} (f0 : 0 ≤ φ) (f1 : φ ≤ Real.pi / 2)
    (hc : Real.cos φ = |qdot A B|) (hs : Real.sin φ ^ 2 = 1 - qdot A B ^ 2) (hd : |qdot A B| ≤ 1)
    (hn : 200 * (η + τ) < Real.sin φ ^ 2) :
    0 < radicandFl m.toMachine a b ∧
    |m.rnd (2 * m.atan2 (m.rnd (Real.sqrt (radicandFl m.toMachine a b))) (absDotFl m.toMachine a b)) - 2 * φ| ≤
      (50 * η + 75 * τ) / Real.sin φ := by
  have η0 := (abs_nonneg _).trans (ha 0)
  have hpi := Real.pi_lt_d2
  have hpp := Real.pi_pos
  obtain ⟨s, hse⟩ : ∃ s, s = Real.sin φ := ⟨_, rfl⟩
  rw [← hse] at hn hs ⊢
  have s1 : s ≤ 1 := hse ▸ Real.sin_le_one _
  have s0 : 0 ≤ s := hse ▸ Real.sin_nonneg_of_nonneg_of_le_pi f0 (by linarith)
  have hs2 : s ^ 2 ≤ 1 := pow_le_one₀ s0 s1
  have hs2' : s ^ 2 ≤ s := by nlinarith
  have hsp : 0 < s := by
    rcases s0.eq_or_lt with hz | hz
    · rw [← hz] at hn; norm_num at hn; linarith
    · exact hz
  have hητ : η + τ ≤ s / 200 := by linarith
  have hητ' : η + τ ≤ s ^ 2 / 200 := by linarith
  have hη : η ≤ 1 / 50 := by linarith
  -- the cosine
  have hD := qdotFl_near m.toMachine hu h0 h1 hη hA hB ha hb
  have hC : |absDotFl m.toMachine a b - (|qdot A B|)| ≤ 4.1 * η + 4.5 * τ := clampR_unit_near hD hd
  have hC0 : 0 ≤ absDotFl m.toMachine a b := abs_nonneg _
  have hE : 4.1 * η + 4.5 * τ ≤ 1 / 20 := by norm_num; linarith
  -- the sine
  have hx := oneSub_near m.toMachine hu h0 h1 hE hC (by rwa [abs_abs])
  rw [sq_abs, ← hs] at hx
  obtain ⟨x, hxe⟩ : ∃ x, x = radicandFl m.toMachine a b := ⟨_, rfl⟩
  have hx : |x - s ^ 2| ≤ 8.7 * η + 11.8 * τ := by
    rw [hxe]; refine hx.trans ?_; norm_num; linarith
  rw [← hxe]
  obtain ⟨C, hCe⟩ : ∃ C, C = absDotFl m.toMachine a b := ⟨_, rfl⟩
  rw [← hCe] at hC hC0 ⊢
  have hss : 0 < s ^ 2 := by positivity
  have hxp : 0 < x := by
    have := (abs_le.1 hx).1
    norm_num at *; linarith
  refine ⟨hxp, ?_⟩
  have hq := sqrt_near (a := x) (b := s ^ 2) (τ := (8.7 * η + 11.8 * τ) / s ^ 2) hss (by rwa [div_mul_cancel₀ _ hss.ne'])
  rw [Real.sqrt_sq s0] at hq
  have e1 : (8.7 * η + 11.8 * τ) / s ^ 2 * s = (8.7 * η + 11.8 * τ) / s := by field_simp
  rw [e1] at hq
  have hτs : τ ≤ τ / s := by rw [le_div_iff₀ hsp]; exact mul_le_of_le_one_right h0 s1
  have hηs : η ≤ η / s := by rw [le_div_iff₀ hsp]; exact mul_le_of_le_one_right η0 s1
  have e2 : (8.7 * η + 11.8 * τ) / s = 8.7 * (η / s) + 11.8 * (τ / s) := by ring
  rw [e2] at hq
  have hb1 : η / s + τ / s ≤ s / 200 := by
    rw [← add_div, div_le_iff₀ hsp]; nlinarith
  have hηs0 : 0 ≤ η / s := by positivity
  have hτs0 : 0 ≤ τ / s := by positivity
  obtain ⟨n, hne⟩ : ∃ n, n = m.rnd (Real.sqrt x) := ⟨_, rfl⟩
  rw [← hne]
  have hnn : |n - s| ≤ 8.7 * (η / s) + 12.9 * (τ / s) := by
    have := rnd_near m.toMachine hu hq (M := 1) (by rw [abs_of_nonneg s0]; exact s1)
    rw [← hne] at this
    refine this.trans ?_
    have k : τ * (1 + (8.7 * (η / s) + 11.8 * (τ / s))) ≤ τ * 1.06 := mul_le_mul_of_nonneg_left (by norm_num; linarith) h0
    norm_num at *; linarith
  have hn0 : 0 ≤ n := by
    have := (abs_le.1 hnn).1
    norm_num at *; linarith
  have hC' : |C - Real.cos φ| ≤ 4.1 * (η / s) + 4.5 * (τ / s) := by
    rw [hc]; refine hC.trans ?_; norm_num; linarith
  rw [hse] at hnn
  obtain ⟨ρ, H, H0, H1, hat, -, -, hH⟩ := quadrant_near hn0 hC0 f0 f1 hC' hnn (by rw [← hse]; norm_num; linarith)
  rw [← hse] at hH
  have hatn := m.atan2_err n C hn0 hC0
  rw [hat] at hatn
  obtain ⟨t, hte⟩ : ∃ t, t = m.atan2 n C := ⟨_, rfl⟩
  rw [← hte] at hatn ⊢
  have hatn' : |t - H| ≤ 1.58 * τ := by
    refine hatn.trans ?_
    have k1 := mul_le_mul_of_nonneg_right hκ H0
    have k2 := mul_le_mul_of_nonneg_left (show H ≤ 1.58 by norm_num at *; linarith) h0
    linarith
  have h2t : |2 * t - 2 * φ| ≤ 48.64 * (η / s) + 69.3 * (τ / s) := by
    have := abs_add_le (t - H) (H - φ)
    rw [sub_add_sub_cancel] at this
    rw [← mul_sub, abs_mul, abs_two]
    norm_num at *; linarith
  refine (rnd_near m.toMachine hu h2t (M := 3.15) (by rw [abs_of_nonneg (by linarith)]; linarith)).trans ?_
  have k : τ * (3.15 + (48.64 * (η / s) + 69.3 * (τ / s))) ≤ τ * 3.6 := mul_le_mul_of_nonneg_left (by norm_num; linarith) h0
  have e3 : (50 * η + 75 * τ) / s = 50 * (η / s) + 75 * (τ / s) := by ring
  rw [e3]
  norm_num at *; linarith

/-- C144: `quaternion_angular_distance` on a batch in which some pair is clearly farther apart than the threshold of
`quaternion_close`: for each pair whose half angle is not tiny the result is no NaN and is the angle of the relative rotation up to
`(50 η + 75 τ) / sin(θ/2)`, where `η` bounds the distance of the arguments from unit quaternions -/
theorem C144_distance (m : TrigMachine) {τ η : ℝ} (hu : m.u ≤ τ) (hκ : m.κ ≤ τ) (h0 : 0 ≤ τ) (hsmall : η + τ ≤ 5e-7) {N : ℕ}
    {a b A B : Fin N → Quat} (hA : ∀ n, IsUnitQ (A n)) (hB : ∀ n, IsUnitQ (B n)) (ha : ∀ n, QNear η (a n) (A n))
    (hb : ∀ n, QNear η (b n) (B n)) {θ : Fin N → ℝ}
    (hθ : ∀ n, θ n = rotAngle (quaternionToMatrix (A n) * (quaternionToMatrix (B n))ᵀ))
    (hfar : ∃ n, 1.1e-4 ≤ Real.sin (θ n / 2) ^ 2) (n : Fin N) (hn : 200 * (η + τ) < Real.sin (θ n / 2) ^ 2) :
    0 < radicandFl m.toMachine (a n) (b n) ∧
    |quaternionAngularDistanceFl m a b n - θ n| ≤ (50 * η + 75 * τ) / Real.sin (θ n / 2) := by
  obtain ⟨k, hk⟩ := hfar
  have η0 := (abs_nonneg _).trans (ha n 0)
  have h1 : τ ≤ 1 / 1000 := by norm_num at *; linarith
  have hη : η ≤ 1 / 50 := by norm_num at *; linarith
  have hnc : ¬ quaternionCloseFl m.toMachine a b 1e-4 := fun h => by
    obtain ⟨φ, f0, f1, hc, hs, hd, hr⟩ := half_relative (hA k) (hB k)
    rw [hθ, hr, mul_div_cancel_left₀ _ two_ne_zero, hs] at hk
    have hD := qdotFl_near m.toMachine hu h0 h1 hη (hA k) (hB k) (ha k) (hb k)
    have := (abs_le.1 (oneSub_near m.toMachine hu h0 h1 (by norm_num at *; linarith) hD hd)).1
    have := h k
    norm_num at *; linarith
  obtain ⟨φ, f0, f1, hc, hs, hd, hr⟩ := half_relative (hA n) (hB n)
  have e : θ n = 2 * φ := by rw [hθ, hr]
  rw [e, mul_div_cancel_left₀ _ two_ne_zero] at hn ⊢
  have := distFl_near m hu hκ h0 h1 (hA n) (hB n) (ha n) (hb n) f0 f1 hc hs hd hn
  refine ⟨this.1, ?_⟩
  unfold quaternionAngularDistanceFl
  rw [if_neg hnc]
  exact this.2

/-- C144: on a batch in which every pair is clearly closer than the threshold all results are 0, although the angles go up to 0.03 -/
theorem C144_close (m : TrigMachine) {τ η : ℝ} (hu : m.u ≤ τ) (h0 : 0 ≤ τ) (hsmall : η + τ ≤ 5e-7) {N : ℕ}
    {a b A B : Fin N → Quat} (hA : ∀ n, IsUnitQ (A n)) (hB : ∀ n, IsUnitQ (B n)) (ha : ∀ n, QNear η (a n) (A n))
    (hb : ∀ n, QNear η (b n) (B n)) {θ : Fin N → ℝ}
    (hθ : ∀ n, θ n = rotAngle (quaternionToMatrix (A n) * (quaternionToMatrix (B n))ᵀ))
    (hall : ∀ n, Real.sin (θ n / 2) ^ 2 ≤ 0.9e-4) (n : Fin N) : quaternionAngularDistanceFl m a b n = 0 ∧ θ n ≤ 0.03 := by
  have η0 := (abs_nonneg _).trans (ha n 0)
  have h1 : τ ≤ 1 / 1000 := by norm_num at *; linarith
  have hη : η ≤ 1 / 50 := by norm_num at *; linarith
  have hpi := Real.pi_lt_d2
  have hpp := Real.pi_pos
  constructor
  · unfold quaternionAngularDistanceFl
    rw [if_pos]
    intro k
    obtain ⟨φ, f0, f1, hc, hs, hd, hr⟩ := half_relative (hA k) (hB k)
    have hk := hall k
    rw [hθ, hr, mul_div_cancel_left₀ _ two_ne_zero, hs] at hk
    have hD := qdotFl_near m.toMachine hu h0 h1 hη (hA k) (hB k) (ha k) (hb k)
    have := (abs_le.1 (oneSub_near m.toMachine hu h0 h1 (by norm_num at *; linarith) hD hd)).2
    norm_num at *; linarith
  · obtain ⟨φ, f0, f1, hc, hs, hd, hr⟩ := half_relative (hA n) (hB n)
    have hk := hall n
    rw [hθ, hr] at *
    rw [mul_div_cancel_left₀ _ two_ne_zero] at hk
    have hj := Real.mul_le_sin f0 f1
    have hsn : Real.sin φ ≤ 0.0095 := by
      by_contra hcon
      have hcon := not_le.1 hcon
      have : (0.0095 : ℝ) ^ 2 < Real.sin φ ^ 2 := by nlinarith
      norm_num at *; linarith
    have h3 : φ ≤ Real.pi / 2 * Real.sin φ := by
      have h2 := mul_le_mul_of_nonneg_left hj (show 0 ≤ Real.pi / 2 by positivity)
      have h3 : Real.pi / 2 * (2 / Real.pi * φ) = φ := by field_simp
      linarith
    have h4 : Real.pi / 2 * Real.sin φ ≤ 1.575 * 0.0095 :=
      mul_le_mul (by linarith) hsn (Real.sin_nonneg_of_nonneg_of_le_pi f0 (by linarith)) (by norm_num)
    norm_num at *; linarith

/-- C144 in a binary format with `q ≥ 24` bits, for quaternions normalised up to 4 units of the last place -/
theorem C144_precision (q : ℕ) (hq : 24 ≤ q) {N : ℕ} {a b A B : Fin N → Quat} (hA : ∀ n, IsUnitQ (A n)) (hB : ∀ n, IsUnitQ (B n))
    (ha : ∀ n, QNear (4 / 2 ^ q) (a n) (A n)) (hb : ∀ n, QNear (4 / 2 ^ q) (b n) (B n)) {θ : Fin N → ℝ}
    (hθ : ∀ n, θ n = rotAngle (quaternionToMatrix (A n) * (quaternionToMatrix (B n))ᵀ))
    (hfar : ∃ n, 1.1e-4 ≤ Real.sin (θ n / 2) ^ 2) (n : Fin N) (hn : 1000 / 2 ^ q < Real.sin (θ n / 2) ^ 2) :
    0 < radicandFl (binary q (by omega)) (a n) (b n) ∧
    |quaternionAngularDistanceFl (binaryTrig q (by omega)) a b n - θ n| ≤ 275 / 2 ^ q / Real.sin (θ n / 2) := by
  obtain ⟨hU, hK, -⟩ := binaryTrig_bounds q (by omega)
  have h0 : (0 : ℝ) ≤ 1 / 2 ^ q := by positivity
  have hl : (1 : ℝ) / 2 ^ q ≤ 1 / 2 ^ 24 := one_div_le_one_div_of_le (by positivity) (pow_le_pow_right₀ (by norm_num) hq)
  have e4 : (4 : ℝ) / 2 ^ q = 4 * (1 / 2 ^ q) := by ring
  have e5 : (1000 : ℝ) / 2 ^ q = 1000 * (1 / 2 ^ q) := by ring
  have := C144_distance (binaryTrig q (by omega)) hU hK h0 (by rw [e4]; norm_num at *; linarith) hA hB ha hb hθ hfar n
    (by rw [e4]; rw [e5] at hn; linarith)
  refine ⟨this.1, this.2.trans (le_of_eq ?_)⟩
  ring

/-- a batch of one pair at the angle `π`, whose half angle has sine 1 -/
example : IsUnitQ ⟨1, 0, 0, 0⟩ ∧ IsUnitQ ⟨0, 0.6, 0, 0.8⟩ ∧
    1.1e-4 ≤ Real.sin (rotAngle (quaternionToMatrix ⟨1, 0, 0, 0⟩ * (quaternionToMatrix ⟨0, 0.6, 0, 0.8⟩)ᵀ) / 2) ^ 2 := by
  have hA : IsUnitQ ⟨1, 0, 0, 0⟩ := by norm_num [IsUnitQ, Quat.normSq]
  have hB : IsUnitQ ⟨0, 0.6, 0, 0.8⟩ := by norm_num [IsUnitQ, Quat.normSq]
  refine ⟨hA, hB, ?_⟩
  obtain ⟨φ, -, -, -, hs, -, hr⟩ := half_relative hA hB
  rw [hr, mul_div_cancel_left₀ _ two_ne_zero, hs]
  norm_num [qdot]

/-- two different unit quaternions within the threshold -/
example : IsUnitQ ⟨1, 0, 0, 0⟩ ∧ IsUnitQ ⟨62499 / 62501, 0, 500 / 62501, 0⟩ ∧
    Real.sin (rotAngle (quaternionToMatrix ⟨1, 0, 0, 0⟩ * (quaternionToMatrix ⟨62499 / 62501, 0, 500 / 62501, 0⟩)ᵀ) / 2) ^ 2 ≤ 0.9e-4 := by
  have hA : IsUnitQ ⟨1, 0, 0, 0⟩ := by norm_num [IsUnitQ, Quat.normSq]
  have hB : IsUnitQ ⟨62499 / 62501, 0, 500 / 62501, 0⟩ := by norm_num [IsUnitQ, Quat.normSq]
  refine ⟨hA, hB, ?_⟩
  obtain ⟨φ, -, -, -, hs, -, hr⟩ := half_relative hA hB
  rw [hr, mul_div_cancel_left₀ _ two_ne_zero, hs]
  norm_num [qdot]

end PK
