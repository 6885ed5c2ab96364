import Verif.Props.FloatDist

/-!
# C144 for every pair and every batch

`Props/FloatDist.lean` bounds the error for pairs that are not too close. Here: rounding that keeps `[0, 1]` never makes the argument of
the square root negative, so that no result is NaN, and the error is bounded for every pair.
-/

namespace PK
open Spec Matrix

/-- rounding to `p` binary digits does not leave `[0, 1]` -/
theorem roundTo_le_one {p : ℕ} (hp : 1 ≤ p) {x : ℝ} (h0 : 0 ≤ x) (h1 : x ≤ 1) : roundTo p x ≤ 1 := by
  rcases h1.eq_or_lt with rfl | h1
  · exact (roundTo_one hp).le
  rcases h0.eq_or_lt with rfl | h0
  · simp [roundTo]
  have hlt : x < 2 ^ (Int.log 2 x + 1) := by
    have := Int.lt_zpow_succ_log_self (b := 2) (R := ℝ) (by norm_num) x
    simpa using this
  have hneg : Int.log 2 x + 1 ≤ 0 := by
    by_contra hc
    have h2 : (0 : ℤ) ≤ Int.log 2 x := by omega
    have h3 := Int.zpow_log_le_self (b := 2) (R := ℝ) (by norm_num) h0
    have h4 : (1 : ℝ) ≤ 2 ^ Int.log 2 x := one_le_zpow₀ (by norm_num) h2
    norm_num at h3
    linarith
  unfold roundTo
  rw [abs_of_pos h0]
  obtain ⟨e, he⟩ : ∃ e, e = Int.log 2 x := ⟨_, rfl⟩
  rw [← he] at hlt hneg ⊢
  have hy : x * 2 ^ ((p : ℤ) - 1 - e) ≤ 2 ^ p := by
    refine (mul_le_mul_of_nonneg_right hlt.le (by positivity)).trans (le_of_eq ?_)
    rw [← zpow_add₀ (by norm_num), ← zpow_natCast]
    congr 1; ring
  have hr : round (x * 2 ^ ((p : ℤ) - 1 - e)) ≤ 2 ^ p := by
    rw [round_eq]
    by_contra hc
    have h2 : (2 : ℤ) ^ p + 1 ≤ ⌊x * 2 ^ ((p : ℤ) - 1 - e) + 1 / 2⌋ := by omega
    have h3 := Int.le_floor.1 h2
    push_cast at h3
    linarith
  have hr' : ((round (x * 2 ^ ((p : ℤ) - 1 - e)) : ℤ) : ℝ) ≤ 2 ^ p := by exact_mod_cast hr
  refine (mul_le_mul_of_nonneg_right hr' (by positivity)).trans ?_
  rw [← zpow_natCast, ← zpow_add₀ (by norm_num), show (p : ℤ) + (e - ((p : ℤ) - 1)) = e + 1 by ring]
  exact zpow_le_one_of_nonpos₀ (by norm_num) hneg

theorem absDotFl_unit (m : Machine) (a b : Quat) : 0 ≤ absDotFl m a b ∧ absDotFl m a b ≤ 1 := by
  refine ⟨abs_nonneg _, abs_le.2 ⟨?_, min_le_right _ _⟩⟩
  exact le_min (le_max_right _ _) (by norm_num)

/-- C144: whatever the quaternions, normalised or not, the argument of the square root is not negative, provided rounding keeps
`[0, 1]`: `quaternion_angular_distance` has no NaN -/
theorem C144_no_nan (m : Machine) (hu : m.u ≤ 1) (hm : ∀ x, 0 ≤ x → x ≤ 1 → m.rnd x ≤ 1) (a b : Quat) : 0 ≤ radicandFl m a b := by
  obtain ⟨h0, h1⟩ := absDotFl_unit m a b
  have h2 : 0 ≤ 1 - m.rnd (absDotFl m a b ^ 2) := sub_nonneg.2 (hm _ (sq_nonneg _) (pow_le_one₀ h0 h1))
  have h3 := (abs_le.1 (m.rnd_err (1 - m.rnd (absDotFl m a b ^ 2)))).1
  rw [abs_of_nonneg h2] at h3
  have h4 := mul_le_mul_of_nonneg_right hu h2
  unfold radicandFl
  linarith

theorem sqrt_sub_le {x y F : ℝ} (hx : 0 ≤ x) (hy : 0 ≤ y) (h : |x - y| ≤ F) : |Real.sqrt x - Real.sqrt y| ≤ Real.sqrt F := by
  apply Real.le_sqrt_of_sq_le
  have a := Real.sqrt_nonneg x
  have b := Real.sqrt_nonneg y
  have c := Real.sq_sqrt hx
  have d := Real.sq_sqrt hy
  refine le_trans ?_ h
  have e : |Real.sqrt x - Real.sqrt y| ≤ Real.sqrt x + Real.sqrt y := abs_le.2 ⟨by linarith, by linarith⟩
  have f : |x - y| = |Real.sqrt x - Real.sqrt y| * (Real.sqrt x + Real.sqrt y) := by
    rw [← abs_of_nonneg (add_nonneg a b), ← abs_mul]
    congr 1
    nlinarith
  rw [f, sq]
  exact mul_le_mul_of_nonneg_left e (abs_nonneg _)

/-- the distance of one pair, computed without the test for closeness -/
theorem distFl_every (m : TrigMachine) {τ η : ℝ} (hu : m.u ≤ τ) (hκ : m.κ ≤ τ) (h0 : 0 ≤ τ) (hsmall : η + τ ≤ 5e-7)
    (hm : ∀ x, 0 ≤ x → x ≤ 1 → m.rnd x ≤ 1) {a b A B : Quat} (hA : IsUnitQ A) (hB : IsUnitQ B) (ha : QNear η a A) (hb : QNear η b B)
    {φ : ℝ} (f0 : 0 ≤ φ) (f1 : φ ≤ Real.pi / 2) (hc : Real.cos φ = |qdot A B|) (hs : Real.sin φ ^ 2 = 1 - qdot A B ^ 2)
    (hd : |qdot A B| ≤ 1) :
    |m.rnd (2 * m.atan2 (m.rnd (Real.sqrt (radicandFl m.toMachine a b))) (absDotFl m.toMachine a b)) - 2 * φ| ≤
      14 * Real.sqrt (η + τ) := by
  have η0 := (abs_nonneg _).trans (ha 0)
  have hpi := Real.pi_lt_d2
  have hpp := Real.pi_pos
  have h1 : τ ≤ 1 / 1000 := by norm_num at *; linarith
  have hη : η ≤ 1 / 50 := by norm_num at *; linarith
  have hx0 := C144_no_nan m.toMachine (by norm_num at *; linarith) hm a b
  obtain ⟨r, hre⟩ : ∃ r, r = Real.sqrt (η + τ) := ⟨_, rfl⟩
  have r0 : 0 ≤ r := hre ▸ Real.sqrt_nonneg _
  have r2 : r ^ 2 = η + τ := by rw [hre]; exact Real.sq_sqrt (by linarith)
  have r1 : r ≤ 1 / 1000 := by
    by_contra hcon
    have hcon := not_le.1 hcon
    have : (1 / 1000 : ℝ) ^ 2 < r ^ 2 := by nlinarith
    norm_num at *; linarith
  have hT : η + τ ≤ 1 / 1000 * r := by rw [← r2, sq]; exact mul_le_mul_of_nonneg_right r1 r0
  rw [← hre]
  obtain ⟨s, hse⟩ : ∃ s, s = Real.sin φ := ⟨_, rfl⟩
  rw [← hse] at hs
  have s1 : s ≤ 1 := hse ▸ Real.sin_le_one _
  have s0 : 0 ≤ s := hse ▸ Real.sin_nonneg_of_nonneg_of_le_pi f0 (by linarith)
  have hD := qdotFl_near m.toMachine hu h0 h1 hη hA hB ha hb
  have hC : |absDotFl m.toMachine a b - (|qdot A B|)| ≤ 4.1 * η + 4.5 * τ := clampR_unit_near hD hd
  have hC0 : 0 ≤ absDotFl m.toMachine a b := abs_nonneg _
  have hE : 4.1 * η + 4.5 * τ ≤ 1 / 20 := by norm_num at *; linarith
  have hx := oneSub_near m.toMachine hu h0 h1 hE hC (by rwa [abs_abs])
  rw [sq_abs, ← hs] at hx
  obtain ⟨x, hxe⟩ : ∃ x, x = radicandFl m.toMachine a b := ⟨_, rfl⟩
  have hx : |x - s ^ 2| ≤ (3.45 * r) ^ 2 := by
    rw [hxe, mul_pow, r2]; refine hx.trans ?_; norm_num; linarith
  rw [← hxe] at hx0 ⊢
  obtain ⟨C, hCe⟩ : ∃ C, C = absDotFl m.toMachine a b := ⟨_, rfl⟩
  rw [← hCe] at hC hC0 ⊢
  have hq := sqrt_sub_le hx0 (sq_nonneg s) hx
  rw [Real.sqrt_sq s0, Real.sqrt_sq (by positivity)] at hq
  obtain ⟨n, hne⟩ : ∃ n, n = m.rnd (Real.sqrt x) := ⟨_, rfl⟩
  rw [← hne]
  have hnn : |n - s| ≤ 3.46 * r := by
    have := rnd_near m.toMachine hu hq (M := 1) (by rw [abs_of_nonneg s0]; exact s1)
    rw [← hne] at this
    refine this.trans ?_
    have k : τ * (1 + 3.45 * r) ≤ τ * 1.06 := mul_le_mul_of_nonneg_left (by norm_num at *; linarith) h0
    norm_num at *; linarith
  have hn0 : 0 ≤ n := by
    have h3 := (abs_le.1 (m.rnd_err (Real.sqrt x))).1
    have h5 := Real.sqrt_nonneg x
    rw [abs_of_nonneg h5] at h3
    have h4 := mul_le_mul_of_nonneg_right (show m.u ≤ 1 by linarith) h5
    rw [hne]; linarith
  have hC' : |C - Real.cos φ| ≤ 0.01 * r := by
    rw [hc]; refine hC.trans ?_; norm_num at *; linarith
  rw [hse] at hnn
  obtain ⟨ρ, H, H0, H1, hat, -, -, hH⟩ := quadrant_near hn0 hC0 f0 f1 hC' hnn (by norm_num at *; linarith)
  have hatn := m.atan2_err n C hn0 hC0
  rw [hat] at hatn
  obtain ⟨t, hte⟩ : ∃ t, t = m.atan2 n C := ⟨_, rfl⟩
  rw [← hte] at hatn ⊢
  have hatn' : |t - H| ≤ 1.58 * τ := by
    refine hatn.trans ?_
    have k1 := mul_le_mul_of_nonneg_right hκ H0
    have k2 := mul_le_mul_of_nonneg_left (show H ≤ 1.58 by norm_num at *; linarith) h0
    linarith
  have h2t : |2 * t - 2 * φ| ≤ 13.5 * r := by
    have := abs_add_le (t - H) (H - φ)
    rw [sub_add_sub_cancel] at this
    rw [← mul_sub, abs_mul, abs_two]
    norm_num at *; linarith
  refine (rnd_near m.toMachine hu h2t (M := 3.15) (by rw [abs_of_nonneg (by linarith)]; linarith)).trans ?_
  have k : τ * (3.15 + 13.5 * r) ≤ τ * 3.6 := mul_le_mul_of_nonneg_left (by norm_num at *; linarith) h0
  norm_num at *; linarith

/-- C144: in a batch with a pair clearly farther apart than the threshold of `quaternion_close` the error is at most `14 √(η + τ)` for
every pair, however close -/
theorem C144_every_pair (m : TrigMachine) {τ η : ℝ} (hu : m.u ≤ τ) (hκ : m.κ ≤ τ) (h0 : 0 ≤ τ) (hsmall : η + τ ≤ 5e-7)
    (hm : ∀ x, 0 ≤ x → x ≤ 1 → m.rnd x ≤ 1) {N : ℕ} {a b A B : Fin N → Quat} (hA : ∀ n, IsUnitQ (A n)) (hB : ∀ n, IsUnitQ (B n))
    (ha : ∀ n, QNear η (a n) (A n)) (hb : ∀ n, QNear η (b n) (B n)) {θ : Fin N → ℝ}
    (hθ : ∀ n, θ n = rotAngle (quaternionToMatrix (A n) * (quaternionToMatrix (B n))ᵀ))
    (hfar : ∃ n, 1.1e-4 ≤ Real.sin (θ n / 2) ^ 2) (n : Fin N) :
    |quaternionAngularDistanceFl m a b n - θ n| ≤ 14 * Real.sqrt (η + τ) := by
  obtain ⟨k, hk⟩ := hfar
  have η0 := (abs_nonneg _).trans (ha n 0)
  have h1 : τ ≤ 1 / 1000 := by norm_num at *; linarith
  have hη : η ≤ 1 / 50 := by norm_num at *; linarith
  have hnc : ¬ quaternionCloseFl m.toMachine a b 1e-4 := fun h => by
    obtain ⟨φ, f0, f1, hc, hs, hd, hr⟩ := half_relative (hA k) (hB k)
    rw [hθ, hr, mul_div_cancel_left₀ _ two_ne_zero, hs] at hk
    have hD := qdotFl_near m.toMachine hu h0 h1 hη (hA k) (hB k) (ha k) (hb k)
    have := (abs_le.1 (oneSub_near m.toMachine hu h0 h1 (by norm_num at *; linarith) hD hd)).1
    have := h k
    norm_num at *; linarith
  obtain ⟨φ, f0, f1, hc, hs, hd, hr⟩ := half_relative (hA n) (hB n)
  have e : θ n = 2 * φ := by rw [hθ, hr]
  rw [e]
  unfold quaternionAngularDistanceFl
  rw [if_neg hnc]
  exact distFl_every m hu hκ h0 hsmall hm (hA n) (hB n) (ha n) (hb n) f0 f1 hc hs hd

/-- C144: for every batch, close or not or undecided, every result is within 0.034 of the angle of the relative rotation -/
theorem C144_every_batch (m : TrigMachine) {τ η : ℝ} (hu : m.u ≤ τ) (hκ : m.κ ≤ τ) (h0 : 0 ≤ τ) (hsmall : η + τ ≤ 5e-7)
    (hm : ∀ x, 0 ≤ x → x ≤ 1 → m.rnd x ≤ 1) {N : ℕ} {a b A B : Fin N → Quat} (hA : ∀ n, IsUnitQ (A n)) (hB : ∀ n, IsUnitQ (B n))
    (ha : ∀ n, QNear η (a n) (A n)) (hb : ∀ n, QNear η (b n) (B n)) (n : Fin N) :
    |quaternionAngularDistanceFl m a b n - rotAngle (quaternionToMatrix (A n) * (quaternionToMatrix (B n))ᵀ)| ≤ 0.034 := by
  have η0 := (abs_nonneg _).trans (ha n 0)
  have h1 : τ ≤ 1 / 1000 := by norm_num at *; linarith
  have hη : η ≤ 1 / 50 := by norm_num at *; linarith
  have hpi := Real.pi_lt_d2
  have hpp := Real.pi_pos
  obtain ⟨φ, f0, f1, hc, hs, hd, hr⟩ := half_relative (hA n) (hB n)
  rw [hr]
  unfold quaternionAngularDistanceFl
  by_cases hcl : quaternionCloseFl m.toMachine a b 1e-4
  · rw [if_pos hcl]
    have hD := qdotFl_near m.toMachine hu h0 h1 hη (hA n) (hB n) (ha n) (hb n)
    have h2 := (abs_le.1 (oneSub_near m.toMachine hu h0 h1 (by norm_num at *; linarith) hD hd)).1
    have h3 := hcl n
    rw [← hs] at h2
    have hs0 := Real.sin_nonneg_of_nonneg_of_le_pi f0 (by linarith)
    have hsn : Real.sin φ ≤ 0.0106 := by
      by_contra hcon
      have hcon := not_le.1 hcon
      have : (0.0106 : ℝ) ^ 2 < Real.sin φ ^ 2 := by nlinarith
      norm_num at *; linarith
    have hj := Real.mul_le_sin f0 f1
    have h3 : φ ≤ Real.pi / 2 * Real.sin φ := by
      have h2 := mul_le_mul_of_nonneg_left hj (show 0 ≤ Real.pi / 2 by positivity)
      have h3 : Real.pi / 2 * (2 / Real.pi * φ) = φ := by field_simp
      linarith
    have h4 : Real.pi / 2 * Real.sin φ ≤ 1.575 * 0.0106 := mul_le_mul (by linarith) hsn hs0 (by norm_num)
    rw [zero_sub, abs_neg, abs_of_nonneg (by linarith)]
    norm_num at *; linarith
  · rw [if_neg hcl]
    refine (distFl_every m hu hκ h0 hsmall hm (hA n) (hB n) (ha n) (hb n) f0 f1 hc hs hd).trans ?_
    have : Real.sqrt (η + τ) ≤ 0.001 := by
      rw [Real.sqrt_le_left (by norm_num)]
      norm_num at *; linarith
    norm_num at *; linarith

/-- C144 in a binary format with `q ≥ 24` bits, for every pair: no NaN, and an error of at most `32 / √(2^q)` -/
theorem C144_every_pair_precision (q : ℕ) (hq : 24 ≤ q) {N : ℕ} {a b A B : Fin N → Quat} (hA : ∀ n, IsUnitQ (A n))
    (hB : ∀ n, IsUnitQ (B n)) (ha : ∀ n, QNear (4 / 2 ^ q) (a n) (A n)) (hb : ∀ n, QNear (4 / 2 ^ q) (b n) (B n)) {θ : Fin N → ℝ}
    (hθ : ∀ n, θ n = rotAngle (quaternionToMatrix (A n) * (quaternionToMatrix (B n))ᵀ))
    (hfar : ∃ n, 1.1e-4 ≤ Real.sin (θ n / 2) ^ 2) (n : Fin N) :
    0 ≤ radicandFl (binary q (by omega)) (a n) (b n) ∧
    |quaternionAngularDistanceFl (binaryTrig q (by omega)) a b n - θ n| ≤ 32 / Real.sqrt (2 ^ q) := by
  obtain ⟨hU, hK, -⟩ := binaryTrig_bounds q (by omega)
  have h0 : (0 : ℝ) ≤ 1 / 2 ^ q := by positivity
  have hl : (1 : ℝ) / 2 ^ q ≤ 1 / 2 ^ 24 := one_div_le_one_div_of_le (by positivity) (pow_le_pow_right₀ (by norm_num) hq)
  have e4 : (4 : ℝ) / 2 ^ q = 4 * (1 / 2 ^ q) := by ring
  have hm : ∀ x, 0 ≤ x → x ≤ 1 → (binaryTrig q (by omega)).rnd x ≤ 1 := fun x a b => roundTo_le_one (by omega) a b
  refine ⟨C144_no_nan _ (by refine hU.trans ?_; norm_num at *; linarith) hm _ _, ?_⟩
  refine (C144_every_pair (binaryTrig q (by omega)) hU hK h0 (by rw [e4]; norm_num at *; linarith) hm hA hB ha hb hθ hfar n).trans ?_
  have e : (4 : ℝ) / 2 ^ q + 1 / 2 ^ q = 5 / 2 ^ q := by ring
  rw [e, Real.sqrt_div (by norm_num), ← mul_div_assoc]
  refine div_le_div_of_nonneg_right ?_ (Real.sqrt_nonneg _)
  have : Real.sqrt 5 ≤ 2.24 := by
    rw [Real.sqrt_le_left (by norm_num)]; norm_num
  norm_num at *; linarith

/-- two equal quaternions in `torch.float32` -/
example : IsUnitQ ⟨0.6, 0.8, 0, 0⟩ ∧ 0 ≤ radicandFl (binary 24 (by norm_num)) ⟨0.6, 0.8, 0, 0⟩ ⟨0.6, 0.8, 0, 0⟩ := by
  refine ⟨by norm_num [IsUnitQ, Quat.normSq], C144_no_nan _ ?_ (fun x a b => roundTo_le_one (by norm_num) a b) _ _⟩
  refine (binaryTrig_bounds 24 (by norm_num)).1.trans ?_
  norm_num

end PK
