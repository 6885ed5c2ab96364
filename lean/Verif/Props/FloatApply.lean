import Verif.Model.FloatApply
import Verif.Props.FloatAxisAngle
import Verif.Props.Quaternion

/-!
# C143: accuracy of `quaternion_apply`
-/

namespace PK
open Spec Matrix

/-- each component of the product `a b` is a sum of products whose absolute values add up to at most `S` -/
structure RawSums (a b : Quat) (S : ℝ) : Prop where
  w : |a.w * b.w| + |a.x * b.x| + |a.y * b.y| + |a.z * b.z| ≤ S
  x : |a.w * b.x| + |a.x * b.w| + |a.y * b.z| + |a.z * b.y| ≤ S
  y : |a.w * b.y| + |a.x * b.z| + |a.y * b.w| + |a.z * b.x| ≤ S
  z : |a.w * b.z| + |a.x * b.y| + |a.y * b.x| + |a.z * b.w| ≤ S

theorem RawSums.left {a b : Quat} {A B : ℝ} (ha : |a.w| + |a.x| + |a.y| + |a.z| ≤ A) (hb : ∀ k, |b.get k| ≤ B) : RawSums a b (A * B) := by
  have B0 : 0 ≤ B := (abs_nonneg _).trans (hb 0)
  have key : ∀ {x y z w : ℝ}, |x| ≤ B → |y| ≤ B → |z| ≤ B → |w| ≤ B →
      |a.w * x| + |a.x * y| + |a.y * z| + |a.z * w| ≤ A * B := fun {x y z w} hx hy hz hw => by
    rw [abs_mul, abs_mul, abs_mul, abs_mul]
    have h1 := mul_le_mul_of_nonneg_left hx (abs_nonneg a.w)
    have h2 := mul_le_mul_of_nonneg_left hy (abs_nonneg a.x)
    have h3 := mul_le_mul_of_nonneg_left hz (abs_nonneg a.y)
    have h4 := mul_le_mul_of_nonneg_left hw (abs_nonneg a.z)
    have h5 := mul_le_mul_of_nonneg_right ha B0
    linarith
  have b0 : |b.w| ≤ B := hb 0
  have b1 : |b.x| ≤ B := hb 1
  have b2 : |b.y| ≤ B := hb 2
  have b3 : |b.z| ≤ B := hb 3
  exact ⟨key b0 b1 b2 b3, key b1 b0 b3 b2, key b2 b3 b0 b1, key b3 b2 b1 b0⟩

theorem RawSums.right {a b : Quat} {A B : ℝ} (ha : ∀ k, |a.get k| ≤ A) (hb : |b.w| + |b.x| + |b.y| + |b.z| ≤ B) : RawSums a b (A * B) := by
  have h := RawSums.left (a := b) (b := a) hb ha
  obtain ⟨hw, hx, hy, hz⟩ := h
  simp only [mul_comm b.w, mul_comm b.x, mul_comm b.y, mul_comm b.z, mul_comm B] at hw hx hy hz
  exact ⟨by linarith, by linarith, by linarith, by linarith⟩

theorem RawSums.abs_le {a b : Quat} {S : ℝ} (h : RawSums a b S) (k : Fin 4) : |(quaternionRawMultiply a b).get k| ≤ S := by
  have s4 : ∀ x y z w : ℝ, |x + y + z + w| ≤ |x| + |y| + |z| + |w| := fun x y z w => by
    have := abs_add_le (x + y + z) w
    have := abs_add_three x y z
    linarith
  fin_cases k
  · refine le_trans ?_ h.w
    have := s4 (a.w * b.w) (-(a.x * b.x)) (-(a.y * b.y)) (-(a.z * b.z))
    simpa [quaternionRawMultiply, Quat.get, sub_eq_add_neg] using this
  · refine le_trans ?_ h.x
    have := s4 (a.w * b.x) (a.x * b.w) (a.y * b.z) (-(a.z * b.y))
    simpa [quaternionRawMultiply, Quat.get, sub_eq_add_neg] using this
  · refine le_trans ?_ h.y
    have := s4 (a.w * b.y) (-(a.x * b.z)) (a.y * b.w) (a.z * b.x)
    simpa [quaternionRawMultiply, Quat.get, sub_eq_add_neg] using this
  · refine le_trans ?_ h.z
    have := s4 (a.w * b.z) (a.x * b.y) (-(a.y * b.x)) (a.z * b.w)
    simpa [quaternionRawMultiply, Quat.get, sub_eq_add_neg] using this

/-- three additions of terms with a relative error -/
theorem sum4_round (m : Machine) {τ : ℝ} (hu : m.u ≤ τ) (h0 : 0 ≤ τ) (h1 : τ ≤ 1 / 1000) {x y z w x' y' z' w' : ℝ}
    (hx : |x' - x| ≤ τ * |x|) (hy : |y' - y| ≤ τ * |y|) (hz : |z' - z| ≤ τ * |z|) (hw : |w' - w| ≤ τ * |w|) :
    |m.rnd (m.rnd (m.rnd (x' + y') + z') + w') - (x + y + z + w)| ≤ 4.1 * τ * (|x| + |y| + |z| + |w|) := by
  have ax := abs_nonneg x; have ay := abs_nonneg y; have az := abs_nonneg z; have aw := abs_nonneg w
  have sc : ∀ {t : ℝ}, 0 ≤ t → τ * (τ * t) ≤ 1 / 1000 * (τ * t) := fun ht => mul_le_mul_of_nonneg_right h1 (mul_nonneg h0 ht)
  have sx := sc ax; have sy := sc ay; have sz := sc az; have sw := sc aw
  have tx := mul_nonneg h0 ax; have ty := mul_nonneg h0 ay; have tz := mul_nonneg h0 az; have tw := mul_nonneg h0 aw
  have e1 := rnd_near m hu (add_near hx hy) (M := |x| + |y|) (abs_add_le _ _)
  have e1' : |m.rnd (x' + y') - (x + y)| ≤ 2.01 * τ * (|x| + |y|) := e1.trans (by norm_num; linarith)
  have e2 := rnd_near m hu (add_near e1' hz) (M := |x| + |y| + |z|) (abs_add_three _ _ _)
  have e2' : |m.rnd (m.rnd (x' + y') + z') - (x + y + z)| ≤ 3.03 * τ * (|x| + |y| + |z|) := e2.trans (by norm_num; linarith)
  have e3 := rnd_near m hu (add_near e2' hw) (M := |x| + |y| + |z| + |w|)
    ((abs_add_le _ _).trans (add_le_add (abs_add_three _ _ _) le_rfl))
  exact e3.trans (by norm_num; linarith)

theorem rawMulFl_near (m : Machine) {τ S : ℝ} (hu : m.u ≤ τ) (h0 : 0 ≤ τ) (h1 : τ ≤ 1 / 1000) {a b : Quat} (h : RawSums a b S) (k : Fin 4) :
    |(quaternionRawMultiplyFl m a b).get k - (quaternionRawMultiply a b).get k| ≤ 4.1 * τ * S := by
  have hr : ∀ x, |m.rnd x - x| ≤ τ * |x| := fun x => (m.rnd_err x).trans (mul_le_mul_of_nonneg_right hu (abs_nonneg x))
  have hn : ∀ x, |-m.rnd x - -x| ≤ τ * |-x| := fun x => by
    rw [abs_neg, show -m.rnd x - -x = -(m.rnd x - x) by ring, abs_neg]; exact hr x
  have hτ : 0 ≤ 4.1 * τ := by positivity
  fin_cases k
  · have := sum4_round m hu h0 h1 (hr (a.w * b.w)) (hn (a.x * b.x)) (hn (a.y * b.y)) (hn (a.z * b.z))
    simp only [abs_neg] at this
    refine le_trans ?_ (this.trans (mul_le_mul_of_nonneg_left h.w hτ))
    simp [quaternionRawMultiplyFl, quaternionRawMultiply, Quat.get, sub_eq_add_neg]
  · have := sum4_round m hu h0 h1 (hr (a.w * b.x)) (hr (a.x * b.w)) (hr (a.y * b.z)) (hn (a.z * b.y))
    simp only [abs_neg] at this
    refine le_trans ?_ (this.trans (mul_le_mul_of_nonneg_left h.x hτ))
    simp [quaternionRawMultiplyFl, quaternionRawMultiply, Quat.get, sub_eq_add_neg]
  · have := sum4_round m hu h0 h1 (hr (a.w * b.y)) (hn (a.x * b.z)) (hr (a.y * b.w)) (hr (a.z * b.x))
    simp only [abs_neg] at this
    refine le_trans ?_ (this.trans (mul_le_mul_of_nonneg_left h.y hτ))
    simp [quaternionRawMultiplyFl, quaternionRawMultiply, Quat.get, sub_eq_add_neg]
  · have := sum4_round m hu h0 h1 (hr (a.w * b.z)) (hr (a.x * b.y)) (hn (a.y * b.x)) (hr (a.z * b.w))
    simp only [abs_neg] at this
    refine le_trans ?_ (this.trans (mul_le_mul_of_nonneg_left h.z hτ))
    simp [quaternionRawMultiplyFl, quaternionRawMultiply, Quat.get, sub_eq_add_neg]

/-- `a - b` -/
def subQ (a b : Quat) : Quat := ⟨a.w - b.w, a.x - b.x, a.y - b.y, a.z - b.z⟩

theorem subQ_get (a b : Quat) (k : Fin 4) : (subQ a b).get k = a.get k - b.get k := by
  fin_cases k <;> rfl

theorem raw_sub_left (a a' b : Quat) (k : Fin 4) :
    (quaternionRawMultiply a b).get k - (quaternionRawMultiply a' b).get k = (quaternionRawMultiply (subQ a a') b).get k := by
  fin_cases k <;> simp [quaternionRawMultiply, subQ, Quat.get] <;> ring

theorem raw_sub_right (a b b' : Quat) (k : Fin 4) :
    (quaternionRawMultiply a b).get k - (quaternionRawMultiply a b').get k = (quaternionRawMultiply a (subQ b b')).get k := by
  fin_cases k <;> simp [quaternionRawMultiply, subQ, Quat.get] <;> ring

theorem sumAbs_le_of_get {a : Quat} {e : ℝ} (h : ∀ k, |a.get k| ≤ e) : |a.w| + |a.x| + |a.y| + |a.z| ≤ 4 * e := by
  have b0 : |a.w| ≤ e := h 0
  have b1 : |a.x| ≤ e := h 1
  have b2 : |a.y| ≤ e := h 2
  have b3 : |a.z| ≤ e := h 3
  linarith

/-- C143: `quaternion_apply(q, p)` for a quaternion within `η` of a unit quaternion `Q` and a point with coordinates up to `P`
is the point rotated by `Q`, up to `(17 η + 40 τ) P` in every coordinate -/
theorem C143_apply (m : Machine) {τ η P : ℝ} (hu : m.u ≤ τ) (h0 : 0 ≤ τ) (h1 : τ ≤ 1 / 1000) (hη : η ≤ 1 / 50) {q Q : Quat}
    (hQ : IsUnitQ Q) (hq : QNear η q Q) {p : V3} (hp : ∀ k, |p k| ≤ P) (i : Fin 3) :
    |quaternionApplyFl m q p i - (quaternionToMatrix Q *ᵥ p) i| ≤ (17 * η + 40 * τ) * P := by
  have η0 := (abs_nonneg _).trans (hq 0)
  have P0 := (abs_nonneg _).trans (hp 0)
  have hQs := quat_sum_le hQ
  have near : ∀ {x y : ℝ}, |x - y| ≤ η → |x| ≤ |y| + η := fun {x y} h => by
    have := abs_add_le (x - y) y
    rw [sub_add_cancel] at this
    linarith
  have hqs : |q.w| + |q.x| + |q.y| + |q.z| ≤ 2.08 := by
    have a0 : |q.w| ≤ |Q.w| + η := near (hq 0)
    have a1 : |q.x| ≤ |Q.x| + η := near (hq 1)
    have a2 : |q.y| ≤ |Q.y| + η := near (hq 2)
    have a3 : |q.z| ≤ |Q.z| + η := near (hq 3)
    norm_num at *; linarith
  obtain ⟨b, hb⟩ : ∃ b : Quat, b = ⟨0, p 0, p 1, p 2⟩ := ⟨_, rfl⟩
  have hbk : ∀ k, |b.get k| ≤ P := fun k => by
    rw [hb]
    fin_cases k
    · simpa [Quat.get] using P0
    · exact hp 0
    · exact hp 1
    · exact hp 2
  obtain ⟨t, ht⟩ : ∃ t, t = quaternionRawMultiplyFl m q b := ⟨_, rfl⟩
  obtain ⟨T, hT⟩ : ∃ T, T = quaternionRawMultiply Q b := ⟨_, rfl⟩
  have hηP := mul_nonneg η0 P0
  have hτP := mul_nonneg h0 P0
  have hτP1 : τ * P ≤ 1 / 1000 * P := mul_le_mul_of_nonneg_right h1 P0
  have hηP1 : η * P ≤ 1 / 50 * P := mul_le_mul_of_nonneg_right hη P0
  have hTk : ∀ k, |T.get k| ≤ 2 * P := fun k => by rw [hT]; exact (RawSums.left hQs hbk).abs_le k
  have htT : ∀ k, |t.get k - T.get k| ≤ 4 * (η * P) + 8.6 * (τ * P) := fun k => by
    have r1 := rawMulFl_near m hu h0 h1 (RawSums.left hqs hbk) k
    rw [← ht] at r1
    have r2 : |(quaternionRawMultiply q b).get k - T.get k| ≤ 4 * η * P := by
      rw [hT, raw_sub_left]
      exact (RawSums.left (sumAbs_le_of_get fun k => by rw [subQ_get]; exact hq k) hbk).abs_le k
    have := abs_add_le (t.get k - (quaternionRawMultiply q b).get k) ((quaternionRawMultiply q b).get k - T.get k)
    rw [sub_add_sub_cancel] at this
    norm_num at *; linarith
  have htk : ∀ k, |t.get k| ≤ 2.09 * P := fun k => by
    have := abs_add_le (t.get k - T.get k) (T.get k)
    rw [sub_add_cancel] at this
    have := htT k; have := hTk k
    norm_num at *; linarith
  obtain ⟨c, hc⟩ : ∃ c, c = quaternionInvert q := ⟨_, rfl⟩
  obtain ⟨C, hC⟩ : ∃ C, C = quaternionInvert Q := ⟨_, rfl⟩
  have hcs : |c.w| + |c.x| + |c.y| + |c.z| ≤ 2.08 := by
    rw [hc]; simpa [quaternionInvert] using hqs
  have hcC : ∀ k, |(subQ c C).get k| ≤ η := fun k => by
    have := hq k
    rw [subQ_get, hc, hC]
    fin_cases k
    · simpa [quaternionInvert, Quat.get] using this
    · simp [quaternionInvert, Quat.get] at this ⊢
      rwa [neg_add_eq_sub, abs_sub_comm]
    · simp [quaternionInvert, Quat.get] at this ⊢
      rwa [neg_add_eq_sub, abs_sub_comm]
    · simp [quaternionInvert, Quat.get] at this ⊢
      rwa [neg_add_eq_sub, abs_sub_comm]
  have fin : ∀ k, |(quaternionRawMultiplyFl m t c).get k - (quaternionRawMultiply T C).get k| ≤ (17 * η + 40 * τ) * P := fun k => by
    have r1 := rawMulFl_near m hu h0 h1 (RawSums.right htk hcs) k
    have r2 : |(quaternionRawMultiply t c).get k - (quaternionRawMultiply T c).get k| ≤ (4 * (η * P) + 8.6 * (τ * P)) * 2.08 := by
      rw [raw_sub_left]
      exact (RawSums.right (fun k => by rw [subQ_get]; exact htT k) hcs).abs_le k
    have r3 : |(quaternionRawMultiply T c).get k - (quaternionRawMultiply T C).get k| ≤ 2 * P * (4 * η) := by
      rw [raw_sub_right]
      exact (RawSums.right hTk (sumAbs_le_of_get hcC)).abs_le k
    have e : (quaternionRawMultiplyFl m t c).get k - (quaternionRawMultiply T C).get k =
        ((quaternionRawMultiplyFl m t c).get k - (quaternionRawMultiply t c).get k) +
        ((quaternionRawMultiply t c).get k - (quaternionRawMultiply T c).get k) +
        ((quaternionRawMultiply T c).get k - (quaternionRawMultiply T C).get k) := by ring
    rw [e]
    refine (abs_add_three _ _ _).trans ((add_le_add (add_le_add r1 r2) r3).trans ?_)
    norm_num; linarith
  have e1 : quaternionToMatrix Q *ᵥ p = ![(quaternionRawMultiply T C).x, (quaternionRawMultiply T C).y, (quaternionRawMultiply T C).z] := by
    rw [← C36_apply Q hQ p, hT, hC, hb]; rfl
  have e2 : quaternionApplyFl m q p =
      ![(quaternionRawMultiplyFl m t c).x, (quaternionRawMultiplyFl m t c).y, (quaternionRawMultiplyFl m t c).z] := by
    rw [ht, hc, hb]; rfl
  rw [e1, e2]
  fin_cases i
  · exact fin 1
  · exact fin 2
  · exact fin 3

/-- C143: rotating a point by `quaternion_apply(axis_angle_to_quaternion(theta * a), p)`, with rounding in both -/
theorem C143_rotation_vector (m : TrigMachine) {τ P : ℝ} (hu : m.u ≤ τ) (hκ : m.κ ≤ τ) (hγ : m.γ ≤ τ) (h0 : 0 ≤ τ) (h1 : τ ≤ 1 / 1000)
    {a : V3} (ha : IsUnitV a) {θ : ℝ} (hθ : 0 ≤ θ) (h2 : τ * (5 + 2 * θ) ≤ 1 / 100) {p : V3} (hp : ∀ k, |p k| ≤ P) (i : Fin 3) :
    |quaternionApplyFl m.toMachine (axisAngleToQuaternionFl m (θ • a)) p i - (rotAbout a θ *ᵥ p) i| ≤ (τ * (125 + 34 * θ) + 2e-17) * P := by
  have P0 := (abs_nonneg _).trans (hp 0)
  have hq := C142_quaternion m hu hκ hγ h0 h1 ha hθ
  have hun : IsUnitQ ⟨Real.cos (θ / 2), Real.sin (θ / 2) * a 0, Real.sin (θ / 2) * a 1, Real.sin (θ / 2) * a 2⟩ := by
    have h : a 0 ^ 2 + a 1 ^ 2 + a 2 ^ 2 = 1 := ha
    have hsc := Real.sin_sq_add_cos_sq (θ / 2)
    unfold IsUnitQ
    linear_combination Real.sin (θ / 2) ^ 2 * h + hsc
  have := C143_apply m.toMachine hu h0 h1 (by norm_num at *; linarith) hun hq hp i
  rw [quat_rotAbout ha] at this
  refine this.trans (mul_le_mul_of_nonneg_right ?_ P0)
  norm_num; linarith

/-- C143 in a binary format with `q ≥ 20` bits, for angles up to `1000` -/
theorem C143_precision (q : ℕ) (hq : 20 ≤ q) {a : V3} (ha : IsUnitV a) {θ P : ℝ} (hθ : 0 ≤ θ) (h2 : θ ≤ 1000) {p : V3}
    (hp : ∀ k, |p k| ≤ P) (i : Fin 3) :
    |quaternionApplyFl (binary q (by omega)) (axisAngleToQuaternionFl (binaryTrig q (by omega)) (θ • a)) p i - (rotAbout a θ *ᵥ p) i| ≤
      ((625 + 170 * θ) / 2 ^ q + 2e-17) * P := by
  obtain ⟨hU, hK, hG⟩ := binaryTrig_bounds q (by omega)
  have h0 : (0 : ℝ) ≤ 1 / 2 ^ q := by positivity
  have hl : (1 : ℝ) / 2 ^ q ≤ 1 / 2 ^ 20 := one_div_le_one_div_of_le (by positivity) (pow_le_pow_right₀ (by norm_num) hq)
  refine (C143_rotation_vector (binaryTrig q (by omega)) (τ := 5 * (1 / 2 ^ q)) (by linarith) (by linarith) hG (by linarith)
    (by norm_num at *; linarith) ha hθ ?_ hp i).trans (le_of_eq ?_)
  · have : 5 * (1 / 2 ^ q) * (5 + 2 * θ) ≤ 5 * (1 / 2 ^ 20) * 2005 :=
      mul_le_mul (by linarith) (by linarith) (by linarith) (by positivity)
    refine this.trans ?_
    norm_num
  · ring

/-- a rotation by 2 about a skew axis, applied to a point with coordinates up to 3 -/
example : IsUnitV ![2 / 3, -1 / 3, 2 / 3] ∧ ∀ k, |(![1, -3, 0.5] : V3) k| ≤ 3 := by
  refine ⟨?_, fun k => ?_⟩
  · show (2 / 3 : ℝ) ^ 2 + (-1 / 3) ^ 2 + (2 / 3) ^ 2 = 1
    norm_num
  · fin_cases k <;> norm_num [abs_le]

end PK
