import Verif.Model.FloatSlerp
import Verif.Lemmas.SinRatio
import Verif.Props.FloatDistAll

/-!
# C145: accuracy of `quaternion_slerp`
-/

namespace PK
open Spec Matrix

/-- the point of the great arc from `A` to `B` at the fraction `t` -/
noncomputable def arcPoint (A B : Quat) (t : ℝ) : Quat :=
  let θ := Real.arccos (inner4 A B)
  ⟨Real.sin ((1 - t) * θ) / Real.sin θ * A.w + Real.sin (t * θ) / Real.sin θ * B.w,
   Real.sin ((1 - t) * θ) / Real.sin θ * A.x + Real.sin (t * θ) / Real.sin θ * B.x,
   Real.sin ((1 - t) * θ) / Real.sin θ * A.y + Real.sin (t * θ) / Real.sin θ * B.y,
   Real.sin ((1 - t) * θ) / Real.sin θ * A.z + Real.sin (t * θ) / Real.sin θ * B.z⟩

/-- one weight, against the exact weight for the same cosine -/
theorem slerpWeightFl_near (m : SlerpMachine) {τ : ℝ} (hu : m.u ≤ τ) (hκ : m.κ ≤ τ) (h0 : 0 ≤ τ) (h1 : τ ≤ 1 / 1000) {c r : ℝ}
    (c0 : 0 ≤ c) (c1 : c < 1) (r0 : 0 ≤ r) (r1 : r ≤ 1) :
    0 < slerpSinFl m c ∧ |slerpWeightFl m c r - Real.sin (r * Real.arccos c) / Real.sin (Real.arccos c)| ≤ 10 * τ := by
  have hpi := Real.pi_lt_d2
  have hpp := Real.pi_pos
  unfold slerpWeightFl slerpSinFl
  obtain ⟨φ, hφ⟩ : ∃ φ, φ = Real.arccos c := ⟨_, rfl⟩
  have f0 : 0 < φ := by rw [hφ]; exact Real.arccos_pos.2 c1
  have f1 : φ ≤ Real.pi / 2 := by rw [hφ]; exact Real.arccos_le_pi_div_two.2 c0
  have hT := m.acos_err c (abs_le.2 ⟨by linarith, c1.le⟩)
  rw [← hφ] at hT ⊢
  obtain ⟨T, hTe⟩ : ∃ T, T = m.acos c := ⟨_, rfl⟩
  rw [← hTe] at hT ⊢
  have hT : |T - φ| ≤ τ * φ := hT.trans (mul_le_mul_of_nonneg_right hκ f0.le)
  have hr : ∀ x, |m.rnd x - x| ≤ τ * |x| := fun x => (m.rnd_err x).trans (mul_le_mul_of_nonneg_right hu (abs_nonneg x))
  obtain ⟨R, hR⟩ : ∃ R, R = m.rnd r := ⟨_, rfl⟩
  have hRr := hr r
  rw [← hR, abs_of_nonneg r0] at hRr
  rw [← hR]
  have rf0 : 0 ≤ r * φ := mul_nonneg r0 f0.le
  have rf1 : r * φ ≤ φ := mul_le_of_le_one_left f0.le r1
  have τφ : τ * φ ≤ 0.0016 := by
    have := mul_le_mul h1 (show φ ≤ 1.575 by norm_num at *; linarith) f0.le (by norm_num)
    norm_num at *; linarith
  have τrf : τ * (r * φ) ≤ 1 / 1000 * (r * φ) := mul_le_mul_of_nonneg_right h1 rf0
  have ττ : τ * (τ * (r * φ)) ≤ 1 / 1000 * (τ * (r * φ)) := mul_le_mul_of_nonneg_right h1 (mul_nonneg h0 rf0)
  -- the argument of the sine
  have z1 : |R * T - r * φ| ≤ 2.001 * (τ * (r * φ)) := by
    have := mul_near hRr (le_of_eq (abs_of_nonneg r0)) hT (le_of_eq (abs_of_nonneg f0.le))
    refine this.trans ?_
    have e : r * (τ * φ) + φ * (τ * r) + τ * r * (τ * φ) = 2 * (τ * (r * φ)) + τ * (τ * (r * φ)) := by ring
    rw [e]; norm_num; linarith
  obtain ⟨z, hz⟩ : ∃ z, z = m.rnd (R * T) := ⟨_, rfl⟩
  rw [← hz]
  have z2 : |z - r * φ| ≤ 3.004 * (τ * (r * φ)) := by
    have := rnd_near m.toMachine hu z1 (le_of_eq (abs_of_nonneg rf0))
    rw [← hz] at this
    refine this.trans ?_
    have := mul_nonneg h0 rf0
    norm_num; linarith
  have zz := abs_le.1 z2
  -- the sines
  obtain ⟨S, hS⟩ : ∃ S, S = Real.sin (r * φ) := ⟨_, rfl⟩
  obtain ⟨D, hD⟩ : ∃ D, D = Real.sin φ := ⟨_, rfl⟩
  have S1 := le_sin_half rf0 (rf1.trans f1)
  have D1 := le_sin_half f0.le f1
  have D0 := sin_pos_half f0 f1
  have SD : Real.sin (r * φ) ≤ Real.sin φ := Real.sin_le_sin_of_le_of_le_pi_div_two (by linarith) f1 rf1
  have S0 : 0 ≤ Real.sin (r * φ) := Real.sin_nonneg_of_nonneg_of_le_pi rf0 (by linarith)
  rw [← hS] at S1 S0 SD ⊢
  rw [← hD] at D1 D0 SD ⊢
  have sinlip : ∀ x y : ℝ, |Real.sin x - Real.sin y| ≤ |x - y| := fun x y => by
    have := Real.abs_sin_sub_sin_le x y
    exact this
  have hz0 : |Real.sin z - S| ≤ 4.74 * (τ * S) := by
    rw [hS]; refine (sinlip _ _).trans (z2.trans ?_); rw [← hS]
    have := mul_le_mul_of_nonneg_left S1 h0
    have := mul_nonneg h0 S0
    norm_num at *; linarith
  have hT0 : |Real.sin T - D| ≤ 1.575 * (τ * D) := by
    rw [hD]; refine (sinlip _ _).trans (hT.trans ?_); rw [← hD]
    have := mul_le_mul_of_nonneg_left D1 h0
    linarith
  have hTa := abs_le.1 hT
  have nz := m.sin_rel z (abs_le.2 ⟨by norm_num at *; linarith, by norm_num at *; linarith⟩)
  have nT := m.sin_rel T (abs_le.2 ⟨by norm_num at *; linarith, by norm_num at *; linarith⟩)
  have τS : τ * (τ * S) ≤ 1 / 1000 * (τ * S) := mul_le_mul_of_nonneg_right h1 (mul_nonneg h0 S0)
  have τD : τ * (τ * D) ≤ 1 / 1000 * (τ * D) := mul_le_mul_of_nonneg_right h1 (mul_nonneg h0 D0.le)
  have near' : ∀ {v w k : ℝ}, |v - w| ≤ m.κ * |w| → ∀ {W : ℝ}, 0 ≤ W → |w - W| ≤ k → |v - W| ≤ k + τ * (W + k) := by
    intro v w k hv W W0 hw
    have a := abs_add_le (v - w) (w - W)
    rw [sub_add_sub_cancel] at a
    have b : |w| ≤ W + k := by
      have := abs_le.1 hw
      exact abs_le.2 ⟨by linarith, by linarith⟩
    have c := mul_le_mul hκ b (abs_nonneg _) h0
    linarith
  obtain ⟨n, hn⟩ : ∃ n, n = m.sin z := ⟨_, rfl⟩
  obtain ⟨d, hd⟩ : ∃ d, d = m.sin T := ⟨_, rfl⟩
  rw [← hn] at nz ⊢
  rw [← hd] at nT ⊢
  have n1 : |n - S| ≤ 5.75 * (τ * S) := by
    refine (near' nz S0 hz0).trans ?_
    have := mul_nonneg h0 S0
    norm_num; linarith
  have d1 : |d - D| ≤ 2.58 * (τ * D) := by
    refine (near' nT D0.le hT0).trans ?_
    have := mul_nonneg h0 D0.le
    norm_num; linarith
  have τD1 : τ * D ≤ 1 / 1000 * D := mul_le_mul_of_nonneg_right h1 D0.le
  have d2 : 0.997 * D ≤ d := by
    have := (abs_le.1 d1).1
    norm_num at *; linarith
  have d0 : 0 < d := lt_of_lt_of_le (by positivity) d2
  refine ⟨d0, ?_⟩
  have q1 : |n / d - S / D| ≤ 8.4 * τ := by
    have e : n / d - S / D = (n - S - S / D * (d - D)) / d := by
      field_simp; ring
    rw [e, abs_div, abs_of_pos d0, div_le_iff₀ d0]
    have q0 : 0 ≤ S / D := div_nonneg S0 D0.le
    have a : |S / D * (d - D)| ≤ 2.58 * (τ * S) := by
      rw [abs_mul, abs_of_nonneg q0]
      refine (mul_le_mul_of_nonneg_left d1 q0).trans (le_of_eq ?_)
      field_simp
    have b := abs_sub (n - S) (S / D * (d - D))
    have c := mul_le_mul_of_nonneg_left SD h0
    have g := mul_le_mul_of_nonneg_left d2 h0
    have k := mul_nonneg h0 D0.le
    norm_num at *; linarith
  have q2 : |S / D| ≤ 1 := by
    rw [abs_of_nonneg (div_nonneg S0 D0.le)]; exact (div_le_one D0).2 SD
  refine (rnd_near m.toMachine hu q1 q2).trans ?_
  have := mul_le_mul_of_nonneg_right h1 h0
  norm_num; linarith

theorem qdot_neg_right (A B : Quat) : qdot A B.neg = -qdot A B := by
  unfold qdot Quat.neg; ring

theorem isUnitQ_neg {B : Quat} (h : IsUnitQ B) : IsUnitQ B.neg := by
  unfold IsUnitQ Quat.neg at *; linarith

theorem qnear_neg {η : ℝ} {b B : Quat} (h : QNear η b B) : QNear η b.neg B.neg := by
  intro i
  have := h i
  rw [abs_sub_comm] at this
  fin_cases i <;> simp only [Quat.get, Quat.neg] at * <;> norm_num at * <;> rw [show ∀ x y : ℝ, -x + y = y - x by intros; ring] <;> exact this

theorem qnear_neg' {η : ℝ} {b B : Quat} (h : QNear η b B.neg) : QNear η b.neg B := by
  have := qnear_neg h
  simpa [Quat.neg] using this

/-- after the negations the second quaternion and the cosine are near those of the nearer of the two signs -/
theorem slerp_flip_near (m : Machine) {τ η : ℝ} (hu : m.u ≤ τ) (h0 : 0 ≤ τ) (h1 : τ ≤ 1 / 1000) (hη : η ≤ 1 / 50) {a b A B : Quat}
    (hA : IsUnitQ A) (hB : IsUnitQ B) (ha : QNear η a A) (hb : QNear η b B ∨ QNear η b B.neg)
    (hpos : 4.1 * η + 4.5 * τ < qdot A B) :
    QNear η (slerpFlipFl m a b) B ∧ |slerpCosFl m a b - qdot A B| ≤ 4.1 * η + 4.5 * τ := by
  unfold slerpFlipFl slerpCosFl
  rcases hb with hb | hb
  · have hD := qdotFl_near m hu h0 h1 hη hA hB ha hb
    have : ¬ qdotFl m a b < 0 := by
      have := (abs_le.1 hD).1
      linarith
    rw [if_neg this, if_neg this]
    exact ⟨hb, hD⟩
  · have hD := qdotFl_near m hu h0 h1 hη hA (isUnitQ_neg hB) ha hb
    rw [qdot_neg_right] at hD
    have : qdotFl m a b < 0 := by
      have := (abs_le.1 hD).2
      linarith
    rw [if_pos this, if_pos this]
    refine ⟨qnear_neg' hb, ?_⟩
    rw [← abs_neg]
    convert hD using 2
    ring

theorem unitQ_comp {A : Quat} (h : IsUnitQ A) : |A.w| ≤ 1 ∧ |A.x| ≤ 1 ∧ |A.y| ≤ 1 ∧ |A.z| ≤ 1 := by
  unfold IsUnitQ at h
  refine ⟨?_, ?_, ?_, ?_⟩ <;> rw [← sq_le_one_iff_abs_le_one] <;> nlinarith [sq_nonneg A.w, sq_nonneg A.x, sq_nonneg A.y, sq_nonneg A.z]

theorem slerpCompFl_near (m : Machine) {τ η ω w1 w2 W1 W2 a b A B : ℝ} (hu : m.u ≤ τ) (h0 : 0 ≤ τ) (hτ : τ ≤ 1 / 100) (hη : η ≤ 1 / 100)
    (hω : ω ≤ 1 / 20) (h1 : |w1 - W1| ≤ ω) (h2 : |w2 - W2| ≤ ω) (k1 : |W1| ≤ 1) (k2 : |W2| ≤ 1) (ha : |a - A| ≤ η) (hb : |b - B| ≤ η)
    (hA : |A| ≤ 1) (hB : |B| ≤ 1) : |slerpCompFl m w1 a w2 b - (W1 * A + W2 * B)| ≤ 2 * ω + 2.1 * η + 4.4 * τ := by
  have η0 := (abs_nonneg _).trans ha
  have ω0 := (abs_nonneg _).trans h1
  have p : ω * η ≤ 1 / 20 * η := mul_le_mul_of_nonneg_right hω η0
  have one : ∀ {w W a A : ℝ}, |w - W| ≤ ω → |W| ≤ 1 → |a - A| ≤ η → |A| ≤ 1 →
      |m.rnd (w * a) - W * A| ≤ ω + 1.05 * η + 1.07 * τ := by
    intro w W a A h k ha hA
    have e := mul_near h k ha hA
    have e' : |w * a - W * A| ≤ ω + 1.05 * η := e.trans (by norm_num; linarith)
    have g : |W * A| ≤ 1 := by rw [abs_mul]; exact mul_le_one₀ k (abs_nonneg _) hA
    refine (rnd_near m hu e' g).trans ?_
    have : τ * (1 + (ω + 1.05 * η)) ≤ τ * 1.07 := mul_le_mul_of_nonneg_left (by norm_num at *; linarith) h0
    linarith
  have e := add_near (one h1 k1 ha hA) (one h2 k2 hb hB)
  have g : |W1 * A + W2 * B| ≤ 2 := by
    refine (abs_add_le _ _).trans ?_
    have : |W1 * A| ≤ 1 := by rw [abs_mul]; exact mul_le_one₀ k1 (abs_nonneg _) hA
    have : |W2 * B| ≤ 1 := by rw [abs_mul]; exact mul_le_one₀ k2 (abs_nonneg _) hB
    linarith
  refine (rnd_near m hu e g).trans ?_
  have : τ * (2 + (ω + 1.05 * η + 1.07 * τ + (ω + 1.05 * η + 1.07 * τ))) ≤ τ * 2.2 :=
    mul_le_mul_of_nonneg_left (by norm_num at *; linarith) h0
  norm_num at *; linarith

/-- one pair of the spherical branch -/
theorem slerpFl_near (m : SlerpMachine) {τ η : ℝ} (hu : m.u ≤ τ) (hκ : m.κ ≤ τ) (h0 : 0 ≤ τ) (hsmall : η + τ ≤ 1 / 1000)
    {a b A B : Quat} (hA : IsUnitQ A) (hB : IsUnitQ B) (ha : QNear η a A) (hb : QNear η b B ∨ QNear η b B.neg) {t : ℝ} (t0 : 0 ≤ t)
    (t1 : t ≤ 1) (hpos : 5 * (η + τ) < qdot A B) (hlt : qdot A B < 1 - 5 * (η + τ)) (c : ℝ) (hce : c = slerpCosFl m.toMachine a b)
    (b' : Quat) (hbe : b' = slerpFlipFl m.toMachine a b) :
    c < 1 ∧ 0 < slerpSinFl m c ∧ QNear (71 * η + 102 * τ)
      ⟨slerpCompFl m.toMachine (slerpWeightFl m c (1 - t)) a.w (slerpWeightFl m c t) b'.w,
       slerpCompFl m.toMachine (slerpWeightFl m c (1 - t)) a.x (slerpWeightFl m c t) b'.x,
       slerpCompFl m.toMachine (slerpWeightFl m c (1 - t)) a.y (slerpWeightFl m c t) b'.y,
       slerpCompFl m.toMachine (slerpWeightFl m c (1 - t)) a.z (slerpWeightFl m c t) b'.z⟩ (arcPoint A B t) := by
  have η0 := (abs_nonneg _).trans (ha 0)
  have h1 : τ ≤ 1 / 1000 := by linarith
  obtain ⟨hb', hc⟩ := slerp_flip_near m.toMachine hu h0 h1 (by linarith) hA hB ha hb (by norm_num at *; linarith)
  rw [← hbe] at hb'
  rw [← hce] at hc
  have hc' := abs_le.1 hc
  have c0 : 0 ≤ c := by norm_num at *; linarith
  have c1 : c < 1 := by norm_num at *; linarith
  have C0 : 0 ≤ qdot A B := by linarith
  have C1 : qdot A B < 1 := by linarith
  have arc : ∀ {x : ℝ}, 0 ≤ x → x < 1 → 0 < Real.arccos x ∧ Real.arccos x ≤ Real.pi / 2 := fun x0 x1 =>
    ⟨Real.arccos_pos.2 x1, Real.arccos_le_pi_div_two.2 x0⟩
  have hw : ∀ {r : ℝ}, 0 ≤ r → r ≤ 1 →
      |slerpWeightFl m c r - Real.sin (r * Real.arccos (qdot A B)) / Real.sin (Real.arccos (qdot A B))| ≤ 34.1 * η + 47.4 * τ := by
    intro r r0 r1
    have e1 := (slerpWeightFl_near m hu hκ h0 h1 c0 c1 r0 r1).2
    have e2 := sinRatio_cos r0 r1 (arc C0 C1).1 (arc C0 C1).2 (arc c0 c1).1 (arc c0 c1).2
    rw [Real.cos_arccos (by linarith) c1.le, Real.cos_arccos (by linarith) C1.le] at e2
    have e3 := abs_add_le (slerpWeightFl m c r - Real.sin (r * Real.arccos c) / Real.sin (Real.arccos c))
      (Real.sin (r * Real.arccos c) / Real.sin (Real.arccos c) - Real.sin (r * Real.arccos (qdot A B)) / Real.sin (Real.arccos (qdot A B)))
    rw [sub_add_sub_cancel] at e3
    norm_num at *; linarith
  have hW : ∀ {r : ℝ}, 0 ≤ r → r ≤ 1 → |Real.sin (r * Real.arccos (qdot A B)) / Real.sin (Real.arccos (qdot A B))| ≤ 1 := by
    intro r r0 r1
    obtain ⟨g0, g1⟩ := sinRatio_le r0 r1 (arc C0 C1).1 (arc C0 C1).2
    rwa [abs_of_nonneg g0]
  refine ⟨c1, (slerpWeightFl_near m hu hκ h0 h1 c0 c1 t0 t1).1, ?_⟩
  have t2 : 0 ≤ 1 - t := by linarith
  have t3 : 1 - t ≤ 1 := by linarith
  have comp : ∀ {x y X Y : ℝ}, |x - X| ≤ η → |y - Y| ≤ η → |X| ≤ 1 → |Y| ≤ 1 →
      |slerpCompFl m.toMachine (slerpWeightFl m c (1 - t)) x (slerpWeightFl m c t) y -
        (Real.sin ((1 - t) * Real.arccos (qdot A B)) / Real.sin (Real.arccos (qdot A B)) * X +
          Real.sin (t * Real.arccos (qdot A B)) / Real.sin (Real.arccos (qdot A B)) * Y)| ≤ 71 * η + 102 * τ := by
    intro x y X Y hx hy hX hY
    refine (slerpCompFl_near m.toMachine hu h0 (by linarith) (by linarith) (by norm_num at *; linarith) (hw t2 t3) (hw t0 t1) (hW t2 t3) (hW t0 t1) hx hy hX hY).trans ?_
    norm_num; linarith
  obtain ⟨A0, A1, A2, A3⟩ := unitQ_comp hA
  obtain ⟨B0, B1, B2, B3⟩ := unitQ_comp hB
  intro i
  fin_cases i
  · exact comp (ha 0) (hb' 0) A0 B0
  · exact comp (ha 1) (hb' 1) A1 B1
  · exact comp (ha 2) (hb' 2) A2 B2
  · exact comp (ha 3) (hb' 3) A3 B3

/-- the point of the great arc has unit length and divides the angle in the ratio `t : 1 - t` -/
theorem C145_arc {A B : Quat} (hA : IsUnitQ A) (hB : IsUnitQ B) (h0 : 0 ≤ inner4 A B) (h1 : inner4 A B < 1) (t : ℝ) :
    IsUnitQ (arcPoint A B t) ∧ inner4 A (arcPoint A B t) = Real.cos (t * Real.arccos (inner4 A B)) ∧
      inner4 (arcPoint A B t) B = Real.cos ((1 - t) * Real.arccos (inner4 A B)) := by
  obtain ⟨q, hq, hu, ha, hb, -, -⟩ := slerpElem_spec hA hB (c := inner4 A B) rfl h0 h1 t
  unfold slerpElem at hq
  simp only at hq
  split_ifs at hq with hs
  have e : q = arcPoint A B t := (Option.some.inj hq).symm
  rw [e] at hu ha hb
  exact ⟨hu, ha, hb⟩

/-- C145: `quaternion_slerp` on a batch with a pair that is clearly not within `1e-6` of parallel. For each pair that is neither nearly
parallel nor nearly orthogonal the result is no NaN and within `71 η + 102 τ` of the point of the shorter great arc, however small the
angle; `B` is the second quaternion or its negative, whichever is nearer to `A` -/
theorem C145_slerp (m : SlerpMachine) {τ η : ℝ} (hu : m.u ≤ τ) (hκ : m.κ ≤ τ) (h0 : 0 ≤ τ) (hsmall : η + τ ≤ 5e-7) {N : ℕ}
    {a b A B : Fin N → Quat} (hA : ∀ n, IsUnitQ (A n)) (hB : ∀ n, IsUnitQ (B n)) (ha : ∀ n, QNear η (a n) (A n))
    (hb : ∀ n, QNear η (b n) (B n) ∨ QNear η (b n) (negQ (B n))) {t : ℝ} (t0 : 0 ≤ t) (t1 : t ≤ 1)
    (hpos : ∀ n, 5 * (η + τ) < inner4 (A n) (B n)) (hfar : ∃ n, inner4 (A n) (B n) ≤ 1 - 4e-6) (n : Fin N)
    (hn : inner4 (A n) (B n) < 1 - 5 * (η + τ)) :
    slerpCosFl m.toMachine (a n) (b n) < 1 ∧ 0 < slerpSinFl m (slerpCosFl m.toMachine (a n) (b n)) ∧
    QNear (71 * η + 102 * τ) (quaternionSlerpFl m a b t n) (arcPoint (A n) (B n) t) := by
  have η0 := (abs_nonneg _).trans (ha n 0)
  have h1 : τ ≤ 1 / 1000 := by norm_num at *; linarith
  have hη : η ≤ 1 / 50 := by norm_num at *; linarith
  have hnc : ¬ ∀ n, m.rnd (1 - 1e-6) < slerpCosFl m.toMachine (a n) (b n) := fun h => by
    obtain ⟨k, hk⟩ := hfar
    have e0 : 4.1 * η + 4.5 * τ < qdot (A k) (B k) := lt_of_le_of_lt (by norm_num; linarith) (hpos k)
    have e1 := (abs_le.1 (slerp_flip_near m.toMachine hu h0 h1 hη (hA k) (hB k) (ha k) (hb k) e0).2).2
    have e2 := (abs_le.1 (m.rnd_err (1 - 1e-6))).1
    have e3 := h k
    have e4 : m.u * |(1 - 1e-6 : ℝ)| ≤ τ := by
      refine (mul_le_mul_of_nonneg_right hu (abs_nonneg _)).trans (mul_le_of_le_one_right h0 ?_)
      norm_num [abs_le]
    have hk : qdot (A k) (B k) ≤ 1 - 4e-6 := hk
    norm_num at *; linarith
  have key := slerpFl_near m hu hκ h0 (by norm_num at *; linarith) (hA n) (hB n) (ha n) (hb n) t0 t1 (hpos n) hn _ rfl _ rfl
  refine ⟨key.1, key.2.1, ?_⟩
  unfold quaternionSlerpFl
  simp only
  rw [if_neg hnc]
  exact key.2.2

theorem lerpCompFl_near (m : Machine) {τ η t a b A B : ℝ} (hu : m.u ≤ τ) (h0 : 0 ≤ τ) (hτ : τ ≤ 1 / 1000) (hη : η ≤ 1 / 1000)
    (t0 : 0 ≤ t) (t1 : t ≤ 1) (ha : |a - A| ≤ η) (hb : |b - B| ≤ η) (hA : |A| ≤ 1) (hB : |B| ≤ 1) :
    |lerpCompFl m t a b - ((1 - t) * A + t * B)| ≤ 3.1 * η + 9.5 * τ := by
  have η0 := (abs_nonneg _).trans ha
  have p : τ * η ≤ 1 / 1000 * τ := by rw [mul_comm τ]; exact mul_le_mul_of_nonneg_right hη h0
  have p' : τ * η ≤ 1 / 1000 * η := mul_le_mul_of_nonneg_right hτ η0
  have q : τ * τ ≤ 1 / 1000 * τ := mul_le_mul_of_nonneg_right hτ h0
  have d2 : |B - A| ≤ 2 := (abs_sub _ _).trans (by linarith)
  have e1 : |m.rnd (b - a) - (B - A)| ≤ 2 * η + 2.01 * τ := by
    refine (rnd_near m hu (sub_near hb ha) d2).trans ?_
    norm_num; linarith
  have e2 : |m.rnd t - t| ≤ τ := by
    refine (m.rnd_err t).trans ?_
    rw [abs_of_nonneg t0]
    exact (mul_le_mul_of_nonneg_right hu t0).trans (mul_le_of_le_one_right h0 t1)
  have ht : |t| ≤ 1 := by rwa [abs_of_nonneg t0]
  have e3 : |m.rnd t * m.rnd (b - a) - t * (B - A)| ≤ 2.01 * η + 4.1 * τ := by
    refine (mul_near e2 ht e1 d2).trans ?_
    norm_num; linarith
  have g3 : |t * (B - A)| ≤ 2 := by
    rw [abs_mul]
    have := mul_le_mul ht d2 (abs_nonneg _) zero_le_one
    linarith
  have e4 : |m.rnd (m.rnd t * m.rnd (b - a)) - t * (B - A)| ≤ 2.01 * η + 6.2 * τ := by
    refine (rnd_near m hu e3 g3).trans ?_
    norm_num; linarith
  have g4 : |A + t * (B - A)| ≤ 3 := (abs_add_le _ _).trans (by linarith)
  have e5 := rnd_near m hu (add_near ha e4) g4
  rw [show (1 - t) * A + t * B = A + t * (B - A) by ring]
  refine e5.trans ?_
  norm_num; linarith

/-- C145: on a batch in which all pairs are clearly within `1e-6` of parallel the interpolation is linear; the results are within
`3.1 η + 9.5 τ + 1.1e-6` of the great arc -/
theorem C145_linear (m : SlerpMachine) {τ η : ℝ} (hu : m.u ≤ τ) (h0 : 0 ≤ τ) (hsmall : η + τ ≤ 1e-7) {N : ℕ}
    {a b A B : Fin N → Quat} (hA : ∀ n, IsUnitQ (A n)) (hB : ∀ n, IsUnitQ (B n)) (ha : ∀ n, QNear η (a n) (A n))
    (hb : ∀ n, QNear η (b n) (B n) ∨ QNear η (b n) (negQ (B n))) {t : ℝ} (t0 : 0 ≤ t) (t1 : t ≤ 1)
    (hclose : ∀ n, 1 - 4e-7 ≤ inner4 (A n) (B n)) (n : Fin N) (hn : inner4 (A n) (B n) < 1) :
    QNear (3.1 * η + 9.5 * τ + 1.1e-6) (quaternionSlerpFl m a b t n) (arcPoint (A n) (B n) t) := by
  have η0 := (abs_nonneg _).trans (ha n 0)
  have h1 : τ ≤ 1 / 1000 := by norm_num at *; linarith
  have hη : η ≤ 1 / 1000 := by norm_num at *; linarith
  have flip : ∀ k, QNear η (slerpFlipFl m.toMachine (a k) (b k)) (B k) ∧
      |slerpCosFl m.toMachine (a k) (b k) - qdot (A k) (B k)| ≤ 4.1 * η + 4.5 * τ := fun k => by
    have hk : 1 - 4e-7 ≤ qdot (A k) (B k) := hclose k
    exact slerp_flip_near m.toMachine hu h0 h1 (by linarith) (hA k) (hB k) (ha k) (hb k) (by norm_num at *; linarith)
  have hc : ∀ n, m.rnd (1 - 1e-6) < slerpCosFl m.toMachine (a n) (b n) := fun k => by
    have e1 := (abs_le.1 (flip k).2).1
    have e2 := (abs_le.1 (m.rnd_err (1 - 1e-6))).2
    have e4 : m.u * |(1 - 1e-6 : ℝ)| ≤ τ := by
      refine (mul_le_mul_of_nonneg_right hu (abs_nonneg _)).trans (mul_le_of_le_one_right h0 ?_)
      norm_num [abs_le]
    have hk : 1 - 4e-7 ≤ qdot (A k) (B k) := hclose k
    norm_num at *; linarith
  have hk : 1 - 4e-7 ≤ qdot (A n) (B n) := hclose n
  have hn : qdot (A n) (B n) < 1 := hn
  have C0 : 0 ≤ qdot (A n) (B n) := by norm_num at *; linarith
  obtain ⟨θ, hθ⟩ : ∃ θ, θ = Real.arccos (qdot (A n) (B n)) := ⟨_, rfl⟩
  have θ0 : 0 < θ := by rw [hθ]; exact Real.arccos_pos.2 hn
  have θ1 : θ ≤ Real.pi / 2 := by rw [hθ]; exact Real.arccos_le_pi_div_two.2 C0
  have hcos : Real.cos θ = qdot (A n) (B n) := by rw [hθ]; exact Real.cos_arccos (by linarith) hn.le
  have θ2 : θ ^ 2 ≤ 2e-6 := by
    have a1 := le_sin_half (x := θ / 2) (by linarith) (by linarith)
    have a2 : (θ / 2) ^ 2 ≤ (1.575 * Real.sin (θ / 2)) ^ 2 := pow_le_pow_left₀ (by linarith) a1 2
    have a3 : Real.sin (θ / 2) ^ 2 = 1 / 2 - Real.cos θ / 2 := by
      rw [Real.sin_sq_eq_half_sub]; ring_nf
    rw [mul_pow, a3, hcos] at a2
    norm_num at *; linarith
  obtain ⟨A0, A1, A2, A3⟩ := unitQ_comp (hA n)
  obtain ⟨B0, B1, B2, B3⟩ := unitQ_comp (hB n)
  have comp : ∀ {x y X Y : ℝ}, |x - X| ≤ η → |y - Y| ≤ η → |X| ≤ 1 → |Y| ≤ 1 →
      |lerpCompFl m.toMachine t x y - (Real.sin ((1 - t) * θ) / Real.sin θ * X + Real.sin (t * θ) / Real.sin θ * Y)| ≤
        3.1 * η + 9.5 * τ + 1.1e-6 := by
    intro x y X Y hx hy hX hY
    have e1 := lerpCompFl_near m.toMachine hu h0 h1 hη t0 t1 hx hy hX hY
    have e2 := sinRatio_small (r := 1 - t) (by linarith) (by linarith) θ0 θ1
    have e3 := sinRatio_small t0 t1 θ0 θ1
    have e4 := mul_le_mul e2 hX (abs_nonneg _) (by positivity)
    have e5 := mul_le_mul e3 hY (abs_nonneg _) (by positivity)
    rw [← abs_mul] at e4 e5
    have e6 := abs_add_le ((Real.sin ((1 - t) * θ) / Real.sin θ - (1 - t)) * X) ((Real.sin (t * θ) / Real.sin θ - t) * Y)
    have e7 := abs_sub (lerpCompFl m.toMachine t x y - ((1 - t) * X + t * Y))
      ((Real.sin ((1 - t) * θ) / Real.sin θ - (1 - t)) * X + (Real.sin (t * θ) / Real.sin θ - t) * Y)
    rw [show lerpCompFl m.toMachine t x y - ((1 - t) * X + t * Y) -
      ((Real.sin ((1 - t) * θ) / Real.sin θ - (1 - t)) * X + (Real.sin (t * θ) / Real.sin θ - t) * Y) =
      lerpCompFl m.toMachine t x y - (Real.sin ((1 - t) * θ) / Real.sin θ * X + Real.sin (t * θ) / Real.sin θ * Y) by ring] at e7
    norm_num at *; linarith
  unfold quaternionSlerpFl
  simp only
  rw [if_pos hc]
  have e : arcPoint (A n) (B n) t = ⟨Real.sin ((1 - t) * θ) / Real.sin θ * (A n).w + Real.sin (t * θ) / Real.sin θ * (B n).w,
      Real.sin ((1 - t) * θ) / Real.sin θ * (A n).x + Real.sin (t * θ) / Real.sin θ * (B n).x,
      Real.sin ((1 - t) * θ) / Real.sin θ * (A n).y + Real.sin (t * θ) / Real.sin θ * (B n).y,
      Real.sin ((1 - t) * θ) / Real.sin θ * (A n).z + Real.sin (t * θ) / Real.sin θ * (B n).z⟩ := by
    rw [hθ]; rfl
  rw [e]
  have hb' := (flip n).1
  intro i
  fin_cases i
  · exact comp (ha n 0) (hb' 0) A0 B0
  · exact comp (ha n 1) (hb' 1) A1 B1
  · exact comp (ha n 2) (hb' 2) A2 B2
  · exact comp (ha n 3) (hb' 3) A3 B3

/-- arithmetic with `p` binary digits and a correctly rounded `acos` -/
noncomputable def binarySlerp (p : ℕ) (hp : 1 ≤ p) : SlerpMachine where
  toTrigMachine := binaryTrig p hp
  acos x := roundTo p (Real.arccos x)
  acos_err x _ := by
    have := roundTo_err p (Real.arccos x)
    rwa [abs_of_nonneg (Real.arccos_nonneg x)] at this

/-- C145 in a binary format with `q ≥ 24` bits, for quaternions normalised up to 4 units of the last place -/
theorem C145_precision (q : ℕ) (hq : 24 ≤ q) {N : ℕ} {a b A B : Fin N → Quat} (hA : ∀ n, IsUnitQ (A n)) (hB : ∀ n, IsUnitQ (B n))
    (ha : ∀ n, QNear (4 / 2 ^ q) (a n) (A n)) (hb : ∀ n, QNear (4 / 2 ^ q) (b n) (B n) ∨ QNear (4 / 2 ^ q) (b n) (negQ (B n)))
    {t : ℝ} (t0 : 0 ≤ t) (t1 : t ≤ 1) (hpos : ∀ n, 25 / 2 ^ q < inner4 (A n) (B n)) (hfar : ∃ n, inner4 (A n) (B n) ≤ 1 - 4e-6)
    (n : Fin N) (hn : inner4 (A n) (B n) < 1 - 25 / 2 ^ q) :
    QNear (386 / 2 ^ q) (quaternionSlerpFl (binarySlerp q (by omega)) a b t n) (arcPoint (A n) (B n) t) := by
  obtain ⟨hU, hK, -⟩ := binaryTrig_bounds q (by omega)
  have h0 : (0 : ℝ) ≤ 1 / 2 ^ q := by positivity
  have hl : (1 : ℝ) / 2 ^ q ≤ 1 / 2 ^ 24 := one_div_le_one_div_of_le (by positivity) (pow_le_pow_right₀ (by norm_num) hq)
  have e4 : (4 : ℝ) / 2 ^ q = 4 * (1 / 2 ^ q) := by ring
  have e25 : 5 * ((4 : ℝ) / 2 ^ q + 1 / 2 ^ q) = 25 / 2 ^ q := by ring
  have := (C145_slerp (binarySlerp q (by omega)) hU hK h0 (by rw [e4]; norm_num at *; linarith) hA hB ha hb t0 t1
    (by rw [e25]; exact hpos) hfar n (by rw [e25]; exact hn)).2.2
  intro i
  refine (this i).trans (le_of_eq ?_)
  ring

/-- a pair at the angle `arccos 0.6`, and a pair closer than the threshold -/
example : IsUnitQ ⟨1, 0, 0, 0⟩ ∧ IsUnitQ ⟨0.6, 0, 0.8, 0⟩ ∧ IsUnitQ ⟨24999999 / 25000001, 10000 / 25000001, 0, 0⟩ ∧
    inner4 ⟨1, 0, 0, 0⟩ ⟨0.6, 0, 0.8, 0⟩ ≤ 1 - 4e-6 ∧ 25 / 2 ^ 24 < inner4 ⟨1, 0, 0, 0⟩ ⟨0.6, 0, 0.8, 0⟩ ∧
    1 - 4e-7 ≤ inner4 ⟨1, 0, 0, 0⟩ ⟨24999999 / 25000001, 10000 / 25000001, 0, 0⟩ ∧
    inner4 ⟨1, 0, 0, 0⟩ ⟨24999999 / 25000001, 10000 / 25000001, 0, 0⟩ < 1 := by
  norm_num [IsUnitQ, inner4]

end PK
