import Verif.Lemmas.AngleRound

/-!
# Rounding errors of `quaternion_to_matrix`, and machines given by their rounding
-/

namespace PK
open Spec Matrix

/-! ## sums -/

theorem Rel.add_nonneg {c x y x' y' : ℝ} (h : Rel c x y) (h' : Rel c x' y') (hy : 0 ≤ y) (hy' : 0 ≤ y') : Rel c (x + x') (y + y') := by
  refine .of_abs h.nonneg ?_
  rw [abs_of_nonneg (show 0 ≤ y + y' by linarith)]
  have a := h.abs_sub
  have b := h'.abs_sub
  rw [abs_of_nonneg hy] at a
  rw [abs_of_nonneg hy'] at b
  have := abs_add_le (x - y) (x' - y')
  rw [show x - y + (x' - y') = x + x' - (y + y') by ring] at this
  linarith

/-- the denominator -/
theorem sumsq_rel (m : Machine) {τ : ℝ} (hu : m.u ≤ τ) (h0 : 0 ≤ τ) (h1 : τ ≤ 1 / 1000) (q : Quat) :
    Rel (4.01 * τ) (m.rnd (m.rnd (m.rnd (m.rnd (q.w * q.w) + m.rnd (q.x * q.x)) + m.rnd (q.y * q.y)) + m.rnd (q.z * q.z))) q.normSq := by
  have t2 : τ * τ ≤ 0.001 * τ := by
    have := mul_le_mul_of_nonneg_right h1 h0; linarith
  have t20 := mul_nonneg h0 h0
  have w0 := mul_self_nonneg q.w
  have x0 := mul_self_nonneg q.x
  have y0 := mul_self_nonneg q.y
  have z0 := mul_self_nonneg q.z
  have a1 := (m.rel hu _).trans ((m.rel hu (q.w * q.w)).add_nonneg (m.rel hu (q.x * q.x)) w0 x0)
  have a1' : Rel (2.002 * τ) _ _ := a1.mono (by linarith)
  have a2 := (m.rel hu _).trans (a1'.add_nonneg ((m.rel hu (q.y * q.y)).mono (show τ ≤ 2.002 * τ by linarith)) (by linarith) y0)
  have a2' : Rel (3.006 * τ) _ _ := a2.mono (by linarith)
  have a3 := (m.rel hu _).trans (a2'.add_nonneg ((m.rel hu (q.z * q.z)).mono (show τ ≤ 3.006 * τ by linarith)) (by linarith) z0)
  have e : q.w * q.w + q.x * q.x + q.y * q.y + q.z * q.z = q.normSq := by unfold Quat.normSq; ring
  rw [e] at a3
  exact a3.mono (by linarith)

/-- an entry off the diagonal, or what is subtracted from 1 on it -/
theorem entry_near (m : Machine) {τ : ℝ} (hu : m.u ≤ τ) (h0 : 0 ≤ τ) (h1 : τ ≤ 1 / 1000) {n t a b a' b' K : ℝ} (hn : 0 < n)
    (ht : Rel (5.05 * τ) t (2 / n)) (ha : Rel τ a' a) (hb : Rel τ b' b) (hs : |a| + |b| ≤ K * n) :
    |m.rnd (t * m.rnd (a' + b')) - 2 / n * (a + b)| ≤ 2 * K * (8.2 * τ) := by
  have t2 : τ * τ ≤ 0.001 * τ := by
    have := mul_le_mul_of_nonneg_right h1 h0; linarith
  have t20 := mul_nonneg h0 h0
  have t3 : τ * τ * τ ≤ 0.000001 * τ := by
    have := mul_le_mul_of_nonneg_right t2 h0; linarith
  have key := ((m.rel hu (t * m.rnd (a' + b'))).trans (ht.mul (m.rel hu (a' + b')))).mono (show _ ≤ 7.1 * τ by linarith)
  have k1 := key.abs_sub
  have hab : |a' + b' - (a + b)| ≤ τ * (|a| + |b|) := by
    have e : a' + b' - (a + b) = (a' - a) + (b' - b) := by ring
    rw [e]
    refine (abs_add_le _ _).trans ?_
    have := ha.abs_sub
    have := hb.abs_sub
    linarith
  have hab2 : |a' + b'| ≤ (1 + τ) * (|a| + |b|) := by
    have := abs_add_le (a' + b' - (a + b)) (a + b)
    rw [sub_add_cancel] at this
    have := abs_add_le a b
    linarith
  have hS0 : 0 ≤ |a| + |b| := by positivity
  have hn2 : 0 < 2 / n := by positivity
  rw [abs_mul, abs_of_pos hn2] at k1
  have e : m.rnd (t * m.rnd (a' + b')) - 2 / n * (a + b) =
      (m.rnd (t * m.rnd (a' + b')) - 2 / n * (a' + b')) + 2 / n * (a' + b' - (a + b)) := by ring
  rw [e]
  refine (abs_add_le _ _).trans ?_
  rw [abs_mul (2 / n), abs_of_pos hn2]
  have k2 := mul_le_mul_of_nonneg_left hab hn2.le
  have k3 : 7.1 * τ * (2 / n * |a' + b'|) ≤ 7.1 * τ * (2 / n * ((1 + τ) * (|a| + |b|))) :=
    mul_le_mul_of_nonneg_left (mul_le_mul_of_nonneg_left hab2 hn2.le) (by positivity)
  have k4 : 2 / n * (|a| + |b|) ≤ 2 * K := by
    have := mul_le_mul_of_nonneg_left hs hn2.le
    have e2 : 2 / n * (K * n) = 2 * K := by field_simp
    linarith
  have hZ0 : 0 ≤ 2 / n * (|a| + |b|) := by positivity
  have c1 : 7.1 * τ * (2 / n * ((1 + τ) * (|a| + |b|))) + 2 / n * (τ * (|a| + |b|)) =
      (7.1 * τ * (1 + τ) + τ) * (2 / n * (|a| + |b|)) := by ring
  have c2 : 7.1 * τ * (1 + τ) + τ ≤ 8.2 * τ := by linarith
  have c3 := mul_le_mul c2 k4 hZ0 (by positivity)
  linarith

theorem prod_le_half (a b : ℝ) : |a * b| ≤ (a ^ 2 + b ^ 2) / 2 := by
  rw [abs_le]
  constructor <;> nlinarith [sq_nonneg (a + b), sq_nonneg (a - b)]

/-- `quaternion_to_matrix` of any quaternion other than 0 -/
theorem quaternionToMatrixFl_near (m : Machine) {τ : ℝ} (hu : m.u ≤ τ) (h0 : 0 ≤ τ) (h1 : τ ≤ 1 / 1000) {q : Quat}
    (hq : 0 < q.normSq) (i j : Fin 3) : |quaternionToMatrixFl m q i j - quaternionToMatrix q i j| ≤ 18 * τ := by
  have t2 : τ * τ ≤ 0.001 * τ := by
    have := mul_le_mul_of_nonneg_right h1 h0; linarith
  have t20 := mul_nonneg h0 h0
  set n := m.rnd (m.rnd (m.rnd (m.rnd (q.w * q.w) + m.rnd (q.x * q.x)) + m.rnd (q.y * q.y)) + m.rnd (q.z * q.z)) with hn
  set t := m.rnd (2 / n) with ht
  have hnr := sumsq_rel m hu h0 h1 q
  rw [← hn] at hnr
  have htr : Rel (5.05 * τ) t (2 / q.normSq) := by
    have a := hnr.inv (d := 4.03 * τ) (by linarith) (by linarith)
    have b := a.mul_left 2
    rw [← div_eq_mul_inv, ← div_eq_mul_inv] at b
    exact ((m.rel hu (2 / n)).trans b).mono (by linarith)
  have hN : q.normSq = q.w ^ 2 + q.x ^ 2 + q.y ^ 2 + q.z ^ 2 := by unfold Quat.normSq; ring
  have off : ∀ a b c d : ℝ, (a ^ 2 + b ^ 2) + (c ^ 2 + d ^ 2) = q.normSq →
      |m.rnd (t * m.rnd (m.rnd (a * b) + m.rnd (c * d))) - 2 / q.normSq * (a * b + c * d)| ≤ 18 * τ := by
    intro a b c d h
    refine (entry_near m hu h0 h1 hq htr (m.rel hu _) (m.rel hu _) (K := 1 / 2) ?_).trans (by linarith)
    have := prod_le_half a b
    have := prod_le_half c d
    linarith
  have offm : ∀ a b c d : ℝ, (a ^ 2 + b ^ 2) + (c ^ 2 + d ^ 2) = q.normSq →
      |m.rnd (t * m.rnd (m.rnd (a * b) - m.rnd (c * d))) - 2 / q.normSq * (a * b - c * d)| ≤ 18 * τ := by
    intro a b c d h
    have hneg : Rel τ (-m.rnd (c * d)) (-(c * d)) := by
      have := (m.rel hu (c * d)).mul_left (-1)
      simpa using this
    refine (entry_near m hu h0 h1 hq htr (m.rel hu (a * b)) hneg (K := 1 / 2) ?_).trans (by linarith)
    have := prod_le_half a b
    have := prod_le_half c d
    rw [abs_neg]
    linarith
  have dia : ∀ a b : ℝ, a ^ 2 + b ^ 2 ≤ q.normSq →
      |m.rnd (1 - m.rnd (t * m.rnd (m.rnd (a * a) + m.rnd (b * b)))) - (1 - 2 / q.normSq * (a * a + b * b))| ≤ 18 * τ := by
    intro a b h
    have h2 : a * a + b * b ≤ q.normSq := by linarith [sq a, sq b]
    have h20 : 0 ≤ a * a + b * b := add_nonneg (mul_self_nonneg a) (mul_self_nonneg b)
    have k := entry_near m hu h0 h1 hq htr (m.rel hu (a * a)) (m.rel hu (b * b)) (K := 1) (by
      rw [abs_of_nonneg (mul_self_nonneg a), abs_of_nonneg (mul_self_nonneg b)]; linarith)
    set x := m.rnd (t * m.rnd (m.rnd (a * a) + m.rnd (b * b)))
    have k2 : |(1 - x) - (1 - 2 / q.normSq * (a * a + b * b))| ≤ 16.4 * τ := by
      rw [show (1 - x) - (1 - 2 / q.normSq * (a * a + b * b)) = -(x - 2 / q.normSq * (a * a + b * b)) by ring, abs_neg]
      linarith
    have k3 : |1 - 2 / q.normSq * (a * a + b * b)| ≤ 1 := by
      have c1 : 2 / q.normSq * (a * a + b * b) ≤ 2 := by
        rw [div_mul_eq_mul_div, div_le_iff₀ hq]; linarith
      have c2 : 0 ≤ 2 / q.normSq * (a * a + b * b) := by positivity
      rw [abs_le]
      constructor <;> linarith
    exact (rnd_near_le m 1.1 hu h0 k2 k3 (by linarith)).trans (by linarith)
  unfold quaternionToMatrixFl quaternionToMatrix
  simp only [← hn, ← ht]
  fin_cases i <;> fin_cases j <;> simp only [Fin.zero_eta, Fin.mk_one, Fin.reduceFinMk, Matrix.of_apply, Matrix.cons_val]
  · exact dia _ _ (by rw [hN]; nlinarith [sq_nonneg q.w, sq_nonneg q.x])
  · exact offm _ _ _ _ (by rw [hN]; ring)
  · exact off _ _ _ _ (by rw [hN]; ring)
  · exact off _ _ _ _ (by rw [hN]; ring)
  · exact dia _ _ (by rw [hN]; nlinarith [sq_nonneg q.w, sq_nonneg q.y])
  · exact offm _ _ _ _ (by rw [hN]; ring)
  · exact offm _ _ _ _ (by rw [hN]; ring)
  · exact off _ _ _ _ (by rw [hN]; ring)
  · exact dia _ _ (by rw [hN]; nlinarith [sq_nonneg q.w, sq_nonneg q.z])

/-! ## the rotation of a nearby quaternion -/

theorem prod_near {a b a' b' η : ℝ} (ha : |a' - a| ≤ η) (hb : |b' - b| ≤ η) : |a' * b' - a * b| ≤ η * (|a| + |b|) + η * η := by
  have e : a' * b' - a * b = a * (b' - b) + (a' - a) * b + (a' - a) * (b' - b) := by ring
  have η0 := (abs_nonneg _).trans ha
  rw [e]
  refine (abs_add_three _ _ _).trans ?_
  rw [abs_mul, abs_mul, abs_mul]
  have h1 := mul_le_mul_of_nonneg_left hb (abs_nonneg a)
  have h2 := mul_le_mul_of_nonneg_right ha (abs_nonneg b)
  have h3 := mul_le_mul ha hb (abs_nonneg _) η0
  linarith

theorem quaternionToMatrix_lip {η : ℝ} (hη : η ≤ 1 / 50) {p q : Quat} (hq : IsUnitQ q) (h : QNear η p q) :
    0 < p.normSq ∧ ∀ i j, |quaternionToMatrix p i j - quaternionToMatrix q i j| ≤ 9 * η := by
  have η0 := (abs_nonneg _).trans (h 0)
  have hS := quat_sum_le hq
  have η2 : η * η ≤ 1 / 50 * η := mul_le_mul_of_nonneg_right hη η0
  have η20 := mul_nonneg η0 η0
  have hw : |p.w - q.w| ≤ η := h 0
  have hx : |p.x - q.x| ≤ η := h 1
  have hy : |p.y - q.y| ≤ η := h 2
  have hz : |p.z - q.z| ≤ η := h 3
  have w0 := abs_nonneg q.w
  have x0 := abs_nonneg q.x
  have y0 := abs_nonneg q.y
  have z0 := abs_nonneg q.z
  have hηS := mul_le_mul_of_nonneg_left hS η0
  have hn1 : q.normSq = 1 := by unfold IsUnitQ at hq; unfold Quat.normSq; linarith
  have hnd : |p.normSq - 1| ≤ 4 * η + 4 * (η * η) := by
    rw [← hn1]
    have e : p.normSq - q.normSq = (p.w * p.w - q.w * q.w) + (p.x * p.x - q.x * q.x) + (p.y * p.y - q.y * q.y) + (p.z * p.z - q.z * q.z) := by
      unfold Quat.normSq; ring
    rw [e]
    have a1 := prod_near hw hw
    have a2 := prod_near hx hx
    have a3 := prod_near hy hy
    have a4 := prod_near hz hz
    have b1 := abs_add_le ((p.w * p.w - q.w * q.w) + (p.x * p.x - q.x * q.x) + (p.y * p.y - q.y * q.y)) (p.z * p.z - q.z * q.z)
    have b2 := abs_add_le ((p.w * p.w - q.w * q.w) + (p.x * p.x - q.x * q.x)) (p.y * p.y - q.y * q.y)
    have b3 := abs_add_le (p.w * p.w - q.w * q.w) (p.x * p.x - q.x * q.x)
    linarith
  have hnd' := abs_le.1 hnd
  have hpos : 0.918 ≤ p.normSq := by linarith
  refine ⟨by linarith, ?_⟩
  have key : ∀ a b : ℝ, |a - b| ≤ 4 * η + 4 * (η * η) → |b| ≤ 1 → |a / p.normSq - b / q.normSq| ≤ 9 * η := by
    intro a b hab hb
    rw [hn1]
    have e : a / p.normSq - b / 1 = ((a - b) - b * (p.normSq - 1)) / p.normSq := by
      field_simp; ring
    rw [e, abs_div, abs_of_pos (show 0 < p.normSq by linarith), div_le_iff₀ (by linarith)]
    refine (abs_sub _ _).trans ?_
    rw [abs_mul]
    have c1 := mul_le_mul hb hnd (abs_nonneg _) (by norm_num)
    have c2 := mul_le_mul_of_nonneg_left hpos (show 0 ≤ 9 * η by linarith)
    linarith
  have wx := prod_near hw hx
  have wy := prod_near hw hy
  have wz := prod_near hw hz
  have xy := prod_near hx hy
  have xz := prod_near hx hz
  have yz := prod_near hy hz
  have ww := prod_near hw hw
  have xx := prod_near hx hx
  have yy := prod_near hy hy
  have zz := prod_near hz hz
  have hb := hq
  unfold IsUnitQ at hb
  have off : ∀ {a b c d a' b' c' d' : ℝ}, |a' * b' - a * b| ≤ η * (|a| + |b|) + η * η → |c' * d' - c * d| ≤ η * (|c| + |d|) + η * η →
      |a| + |b| + |c| + |d| ≤ 2 → a ^ 2 + b ^ 2 + c ^ 2 + d ^ 2 = 1 →
      |2 / p.normSq * (a' * b' + c' * d') - 2 / q.normSq * (a * b + c * d)| ≤ 9 * η ∧
      |2 / p.normSq * (a' * b' - c' * d') - 2 / q.normSq * (a * b - c * d)| ≤ 9 * η := by
    intro a b c d a' b' c' d' k1 k2 k3 k4
    have k5 := mul_le_mul_of_nonneg_left k3 η0
    have k6 := prod_le_half a b
    have k7 := prod_le_half c d
    constructor
    · rw [div_mul_eq_mul_div, div_mul_eq_mul_div]
      apply key
      · have := abs_add_le (a' * b' - a * b) (c' * d' - c * d)
        rw [show 2 * (a' * b' + c' * d') - 2 * (a * b + c * d) = 2 * (a' * b' - a * b + (c' * d' - c * d)) by ring, abs_mul, abs_two]
        linarith
      · have := abs_add_le (a * b) (c * d)
        rw [abs_mul, abs_two]
        linarith
    · rw [div_mul_eq_mul_div, div_mul_eq_mul_div]
      apply key
      · have := abs_sub (a' * b' - a * b) (c' * d' - c * d)
        rw [show 2 * (a' * b' - c' * d') - 2 * (a * b - c * d) = 2 * (a' * b' - a * b - (c' * d' - c * d)) by ring, abs_mul, abs_two]
        linarith
      · have := abs_sub (a * b) (c * d)
        rw [abs_mul, abs_two]
        linarith
  have dia : ∀ {a b c d a' b' c' d' : ℝ}, |a' * a' - a * a| ≤ η * (|a| + |a|) + η * η → |b' * b' - b * b| ≤ η * (|b| + |b|) + η * η →
      |c' * c' - c * c| ≤ η * (|c| + |c|) + η * η → |d' * d' - d * d| ≤ η * (|d| + |d|) + η * η →
      |a| + |b| + |c| + |d| ≤ 2 → a ^ 2 + b ^ 2 + c ^ 2 + d ^ 2 = q.normSq → a' ^ 2 + b' ^ 2 + c' ^ 2 + d' ^ 2 = p.normSq →
      |(1 - 2 / p.normSq * (a' * a' + b' * b')) - (1 - 2 / q.normSq * (a * a + b * b))| ≤ 9 * η := by
    intro a b c d a' b' c' d' k1 k2 k3 k4 k5 k6 k7
    have k8 := mul_le_mul_of_nonneg_left k5 η0
    have e1 : 1 - 2 / p.normSq * (a' * a' + b' * b') = (c' * c' + d' * d' - (a' * a' + b' * b')) / p.normSq := by
      rw [eq_div_iff (by linarith), ← k7]
      have : a' ^ 2 + b' ^ 2 + c' ^ 2 + d' ^ 2 ≠ 0 := by rw [k7]; linarith
      field_simp
      ring
    have e2 : 1 - 2 / q.normSq * (a * a + b * b) = (c * c + d * d - (a * a + b * b)) / q.normSq := by
      rw [eq_div_iff (by linarith), ← k6]
      have : a ^ 2 + b ^ 2 + c ^ 2 + d ^ 2 ≠ 0 := by rw [k6]; linarith
      field_simp
      ring
    rw [e1, e2]
    apply key
    · have b1 := abs_sub (c' * c' - c * c + (d' * d' - d * d)) (a' * a' - a * a + (b' * b' - b * b))
      have b2 := abs_add_le (c' * c' - c * c) (d' * d' - d * d)
      have b3 := abs_add_le (a' * a' - a * a) (b' * b' - b * b)
      rw [show c' * c' + d' * d' - (a' * a' + b' * b') - (c * c + d * d - (a * a + b * b)) =
        c' * c' - c * c + (d' * d' - d * d) - (a' * a' - a * a + (b' * b' - b * b)) by ring]
      linarith
    · rw [hn1] at k6
      have := mul_self_nonneg a
      have := mul_self_nonneg b
      have := mul_self_nonneg c
      have := mul_self_nonneg d
      rw [abs_le]
      constructor <;> linarith [sq a, sq b, sq c, sq d]
  have hNp : ∀ r : Quat, r.normSq = r.w ^ 2 + r.x ^ 2 + r.y ^ 2 + r.z ^ 2 := fun r => by unfold Quat.normSq; ring
  have zw := prod_near hz hw
  have yw := prod_near hy hw
  have xw := prod_near hx hw
  intro i j
  unfold quaternionToMatrix
  fin_cases i <;> fin_cases j <;> simp only [Fin.zero_eta, Fin.mk_one, Fin.reduceFinMk, Matrix.of_apply, Matrix.cons_val]
  · exact dia yy zz ww xx (by linarith) (by rw [hNp]; ring) (by rw [hNp]; ring)
  · exact (off xy zw (by linarith) (by linarith)).2
  · exact (off xz yw (by linarith) (by linarith)).1
  · exact (off xy zw (by linarith) (by linarith)).1
  · exact dia xx zz ww yy (by linarith) (by rw [hNp]; ring) (by rw [hNp]; ring)
  · exact (off yz xw (by linarith) (by linarith)).2
  · exact (off xz yw (by linarith) (by linarith)).2
  · exact (off yz xw (by linarith) (by linarith)).1
  · exact dia xx yy ww zz (by linarith) (by rw [hNp]; ring) (by rw [hNp]; ring)

/-! ## machines given by their rounding -/

theorem sqrt_rel {c x y : ℝ} (h : Rel c x y) (hy : 0 ≤ y) : Rel c (Real.sqrt x) (Real.sqrt y) := by
  obtain ⟨ε, e1, e2⟩ := h
  refine ⟨Real.sqrt (1 + ε) - 1, ?_, ?_⟩
  · refine le_trans ?_ e1
    rcases le_total 0 (1 + ε) with h0 | h0
    · have hs := Real.sqrt_nonneg (1 + ε)
      have hq := Real.sq_sqrt h0
      have e : (Real.sqrt (1 + ε) - 1) * (Real.sqrt (1 + ε) + 1) = ε := by linarith [show (Real.sqrt (1 + ε) - 1) * (Real.sqrt (1 + ε) + 1) = Real.sqrt (1 + ε) ^ 2 - 1 by ring]
      have h2 : |Real.sqrt (1 + ε) - 1| * (Real.sqrt (1 + ε) + 1) = |ε| := by
        rw [← abs_of_nonneg (show 0 ≤ Real.sqrt (1 + ε) + 1 by linarith), ← abs_mul, e]
      have := mul_nonneg (abs_nonneg (Real.sqrt (1 + ε) - 1)) hs
      linarith
    · rw [Real.sqrt_eq_zero'.2 h0]
      rw [abs_of_nonpos (show ε ≤ 0 by linarith)]
      norm_num
      linarith
  · rw [e2, Real.sqrt_mul hy]
    ring

/-- every function is computed exactly and then rounded; the norm sums from left to right -/
noncomputable def TrigMachine.ofRounding (rnd : ℝ → ℝ) (u : ℝ) (hu : 0 ≤ u) (h : ∀ x, |rnd x - x| ≤ u * |x|) (h1 : rnd 1 = 1) :
    TrigMachine where
  toMachine := .ofRounding rnd u hu h h1
  sin_rel x _ := h _
  atan2 y x := rnd (PK.atan2 y x)
  atan2_err y x hy _ := by
    have := h (PK.atan2 y x)
    rwa [abs_of_nonneg (atan2_nonneg hy)] at this
  norm v := rnd (Real.sqrt (rnd (rnd (rnd (v 0 * v 0) + rnd (v 1 * v 1)) + rnd (v 2 * v 2))))
  norm_err v := by
    have rel : ∀ x, Rel u (rnd x) x := fun x => .of_abs hu (h x)
    have s1 := (rel _).trans ((rel (v 0 * v 0)).add_nonneg (rel (v 1 * v 1)) (mul_self_nonneg _) (mul_self_nonneg _))
    have s2 := (rel _).trans (s1.add_nonneg ((rel (v 2 * v 2)).mono (show u ≤ u + u + u * u by nlinarith)) (add_nonneg (mul_self_nonneg _) (mul_self_nonneg _)) (mul_self_nonneg _))
    have s3 := (rel _).trans (sqrt_rel s2 (add_nonneg (add_nonneg (mul_self_nonneg _) (mul_self_nonneg _)) (mul_self_nonneg _)))
    have e : Real.sqrt (v 0 * v 0 + v 1 * v 1 + v 2 * v 2) = norm3 v := rfl
    rw [e] at s3
    have := s3.abs_sub
    rw [abs_of_nonneg (norm3_nonneg v)] at this
    refine this.trans (le_of_eq ?_)
    show _ = ((1 + u) ^ 4 - 1) * norm3 v
    ring

/-- arithmetic with `p` binary digits: 24 for `torch.float32`, 53 for `torch.float64` -/
noncomputable def binaryTrig (p : ℕ) (hp : 1 ≤ p) : TrigMachine :=
  .ofRounding (roundTo p) (2 ^ (-(p : ℤ))) (by positivity) (roundTo_err p) (roundTo_one hp)

theorem binaryTrig_machine (p : ℕ) (hp : 1 ≤ p) : (binaryTrig p hp).toMachine = binary p hp := rfl

end PK
