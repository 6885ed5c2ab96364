import Verif.Model.FloatRot
import Verif.Lemmas.Round
import Verif.Lemmas.MatQuat

/-!
# Rounding errors of quaternions
-/

namespace PK
open Spec Matrix

/-- component of a quaternion -/
def Quat.get (q : Quat) : Fin 4 → ℝ := ![q.w, q.x, q.y, q.z]

theorem quat_abs_le {q : Quat} (h : IsUnitQ q) (i : Fin 4) : |q.get i| ≤ 1 := by
  rw [← sq_le_one_iff_abs_le_one]
  unfold IsUnitQ at h
  have := sq_nonneg q.w; have := sq_nonneg q.x; have := sq_nonneg q.y; have := sq_nonneg q.z
  fin_cases i
  · show q.w ^ 2 ≤ 1; linarith
  · show q.x ^ 2 ≤ 1; linarith
  · show q.y ^ 2 ≤ 1; linarith
  · show q.z ^ 2 ≤ 1; linarith

theorem exists_big {q : Quat} (h : IsUnitQ q) : ∃ c, 1 ≤ 4 * q.get c ^ 2 := by
  by_contra hn
  push Not at hn
  have h0 := hn 0; have h1 := hn 1; have h2 := hn 2; have h3 := hn 3
  simp only [Quat.get, Matrix.cons_val] at h0 h1 h2 h3
  unfold IsUnitQ at h
  linarith

/-- the division that ends `matrix_to_quaternion` -/
theorem quat_div_near {s t p v d r E E2 τ : ℝ} (h0 : 0 ≤ τ) (h1 : τ ≤ 1 / 100) (hs : 0.9 ≤ s) (ht : 0 ≤ t) (hp : |p| ≤ 1)
    (hE : |s ^ 2 - t ^ 2| ≤ E) (hv : |v - 2 * t * p| ≤ E2) (hd : |d - 2 * s| ≤ τ * (2 * s)) (hr : |r - v / d| ≤ τ * |v / d|) :
    |r - p| ≤ (1 + τ) * ((E2 + 2.23 * E) / 1.78 + 1.02 * τ) + τ := by
  have hE0 := (abs_nonneg _).trans hE
  have hE20 := (abs_nonneg _).trans hv
  have hst : |s - t| ≤ E / 0.9 := by
    rw [le_div_iff₀ (by norm_num)]
    have e : |s - t| * (s + t) = |s ^ 2 - t ^ 2| := by
      rw [show s ^ 2 - t ^ 2 = (s - t) * (s + t) by ring, abs_mul, abs_of_nonneg (show 0 ≤ s + t by linarith)]
    have := abs_nonneg (s - t)
    nlinarith
  have hd1 := (abs_le.1 hd).1
  have hd2 : 1.98 * s ≤ d := by nlinarith
  have hdp : 0 < d := by linarith
  have hvd : |v - d * p| ≤ E2 + 2.23 * E + τ * (2 * s) := by
    have e : v - d * p = (v - 2 * t * p) - 2 * (s - t) * p - (d - 2 * s) * p := by ring
    have a1 : |2 * (s - t) * p| ≤ 2 * (E / 0.9) := by
      rw [abs_mul, abs_mul, abs_two]
      have := mul_le_mul hst hp (abs_nonneg p) (by positivity)
      linarith
    have a2 : |(d - 2 * s) * p| ≤ τ * (2 * s) := by
      rw [abs_mul]
      have := mul_le_mul hd hp (abs_nonneg p) (by positivity)
      linarith
    rw [e]
    have b1 := abs_sub (v - 2 * t * p - 2 * (s - t) * p) ((d - 2 * s) * p)
    have b2 := abs_sub (v - 2 * t * p) (2 * (s - t) * p)
    have : 2 * (E / 0.9) ≤ 2.23 * E := by
      rw [show 2 * (E / 0.9) = (2 / 0.9) * E by ring]
      exact mul_le_mul_of_nonneg_right (by norm_num) hE0
    linarith
  have hq : |v / d - p| ≤ (E2 + 2.23 * E) / 1.78 + 1.02 * τ := by
    have e : v / d - p = (v - d * p) / d := by field_simp
    rw [e, abs_div, abs_of_pos hdp, div_le_iff₀ hdp]
    refine hvd.trans ?_
    have c1 : E2 + 2.23 * E ≤ (E2 + 2.23 * E) / 1.78 * d := by
      rw [div_mul_eq_mul_div, le_div_iff₀ (by norm_num)]
      refine mul_le_mul_of_nonneg_left (by linarith) (by positivity)
    have c2 : τ * (2 * s) ≤ 1.02 * τ * d := by nlinarith
    linarith
  have hvd2 : |v / d| ≤ 1 + ((E2 + 2.23 * E) / 1.78 + 1.02 * τ) := by
    have := abs_add_le (v / d - p) p
    rw [sub_add_cancel] at this
    linarith
  have := abs_add_le (r - v / d) (v / d - p)
  rw [sub_add_sub_cancel] at this
  nlinarith

/-- numbers that `matrix_to_quaternion` divides, for an exact rotation matrix -/
theorem rot_entries {q : Quat} (h : IsUnitQ q) : ∀ R : M3, quaternionToMatrix q = R →
    R 0 0 = 1 - 2 * (q.y * q.y + q.z * q.z) ∧ R 0 1 = 2 * (q.x * q.y - q.z * q.w) ∧ R 0 2 = 2 * (q.x * q.z + q.y * q.w) ∧
    R 1 0 = 2 * (q.x * q.y + q.z * q.w) ∧ R 1 1 = 1 - 2 * (q.x * q.x + q.z * q.z) ∧ R 1 2 = 2 * (q.y * q.z - q.x * q.w) ∧
    R 2 0 = 2 * (q.x * q.z - q.y * q.w) ∧ R 2 1 = 2 * (q.y * q.z + q.x * q.w) ∧ R 2 2 = 1 - 2 * (q.x * q.x + q.y * q.y) := by
  rintro R rfl
  have hn : q.normSq = 1 := by unfold IsUnitQ at h; unfold Quat.normSq; linarith
  simp only [quaternionToMatrix, hn, Matrix.of_apply, Matrix.cons_val]
  norm_num

section
variable (m : Machine) {τ e : ℝ} (hu : m.u ≤ τ) (h0 : 0 ≤ τ) (h1 : τ ≤ 1 / 100) (he : e ≤ 1 / 50)
include hu h0 h1 he

theorem sum3_near {a b c a' b' c' : ℝ} (ha : |a' - a| ≤ e) (hb : |b' - b| ≤ e) (hc : |c' - c| ≤ e) (ha1 : |a| ≤ 1)
    (hb1 : |b| ≤ 1) (hs : |1 + a + b + c| ≤ 4) :
    |m.rnd (m.rnd (m.rnd (1 + a') + b') + c') - (1 + a + b + c)| ≤ 3 * e + 9.5 * τ := by
  have he0 := (abs_nonneg _).trans ha
  have s1 : |1 + a| ≤ 2 := (abs_add_le _ _).trans (by rw [abs_one]; linarith)
  have s2 : |1 + a + b| ≤ 3 := (abs_add_le _ _).trans (by linarith)
  have n1 := rnd_near m hu (show |1 + a' - (1 + a)| ≤ e by rwa [add_sub_add_left_eq_sub]) s1
  have n2 := rnd_near m hu (add_near n1 hb) s2
  have n3 := rnd_near m hu (add_near n2 hc) hs
  refine n3.trans ?_
  nlinarith [mul_nonneg h0 he0, mul_nonneg h0 h0, mul_nonneg h0 (mul_nonneg h0 h0), mul_nonneg h0 (mul_nonneg h0 he0),
    mul_nonneg (mul_nonneg h0 h0) (mul_nonneg h0 he0)]

theorem diagFl_near {q : Quat} (hq : IsUnitQ q) {R M : M3} (hR : quaternionToMatrix q = R)
    (hM : ∀ i j, |M i j - R i j| ≤ e) (c : Fin 4) : |diagFl m M c - 4 * q.get c ^ 2| ≤ 3 * e + 9.5 * τ := by
  obtain ⟨r00, -, -, -, r11, -, -, -, r22⟩ := rot_entries hq R hR
  have hb : ∀ c, |4 * q.get c ^ 2| ≤ 4 := fun c => by
    have := (sq_le_one_iff_abs_le_one _).2 (quat_abs_le hq c)
    rw [abs_of_nonneg (by positivity)]; linarith
  have neg : ∀ i j, |-M i j - -R i j| ≤ e := fun i j => by
    rw [← neg_sub', abs_neg]; exact hM i j
  unfold IsUnitQ at hq
  have p0 := sq_nonneg q.w; have p1 := sq_nonneg q.x; have p2 := sq_nonneg q.y; have p3 := sq_nonneg q.z
  have a0 : |R 0 0| ≤ 1 := by rw [r00, abs_le]; constructor <;> nlinarith
  have a1 : |R 1 1| ≤ 1 := by rw [r11, abs_le]; constructor <;> nlinarith
  have a2 : |R 2 2| ≤ 1 := by rw [r22, abs_le]; constructor <;> nlinarith
  have hc := hb c
  fin_cases c
  · have ee : 4 * q.get 0 ^ 2 = 1 + R 0 0 + R 1 1 + R 2 2 := by
      rw [r00, r11, r22]; show 4 * q.w ^ 2 = _; linear_combination 4 * hq
    show |m.rnd (m.rnd (m.rnd (1 + M 0 0) + M 1 1) + M 2 2) - 4 * q.get 0 ^ 2| ≤ _
    rw [ee]
    refine sum3_near m hu h0 h1 he (hM 0 0) (hM 1 1) (hM 2 2) a0 a1 ?_
    rw [← ee]; exact hc
  · have ee : 4 * q.get 1 ^ 2 = 1 + R 0 0 + -R 1 1 + -R 2 2 := by
      rw [r00, r11, r22]; show 4 * q.x ^ 2 = _; ring
    show |m.rnd (m.rnd (m.rnd (1 + M 0 0) - M 1 1) - M 2 2) - 4 * q.get 1 ^ 2| ≤ _
    rw [ee, sub_eq_add_neg _ (M 1 1), sub_eq_add_neg _ (M 2 2)]
    refine sum3_near m hu h0 h1 he (hM 0 0) (neg 1 1) (neg 2 2) a0 (by rwa [abs_neg]) ?_
    rw [← ee]; exact hc
  · have ee : 4 * q.get 2 ^ 2 = 1 + -R 0 0 + R 1 1 + -R 2 2 := by
      rw [r00, r11, r22]; show 4 * q.y ^ 2 = _; ring
    show |m.rnd (m.rnd (m.rnd (1 - M 0 0) + M 1 1) - M 2 2) - 4 * q.get 2 ^ 2| ≤ _
    rw [ee, sub_eq_add_neg _ (M 0 0), sub_eq_add_neg _ (M 2 2)]
    refine sum3_near m hu h0 h1 he (neg 0 0) (hM 1 1) (neg 2 2) (by rwa [abs_neg]) a1 ?_
    rw [← ee]; exact hc
  · have ee : 4 * q.get 3 ^ 2 = 1 + -R 0 0 + -R 1 1 + R 2 2 := by
      rw [r00, r11, r22]; show 4 * q.z ^ 2 = _; ring
    show |m.rnd (m.rnd (m.rnd (1 - M 0 0) - M 1 1) + M 2 2) - 4 * q.get 3 ^ 2| ≤ _
    rw [ee, sub_eq_add_neg _ (M 0 0), sub_eq_add_neg _ (M 1 1)]
    refine sum3_near m hu h0 h1 he (neg 0 0) (neg 1 1) (hM 2 2) (by rwa [abs_neg]) (by rwa [abs_neg]) ?_
    rw [← ee]; exact hc

omit he hu h0 h1 in
/-- the numerators for the choice `c`, with `s` the chosen square root -/
noncomputable def numFl (m : Machine) (M : M3) (c : Fin 4) (s : ℝ) : Quat :=
  (![⟨m.rnd (s ^ 2), m.rnd (M 2 1 - M 1 2), m.rnd (M 0 2 - M 2 0), m.rnd (M 1 0 - M 0 1)⟩,
      ⟨m.rnd (M 2 1 - M 1 2), m.rnd (s ^ 2), m.rnd (M 1 0 + M 0 1), m.rnd (M 0 2 + M 2 0)⟩,
      ⟨m.rnd (M 0 2 - M 2 0), m.rnd (M 1 0 + M 0 1), m.rnd (s ^ 2), m.rnd (M 1 2 + M 2 1)⟩,
      ⟨m.rnd (M 1 0 - M 0 1), m.rnd (M 2 0 + M 0 2), m.rnd (M 2 1 + M 1 2), m.rnd (s ^ 2)⟩] : Fin 4 → Quat) c

omit he hu h0 h1 in
theorem matrixToQuaternionFl_get (M : M3) (i : Fin 4) :
    let qa : Fin 4 → ℝ := fun c => m.rnd (Real.sqrt (max (diagFl m M c) 0))
    (matrixToQuaternionFl m M).get i =
      m.rnd ((numFl m M (argmax4 qa) (qa (argmax4 qa))).get i / m.rnd (2 * max (qa (argmax4 qa)) (m.rnd 0.1))) := by
  intro qa
  show (Quat.mk _ _ _ _).get i = _
  generalize hc : argmax4 qa = c
  fin_cases c <;> fin_cases i <;> rfl

theorem numFl_near {q : Quat} (hq : IsUnitQ q) {R M : M3} (hR : quaternionToMatrix q = R)
    (hM : ∀ i j, |M i j - R i j| ≤ e) (c : Fin 4) {s : ℝ} (hs : |s ^ 2 - 4 * q.get c ^ 2| ≤ 3 * e + 18 * τ) (i : Fin 4) :
    |(numFl m M c s).get i - 4 * q.get c * q.get i| ≤ 3 * e + 23 * τ := by
  obtain ⟨-, r01, r02, r10, -, r12, r20, r21, -⟩ := rot_entries hq R hR
  have he0 := (abs_nonneg _).trans (hM 0 0)
  have hqa := quat_abs_le hq
  have hb : ∀ c, |4 * q.get c ^ 2| ≤ 4 := fun c => by
    have := (sq_le_one_iff_abs_le_one _).2 (hqa c)
    rw [abs_of_nonneg (by positivity)]; linarith
  have hdiag : |m.rnd (s ^ 2) - 4 * q.get c ^ 2| ≤ 3 * e + 23 * τ := by
    refine (rnd_near m hu hs (hb c)).trans ?_
    nlinarith
  have hsub : ∀ i j k l, ∀ x : ℝ, x = R i j - R k l → |x| ≤ 4 → |m.rnd (M i j - M k l) - x| ≤ 3 * e + 23 * τ := by
    rintro i j k l x rfl hx
    refine (rnd_near m hu (sub_near (hM i j) (hM k l)) hx).trans ?_
    nlinarith
  have hadd : ∀ i j k l, ∀ x : ℝ, x = R i j + R k l → |x| ≤ 4 → |m.rnd (M i j + M k l) - x| ≤ 3 * e + 23 * τ := by
    rintro i j k l x rfl hx
    refine (rnd_near m hu (add_near (hM i j) (hM k l)) hx).trans ?_
    nlinarith
  have hx : |4 * q.get c * q.get i| ≤ 4 := by
    rw [abs_mul, abs_mul]
    have := mul_le_mul (hqa c) (hqa i) (abs_nonneg _) (by norm_num)
    norm_num; linarith
  have hd : ∀ {y : ℝ}, y = 4 * q.get c ^ 2 → |m.rnd (s ^ 2) - y| ≤ 3 * e + 23 * τ := by
    rintro y rfl; exact hdiag
  fin_cases c <;> fin_cases i
  · exact hd (by simp only [Quat.get]; ring)
  · exact hsub 2 1 1 2 _ (by rw [r21, r12]; simp [Quat.get]; ring) hx
  · exact hsub 0 2 2 0 _ (by rw [r02, r20]; simp [Quat.get]; ring) hx
  · exact hsub 1 0 0 1 _ (by rw [r10, r01]; simp [Quat.get]; ring) hx
  · exact hsub 2 1 1 2 _ (by rw [r21, r12]; simp [Quat.get]; ring) hx
  · exact hd (by simp only [Quat.get]; ring)
  · exact hadd 1 0 0 1 _ (by rw [r10, r01]; simp [Quat.get]; ring) hx
  · exact hadd 0 2 2 0 _ (by rw [r02, r20]; simp [Quat.get]; ring) hx
  · exact hsub 0 2 2 0 _ (by rw [r02, r20]; simp [Quat.get]; ring) hx
  · exact hadd 1 0 0 1 _ (by rw [r10, r01]; simp [Quat.get]; ring) hx
  · exact hd (by simp only [Quat.get]; ring)
  · exact hadd 1 2 2 1 _ (by rw [r12, r21]; simp [Quat.get]; ring) hx
  · exact hsub 1 0 0 1 _ (by rw [r10, r01]; simp [Quat.get]; ring) hx
  · exact hadd 2 0 0 2 _ (by rw [r20, r02]; simp [Quat.get]; ring) hx
  · exact hadd 2 1 1 2 _ (by rw [r21, r12]; simp [Quat.get]; ring) hx
  · exact hd (by simp only [Quat.get]; ring)

/-- the result is within `7 e + 50 τ` of one of the two exact quaternions -/
theorem matrixToQuaternionFl_near {q : Quat} (hq : IsUnitQ q) {R M : M3} (hR : quaternionToMatrix q = R)
    (hM : ∀ i j, |M i j - R i j| ≤ e) :
    ∃ σ : ℝ, (σ = 1 ∨ σ = -1) ∧ ∀ i, |(matrixToQuaternionFl m M).get i - σ * q.get i| ≤ 7 * e + 50 * τ := by
  have he0 := (abs_nonneg _).trans (hM 0 0)
  have hD := diagFl_near m hu h0 h1 he hq hR hM
  set qa : Fin 4 → ℝ := fun c => m.rnd (Real.sqrt (max (diagFl m M c) 0)) with hqa
  have hmax := argmax4_spec qa
  set c := argmax4 qa with hc
  have hrel : ∀ x, |m.rnd x - x| ≤ τ * |x| := fun x => (m.rnd_err x).trans (mul_le_mul_of_nonneg_right hu (abs_nonneg x))
  have hs : 0.9 ≤ qa c := by
    obtain ⟨b, hb⟩ := exists_big hq
    refine le_trans ?_ (hmax b)
    have h2 := (abs_le.1 (hD b)).1
    have h3 : 0.84 ≤ diagFl m M b := by linarith
    have h4 : 0.915 ≤ Real.sqrt (max (diagFl m M b) 0) := by
      rw [max_eq_left (by linarith)]
      exact Real.le_sqrt_of_sq_le (by norm_num; linarith)
    have h5 := (abs_le.1 (hrel (Real.sqrt (max (diagFl m M b) 0)))).1
    rw [abs_of_nonneg (Real.sqrt_nonneg _)] at h5
    show 0.9 ≤ m.rnd _
    nlinarith
  have hpos : 0 < diagFl m M c := by
    by_contra hn
    have : qa c = 0 := by
      have h5 := hrel (Real.sqrt (max (diagFl m M c) 0))
      rw [max_eq_right (not_lt.1 hn), Real.sqrt_zero, abs_zero, mul_zero] at h5
      have : m.rnd 0 - 0 = 0 := abs_eq_zero.1 (le_antisymm h5 (abs_nonneg _))
      show m.rnd _ = 0
      rw [max_eq_right (not_lt.1 hn), Real.sqrt_zero]; linarith
    rw [this] at hs; norm_num at hs
  have hb4 : 4 * q.get c ^ 2 ≤ 4 := by
    have := (sq_le_one_iff_abs_le_one _).2 (quat_abs_le hq c); linarith
  have hDc := hD c
  have hE : |qa c ^ 2 - 4 * q.get c ^ 2| ≤ 3 * e + 18 * τ := by
    have h5 := hrel (Real.sqrt (max (diagFl m M c) 0))
    rw [max_eq_left hpos.le, abs_of_nonneg (Real.sqrt_nonneg _)] at h5
    have h6 := Real.sq_sqrt hpos.le
    have h7 : qa c = m.rnd (Real.sqrt (diagFl m M c)) := by
      show m.rnd _ = _
      rw [max_eq_left hpos.le]
    rw [← h7] at h5
    set z := Real.sqrt (diagFl m M c) with hz
    have hz0 : 0 ≤ z := Real.sqrt_nonneg _
    have h8 : |qa c ^ 2 - z ^ 2| ≤ (2 * τ + τ * τ) * z ^ 2 := by
      have : qa c ^ 2 - z ^ 2 = (qa c - z) * ((qa c - z) + 2 * z) := by ring
      rw [this, abs_mul]
      have h9 : |(qa c - z) + 2 * z| ≤ τ * z + 2 * z :=
        (abs_add_le _ _).trans (add_le_add h5 (by rw [abs_of_nonneg (by positivity)]))
      refine (mul_le_mul h5 h9 (abs_nonneg _) (by positivity)).trans (le_of_eq (by ring))
    rw [h6] at h8
    have h9 := abs_add_le (qa c ^ 2 - diagFl m M c) (diagFl m M c - 4 * q.get c ^ 2)
    rw [sub_add_sub_cancel] at h9
    have h10 : diagFl m M c ≤ 4.16 := by have := (abs_le.1 hDc).2; linarith
    have h11 : (2 * τ + τ * τ) * diagFl m M c ≤ 8.5 * τ := by
      have : 2 * τ + τ * τ ≤ 2.01 * τ := by nlinarith
      nlinarith
    linarith
  have hnum := numFl_near m hu h0 h1 he hq hR hM c hE
  -- the sign
  obtain ⟨σ, hσ, ht⟩ : ∃ σ : ℝ, (σ = 1 ∨ σ = -1) ∧ 0 ≤ σ * q.get c := by
    rcases le_total 0 (q.get c) with h | h
    · exact ⟨1, Or.inl rfl, by linarith⟩
    · exact ⟨-1, Or.inr rfl, by linarith⟩
  have hσ2 : σ * σ = 1 := by rcases hσ with rfl | rfl <;> norm_num
  have hσa : |σ| = 1 := by rcases hσ with rfl | rfl <;> norm_num
  refine ⟨σ, hσ, fun i => ?_⟩
  have hfl : max (qa c) (m.rnd 0.1) = qa c := by
    refine max_eq_left ?_
    have := (abs_le.1 (hrel 0.1)).2
    rw [abs_of_nonneg (by norm_num)] at this
    norm_num at this hs ⊢
    nlinarith
  have hget : (matrixToQuaternionFl m M).get i = m.rnd ((numFl m M c (qa c)).get i / m.rnd (2 * qa c)) := by
    have := matrixToQuaternionFl_get m M i
    change _ = m.rnd ((numFl m M c (qa c)).get i / m.rnd (2 * max (qa c) (m.rnd 0.1))) at this
    rwa [hfl] at this
  rw [hget]
  have key := quat_div_near (s := qa c) (t := 2 * (σ * q.get c)) (p := σ * q.get i) (v := (numFl m M c (qa c)).get i)
    (d := m.rnd (2 * qa c)) (r := m.rnd ((numFl m M c (qa c)).get i / m.rnd (2 * qa c))) (E := 3 * e + 18 * τ)
    (E2 := 3 * e + 23 * τ) h0 h1 hs (by linarith)
    (by rw [abs_mul, hσa, one_mul]; exact quat_abs_le hq i)
    (by
      have : (2 * (σ * q.get c)) ^ 2 = 4 * q.get c ^ 2 := by linear_combination 4 * q.get c ^ 2 * hσ2
      rw [this]; exact hE)
    (by
      have : 2 * (2 * (σ * q.get c)) * (σ * q.get i) = 4 * q.get c * q.get i := by
        linear_combination 4 * q.get c * q.get i * hσ2
      rw [this]; exact hnum i)
    (by
      have := hrel (2 * qa c)
      rwa [abs_of_nonneg (by linarith : (0 : ℝ) ≤ 2 * qa c)] at this)
    (hrel _)
  refine key.trans ?_
  have h12 : (3 * e + 23 * τ + 2.23 * (3 * e + 18 * τ)) / 1.78 + 1.02 * τ ≤ 5.5 * e + 36.6 * τ := by
    rw [← le_sub_iff_add_le, div_le_iff₀ (by norm_num)]
    nlinarith
  have : (1 + τ) * ((3 * e + 23 * τ + 2.23 * (3 * e + 18 * τ)) / 1.78 + 1.02 * τ) ≤ 1.01 * (5.5 * e + 36.6 * τ) :=
    mul_le_mul (by linarith) h12 (by positivity) (by norm_num)
  linarith

end
end PK
