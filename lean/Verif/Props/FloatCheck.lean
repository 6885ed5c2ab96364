import Verif.Model.FloatCheck
import Verif.Props.FloatRelAngle

/-!
# C148: the warning about invalid rotation matrices
-/

namespace PK
open Spec Matrix

section
variable (m : Machine) {τ : ℝ} (hu : m.u ≤ τ) (h0 : 0 ≤ τ) (h1 : τ ≤ 1e-6)
include hu h0 h1

theorem rnd_within {x : ℝ} (h : 0 ≤ x) : (1 - 1e-6) * x ≤ m.rnd x ∧ m.rnd x ≤ (1 + 1e-6) * x := by
  have h2 := abs_le.1 (m.rnd_err x)
  rw [abs_of_nonneg h] at h2
  have h3 : m.u * x ≤ 1e-6 * x := mul_le_mul_of_nonneg_right (hu.trans h1) h
  norm_num at *
  constructor <;> linarith

theorem rnd_abs_within (x : ℝ) : (1 - 1e-6) * |x| ≤ |m.rnd x| ∧ |m.rnd x| ≤ (1 + 1e-6) * |x| := by
  have h2 := (m.rnd_err x).trans (mul_le_mul_of_nonneg_right (hu.trans h1) (abs_nonneg x))
  have h3 := abs_sub_abs_le_abs_sub (m.rnd x) x
  have h4 := abs_sub_abs_le_abs_sub x (m.rnd x)
  rw [abs_sub_comm] at h4
  norm_num at *
  constructor <;> linarith

/-- the tolerance that `isclose` computes -/
theorem allowed_within {atol b : ℝ} (ha : 0 ≤ atol) :
    (1 - 4e-6) * (atol + 1e-5 * |b|) ≤ m.rnd (m.rnd atol + |m.rnd (m.rnd 1e-5 * b)|) ∧
    m.rnd (m.rnd atol + |m.rnd (m.rnd 1e-5 * b)|) ≤ (1 + 4e-6) * (atol + 1e-5 * |b|) := by
  obtain ⟨a1, a2⟩ := rnd_within m hu h0 h1 ha
  obtain ⟨c1, c2⟩ := rnd_within m hu h0 h1 (x := 1e-5) (by norm_num)
  obtain ⟨d1, d2⟩ := rnd_abs_within m hu h0 h1 (m.rnd 1e-5 * b)
  have cp : 0 ≤ m.rnd 1e-5 := le_trans (by norm_num) c1
  rw [abs_mul, abs_of_nonneg cp] at d1 d2
  have e1 := mul_le_mul_of_nonneg_right c1 (abs_nonneg b)
  have e2 := mul_le_mul_of_nonneg_right c2 (abs_nonneg b)
  have b0 := abs_nonneg b
  generalize |m.rnd (m.rnd 1e-5 * b)| = y at *
  generalize m.rnd 1e-5 * |b| = z at *
  have s0 : 0 ≤ m.rnd atol + y := by norm_num at *; linarith
  obtain ⟨f1, f2⟩ := rnd_within m hu h0 h1 s0
  norm_num at *
  constructor <;> linarith

/-- what `isclose` says about the numbers -/
theorem isclose_sound {atol a b : ℝ} (ha : 0 ≤ atol) (h : iscloseFl m 1e-5 atol a b) : |a - b| ≤ (1 + 6e-6) * (atol + 1e-5 * |b|) := by
  have b0 := abs_nonneg b
  rcases h with h | h
  · rw [h, sub_self, abs_zero]; positivity
  · have h2 := h.trans (allowed_within m hu h0 h1 ha).2
    have h3 := (rnd_abs_within m hu h0 h1 (a - b)).1
    generalize |b| = c at *
    norm_num at *; linarith

theorem isclose_complete {atol a b : ℝ} (ha : 0 ≤ atol) (h : |a - b| ≤ (1 - 6e-6) * (atol + 1e-5 * |b|)) :
    iscloseFl m 1e-5 atol a b := by
  have b0 := abs_nonneg b
  right
  refine ((rnd_abs_within m hu h0 h1 (a - b)).2).trans (le_trans ?_ (allowed_within m hu h0 h1 ha).1)
  generalize |b| = c at *
  norm_num at *; linarith
end

/-- the determinant of a matrix near a rotation -/
theorem det_near {R U : M3} {η : ℝ} (hU : IsRot U) (h : ∀ i j, |R i j - U i j| ≤ η) (hη : η ≤ 1e-3) : |R.det - 1| ≤ 18.1 * η := by
  have η0 := (abs_nonneg _).trans (h 0 0)
  have hd : U.det = 1 := hU.2
  have u := isRot_entry hU
  have ηη : η * η ≤ 1e-3 * η := mul_le_mul_of_nonneg_right hη η0
  have p : ∀ i j k l s t, |R i j * R k l * R s t - U i j * U k l * U s t| ≤ 3.01 * η := fun i j k l s t => by
    have e : R i j * R k l * R s t - U i j * U k l * U s t =
        (R i j - U i j) * (R k l * R s t) + U i j * ((R k l - U k l) * R s t) + U i j * (U k l * (R s t - U s t)) := by ring
    have r : ∀ i j, |R i j| ≤ 1 + η := fun i j => by
      have := abs_add_le (R i j - U i j) (U i j)
      rw [sub_add_cancel] at this
      linarith [h i j, u i j]
    rw [e]
    have a1 : |(R i j - U i j) * (R k l * R s t)| ≤ η * ((1 + η) * (1 + η)) := by
      rw [abs_mul, abs_mul]
      exact mul_le_mul (h i j) (mul_le_mul (r k l) (r s t) (abs_nonneg _) (by linarith)) (by positivity) η0
    have a2 : |U i j * ((R k l - U k l) * R s t)| ≤ 1 * (η * (1 + η)) := by
      rw [abs_mul, abs_mul]
      exact mul_le_mul (u i j) (mul_le_mul (h k l) (r s t) (abs_nonneg _) η0) (by positivity) zero_le_one
    have a3 : |U i j * (U k l * (R s t - U s t))| ≤ 1 * (1 * η) := by
      rw [abs_mul, abs_mul]
      exact mul_le_mul (u i j) (mul_le_mul (u k l) (h s t) (abs_nonneg _) zero_le_one) (by positivity) zero_le_one
    have a4 := (abs_add_le _ _).trans (add_le_add ((abs_add_le _ _).trans (add_le_add a1 a2)) a3)
    refine a4.trans ?_
    have q : η * (η * η) ≤ η * (1e-3 * η) := mul_le_mul_of_nonneg_left ηη η0
    norm_num at *; nlinarith
  rw [← hd, Matrix.det_fin_three, Matrix.det_fin_three]
  have := abs_le.1 (p 0 0 1 1 2 2)
  have := abs_le.1 (p 0 0 1 2 2 1)
  have := abs_le.1 (p 0 1 1 0 2 2)
  have := abs_le.1 (p 0 1 1 2 2 0)
  have := abs_le.1 (p 0 2 1 0 2 1)
  have := abs_le.1 (p 0 2 1 1 2 0)
  rw [abs_le]
  norm_num at *
  constructor <;> linarith

/-- C148: no false alarm for matrices within `η` of rotations -/
theorem C148_no_false_alarm (m : DetMachine) {τ η tol : ℝ} (hu : m.u ≤ τ) (hγ : m.γ ≤ τ) (h0 : 0 ≤ τ) (h1 : τ ≤ 1e-6) (hη : 0 ≤ η)
    (hδ0 : 0 ≤ m.δ) (htol : 7 * η + 4 * τ ≤ tol) (hdet : 19 * η + 1.1 * m.δ ≤ 1e-5) {N : ℕ} {R U : Fin N → M3} (hU : ∀ n, IsRot (U n))
    (hR : ∀ n i j, |R n i j - U n i j| ≤ η) (compiling : Bool) : ¬ rotationWarnsFl m R tol compiling := by
  have η1 : η ≤ 1e-6 := by norm_num at *; linarith
  have t0 : 0 ≤ tol := by linarith
  have ηη : η * η ≤ 1e-6 * η := mul_le_mul_of_nonneg_right η1 hη
  unfold rotationWarnsFl
  rintro ⟨-, hn⟩
  refine hn ⟨fun n i j => isclose_complete m.toMachine hu h0 h1 t0 ?_, fun n => isclose_complete m.toMachine hu h0 h1 (by norm_num) ?_⟩
  · have e : U n * (U n)ᵀ = 1 := (hU n).mul_transpose
    have k := mul3Fl_near m.toMachine (hR n) (B' := (R n)ᵀ) (B := (U n)ᵀ) (fun i j => hR n j i) (isRot_entry (hU n))
      (isRot_entry (hU n).transpose) i j
    rw [e] at k
    refine k.trans ?_
    have γ0 := m.γ_nonneg
    have q : m.γ * ((1 + η) * (1 + η)) ≤ τ * 1.01 := mul_le_mul hγ (by norm_num at *; nlinarith) (by positivity) h0
    have b0 := abs_nonneg ((1 : M3) i j)
    generalize |(1 : M3) i j| = c at b0 ⊢
    norm_num at *; linarith
  · have hB : ∀ i j, |R n i j| ≤ 1 + η := fun i j => by
      have := abs_add_le (R n i j - U n i j) (U n i j)
      rw [sub_add_cancel] at this
      linarith [hR n i j, isRot_entry (hU n) i j]
    have k1 := m.det_err (R n) (1 + η) hB
    have k2 := det_near (hU n) (hR n) (η1.trans (by norm_num))
    have k3 := (abs_sub_le _ _ _).trans (add_le_add k1 k2)
    have c3 : (1 + η) ^ 3 ≤ (1 + 1e-6) ^ 3 := pow_le_pow_left₀ (by linarith) (by linarith) 3
    have k4 : m.δ * (1 + η) ^ 3 ≤ m.δ * 1.01 := mul_le_mul_of_nonneg_left (c3.trans (by norm_num)) hδ0
    rw [abs_one]
    refine k3.trans ?_
    norm_num at *; linarith

/-- C148: if there is no warning, every matrix of the batch is orthogonal up to `1.001 tol + 1.5e-5` in each entry of `R Rᵀ` and has
determinant 1 up to `1.2e-5` -/
theorem C148_silent (m : DetMachine) {τ tol : ℝ} (hu : m.u ≤ τ) (hγ : m.γ ≤ τ) (h0 : 0 ≤ τ) (h1 : τ ≤ 1e-6) (hδ : m.δ ≤ 1e-6)
    (ht0 : 0 ≤ tol) (ht1 : tol ≤ 1e-3) {N : ℕ} {R : Fin N → M3} (h : ¬ rotationWarnsFl m R tol false) (n : Fin N) :
    (∀ i j, |(R n * (R n)ᵀ) i j - (1 : M3) i j| ≤ 1.001 * tol + 1.5e-5) ∧ |(R n).det - 1| ≤ 1.2e-5 := by
  unfold rotationWarnsFl at h
  simp only [true_and, not_not] at h
  obtain ⟨ho, hd⟩ := h
  have γ1 := hγ.trans h1
  have one_le : ∀ i j : Fin 3, |(1 : M3) i j| ≤ 1 := fun i j => by
    by_cases e : i = j <;> simp [Matrix.one_apply, e]
  have hc : ∀ i j, |mul3Fl m.toMachine (R n) (R n)ᵀ i j - (1 : M3) i j| ≤ (1 + 6e-6) * (tol + 1e-5) := fun i j => by
    refine (isclose_sound m.toMachine hu h0 h1 ht0 (ho n i j)).trans ?_
    have := one_le i j
    norm_num at *; linarith
  have hB : ∀ i k, |R n i k| ≤ 1.001 := fun i k => by
    obtain ⟨θ, t1, t2⟩ := m.dot_err (R n i) fun k => (R n)ᵀ k i
    have e : mul3Fl m.toMachine (R n) (R n)ᵀ i i = ∑ k, R n i k * R n i k * (1 + θ k) := t2
    have c := (abs_le.1 (hc i i)).2
    rw [e, Matrix.one_apply_eq] at c
    have p : ∀ l ∈ Finset.univ, 0 ≤ R n i l * R n i l * (1 + θ l) := fun l _ =>
      mul_nonneg (mul_self_nonneg _) (by have := (abs_le.1 ((t1 l).trans γ1)).1; norm_num at *; linarith)
    have q := Finset.single_le_sum p (Finset.mem_univ k)
    have w : R n i k * R n i k * (1 - 1e-6) ≤ R n i k * R n i k * (1 + θ k) :=
      mul_le_mul_of_nonneg_left (by have := (abs_le.1 ((t1 k).trans γ1)).1; linarith) (mul_self_nonneg _)
    apply abs_le_of_sq_le_sq _ (by norm_num)
    rw [sq]
    norm_num at *; linarith
  refine ⟨fun i j => ?_, ?_⟩
  · obtain ⟨θ, t1, t2⟩ := m.dot_err (R n i) fun k => (R n)ᵀ k j
    have e : mul3Fl m.toMachine (R n) (R n)ᵀ i j = ∑ k, R n i k * R n j k * (1 + θ k) := t2
    have e2 : mul3Fl m.toMachine (R n) (R n)ᵀ i j - (R n * (R n)ᵀ) i j = ∑ k, R n i k * R n j k * θ k := by
      rw [e, Matrix.mul_apply, ← Finset.sum_sub_distrib]
      exact Finset.sum_congr rfl fun k _ => by rw [Matrix.transpose_apply]; ring
    have k1 : |mul3Fl m.toMachine (R n) (R n)ᵀ i j - (R n * (R n)ᵀ) i j| ≤ 3.1e-6 := by
      rw [e2]
      refine (Finset.abs_sum_le_sum_abs _ _).trans ?_
      have hk : ∀ k ∈ Finset.univ, |R n i k * R n j k * θ k| ≤ 1.001 * 1.001 * 1e-6 := fun k _ => by
        rw [abs_mul, abs_mul]
        exact mul_le_mul (mul_le_mul (hB i k) (hB j k) (abs_nonneg _) (by norm_num)) ((t1 k).trans γ1) (abs_nonneg _) (by norm_num)
      refine (Finset.sum_le_card_nsmul _ _ _ hk).trans ?_
      simp
      norm_num
    rw [abs_sub_comm] at k1
    refine ((abs_sub_le _ _ _).trans (add_le_add k1 (hc i j))).trans ?_
    norm_num at *; linarith
  · have k1 := isclose_sound m.toMachine hu h0 h1 (by norm_num) (hd n)
    have k2 := m.det_err (R n) 1.001 hB
    rw [abs_sub_comm] at k2
    refine ((abs_sub_le _ _ _).trans (add_le_add k2 k1)).trans ?_
    rw [abs_one]
    norm_num at *; linarith

/-- C148: a batch with a matrix that reverses orientation, or collapses space, always causes the warning -/
theorem C148_reflection_warns (m : DetMachine) {τ tol : ℝ} (hu : m.u ≤ τ) (hγ : m.γ ≤ τ) (h0 : 0 ≤ τ) (h1 : τ ≤ 1e-6) (hδ : m.δ ≤ 1e-6)
    (ht0 : 0 ≤ tol) (ht1 : tol ≤ 1e-3) {N : ℕ} {R : Fin N → M3} (n : Fin N) (hn : (R n).det ≤ 0) : rotationWarnsFl m R tol false := by
  by_contra h
  have := (abs_le.1 (C148_silent m hu hγ h0 h1 hδ ht0 ht1 h n).2).1
  norm_num at *; linarith

/-- C148: so does a rotation scaled by a factor that is off by 0.00003 or more, at the tolerance 1e-5 of `Rotate` -/
theorem C148_scaled_warns (m : DetMachine) {τ : ℝ} (hu : m.u ≤ τ) (hγ : m.γ ≤ τ) (h0 : 0 ≤ τ) (h1 : τ ≤ 1e-6) (hδ : m.δ ≤ 1e-6)
    {N : ℕ} {R : Fin N → M3} (n : Fin N) {s : ℝ} {U : M3} (hU : IsRot U) (hn : R n = s • U) (hs : 3e-5 ≤ |s - 1|) :
    rotationWarnsFl m R 1e-5 false := by
  by_contra h
  obtain ⟨a, b⟩ := C148_silent m hu hγ h0 h1 hδ (by norm_num) (by norm_num) h n
  have a0 := a 0 0
  have e : U * Uᵀ = 1 := hU.mul_transpose
  have hd : U.det = 1 := hU.2
  rw [hn, Matrix.transpose_smul, Matrix.smul_mul, Matrix.mul_smul, e] at a0
  rw [hn, Matrix.det_smul, hd] at b
  simp only [Matrix.smul_apply, Matrix.one_apply_eq, smul_eq_mul, mul_one, Fintype.card_fin] at a0 b
  have a1 := abs_le.1 a0
  have b1 := abs_le.1 b
  have hs0 : 0 < s := by
    by_contra hneg
    have : s ^ 3 ≤ 0 := by
      have := mul_nonneg (neg_nonneg.2 (not_lt.1 hneg)) (sq_nonneg s)
      nlinarith
    norm_num at *; linarith
  have k : |s - 1| * (s + 1) = |s * s - 1| := by
    rw [← abs_of_pos (show 0 < s + 1 by linarith), ← abs_mul]
    congr 1
    ring
  have k2 : |s - 1| * 1 ≤ |s - 1| * (s + 1) := mul_le_mul_of_nonneg_left (by linarith) (abs_nonneg _)
  rw [k] at k2
  norm_num at *; linarith

/-- C148: nothing is checked while compiling -/
theorem C148_compiling_silent (m : DetMachine) {N : ℕ} (R : Fin N → M3) (tol : ℝ) : ¬ rotationWarnsFl m R tol true := by
  unfold rotationWarnsFl; simp

/-- the determinant of a matrix with entries up to `B` -/
theorem det_le_six {A : M3} {B : ℝ} (h : ∀ i j, |A i j| ≤ B) : |A.det| ≤ 6 * B ^ 3 := by
  have B0 := (abs_nonneg _).trans (h 0 0)
  have p : ∀ i j k l s t, |A i j * A k l * A s t| ≤ B ^ 3 := fun i j k l s t => by
    rw [abs_mul, abs_mul, show B ^ 3 = B * B * B by ring]
    exact mul_le_mul (mul_le_mul (h i j) (h k l) (abs_nonneg _) B0) (h s t) (abs_nonneg _) (by positivity)
  rw [Matrix.det_fin_three]
  have := abs_le.1 (p 0 0 1 1 2 2)
  have := abs_le.1 (p 0 0 1 2 2 1)
  have := abs_le.1 (p 0 1 1 0 2 2)
  have := abs_le.1 (p 0 1 1 2 2 0)
  have := abs_le.1 (p 0 2 1 0 2 1)
  have := abs_le.1 (p 0 2 1 1 2 0)
  rw [abs_le]
  constructor <;> linarith

/-- a binary format with `q` bits and a correctly rounded determinant -/
noncomputable def binaryDet (q : ℕ) (hq : 10 ≤ q) : DetMachine where
  toMachine := (binaryLog q (by omega)).toMachine
  det A := (binaryLog q (by omega)).rnd A.det
  δ := 6 * (1 / 2 ^ q)
  det_err A B h := by
    refine ((binaryLog q (by omega)).rnd_err A.det).trans ?_
    rw [(binaryLog_u q (by omega)).1, mul_assoc, mul_left_comm]
    exact mul_le_mul_of_nonneg_left (det_le_six h) (by positivity)

/-- C148 in `float32` with a correctly rounded determinant and the tolerance 1e-5 of `Rotate`: matrices within 4 units in the last place
of rotations never cause the warning; a point reflection does, and so does the identity scaled by 1.0001 -/
theorem C148_float32 :
    (∀ (N : ℕ) (R U : Fin N → M3), (∀ n, IsRot (U n)) → (∀ n i j, |R n i j - U n i j| ≤ 4 / 2 ^ 24) → ∀ c,
      ¬ rotationWarnsFl (binaryDet 24 (by norm_num)) R 1e-5 c) ∧
    rotationWarnsFl (binaryDet 24 (by norm_num)) (fun _ : Fin 1 => -1) 1e-5 false ∧
    rotationWarnsFl (binaryDet 24 (by norm_num)) (fun _ : Fin 1 => (1.0001 : ℝ) • (1 : M3)) 1e-5 false := by
  obtain ⟨hU, hK, hG⟩ := binaryLog_u 24 (by norm_num)
  have u : (binaryDet 24 (by norm_num)).u ≤ 5 * (1 / 2 ^ 24) := by
    change (binaryLog 24 (by norm_num)).u ≤ _; rw [hU]; norm_num
  have g : (binaryDet 24 (by norm_num)).γ ≤ 5 * (1 / 2 ^ 24) := hG
  have d : (binaryDet 24 (by norm_num)).δ = 6 * (1 / 2 ^ 24) := rfl
  refine ⟨fun N R U hU' hR c => C148_no_false_alarm _ u g (by norm_num) (by norm_num) (by norm_num) (by rw [d]; norm_num) (by norm_num)
    (by rw [d]; norm_num) hU' hR c, ?_, ?_⟩
  · refine C148_reflection_warns _ u g (by norm_num) (by norm_num) (by rw [d]; norm_num) (by norm_num) (by norm_num) 0 ?_
    rw [Matrix.det_neg]; simp; norm_num
  · exact C148_scaled_warns _ u g (by norm_num) (by norm_num) (by rw [d]; norm_num) 0 isRot_one rfl (by norm_num)

end PK
