import Verif.Model.Ieee
import Verif.Lemmas.Round
import Verif.Lemmas.FkFl

/-!
# IEEE formats are IEEE arithmetics
-/

namespace PK
open Spec Matrix

/-! ## Infinities and NaN stay -/

theorem add_strict {a b : Fl} (h : a.isFinite = false ∨ b.isFinite = false) : (Fl.add a b).isFinite = false := by
  cases a <;> cases b <;> simp_all [Fl.add, Fl.isFinite]

theorem neg_strict {a : Fl} (h : a.isFinite = false) : (Fl.neg a).isFinite = false := by
  cases a <;> simp_all [Fl.neg, Fl.isFinite]

theorem sub_strict {a b : Fl} (h : a.isFinite = false ∨ b.isFinite = false) : (Fl.sub a b).isFinite = false :=
  add_strict (h.imp id neg_strict)

theorem infTimes_strict (x : ℝ) : (AD.infTimes x).isFinite = false := by
  unfold AD.infTimes
  split_ifs <;> rfl

theorem mulFl_strict {a b : Fl} (h : a.isFinite = false ∨ b.isFinite = false) : (AD.mul a b).isFinite = false := by
  cases a <;> cases b <;> simp_all [AD.mul, Fl.isFinite] <;>
    first | exact infTimes_strict _ | (rename_i x; have := infTimes_strict x; have := infTimes_strict (-x); simp_all [Fl.isFinite])

theorem Ieee.res_strict (m : Ieee) {a : Fl} (h : a.isFinite = false) : (m.res a).isFinite = false := by
  cases a <;> simp_all [Ieee.res, Fl.isFinite]

theorem ieeeRes_strict {p : ℕ} {e E : ℤ} {a : Fl} (h : a.isFinite = false) : (ieeeRes p e E a).isFinite = false := by
  cases a <;> simp_all [ieeeRes, Fl.isFinite]

/-! ## Rounding -/

theorem roundEven_half (x : ℝ) : |(Fl.roundEven x : ℝ) - x| ≤ 1 / 2 := by
  have h1 := Int.floor_le x
  have h2 := Int.lt_floor_add_one x
  unfold Fl.roundEven
  dsimp only
  rw [abs_le]
  split_ifs <;> push_cast <;> constructor <;> linarith

theorem roundEven_int (n : ℤ) : Fl.roundEven (n : ℝ) = n := by
  simp [Fl.roundEven]

theorem ieeeNear_zero (p : ℕ) (e : ℤ) : ieeeNear p e 0 = 0 := by
  have := roundEven_int 0
  simp only [Int.cast_zero] at this
  simp [ieeeNear, this]

theorem ieeeNear_err (p : ℕ) (e : ℤ) (x : ℝ) :
    |ieeeNear p e x - x| ≤ (2 : ℝ) ^ (-(p : ℤ)) * |x| + 2 ^ (e - p) := by
  rcases eq_or_ne x 0 with rfl | hx
  · rw [ieeeNear_zero]; simp only [sub_zero, abs_zero, mul_zero, zero_add]; positivity
  set L := Int.log 2 |x| with hL
  have hle : (2 : ℝ) ^ L ≤ |x| := by
    have := Int.zpow_log_le_self (b := 2) (R := ℝ) (by norm_num) (abs_pos.2 hx)
    simpa using this
  have gen : ∀ s : ℤ, |(Fl.roundEven (x * 2 ^ (-s)) : ℝ) * 2 ^ s - x| ≤ 2 ^ (s - 1) := by
    intro s
    have h2 : (0 : ℝ) < 2 ^ s := by positivity
    have e1 : x = x * 2 ^ (-s) * 2 ^ s := by
      rw [mul_assoc, ← zpow_add₀ (by norm_num)]; simp
    have e2 : (Fl.roundEven (x * 2 ^ (-s)) : ℝ) * 2 ^ s - x =
        ((Fl.roundEven (x * 2 ^ (-s)) : ℝ) - x * 2 ^ (-s)) * 2 ^ s := by
      rw [sub_mul, ← e1]
    rw [e2, abs_mul, abs_of_pos h2, zpow_sub_one₀ (by norm_num)]
    have := mul_le_mul_of_nonneg_right (roundEven_half (x * 2 ^ (-s))) h2.le
    linarith
  have hg := gen (max L e - ((p : ℤ) - 1))
  have h3 : |ieeeNear p e x - x| ≤ 2 ^ (max L e - ((p : ℤ) - 1) - 1) := hg
  refine h3.trans ?_
  have hp1 : (0 : ℝ) ≤ 2 ^ (-(p : ℤ)) := by positivity
  rcases le_total e L with h | h
  · rw [max_eq_left h, show L - ((p : ℤ) - 1) - 1 = -(p : ℤ) + L by ring, zpow_add₀ (by norm_num)]
    have := mul_le_mul_of_nonneg_left hle hp1
    have h4 : (0 : ℝ) ≤ 2 ^ (e - (p : ℤ)) := by positivity
    linarith
  · rw [max_eq_right h, show e - ((p : ℤ) - 1) - 1 = e - p by ring]
    have h4 : (0 : ℝ) ≤ 2 ^ (-(p : ℤ)) * |x| := by positivity
    linarith

theorem ieeeNear_one {p : ℕ} {e : ℤ} (hp : 1 ≤ p) (he : e ≤ 0) : ieeeNear p e 1 = 1 := by
  obtain ⟨q, rfl⟩ : ∃ q, p = q + 1 := ⟨p - 1, by omega⟩
  have e1 : Int.log 2 |(1 : ℝ)| = 0 := by simp
  simp only [ieeeNear, e1, max_eq_left he]
  have e2 : (1 : ℝ) * 2 ^ (-(0 - (((q + 1 : ℕ) : ℤ) - 1))) = ((2 ^ q : ℤ) : ℝ) := by simp
  rw [e2, roundEven_int]
  simp

section
variable {p : ℕ} {e E : ℤ} (hp : 2 ≤ p) (he : e ≤ 0) (hE : 3 ≤ E)
include hp

theorem ulp_le : (2 : ℝ) ^ (-(p : ℤ)) ≤ 1 / 4 := by
  rw [show (1 / 4 : ℝ) = 2 ^ (-2 : ℤ) by norm_num]
  exact zpow_le_zpow_right₀ (by norm_num) (by omega)

include he in
theorem tiny_le : (2 : ℝ) ^ (e - (p : ℤ)) ≤ 1 / 4 := by
  rw [show (1 / 4 : ℝ) = 2 ^ (-2 : ℤ) by norm_num]
  exact zpow_le_zpow_right₀ (by norm_num) (by omega)

include he hE in
theorem ieeeRnd_ok {x : ℝ} (hx : |x| ≤ 2 ^ E) :
    ∃ y, ieeeRnd p e E x = .fin y ∧ |y - x| ≤ (2 : ℝ) ^ (-(p : ℤ)) * |x| + 2 ^ (e - p) := by
  refine ⟨ieeeNear p e x, ?_, ieeeNear_err p e x⟩
  have h1 := ieeeNear_err p e x
  have h2 := ulp_le hp
  have h3 := tiny_le hp he
  have h4 : (8 : ℝ) ≤ 2 ^ E := by
    rw [show (8 : ℝ) = 2 ^ (3 : ℤ) by norm_num]
    exact zpow_le_zpow_right₀ (by norm_num) hE
  have h5 : (2 : ℝ) ^ (1 - (p : ℤ)) = 2 * 2 ^ (-(p : ℤ)) := by
    rw [sub_eq_add_neg, zpow_add₀ (by norm_num), zpow_one]
  unfold ieeeRnd
  rw [if_pos]
  rw [h5]
  have h6 : |ieeeNear p e x| ≤ |ieeeNear p e x - x| + |x| := by
    have := abs_add_le (ieeeNear p e x - x) x
    rwa [sub_add_cancel] at this
  have h7 : (2 : ℝ) ^ (-(p : ℤ)) * |x| ≤ 1 / 4 * 2 ^ E := mul_le_mul h2 hx (abs_nonneg _) (by norm_num)
  have h8 : (2 : ℝ) ^ (-(p : ℤ)) * 2 ^ E ≤ 1 / 4 * 2 ^ E := mul_le_mul_of_nonneg_right h2 (by positivity)
  nlinarith

end

/-- one more term of a sum -/
theorem sum_step {u η X P P' s S t T y c c' : ℝ} (hu : 0 ≤ u) (hη : 0 ≤ η)
    (hs : |s - S| ≤ (X - 1) * P + c * η) (hS : |S| ≤ P) (ht : |t - T| ≤ (X - 1) * P' + c' * η) (hT : |T| ≤ P')
    (hy : |y - (s + t)| ≤ u * |s + t| + η) :
    |y - (S + T)| ≤ (X * (1 + u) - 1) * (P + P') + ((c + c') * (1 + u) + 1) * η ∧
      |s + t| ≤ X * (P + P') + (c + c') * η := by
  have h1 : |s + t - (S + T)| ≤ (X - 1) * (P + P') + (c + c') * η := (add_near hs ht).trans (le_of_eq (by ring))
  have h2 : |S + T| ≤ P + P' := (abs_add_le _ _).trans (add_le_add hS hT)
  have h3 : |s + t| ≤ X * (P + P') + (c + c') * η := by
    have := abs_add_le (s + t - (S + T)) (S + T)
    rw [sub_add_cancel] at this
    linarith
  have h4 : |y - (S + T)| ≤ |y - (s + t)| + |s + t - (S + T)| := abs_sub_le _ _ _
  have h5 := mul_le_mul_of_nonneg_left h3 hu
  refine ⟨?_, h3⟩
  nlinarith

theorem sum_size {X P P' s S t T c c' η : ℝ} (hs : |s - S| ≤ (X - 1) * P + c * η) (hS : |S| ≤ P)
    (ht : |t - T| ≤ (X - 1) * P' + c' * η) (hT : |T| ≤ P') : |s + t| ≤ X * (P + P') + (c + c') * η := by
  have h1 : |s + t - (S + T)| ≤ (X - 1) * (P + P') + (c + c') * η := (add_near hs ht).trans (le_of_eq (by ring))
  have h2 : |S + T| ≤ P + P' := (abs_add_le _ _).trans (add_le_add hS hT)
  have := abs_add_le (s + t - (S + T)) (S + T)
  rw [sub_add_cancel] at this
  linarith

/-- a sum of four rounded numbers from left to right -/
theorem sum4_ok {rnd : ℝ → Fl} {u η M : ℝ} (u0 : 0 ≤ u) (η0 : 0 ≤ η) (u1 : u ≤ 1 / 4) (η1 : η ≤ 1 / 4) (h8 : 8 ≤ M)
    (hr : ∀ x, |x| ≤ M → ∃ y, rnd x = .fin y ∧ |y - x| ≤ u * |x| + η) (a0 a1 a2 a3 : ℝ)
    (h : |a0| + |a1| + |a2| + |a3| ≤ M / 16) :
    ∃ t0 t1 t2 t3 s1 s2 s3, rnd a0 = .fin t0 ∧ rnd a1 = .fin t1 ∧ rnd a2 = .fin t2 ∧ rnd a3 = .fin t3 ∧
      rnd (t0 + t1) = .fin s1 ∧ rnd (s1 + t2) = .fin s2 ∧ rnd (s2 + t3) = .fin s3 ∧
      |s3 - (a0 + a1 + a2 + a3)| ≤ ((1 + u) ^ 4 - 1) * (|a0| + |a1| + |a2| + |a3|) + 13 * η := by
  have p0 := abs_nonneg a0; have p1 := abs_nonneg a1; have p2 := abs_nonneg a2; have p3 := abs_nonneg a3
  obtain ⟨t0, q0, r0⟩ := hr a0 (by linarith)
  obtain ⟨t1, q1, r1⟩ := hr a1 (by linarith)
  obtain ⟨t2, q2, r2⟩ := hr a2 (by linarith)
  obtain ⟨t3, q3, r3⟩ := hr a3 (by linarith)
  obtain ⟨X2, hX2⟩ : ∃ x, x = (1 + u) * (1 + u) := ⟨_, rfl⟩
  obtain ⟨X3, hX3⟩ : ∃ x, x = X2 * (1 + u) := ⟨_, rfl⟩
  have b2 : X2 ≤ 25 / 16 := by nlinarith
  have b2' : 1 + u ≤ X2 := by nlinarith
  have b3 : X3 ≤ 2 := by nlinarith
  have b3' : X2 ≤ X3 := by nlinarith
  have w : ∀ {x y k c c' : ℝ}, x ≤ y → 0 ≤ k → c ≤ c' → (x - 1) * k + c * η ≤ (y - 1) * k + c' * η := fun h hk hc =>
    add_le_add (mul_le_mul_of_nonneg_right (by linarith) hk) (mul_le_mul_of_nonneg_right hc η0)
  have r0' : |t0 - a0| ≤ (1 + u - 1) * |a0| + 1 * η := r0.trans (le_of_eq (by ring))
  have r1' : |t1 - a1| ≤ (1 + u - 1) * |a1| + 1 * η := r1.trans (le_of_eq (by ring))
  have r2' : |t2 - a2| ≤ (X2 - 1) * |a2| + 1 * η := (r2.trans (le_of_eq (by ring))).trans (w (x := 1 + u) b2' p2 le_rfl)
  have r3' : |t3 - a3| ≤ (X3 - 1) * |a3| + 1 * η :=
    (r3.trans (le_of_eq (by ring))).trans (w (x := 1 + u) (b2'.trans b3') p3 le_rfl)
  have big : ∀ {X P c : ℝ}, X ≤ 2 → 0 ≤ P → P ≤ M / 16 → c ≤ 14 → X * P + c * η ≤ M := by
    intro X P c h1 h2 h3 h4
    have e1 : X * P ≤ 2 * P := mul_le_mul_of_nonneg_right h1 h2
    have e2 : c * η ≤ 14 * η := mul_le_mul_of_nonneg_right h4 η0
    linarith
  have z1 := (sum_size r0' le_rfl r1' le_rfl).trans (big (by linarith) (by linarith) (by linarith) (by norm_num))
  obtain ⟨s1, e1, f1⟩ := hr _ z1
  have g1 := (sum_step u0 η0 r0' le_rfl r1' le_rfl f1).1
  rw [← hX2] at g1
  have g1' : |s1 - (a0 + a1)| ≤ (X2 - 1) * (|a0| + |a1|) + 4 * η :=
    g1.trans (w le_rfl (by linarith) (by linarith))
  have z2 := (sum_size g1' (abs_add_le _ _) r2' le_rfl).trans (big (by linarith) (by linarith) (by linarith) (by norm_num))
  obtain ⟨s2, e2, f2⟩ := hr _ z2
  have g2 := (sum_step u0 η0 g1' (abs_add_le _ _) r2' le_rfl f2).1
  rw [← hX3] at g2
  have g2' : |s2 - (a0 + a1 + a2)| ≤ (X3 - 1) * (|a0| + |a1| + |a2|) + 8 * η :=
    g2.trans (w le_rfl (by linarith) (by linarith))
  have c2 : |a0 + a1 + a2| ≤ |a0| + |a1| + |a2| := (abs_add_le _ _).trans (add_le_add (abs_add_le _ _) le_rfl)
  have z3 := (sum_size g2' c2 r3' le_rfl).trans (big b3 (by linarith) (by linarith) (by norm_num))
  obtain ⟨s3, e3, f3⟩ := hr _ z3
  have g3 := (sum_step u0 η0 g2' c2 r3' le_rfl f3).1
  refine ⟨t0, t1, t2, t3, s1, s2, s3, q0, q1, q2, q3, e1, e2, e3, g3.trans ?_⟩
  have e4 : X3 * (1 + u) = (1 + u) ^ 4 := by rw [hX3, hX2]; ring
  rw [e4]
  exact w le_rfl (by linarith) (by linarith)

theorem ieeeMul_ok {p : ℕ} {e E : ℤ} (hp : 2 ≤ p) (he : e ≤ 0) (hE : 3 ≤ E) (A B : M4) (i j : Fin 4)
    (h : ∑ k, |A i k * B k j| ≤ 2 ^ (E - 4)) :
    ∃ z, ieeeMul p e E (finM A) (finM B) i j = .fin z ∧
      |z - ∑ k, A i k * B k j| ≤ ((1 + (2 : ℝ) ^ (-(p : ℤ))) ^ 4 - 1) * ∑ k, |A i k * B k j| + 13 * 2 ^ (e - (p : ℤ)) := by
  have hbig : (2 : ℝ) ^ (E - 4) = 2 ^ E / 16 := by
    rw [zpow_sub₀ (by norm_num)]; norm_num
  have h8 : (8 : ℝ) ≤ 2 ^ E := by
    rw [show (8 : ℝ) = 2 ^ (3 : ℤ) by norm_num]
    exact zpow_le_zpow_right₀ (by norm_num) hE
  rw [Fin.sum_univ_four, hbig] at h
  rw [Fin.sum_univ_four, Fin.sum_univ_four]
  obtain ⟨t0, t1, t2, t3, s1, s2, s3, q0, q1, q2, q3, e1, e2, e3, h3⟩ := sum4_ok (rnd := ieeeRnd p e E) (by positivity)
    (by positivity) (ulp_le hp) (tiny_le hp he) h8 (fun x hx => ieeeRnd_ok hp he hE hx) _ _ _ _ h
  refine ⟨s3, ?_, h3⟩
  simp only [ieeeMul, finM, AD.mul, ieeeRes, q0, q1, q2, q3, Fl.add, e1, e2, e3]

theorem ieeeRnd_of_near {p : ℕ} {e E : ℤ} (hp : 2 ≤ p) (hE : 3 ≤ E) {x : ℝ} (h : ieeeNear p e x = x) (hx : |x| ≤ 1) :
    ieeeRnd p e E x = .fin x := by
  have h4 : (8 : ℝ) ≤ 2 ^ E := by
    rw [show (8 : ℝ) = 2 ^ (3 : ℤ) by norm_num]
    exact zpow_le_zpow_right₀ (by norm_num) hE
  have h5 : (2 : ℝ) ^ (1 - (p : ℤ)) = 2 * 2 ^ (-(p : ℤ)) := by
    rw [sub_eq_add_neg, zpow_add₀ (by norm_num), zpow_one]
  have := ulp_le hp
  unfold ieeeRnd
  rw [h, if_pos]
  rw [h5]
  nlinarith

/-- arithmetic in the format with `p` binary digits and exponents from `e` to `E`; `cos` and `sin` are correctly rounded -/
noncomputable def ieee (p : ℕ) (e E : ℤ) (hp : 2 ≤ p) (he : e ≤ 0) (hE : 3 ≤ E) : Ieee where
  u := 2 ^ (-(p : ℤ))
  η := 2 ^ (e - (p : ℤ))
  big := 2 ^ (E - 4)
  κ := 2 ^ (-(p : ℤ)) + 2 ^ (e - (p : ℤ))
  γ := (1 + 2 ^ (-(p : ℤ))) ^ 4 - 1
  ζ := 13 * 2 ^ (e - (p : ℤ))
  u_nonneg := by positivity
  η_nonneg := by positivity
  γ_nonneg := by
    have h : (0 : ℝ) ≤ 2 ^ (-(p : ℤ)) := by positivity
    have := one_le_pow₀ (n := 4) (show (1 : ℝ) ≤ 1 + 2 ^ (-(p : ℤ)) by linarith)
    linarith
  ζ_nonneg := by positivity
  rnd := ieeeRnd p e E
  rnd_ok x hx := ieeeRnd_ok hp he hE (hx.trans (zpow_le_zpow_right₀ (by norm_num) (by omega)))
  cos x := match x with
    | .fin x => ieeeRnd p e E (Real.cos x)
    | _ => .nan
  cos_ok x := by
    have h8 : (8 : ℝ) ≤ 2 ^ E := by
      rw [show (8 : ℝ) = 2 ^ (3 : ℤ) by norm_num]
      exact zpow_le_zpow_right₀ (by norm_num) hE
    have hc := Real.abs_cos_le_one x
    obtain ⟨y, h1, h2⟩ := ieeeRnd_ok (e := e) hp he hE (hc.trans (by linarith))
    have hu : (0 : ℝ) ≤ 2 ^ (-(p : ℤ)) := by positivity
    exact ⟨y, h1, h2.trans (by nlinarith)⟩
  cos_strict x h := by cases x <;> simp_all [Fl.isFinite]
  sin x := match x with
    | .fin x => ieeeRnd p e E (Real.sin x)
    | _ => .nan
  sin_ok x := by
    have h8 : (8 : ℝ) ≤ 2 ^ E := by
      rw [show (8 : ℝ) = 2 ^ (3 : ℤ) by norm_num]
      exact zpow_le_zpow_right₀ (by norm_num) hE
    have hc := Real.abs_sin_le_one x
    obtain ⟨y, h1, h2⟩ := ieeeRnd_ok (e := e) hp he hE (hc.trans (by linarith))
    have hu : (0 : ℝ) ≤ 2 ^ (-(p : ℤ)) := by positivity
    exact ⟨y, h1, h2.trans (by nlinarith)⟩
  sin_strict x h := by cases x <;> simp_all [Fl.isFinite]
  mul := ieeeMul p e E
  mul_ok A B i j h := ieeeMul_ok hp he hE A B i j h
  mul_last A B hA hB j := by
    have h0 : ieeeRnd p e E 0 = .fin 0 := ieeeRnd_of_near hp hE (ieeeNear_zero p e) (by simp)
    have h1 : ieeeRnd p e E 1 = .fin 1 := ieeeRnd_of_near hp hE (ieeeNear_one (by omega) he) (by simp)
    have a0 : A 3 0 = 0 := by rw [hA]; rfl
    have a1 : A 3 1 = 0 := by rw [hA]; rfl
    have a2 : A 3 2 = 0 := by rw [hA]; rfl
    have a3 : A 3 3 = 1 := by rw [hA]; rfl
    simp only [ieeeMul, finM, a0, a1, a2, a3, AD.mul, zero_mul, one_mul, ieeeRes, h0, Fl.add, add_zero]
    rw [hB]
    fin_cases j <;> simp [h0, h1, Fl.add]
  mul_strict A B i j k h := by
    have ht : ∀ k, ((A i k).isFinite = false ∨ (B k j).isFinite = false) →
        (ieeeRes p e E (AD.mul (A i k) (B k j))).isFinite = false := fun k h => ieeeRes_strict (mulFl_strict h)
    have hk := ht k h
    have l : ∀ {a b : Fl}, a.isFinite = false → (ieeeRes p e E (Fl.add a b)).isFinite = false := fun h =>
      ieeeRes_strict (add_strict (.inl h))
    have r : ∀ {a b : Fl}, b.isFinite = false → (ieeeRes p e E (Fl.add a b)).isFinite = false := fun h =>
      ieeeRes_strict (add_strict (.inr h))
    simp only [ieeeMul]
    fin_cases k
    · exact l (l (l hk))
    · exact l (l (r hk))
    · exact l (r hk)
    · exact r hk

/-- `torch.float32` -/
noncomputable abbrev float32 : Ieee := ieee 24 (-126) 127 (by norm_num) (by norm_num) (by norm_num)
/-- `torch.float64` -/
noncomputable abbrev float64 : Ieee := ieee 53 (-1022) 1023 (by norm_num) (by norm_num) (by norm_num)

end PK
