import Verif.Lemmas.So3LogRound
import Verif.Props.FloatJac
import Verif.Props.FloatLoad
import Verif.Lemmas.LoadRound2

/-!
# C139: accuracy of `so3_exp_map`; C140: accuracy of `so3_log_map`
-/

namespace PK
open Spec Matrix

theorem rotAbout_eq_hat {a : V3} (ha : IsUnitV a) (θ : ℝ) (i j : Fin 3) :
    rotAbout a θ i j = Real.sin θ * hatV a i j + (1 - Real.cos θ) * (hatV a * hatV a) i j + (1 : M3) i j := by
  have h : a 0 ^ 2 + a 1 ^ 2 + a 2 ^ 2 = 1 := ha
  rw [← axisAndAngleToMatrix33_eq_rotAbout]
  fin_cases i <;> fin_cases j <;>
    simp [axisAndAngleToMatrix33, hatV, Matrix.mul_apply, Fin.sum_univ_three] <;> grind

/-- inside the clamp: the formula without rounding against the rotation -/
theorem so3ExpMap_clamped {a : V3} (ha : IsUnitV a) {θ : ℝ} (h0 : 0 ≤ θ) (h1 : θ ≤ 0.01) (i j : Fin 3) :
    |so3ExpMap (θ • a) 1e-4 i j - rotAbout a θ i j| ≤ 2e-7 := by
  have hd : dot (θ • a) (θ • a) = θ ^ 2 := by
    have h : a 0 ^ 2 + a 1 ^ 2 + a 2 ^ 2 = 1 := ha
    calc dot (θ • a) (θ • a) = θ ^ 2 * (a 0 ^ 2 + a 1 ^ 2 + a 2 ^ 2) := by simp [dot]; ring
      _ = θ ^ 2 := by rw [h, mul_one]
  have hm : max (dot (θ • a) (θ • a)) 1e-4 = (0.01 : ℝ) ^ 2 := by
    rw [hd, max_eq_right (by nlinarith)]; norm_num
  have hs : Real.sqrt (max (dot (θ • a) (θ • a)) 1e-4) = 0.01 := by rw [hm]; exact Real.sqrt_sq (by norm_num)
  have hS : |hatV a i j| ≤ 1 := hatV_entry_le zero_le_one (by
    have h : a 0 ^ 2 + a 1 ^ 2 + a 2 ^ 2 = 1 := ha
    show a 0 * a 0 + a 1 * a 1 + a 2 * a 2 ≤ 1 ^ 2
    nlinarith) i j
  have hQ : |(hatV a * hatV a) i j| ≤ 1 := by
    rw [hatV_sq_apply]
    refine (abs_add_three _ _ _).trans ((hatV_sq_abs_le (s := 1) ?_ i j).trans (by norm_num))
    have h : a 0 ^ 2 + a 1 ^ 2 + a 2 ^ 2 = 1 := ha
    show a 0 * a 0 + a 1 * a 1 + a 2 * a 2 ≤ 1 ^ 2
    nlinarith
  rw [rotAbout_eq_hat ha]
  have e : so3ExpMap (θ • a) 1e-4 i j = 1 / 0.01 * Real.sin 0.01 * (θ * hatV a i j) +
      1 / 0.01 * (1 / 0.01) * (1 - Real.cos 0.01) * (θ * (θ * (hatV a * hatV a) i j)) + (1 : M3) i j := by
    unfold so3ExpMap
    rw [hs, hatV_smul, Matrix.smul_mul, Matrix.mul_smul]
    rfl
  rw [e]
  have e2 : 1 / 0.01 * Real.sin 0.01 * (θ * hatV a i j) +
      1 / 0.01 * (1 / 0.01) * (1 - Real.cos 0.01) * (θ * (θ * (hatV a * hatV a) i j)) + (1 : M3) i j -
      (Real.sin θ * hatV a i j + (1 - Real.cos θ) * (hatV a * hatV a) i j + (1 : M3) i j) =
      (100 * Real.sin 0.01 * θ - Real.sin θ) * hatV a i j +
      (10000 * (1 - Real.cos 0.01) * θ ^ 2 - (1 - Real.cos θ)) * (hatV a * hatV a) i j := by ring
  rw [e2]
  have s1 : (0.01 : ℝ) - 0.01 ^ 3 / 6 ≤ Real.sin 0.01 := sub_cube_le_sin (by norm_num)
  have s2 : Real.sin 0.01 ≤ (0.01 : ℝ) := Real.sin_le (by norm_num)
  have s3 := sub_cube_le_sin h0
  have s4 := Real.sin_le h0
  have c1 := abs_le.1 (Real.cos_bound (x := 0.01) (by rw [abs_of_pos] <;> norm_num))
  have c2 := abs_le.1 (Real.cos_bound (x := θ) (by rw [abs_of_nonneg h0]; linarith))
  rw [abs_of_nonneg h0] at c2
  rw [abs_of_pos (by norm_num)] at c1
  have hθ2 : θ ^ 2 ≤ 1e-4 := by nlinarith
  have hθ2' : 0 ≤ θ ^ 2 := sq_nonneg θ
  have t3 : θ ^ 3 ≤ 1e-6 := by
    have : θ ^ 3 = θ ^ 2 * θ := by ring
    rw [this]; nlinarith
  have t4 : θ ^ 4 ≤ 1e-8 := by
    have : θ ^ 4 = θ ^ 2 * θ ^ 2 := by ring
    rw [this]; nlinarith
  have t4' : 0 ≤ θ ^ 4 := by positivity
  have t3' : 0 ≤ θ ^ 3 := by positivity
  have A : |100 * Real.sin 0.01 * θ - Real.sin θ| ≤ 1.7e-7 := by
    have p1 : 100 * Real.sin 0.01 * θ ≤ θ := by nlinarith
    have p2 : (1 - 1.67e-5) * θ ≤ 100 * Real.sin 0.01 * θ := by
      apply mul_le_mul_of_nonneg_right _ h0
      norm_num at s1 ⊢
      linarith
    rw [abs_le]; constructor
    · norm_num at p2 ⊢; linarith
    · norm_num at t3 ⊢; linarith
  have B : |10000 * (1 - Real.cos 0.01) * θ ^ 2 - (1 - Real.cos θ)| ≤ 2e-9 := by
    have p1 : 10000 * (1 - Real.cos 0.01) * θ ^ 2 ≤ 0.500006 * θ ^ 2 := by
      apply mul_le_mul_of_nonneg_right _ hθ2'
      have := c1.1
      norm_num at this ⊢
      linarith
    have p2 : 0.499994 * θ ^ 2 ≤ 10000 * (1 - Real.cos 0.01) * θ ^ 2 := by
      apply mul_le_mul_of_nonneg_right _ hθ2'
      have := c1.2
      norm_num at this ⊢
      linarith
    have := c2.1; have := c2.2
    norm_num at p1 p2 t4 hθ2 ⊢
    rw [abs_le]; constructor <;> linarith
  refine (abs_add_le _ _).trans ?_
  rw [abs_mul, abs_mul]
  have := mul_le_mul A hS (abs_nonneg _) (by norm_num)
  have := mul_le_mul B hQ (abs_nonneg _) (by norm_num)
  norm_num at *
  linarith

/-- C139: the matrix computed by `so3_exp_map` for the vector `θ a`, `a` a unit vector, differs from the rotation by `θ` about `a` in
every entry by at most `τ (37 + 5 max(θ, 0.01))`, and by another `2e-7` where the code clamps the angle (`θ < 0.01`). -/
theorem C139_exp (m : Machine) {τ : ℝ} (hu : m.u ≤ τ) (hκ : m.κ ≤ τ) (hγ : m.γ ≤ τ) (h0 : 0 ≤ τ) (h1 : τ ≤ 1 / 1000)
    {a : V3} (ha : IsUnitV a) {θ : ℝ} (hθ : 0 ≤ θ) (i j : Fin 3) :
    |so3ExpMapFl m (θ • a) 1e-4 i j - rotAbout a θ i j| ≤
      τ * (37 + 5 * max θ 0.01) + (if θ < 0.01 then 2e-7 else 0) := by
  have hd : dot (θ • a) (θ • a) = θ ^ 2 := by
    have h : a 0 ^ 2 + a 1 ^ 2 + a 2 ^ 2 = 1 := ha
    calc dot (θ • a) (θ • a) = θ ^ 2 * (a 0 ^ 2 + a 1 ^ 2 + a 2 ^ 2) := by simp [dot]; ring
      _ = θ ^ 2 := by rw [h, mul_one]
  have hv : vlen (θ • a) = θ := by
    rw [vlen_eq_norm3]
    show Real.sqrt (dot (θ • a) (θ • a)) = θ
    rw [hd, Real.sqrt_sq hθ]
  have hn := so3ExpMapFl_near m hu hκ hγ h0 h1 (θ • a) (eps := 1e-4) (by norm_num) i j
  have hs : Real.sqrt (max (dot (θ • a) (θ • a)) 1e-4) = max θ 0.01 := by
    rw [hd, show (1e-4 : ℝ) = 0.01 ^ 2 by norm_num]
    rcases le_total θ 0.01 with h | h
    · rw [max_eq_right h, max_eq_right (by nlinarith), Real.sqrt_sq (by norm_num)]
    · rw [max_eq_left h, max_eq_left (by nlinarith), Real.sqrt_sq hθ]
  rw [hs] at hn
  refine (abs_sub_le _ (so3ExpMap (θ • a) 1e-4 i j) _).trans (add_le_add hn ?_)
  split_ifs with h
  · exact so3ExpMap_clamped ha hθ h.le i j
  · push Not at h
    have := (C43_exp_is_rotation (θ • a) (by rw [hv]; exact h)).1
    rw [hv] at this
    have e : (fun i => (θ • a) i / θ) = a := by
      funext k
      have : θ ≠ 0 := by rintro rfl; norm_num at h
      simp only [Pi.smul_apply, smul_eq_mul]
      field_simp
    rw [this, e]; simp

/-- C139 in a binary format with `q ≥ 13` bits: the computed matrix is within `(185 + 25 max(θ, 0.01)) / 2 ^ q` of the rotation,
and `2e-7` more inside the clamp. -/
theorem C139_precision (q : ℕ) (hq : 13 ≤ q) {a : V3} (ha : IsUnitV a) {θ : ℝ} (hθ : 0 ≤ θ) (i j : Fin 3) :
    |so3ExpMapFl (binary q (by omega)) (θ • a) 1e-4 i j - rotAbout a θ i j| ≤
      (185 + 25 * max θ 0.01) / 2 ^ q + (if θ < 0.01 then 2e-7 else 0) := by
  obtain ⟨hU, hK⟩ := binary_u q (by omega)
  have hG := binary_γ q (by omega)
  have hp : (0 : ℝ) ≤ 1 / 2 ^ q := by positivity
  have hl : (1 : ℝ) / 2 ^ q ≤ 1 / 8192 := by
    rw [show (8192 : ℝ) = 2 ^ 13 by norm_num]
    exact one_div_le_one_div_of_le (by positivity) (pow_le_pow_right₀ (by norm_num) hq)
  have := C139_exp (binary q (by omega)) (τ := 5 * (1 / 2 ^ q)) (by rw [hU]; linarith) (by rw [hK]; linarith) hG (by linarith)
    (by linarith) ha hθ i j
  refine this.trans (le_of_eq ?_)
  ring

/-- float32, any rotation vector up to half a turn: every entry within `2e-5` of the rotation -/
example (i j : Fin 3) :
    |so3ExpMapFl (binary 24 (by norm_num)) ((2 : ℝ) • ![(0.6 : ℝ), 0, 0.8]) 1e-4 i j - rotAbout ![0.6, 0, 0.8] 2 i j| ≤ 2e-5 := by
  refine (C139_precision 24 (by norm_num) (a := ![(0.6 : ℝ), 0, 0.8])
    (by show ![(0.6 : ℝ), 0, 0.8] 0 ^ 2 + ![(0.6 : ℝ), 0, 0.8] 1 ^ 2 + ![(0.6 : ℝ), 0, 0.8] 2 ^ 2 = 1
        simp only [Matrix.cons_val]; norm_num) (θ := 2) (by norm_num) i j).trans ?_
  rw [if_neg (by norm_num), max_eq_left (by norm_num)]
  norm_num

/-! ## logarithm -/

theorem unit_comp_le {a : V3} (ha : IsUnitV a) (k : Fin 3) : |a k| ≤ 1 := by
  have h : a 0 ^ 2 + a 1 ^ 2 + a 2 ^ 2 = 1 := ha
  apply abs_le_of_sq_le_sq _ zero_le_one
  rw [one_pow]
  have h0 := sq_nonneg (a 0); have h1 := sq_nonneg (a 1); have h2 := sq_nonneg (a 2)
  fin_cases k <;> simp only [Fin.zero_eta, Fin.mk_one, Fin.reduceFinMk] <;> linarith

theorem rotAbout_entry_le {a : V3} (ha : IsUnitV a) (θ : ℝ) (i j : Fin 3) : |rotAbout a θ i j| ≤ 1 := by
  have hR : IsRot (rotAbout a θ) := by
    rw [← axisAndAngleToMatrix33_eq_rotAbout]
    refine axisAndAngle_isRot ?_ θ
    have h : a 0 ^ 2 + a 1 ^ 2 + a 2 ^ 2 = 1 := ha
    show a 0 * a 0 + a 1 * a 1 + a 2 * a 2 = 1
    linarith
  exact isRot_entry hR i j

theorem rotAbout_trace {a : V3} (ha : IsUnitV a) (θ : ℝ) :
    rotAbout a θ 0 0 + rotAbout a θ 1 1 + rotAbout a θ 2 2 = 1 + 2 * Real.cos θ := by
  have h : a 0 ^ 2 + a 1 ^ 2 + a 2 ^ 2 = 1 := ha
  simp only [rotAbout_eq_hat ha]
  simp [hatV, Matrix.mul_apply, Fin.sum_univ_three]
  grind

theorem rotAbout_skew {a : V3} (ha : IsUnitV a) (θ : ℝ) :
    rotAbout a θ 2 1 - rotAbout a θ 1 2 = 2 * Real.sin θ * a 0 ∧ rotAbout a θ 0 2 - rotAbout a θ 2 0 = 2 * Real.sin θ * a 1 ∧
    rotAbout a θ 1 0 - rotAbout a θ 0 1 = 2 * Real.sin θ * a 2 := by
  simp only [rotAbout_eq_hat ha]
  refine ⟨?_, ?_, ?_⟩ <;> simp [hatV, Matrix.mul_apply, Fin.sum_univ_three] <;> ring

/-- C140: for a non-empty batch of matrices whose entries are within `g n` of rotations by angles `θ n ≤ π - 0.02` about unit axes
`a n`, `so3_log_map` returns vectors close to `θ n • a n`: the error is at most `2e-4 θ + 3 g` for angles up to 0.02 and at most
`150 g / sin² θ` above. -/
theorem C140_log (m : LogMachine) {N : ℕ} (hN : 0 < N) (g : Fin N → ℝ) (hu : ∀ n, m.u ≤ g n) (hκ : ∀ n, m.κ ≤ g n)
    (h0 : ∀ n, 0 ≤ g n) (h1 : ∀ n, g n ≤ 5e-6) (R : Fin N → M3) (a : Fin N → V3) (ha : ∀ n, IsUnitV (a n)) (θ : Fin N → ℝ)
    (hθ : ∀ n, 0 ≤ θ n ∧ θ n ≤ Real.pi - 0.02) (hR : ∀ n i j, |R n i j - rotAbout (a n) (θ n) i j| ≤ g n)
    (hg : ∀ n, 0.02 ≤ θ n → 200 * g n ≤ Real.sin (θ n) ^ 2) :
    ∃ w, so3LogMapFl m R 1e-4 = .ok w ∧ ∀ n k,
      (θ n ≤ 0.02 → |w n k - θ n * a n k| ≤ 2e-4 * θ n + 3 * g n) ∧
      (0.02 ≤ θ n → |w n k - θ n * a n k| ≤ 150 * (g n / Real.sin (θ n) ^ 2)) := by
  have hpi := Real.pi_gt_three
  have hpi' := Real.pi_lt_d2
  have ht : ∀ n, |rotTraceFl m.toMachine (R n) - (1 + 2 * Real.cos (θ n))| ≤ 8.2 * g n := fun n => by
    rw [← rotAbout_trace (ha n)]
    exact rotTrace_near m (hu n) (h0 n) (h1 n) (hR n) (rotAbout_entry_le (ha n) _)
  have hc : ∀ n, |m.rnd (m.rnd (rotTraceFl m.toMachine (R n) - 1) * 0.5) - Real.cos (θ n)| ≤ 6.2 * g n := fun n =>
    rotCos_near m (hu n) (h0 n) (h1 n) (ht n) (Real.abs_cos_le_one _)
  have hang : so3RotationAngleFl m R =
      .ok fun n => acosExtrapFl m (1 - 1e-4) (m.rnd (m.rnd (rotTraceFl m.toMachine (R n) - 1) * 0.5)) := by
    unfold so3RotationAngleFl
    simp only
    rw [if_neg]
    rintro ⟨n, hn | hn⟩
    · have e : m.rnd (-1 - 1e-4) = -m.rnd (1 + 1e-4) := by rw [← m.rnd_neg]; congr 1; ring
      rw [e] at hn
      obtain ⟨z1, _⟩ := rnd_betweenL m (hu n) (h0 n) (h1 n) (x := 1 + 1e-4) (a := 1 + 0.9e-4) (b := 1.1) (by norm_num) (by norm_num)
        (by norm_num)
      have := (abs_le.1 (ht n)).1
      have := h1 n
      have := Real.neg_one_le_cos (θ n)
      norm_num at *; linarith
    · obtain ⟨z1, _⟩ := rnd_betweenL m (hu n) (h0 n) (h1 n) (x := 3 + 1e-4) (a := 3 + 0.8e-4) (b := 3.1) (by norm_num) (by norm_num)
        (by norm_num)
      have := (abs_le.1 (ht n)).2
      have := h1 n
      have := Real.cos_le_one (θ n)
      norm_num at *; linarith
  unfold so3LogMapFl
  rw [hang]
  simp only [ok_bind]
  unfold hatInvFl
  rw [if_neg hN.ne', if_neg]
  · refine ⟨_, rfl, fun n k => ?_⟩
    set c := m.rnd (m.rnd (rotTraceFl m.toMachine (R n) - 1) * 0.5) with hcd
    set φ := acosExtrapFl m (1 - 1e-4) c with hφ
    set F := m.rnd (φ / m.rnd (2 * phiDenomFl m.toMachine φ 1e-4)) with hFd
    -- the difference of two entries that goes into component `k`
    obtain ⟨δ, hδ, hw⟩ : ∃ δ, |δ - 2 * Real.sin (θ n) * a n k| ≤ 4.1 * g n ∧
        (![m.rnd (F * m.rnd (R n 2 1 - R n 1 2)), m.rnd (F * m.rnd (R n 0 2 - R n 2 0)),
          m.rnd (F * m.rnd (R n 1 0 - R n 0 1))] : V3) k = m.rnd (F * δ) := by
      obtain ⟨k0, k1, k2⟩ := rotAbout_skew (ha n) (θ n)
      have hb : ∀ k, |2 * Real.sin (θ n) * a n k| ≤ 2 := fun k => by
        have h2 := unit_comp_le (ha n) k
        rw [mul_assoc, abs_mul, abs_two, abs_mul]
        have := mul_le_mul (Real.abs_sin_le_one (θ n)) h2 (abs_nonneg _) zero_le_one
        linarith
      fin_cases k
      · exact ⟨_, diff_near m (hu n) (h0 n) (h1 n) (hR n 2 1) (hR n 1 2) k0 (hb 0), rfl⟩
      · exact ⟨_, diff_near m (hu n) (h0 n) (h1 n) (hR n 0 2) (hR n 2 0) k1 (hb 1), rfl⟩
      · exact ⟨_, diff_near m (hu n) (h0 n) (h1 n) (hR n 1 0) (hR n 0 1) k2 (hb 2), rfl⟩
    have hak := unit_comp_le (ha n) k
    have hcn := abs_le.1 (hc n)
    have h1n := h1 n
    show (θ n ≤ 0.02 → |(![m.rnd (F * m.rnd (R n 2 1 - R n 1 2)), m.rnd (F * m.rnd (R n 0 2 - R n 2 0)),
          m.rnd (F * m.rnd (R n 1 0 - R n 0 1))] : V3) k - θ n * a n k| ≤ _) ∧ (0.02 ≤ θ n →
          |(![m.rnd (F * m.rnd (R n 2 1 - R n 1 2)), m.rnd (F * m.rnd (R n 0 2 - R n 2 0)),
          m.rnd (F * m.rnd (R n 1 0 - R n 0 1))] : V3) k - θ n * a n k| ≤ _)
    rw [hw]
    constructor
    · intro hs
      have hcos : 1 - 2e-4 ≤ Real.cos (θ n) := by
        refine le_trans ?_ (Real.one_sub_sq_div_two_le_cos)
        have := pow_le_pow_left₀ (hθ n).1 hs 2
        norm_num at *; linarith
      obtain ⟨p1, p2⟩ := acosExtrap_small m (hu n) (h0 n) (h1 n) (hκ n) (x := c) (by norm_num at *; linarith)
        (by have := Real.cos_le_one (θ n); norm_num at *; linarith)
      exact log_small m (hu n) (h0 n) (h1 n) (factor_small m (hu n) (h0 n) (h1 n) (hκ n) p1 p2) (hθ n).1 hs hak hδ
    · intro hs
      have hgn := hg n hs
      have hSb : 0.0199 ≤ Real.sin (θ n) := by
        have b1 : Real.sin 0.02 ≤ Real.sin (θ n) := by
          rcases le_total (θ n) (Real.pi / 2) with h | h
          · exact Real.sin_le_sin_of_le_of_le_pi_div_two (by norm_num; linarith) h hs
          · rw [← Real.sin_pi_sub (θ n)]
            exact Real.sin_le_sin_of_le_of_le_pi_div_two (by norm_num; linarith) (by linarith) (by linarith [(hθ n).2])
        have b2 : (0.02 : ℝ) - 0.02 ^ 3 / 6 ≤ Real.sin 0.02 := sub_cube_le_sin (by norm_num)
        norm_num at *; linarith
      have hSp : 0 < Real.sin (θ n) := lt_of_lt_of_le (by norm_num) hSb
      have hcb : |Real.cos (θ n)| ≤ 1 - 1.9e-4 := by
        have hsc := Real.cos_sq' (θ n)
        apply abs_le_of_sq_le_sq _ (by norm_num)
        have h2 := pow_le_pow_left₀ (by norm_num) hSb 2
        rw [hsc]
        norm_num at h2 ⊢; linarith only [h2]
      have hcb' := abs_le.1 hcb
      have hc1 : |c| ≤ 1 := by rw [abs_le]; norm_num at *; constructor <;> linarith
      obtain ⟨z1, z2⟩ := rnd_betweenL m (hu n) (h0 n) (h1 n) (x := 1 - 1e-4) (a := 0.999894) (b := 0.999906) (by norm_num)
        (by norm_num) (by norm_num)
      have hφe : φ = m.acos c := by
        rw [hφ]
        unfold acosExtrapFl
        rw [if_neg (by rw [m.rnd_neg]; push Not; norm_num at *; linarith), if_neg (by push Not; norm_num at *; linarith)]
      have hgk : g n = g n / Real.sin (θ n) ^ 2 * Real.sin (θ n) ^ 2 := by field_simp
      have hkS : g n / Real.sin (θ n) ^ 2 * Real.sin (θ n) = g n / Real.sin (θ n) := by field_simp
      have hq0 : 0 ≤ g n / Real.sin (θ n) := div_nonneg (h0 n) hSp.le
      refine log_mid m (hu n) (h0 n) (h1 n) (hκ n) (hθ n).1 (by linarith [(hθ n).2]) hak hSb hgk
        (by rw [div_le_iff₀ (by positivity)]; linarith) ?_ hδ
      rw [hkS, hφe]
      have e1 := arccos_near hc1 (hθ n).1 (by linarith [(hθ n).2]) hSp (hc n)
      have e2 : m.κ * Real.arccos c ≤ g n * Real.pi :=
        mul_le_mul (hκ n) (Real.arccos_le_pi c) (Real.arccos_nonneg c) (h0 n)
      have e3 := (abs_sub_le _ _ _).trans (add_le_add ((m.acos_err c hc1).trans e2) e1)
      refine e3.trans ?_
      have e4 : g n ≤ g n / Real.sin (θ n) := by
        rw [le_div_iff₀ hSp]; exact mul_le_of_le_one_right (h0 n) (Real.sin_le_one _)
      have e5 : Real.pi * (6.2 * g n / Real.sin (θ n)) = 6.2 * (Real.pi * (g n / Real.sin (θ n))) := by ring
      rw [e5]
      have e6 : Real.pi * (g n / Real.sin (θ n)) ≤ 3.15 * (g n / Real.sin (θ n)) := mul_le_mul_of_nonneg_right hpi'.le hq0
      have e7 : g n * Real.pi ≤ g n / Real.sin (θ n) * 3.15 := mul_le_mul e4 hpi'.le (by positivity) hq0
      linarith
  · rintro ⟨n, i, j, h⟩
    have e : m.rnd (R n i j - R n j i) = -m.rnd (R n j i - R n i j) := by rw [← m.rnd_neg, neg_sub]
    beta_reduce at h
    rw [e, mul_neg, m.rnd_neg, neg_add_cancel, rnd_zeroL, abs_zero] at h
    norm_num at h

/-- a batch with a small and a large angle and entries off by `1e-6`, in an arithmetic with errors up to `1e-6` -/
example : (∀ n : Fin 2, (0 : ℝ) ≤ ![0.001, 2] n ∧ ![0.001, 2] n ≤ Real.pi - 0.02) ∧
    ∀ n : Fin 2, 0.02 ≤ ![(0.001 : ℝ), 2] n → 200 * (1e-6 : ℝ) ≤ Real.sin (![0.001, 2] n) ^ 2 := by
  have hpi := Real.pi_gt_three
  have hpi' := Real.pi_lt_d2
  constructor
  · intro n; fin_cases n <;> norm_num <;> linarith
  · intro n h
    fin_cases n
    · norm_num at h
    · have h1 : Real.sin 1 ≤ Real.sin 2 := by
        rw [← Real.sin_pi_sub 2]
        exact Real.sin_le_sin_of_le_of_le_pi_div_two (by linarith) (by linarith) (by linarith)
      have h2 : (1 : ℝ) - 1 ^ 3 / 6 ≤ Real.sin 1 := sub_cube_le_sin (by norm_num)
      show 200 * (1e-6 : ℝ) ≤ Real.sin 2 ^ 2
      have h3 : (0.8 : ℝ) ≤ Real.sin 2 := by norm_num at *; linarith
      have h4 := pow_le_pow_left₀ (by norm_num) h3 2
      norm_num at *; linarith

theorem sin_ge_of_band {θ : ℝ} (h1 : 0.02 ≤ θ) (h2 : θ ≤ Real.pi - 0.02) : 0.0199 ≤ Real.sin θ := by
  have hpi := Real.pi_gt_three
  have b1 : Real.sin 0.02 ≤ Real.sin θ := by
    rcases le_total θ (Real.pi / 2) with h | h
    · exact Real.sin_le_sin_of_le_of_le_pi_div_two (by norm_num; linarith) h h1
    · rw [← Real.sin_pi_sub θ]
      exact Real.sin_le_sin_of_le_of_le_pi_div_two (by norm_num; linarith) (by linarith) (by linarith)
  have b2 : (0.02 : ℝ) - 0.02 ^ 3 / 6 ≤ Real.sin 0.02 := sub_cube_le_sin (by norm_num)
  norm_num at *; linarith

/-- C140: `so3_log_map` after `so3_exp_map`, both computed on a machine with errors up to `τ ≤ 3e-8`: every non-empty batch of
vectors of length at most `π - 0.02` comes back; the error is at most `2e-4 θ + 159 τ + 6e-7` for lengths `θ ≤ 0.02` and at most
`8000 τ / sin² θ` above. -/
theorem C140_round_trip (m : LogMachine) {τ : ℝ} (hu : m.u ≤ τ) (hκ : m.κ ≤ τ) (hγ : m.γ ≤ τ) (h0 : 0 ≤ τ) (h1 : τ ≤ 3e-8)
    {N : ℕ} (hN : 0 < N) (a : Fin N → V3) (ha : ∀ n, IsUnitV (a n)) (θ : Fin N → ℝ)
    (hθ : ∀ n, 0 ≤ θ n ∧ θ n ≤ Real.pi - 0.02) :
    ∃ w, so3LogMapFl m (fun n => so3ExpMapFl m.toMachine (θ n • a n) 1e-4) 1e-4 = .ok w ∧ ∀ n k,
      (θ n ≤ 0.02 → |w n k - (θ n • a n) k| ≤ 2e-4 * θ n + 159 * τ + 6e-7) ∧
      (0.02 ≤ θ n → |w n k - (θ n • a n) k| ≤ 8000 * τ / Real.sin (θ n) ^ 2) := by
  have hpi' := Real.pi_lt_d2
  have hite : ∀ n, (0 : ℝ) ≤ (if θ n < 0.01 then 2e-7 else 0) ∧ (if θ n < 0.01 then (2e-7 : ℝ) else 0) ≤ 2e-7 := fun n => by
    split_ifs <;> norm_num
  obtain ⟨w, e, hw⟩ := C140_log m hN (fun n => 53 * τ + (if θ n < 0.01 then 2e-7 else 0))
    (fun n => by have := (hite n).1; linarith) (fun n => by have := (hite n).1; linarith)
    (fun n => by have := (hite n).1; linarith) (fun n => by have := (hite n).2; norm_num at *; linarith)
    (fun n => so3ExpMapFl m.toMachine (θ n • a n) 1e-4) a ha θ hθ
    (fun n i j => by
      refine (C139_exp m.toMachine hu hκ hγ h0 (h1.trans (by norm_num)) (ha n) (hθ n).1 i j).trans ?_
      have hm : max (θ n) 0.01 ≤ 3.15 := max_le (by linarith [(hθ n).2]) (by norm_num)
      have := mul_le_mul_of_nonneg_left (show 37 + 5 * max (θ n) 0.01 ≤ 53 by linarith) h0
      linarith)
    (fun n h => by
      rw [if_neg (by norm_num at *; linarith)]
      have h2 := pow_le_pow_left₀ (by norm_num) (sin_ge_of_band h (hθ n).2) 2
      norm_num at *; linarith)
  refine ⟨w, e, fun n k => ⟨fun h => ?_, fun h => ?_⟩⟩
  · refine ((hw n k).1 h).trans ?_
    have := (hite n).2
    norm_num at *; linarith
  · refine ((hw n k).2 h).trans ?_
    rw [if_neg (by norm_num at *; linarith), add_zero, ← mul_div_assoc]
    apply div_le_div_of_nonneg_right _ (sq_nonneg _)
    linarith

/-- rounding to `p` binary digits with ties away from zero, so that the sign does not matter -/
noncomputable def roundSym (p : ℕ) (x : ℝ) : ℝ := if 0 ≤ x then roundTo p x else -roundTo p (-x)

theorem roundSym_err (p : ℕ) (x : ℝ) : |roundSym p x - x| ≤ 2 ^ (-(p : ℤ)) * |x| := by
  unfold roundSym
  split_ifs with h
  · exact roundTo_err p x
  · have := roundTo_err p (-x)
    rw [abs_neg] at this
    rwa [show -roundTo p (-x) - x = -(roundTo p (-x) - -x) by ring, abs_neg]

theorem roundSym_neg (p : ℕ) (x : ℝ) : roundSym p (-x) = -roundSym p x := by
  have hz : roundTo p 0 = 0 := by simp [roundTo]
  unfold roundSym
  rcases lt_trichotomy x 0 with h | h | h
  · rw [if_pos (by linarith), if_neg (by linarith), neg_neg]
  · subst h; simp [hz]
  · rw [if_neg (by linarith), if_pos h.le, neg_neg]

/-- arithmetic with `p` binary digits, with `acos` -/
noncomputable def binaryLog (p : ℕ) (hp : 1 ≤ p) : LogMachine :=
  { TrigMachine.ofRounding (roundSym p) (2 ^ (-(p : ℤ))) (by positivity) (roundSym_err p)
      (by unfold roundSym; rw [if_pos zero_le_one, roundTo_one hp]) with
    acos := fun x => roundSym p (Real.arccos x)
    acos_err := fun x _ => by
      have := roundSym_err p (Real.arccos x)
      rwa [abs_of_nonneg (Real.arccos_nonneg x)] at this
    rnd_neg := roundSym_neg p }

theorem binaryLog_u (q : ℕ) (hq : 10 ≤ q) : (binaryLog q (by omega)).u = 1 / 2 ^ q ∧ (binaryLog q (by omega)).κ = 1 / 2 ^ q ∧
    (binaryLog q (by omega)).γ ≤ 5 * (1 / 2 ^ q) := by
  obtain ⟨h1, h2⟩ := binary_u q (by omega)
  exact ⟨h1, h2, binary_γ q hq⟩

/-- C140 in a binary format with `q ≥ 28` bits, `float64` among them -/
theorem C140_precision (q : ℕ) (hq : 28 ≤ q) {N : ℕ} (hN : 0 < N) (a : Fin N → V3) (ha : ∀ n, IsUnitV (a n)) (θ : Fin N → ℝ)
    (hθ : ∀ n, 0.02 ≤ θ n ∧ θ n ≤ Real.pi - 0.02) :
    ∃ w, so3LogMapFl (binaryLog q (by omega))
        (fun n => so3ExpMapFl (binaryLog q (by omega)).toMachine (θ n • a n) 1e-4) 1e-4 = .ok w ∧
      ∀ n k, |w n k - (θ n • a n) k| ≤ 40000 / 2 ^ q / Real.sin (θ n) ^ 2 := by
  obtain ⟨hU, hK, hG⟩ := binaryLog_u q (by omega)
  have hp : (0 : ℝ) ≤ 1 / 2 ^ q := by positivity
  have hl : (1 : ℝ) / 2 ^ q ≤ 1 / 2 ^ 28 := one_div_le_one_div_of_le (by positivity) (pow_le_pow_right₀ (by norm_num) hq)
  obtain ⟨w, e, hw⟩ := C140_round_trip (binaryLog q (by omega)) (τ := 5 * (1 / 2 ^ q)) (by rw [hU]; linarith)
    (by rw [hK]; linarith) hG (by linarith) (by norm_num at *; linarith) hN a ha θ
    (fun n => ⟨le_trans (by norm_num) (hθ n).1, (hθ n).2⟩)
  refine ⟨w, e, fun n k => ((hw n k).2 (hθ n).1).trans (le_of_eq ?_)⟩
  ring

example : ∀ n : Fin 2, (0.02 : ℝ) ≤ ![1, 2] n ∧ ![1, 2] n ≤ Real.pi - 0.02 := by
  have hpi := Real.pi_gt_three
  intro n; fin_cases n <;> norm_num <;> linarith

end PK
