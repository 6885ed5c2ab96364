import Verif.Model.So3
import Verif.Props.Math
import Verif.Lemmas.Exc

/-!
# C43: `so3_exp_map`, `so3_log_map`, `so3_rotation_angle`, `so3_relative_angle`, `hat`, `hat_inv`
-/

namespace PK
open Matrix Spec Real

/-! ## hat and hat_inv -/

theorem hatV_eq (v : V3) : hatV v = Matrix.of fun i j => crossProduct v (Pi.single j 1) i := by
  apply m3_ext9 <;> simp [hatV, crossProduct]

theorem hatV_smul (c : ℝ) (v : V3) : hatV (c • v) = c • hatV v := by
  apply m3_ext9 <;> simp [hatV]

/-- the vector of the skew part of a matrix -/
noncomputable def skewVec (R : M3) : V3 := ![(R 2 1 - R 1 2) / 2, (R 0 2 - R 2 0) / 2, (R 1 0 - R 0 1) / 2]

noncomputable def cosOf (R : M3) : ℝ := (R 0 0 + R 1 1 + R 2 2 - 1) / 2

theorem cosOf_eq (R : M3) : cosOf R = (R.trace - 1) / 2 := by
  unfold cosOf Matrix.trace; simp [Fin.sum_univ_three]

/-- C43: `hat v` is the matrix of `v × ·`, and `hat_inv` inverts it on every non-empty batch. -/
theorem C43_hat {N : ℕ} (hN : 0 < N) (v : Fin N → V3) :
    (∀ n x, hatV (v n) *ᵥ x = crossProduct (v n) x) ∧ hatInv (fun n => hatV (v n)) = .ok v := by
  constructor
  · intro n x
    apply v3_ext <;> simp [hatV, crossProduct, Matrix.mulVec, dotProduct, Fin.sum_univ_three] <;> ring
  · unfold hatInv
    rw [if_neg hN.ne', if_neg]
    · congr 1
      funext n
      apply v3_ext <;> simp [hatV]
    · rintro ⟨n, i, j, h⟩
      have : hatV (v n) i j + hatV (v n) j i = 0 := by
        fin_cases i <;> fin_cases j <;> simp [hatV]
      rw [this, abs_zero] at h
      norm_num at h

/-- C43: a matrix that is not skew-symmetric (to 1e-5) anywhere in the batch raises `ValueError`. -/
theorem C43_hat_inv_rejects {N : ℕ} (h : Fin N → M3) (n : Fin N) (i j : Fin 3)
    (hb : 1e-5 < |h n i j + h n j i|) : hatInv h = .error .valueError := by
  unfold hatInv
  rw [if_neg (Nat.ne_of_gt (Fin.pos n)), if_pos ⟨n, i, j, hb⟩]

/-! ## exponential -/

theorem exp_eq_of_large {v : V3} (h : 1e-4 ≤ dot v v) :
    so3ExpMap v 1e-4 = axisAndAngleToMatrix33 (fun i => v i / norm3 v) (norm3 v) := by
  have hn2 := norm3_sq v
  have hpos : 0 < norm3 v := by
    apply Real.sqrt_pos.2; refine lt_of_lt_of_le ?_ h; norm_num
  unfold so3ExpMap
  simp only
  rw [max_eq_left h]
  change (1 / norm3 v * sin (norm3 v)) • hatV v + (1 / norm3 v * (1 / norm3 v) * (1 - cos (norm3 v))) • (hatV v * hatV v)
    + 1 = _
  generalize norm3 v = n at *
  unfold dot at hn2
  apply m3_ext9 <;>
  simp [axisAndAngleToMatrix33, hatV, Matrix.mul_apply, Fin.sum_univ_three, Matrix.add_apply, Matrix.smul_apply] <;>
  field_simp <;> grind

/-- C43: outside the clamp (`|v| ≥ 0.01`) `so3_exp_map v` is the rotation by `|v|` about `v / |v|`. -/
theorem C43_exp_is_rotation (v : V3) (h : 0.01 ≤ vlen v) :
    so3ExpMap v 1e-4 = rotAbout (fun i => v i / vlen v) (vlen v) ∧ IsRot (so3ExpMap v 1e-4) := by
  rw [vlen_eq_norm3] at *
  have h2 : 1e-4 ≤ dot v v := by
    rw [← norm3_sq]; nlinarith
  rw [exp_eq_of_large h2]
  refine ⟨axisAndAngleToMatrix33_eq_rotAbout _ _, axisAndAngle_isRot (dot_unit_of_norm ?_) _⟩
  intro h0; rw [h0] at h; norm_num at h

example : (0.01 : ℝ) ≤ vlen ![0, 3, 4] := by
  rw [vlen]; exact Real.le_sqrt_of_sq_le (by simp only [Matrix.cons_val]; norm_num)

theorem cosOf_exp (v : V3) (eps : ℝ) : cosOf (so3ExpMap v eps) =
    1 - (1 / sqrt (max (dot v v) eps) * (1 / sqrt (max (dot v v) eps)) * (1 - cos (sqrt (max (dot v v) eps)))) * dot v v := by
  unfold so3ExpMap cosOf
  simp [hatV, Matrix.mul_apply, Fin.sum_univ_three, dot]
  ring

theorem skewVec_exp (v : V3) (eps : ℝ) : skewVec (so3ExpMap v eps) =
    (1 / sqrt (max (dot v v) eps) * sin (sqrt (max (dot v v) eps))) • v := by
  unfold so3ExpMap skewVec
  apply v3_ext <;> simp [hatV, Matrix.mul_apply, Fin.sum_univ_three] <;> ring

theorem cosOf_exp_mem (v : V3) : -1 ≤ cosOf (so3ExpMap v 1e-4) ∧ cosOf (so3ExpMap v 1e-4) ≤ 1 := by
  rw [cosOf_exp]
  have h0 := dot_self_nonneg v
  have hm : 0 < max (dot v v) 1e-4 := lt_of_lt_of_le (by norm_num) (le_max_right _ _)
  have hle : dot v v ≤ max (dot v v) 1e-4 := le_max_left _ _
  have hsq := Real.sq_sqrt hm.le
  have hpos := Real.sqrt_pos.2 hm
  generalize max (dot v v) 1e-4 = m at *
  generalize sqrt m = s at *
  have hc1 := Real.cos_le_one s
  have hc2 := Real.neg_one_le_cos s
  have e : 1 / s * (1 / s) * (1 - cos s) * dot v v = (1 - cos s) * (dot v v / m) := by
    rw [← hsq]; field_simp
  have r1 : 0 ≤ dot v v / m := by positivity
  have r2 : dot v v / m ≤ 1 := (div_le_one hm).2 hle
  rw [e]
  constructor <;> nlinarith

/-! ## logarithm -/

noncomputable def logPhi (R : M3) : ℝ := acosExtrapElem (-(1 - 1e-4)) (1 - 1e-4) (cosOf R)

theorem so3RotationAngle_ok {N : ℕ} {R : Fin N → M3} (h : ∀ n, -1 ≤ cosOf (R n) ∧ cosOf (R n) ≤ 1) :
    so3RotationAngle R 1e-4 false 1e-4 = .ok fun n => logPhi (R n) := by
  unfold so3RotationAngle
  simp only
  rw [if_neg]
  · rw [if_neg (by simp), if_pos (by norm_num)]
    unfold acosLinearExtrapolation Bound.unpack
    simp only
    rw [if_neg (by norm_num), if_neg (by norm_num)]
    congr 1
    funext n
    unfold logPhi cosOf
    congr 1
    ring
  · rintro ⟨n, hn | hn⟩ <;> have := h n <;> unfold cosOf at this <;> norm_num at hn <;> linarith

theorem so3LogMap_ok {N : ℕ} (hN : 0 < N) {R : Fin N → M3} (h : ∀ n, -1 ≤ cosOf (R n) ∧ cosOf (R n) ≤ 1) (eps : ℝ) :
    so3LogMap R eps = .ok fun n => (logPhi (R n) / phiDenom (logPhi (R n)) eps) • skewVec (R n) := by
  unfold so3LogMap
  rw [so3RotationAngle_ok h]
  simp only [ok_bind]
  unfold hatInv
  rw [if_neg hN.ne', if_neg]
  · congr 1
    funext n
    apply v3_ext <;> simp [skewVec] <;> ring
  · rintro ⟨n, i, j, hn⟩
    simp only [Matrix.smul_apply, Matrix.sub_apply, Matrix.transpose_apply, smul_eq_mul] at hn
    have : ∀ a b c : ℝ, a * (b - c) + a * (c - b) = 0 := by intro a b c; ring
    rw [this, abs_zero] at hn
    norm_num at hn

theorem isRot_cosOf {R : M3} (h : IsRot R) : -1 ≤ cosOf R ∧ cosOf R ≤ 1 := by
  have hq := matrixToQuaternion_unit h
  have hr := quaternionToMatrix_matrixToQuaternion h
  set q := matrixToQuaternion R
  have : cosOf R = 2 * q.w ^ 2 - 1 := by
    rw [← hr]
    unfold cosOf quaternionToMatrix
    rw [hq]
    unfold Quat.normSq at hq
    simp only [Matrix.of_apply, Matrix.cons_val]
    linarith
  have hw : q.w ^ 2 ≤ 1 := by
    unfold Quat.normSq at hq
    nlinarith [sq_nonneg q.x, sq_nonneg q.y, sq_nonneg q.z]
  rw [this]
  constructor <;> nlinarith [sq_nonneg q.w]

theorem skewVec_dot {R : M3} (h : IsRot R) : dot (skewVec R) (skewVec R) = 1 - cosOf R ^ 2 := by
  have hq := matrixToQuaternion_unit h
  have hr := quaternionToMatrix_matrixToQuaternion h
  set q := matrixToQuaternion R
  rw [← hr]
  unfold skewVec cosOf quaternionToMatrix dot
  rw [hq]
  unfold Quat.normSq at hq
  simp only [Matrix.of_apply, Matrix.cons_val]
  generalize q.w = w at *
  generalize q.x = x at *
  generalize q.y = y at *
  generalize q.z = z at *
  grind

theorem rot_eq_skew {R : M3} (h : IsRot R) (hx : cosOf R ≠ -1) :
    R = 1 + hatV (skewVec R) + (1 / (1 + cosOf R)) • (hatV (skewVec R) * hatV (skewVec R)) := by
  have hq := matrixToQuaternion_unit h
  have hr := quaternionToMatrix_matrixToQuaternion h
  set q := matrixToQuaternion R
  have hc : cosOf R = 2 * q.w ^ 2 - 1 := by
    rw [← hr]
    unfold cosOf quaternionToMatrix
    rw [hq]
    unfold Quat.normSq at hq
    simp only [Matrix.of_apply, Matrix.cons_val]
    linarith
  have hw : q.w ≠ 0 := by
    intro h0; rw [h0] at hc; norm_num at hc; exact hx hc
  have hs : skewVec R = ![2 * q.w * q.x, 2 * q.w * q.y, 2 * q.w * q.z] := by
    rw [← hr]
    unfold skewVec quaternionToMatrix
    rw [hq]
    apply v3_ext <;> simp only [Matrix.of_apply, Matrix.cons_val] <;> ring
  rw [hs, hc]
  conv_lhs => rw [← hr]
  unfold quaternionToMatrix
  rw [hq]
  unfold Quat.normSq at hq
  have e : (1 : ℝ) / (1 + (2 * q.w ^ 2 - 1)) = 1 / (2 * q.w ^ 2) := by congr 1; ring
  rw [e]
  generalize q.w = w at *
  generalize q.x = x at *
  generalize q.y = y at *
  generalize q.z = z at *
  apply m3_ext9 <;> simp [hatV, Matrix.mul_apply, Fin.sum_univ_three] <;> field_simp <;> ring

/-! ## numeric bounds for the small-angle bands -/

/-- the angle at which the extrapolated arccos starts, about 0.01414 -/
noncomputable def bandAngle : ℝ := arccos (1 - 1e-4)

theorem bandAngle_bounds : 0.0141 ≤ bandAngle ∧ bandAngle ≤ 0.0142 := by
  have hc : ∀ x : ℝ, 0 ≤ x → x ≤ π → arccos (cos x) = x := fun x h1 h2 => Real.arccos_cos h1 h2
  have hpi := Real.two_le_pi
  constructor
  · rw [← hc 0.0141 (by norm_num) (by norm_num; linarith)]
    apply Real.arccos_le_arccos
    have := Real.one_sub_sq_div_two_le_cos (x := 0.0141)
    norm_num at this ⊢; linarith
  · rw [← hc 0.0142 (by norm_num) (by norm_num; linarith)]
    apply Real.arccos_le_arccos
    have := Real.cos_bound (x := 0.0142) (by rw [abs_of_pos] <;> norm_num)
    rw [abs_of_pos (a := (0.0142 : ℝ)) (by norm_num)] at this
    have := (abs_le.1 this).2
    norm_num at this ⊢; linarith

theorem logPhi_exact {R : M3} (h1 : -(1 - 1e-4) ≤ cosOf R) (h2 : cosOf R ≤ 1 - 1e-4) :
    logPhi R = arccos (cosOf R) := acosExtrap_mid h1 h2

theorem sqrt_bound : 0.0141 ≤ sqrt (1 - (1 - 1e-4) * (1 - 1e-4)) ∧ sqrt (1 - (1 - 1e-4) * (1 - 1e-4)) ≤ 0.0142 := by
  constructor
  · apply Real.le_sqrt_of_sq_le; norm_num
  · rw [Real.sqrt_le_left (by norm_num)]; norm_num

theorem logPhi_small {R : M3} (h1 : 1 - 1e-4 ≤ cosOf R) (h2 : cosOf R ≤ 1) :
    0.007 ≤ logPhi R ∧ logPhi R ≤ 0.0142 := by
  unfold logPhi
  rw [acosExtrap_upper (by norm_num) h1]
  unfold acosLinearApproximation dacosDx
  obtain ⟨b1, b2⟩ := bandAngle_bounds
  obtain ⟨s1, s2⟩ := sqrt_bound
  change 0.007 ≤ _ + bandAngle ∧ _ + bandAngle ≤ _
  generalize bandAngle = δ at *
  generalize sqrt (1 - (1 - 1e-4) * (1 - 1e-4)) = s at *
  have hs : 0 < s := lt_of_lt_of_le (by norm_num) s1
  have e : (cosOf R - (1 - 1e-4)) * (-1 / s) = -((cosOf R - (1 - 1e-4)) / s) := by ring
  rw [e]
  have h3 : 0 ≤ (cosOf R - (1 - 1e-4)) / s := div_nonneg (by linarith) hs.le
  have h4 : (cosOf R - (1 - 1e-4)) / s ≤ 0.0071 := by
    rw [div_le_iff₀ hs]; norm_num at s1 ⊢; norm_num at h2; linarith
  norm_num at *
  constructor <;> linarith

theorem sin_band {x : ℝ} (h0 : 0 ≤ x) (h1 : x ≤ 0.0143) : (1 - 0.000035) * x ≤ sin x ∧ sin x ≤ x := by
  refine ⟨?_, Real.sin_le h0⟩
  have := sub_cube_le_sin h0
  have h2 : x ^ 3 = x * (x * x) := by ring
  have h3 : x * x ≤ 0.0143 * 0.0143 := mul_le_mul h1 h1 h0 (by norm_num)
  have h4 : x * (x * x) ≤ x * (0.0143 * 0.0143) := mul_le_mul_of_nonneg_left h3 h0
  norm_num at *
  linarith

theorem phiDenom_of_large {φ : ℝ} (h : 1e-4 ≤ sin φ) : phiDenom φ 1e-4 = sin φ := by
  have hp : 0 < sin φ := lt_of_lt_of_le (by norm_num) h
  unfold phiDenom signR
  rw [abs_of_pos hp, max_eq_left h, if_pos hp, if_neg hp.ne']
  ring

/-- the ratio `φ / sin φ` for the angles the extrapolation returns near zero -/
theorem ratio_band {φ : ℝ} (h1 : 0.007 ≤ φ) (h2 : φ ≤ 0.0142) :
    phiDenom φ 1e-4 = sin φ ∧ 0 < sin φ ∧ 1 ≤ φ / sin φ ∧ φ / sin φ ≤ 1.00004 := by
  have h0 : 0 < φ := lt_of_lt_of_le (by norm_num) h1
  obtain ⟨s1, s2⟩ := sin_band h0.le (by norm_num at h2 ⊢; linarith)
  have hp : 0 < sin φ := lt_of_lt_of_le (by norm_num; exact h0) s1
  refine ⟨phiDenom_of_large ?_, hp, ?_, ?_⟩
  · refine le_trans ?_ s1; norm_num at *; linarith
  · rw [le_div_iff₀ hp]; linarith
  · rw [div_le_iff₀ hp]; norm_num at *; linarith

theorem exact_sin {x : ℝ} (h1 : -(1 - 1e-4) ≤ x) (h2 : x ≤ 1 - 1e-4) : 0.0141 ≤ sqrt (1 - x ^ 2) := by
  apply Real.le_sqrt_of_sq_le
  norm_num at *
  nlinarith

/-- C43, the part of `log ∘ exp` that holds: on every non-empty batch of vectors shorter than `π - 0.01414…`, the
result is `v` exactly for vectors of length at least `bandAngle = arccos (1 - 1e-4) ≈ 0.01414`, and a multiple of
`v` within relative error `1e-4` below that.
Missing: exactness below `bandAngle`, and lengths from `π - bandAngle` to `π`, where it is false
(`C43_log_half_turn_fails`). -/
theorem C43_log_exp_partial {N : ℕ} (hN : 0 < N) (v : Fin N → V3) (hv : ∀ n, vlen (v n) ≤ π - bandAngle) :
    ∃ w, so3LogMap (fun n => so3ExpMap (v n) 1e-4) 1e-4 = .ok w ∧
      ∀ n, (bandAngle ≤ vlen (v n) → w n = v n) ∧ ∃ c : ℝ, |c - 1| ≤ 1e-4 ∧ w n = c • v n := by
  refine ⟨_, so3LogMap_ok hN (fun n => cosOf_exp_mem (v n)) 1e-4, fun n => ?_⟩
  have hv' := hv n
  rw [vlen_eq_norm3] at *
  obtain ⟨b1, b2⟩ := bandAngle_bounds
  have hn0 := norm3_nonneg (v n)
  have hn2 := norm3_sq (v n)
  have hband : cos bandAngle = 1 - 1e-4 := Real.cos_arccos (by norm_num) (by norm_num)
  have hpi := Real.two_le_pi
  -- exact region
  have exact_part : bandAngle ≤ norm3 (v n) →
      (logPhi (so3ExpMap (v n) 1e-4) / phiDenom (logPhi (so3ExpMap (v n) 1e-4)) 1e-4) •
        skewVec (so3ExpMap (v n) 1e-4) = v n := by
    intro hb
    have h2 : 1e-4 ≤ dot (v n) (v n) := by rw [← hn2]; norm_num at *; nlinarith
    have hcos : cosOf (so3ExpMap (v n) 1e-4) = cos (norm3 (v n)) := by
      rw [cosOf_exp, max_eq_left h2, ← hn2, Real.sqrt_sq hn0]
      have : norm3 (v n) ≠ 0 := by intro h0; rw [h0] at hb; norm_num at *; linarith
      field_simp; ring
    have c1 : -(1 - 1e-4) ≤ cos (norm3 (v n)) := by
      rw [← hband, ← Real.cos_pi_sub]
      exact Real.cos_le_cos_of_nonneg_of_le_pi hn0 (by linarith) hv'
    have c2 : cos (norm3 (v n)) ≤ 1 - 1e-4 := by
      rw [← hband]
      exact Real.cos_le_cos_of_nonneg_of_le_pi (by linarith) (by linarith) hb
    have hphi : logPhi (so3ExpMap (v n) 1e-4) = norm3 (v n) := by
      rw [logPhi_exact (by rw [hcos]; exact c1) (by rw [hcos]; exact c2), hcos,
        Real.arccos_cos hn0 (by linarith)]
    have hsin : 0.0141 ≤ sin (norm3 (v n)) := by
      have := exact_sin c1 c2
      rwa [← Real.abs_sin_eq_sqrt_one_sub_cos_sq, abs_of_nonneg] at this
      exact Real.sin_nonneg_of_nonneg_of_le_pi hn0 (by linarith)
    have hsp : 0 < sin (norm3 (v n)) := lt_of_lt_of_le (by norm_num) hsin
    rw [skewVec_exp, hphi, phiDenom_of_large (le_trans (by norm_num) hsin), max_eq_left h2, ← hn2, Real.sqrt_sq hn0,
      smul_smul]
    have : norm3 (v n) ≠ 0 := by intro h0; rw [h0] at hb; norm_num at *; linarith
    have e : norm3 (v n) / sin (norm3 (v n)) * (1 / norm3 (v n) * sin (norm3 (v n))) = 1 := by field_simp
    rw [e, one_smul]
  refine ⟨exact_part, ?_⟩
  rcases le_or_gt bandAngle (norm3 (v n)) with hb | hb
  · exact ⟨1, by norm_num, by rw [exact_part hb, one_smul]⟩
  · set m := max (dot (v n) (v n)) 1e-4 with hm
    set θ := sqrt m with hθ
    have m1 : 1e-4 ≤ m := le_max_right _ _
    have m2 : dot (v n) (v n) ≤ m := le_max_left _ _
    have m3 : m ≤ 0.0142 * 0.0142 := by
      rw [hm, ← hn2]; apply max_le <;> norm_num at * <;> nlinarith
    have t1 : 0.01 ≤ θ := Real.le_sqrt_of_sq_le (by norm_num at *; linarith)
    have t2 : θ ≤ 0.0142 := by
      rw [hθ, Real.sqrt_le_left (by norm_num)]; norm_num at *; linarith
    have t0 : 0 < θ := lt_of_lt_of_le (by norm_num) t1
    have hθ2 : θ ^ 2 = m := Real.sq_sqrt (le_trans (by norm_num) m1)
    have hx : 1 - 1e-4 ≤ cosOf (so3ExpMap (v n) 1e-4) := by
      rw [cosOf_exp, ← hm, ← hθ]
      have e : 1 / θ * (1 / θ) * (1 - cos θ) * dot (v n) (v n) = (1 - cos θ) * (dot (v n) (v n) / m) := by
        rw [← hθ2]; field_simp
      rw [e]
      have hmp : 0 < m := lt_of_lt_of_le (by norm_num) m1
      have r1 : 0 ≤ dot (v n) (v n) / m := div_nonneg (dot_self_nonneg _) hmp.le
      have r2 : dot (v n) (v n) / m ≤ 1 := (div_le_one hmp).2 m2
      have hc : cos bandAngle ≤ cos θ := by
        apply Real.cos_le_cos_of_nonneg_of_le_pi t0.le (by norm_num at *; linarith)
        rw [hθ, Real.sqrt_le_left (by linarith)]
        apply max_le
        · rw [← hn2]; nlinarith
        · norm_num at *; nlinarith
      rw [hband] at hc
      nlinarith [Real.cos_le_one θ]
    obtain ⟨p1, p2⟩ := logPhi_small hx (cosOf_exp_mem (v n)).2
    obtain ⟨q1, q2, q3, q4⟩ := ratio_band p1 p2
    obtain ⟨s1, s2⟩ := sin_band t0.le (by norm_num at *; linarith)
    rw [q1, skewVec_exp, ← hm, ← hθ, smul_smul]
    refine ⟨_, ?_, rfl⟩
    generalize logPhi (so3ExpMap (v n) 1e-4) / sin (logPhi (so3ExpMap (v n) 1e-4)) = r at *
    have f1 : 1 / θ * sin θ ≤ 1 := by
      rw [one_div, inv_mul_le_iff₀ t0]; linarith
    have f2 : 1 - 0.000035 ≤ 1 / θ * sin θ := by
      rw [one_div, ← div_eq_inv_mul, le_div_iff₀ t0]; exact s1
    generalize 1 / θ * sin θ = f at *
    rw [abs_le]
    norm_num at *
    constructor <;> nlinarith

/-- a batch with one vector in each region -/
example : ∀ n : Fin 2, vlen (![![0, 0, 0.001], ![1, 1, 0]] n) ≤ π - bandAngle := by
  have h := bandAngle_bounds.2
  have := Real.two_le_pi
  intro n
  have : vlen (![![0, 0, 0.001], ![1, 1, 0]] n) ≤ 1.5 := by
    fin_cases n <;> rw [vlen, Real.sqrt_le_left (by norm_num)] <;> simp <;> norm_num
  norm_num at *; linarith

theorem hatV_entry_bounds {a : V3} (h : dot a a ≤ 0.0002) (i j : Fin 3) :
    |hatV a i j| ≤ 0.0142 ∧ |(hatV a * hatV a) i j| ≤ 0.0002 := by
  unfold dot at h
  have z0 := mul_self_nonneg (a 0)
  have z1 := mul_self_nonneg (a 1)
  have z2 := mul_self_nonneg (a 2)
  constructor
  · have : ∀ y : ℝ, y * y ≤ 0.0002 → |y| ≤ 0.0142 := by
      intro y hy; apply abs_le_of_sq_le_sq _ (by norm_num); norm_num at *; nlinarith
    apply this
    fin_cases i <;> fin_cases j <;> simp [hatV] <;> norm_num at * <;> linarith
  · have d1 := sq_nonneg (a 0 - a 1)
    have d2 := sq_nonneg (a 0 - a 2)
    have d3 := sq_nonneg (a 1 - a 2)
    have d4 := sq_nonneg (a 0 + a 1)
    have d5 := sq_nonneg (a 0 + a 2)
    have d6 := sq_nonneg (a 1 + a 2)
    have e : hatV a * hatV a = !![-(a 1 * a 1 + a 2 * a 2), a 0 * a 1, a 0 * a 2;
        a 0 * a 1, -(a 0 * a 0 + a 2 * a 2), a 1 * a 2; a 0 * a 2, a 1 * a 2, -(a 0 * a 0 + a 1 * a 1)] := by
      apply m3_ext9 <;> simp [hatV, Matrix.mul_apply, Fin.sum_univ_three] <;> ring
    have key : ∀ y : ℝ, (y ≤ a 0 * a 0 + a 1 * a 1 + a 2 * a 2 ∧ -y ≤ a 0 * a 0 + a 1 * a 1 + a 2 * a 2) →
        |y| ≤ 0.0002 := fun y hy => abs_le.2 ⟨by linarith [hy.2], by linarith [hy.1]⟩
    rw [e]
    apply key
    fin_cases i <;> fin_cases j <;> simp <;> constructor <;> nlinarith

set_option maxHeartbeats 1000000 in
/-- C43, the part of `exp ∘ log` that holds: on every non-empty batch of rotations, with `θ` the rotation angle of an
element, `so3_log_map` gives a vector of length `θ` whose exponential is the element, for
`bandAngle ≤ θ ≤ π - bandAngle`; for smaller `θ` each entry is off by at most `1e-5`.
Missing: angles above `π - bandAngle`, where it is false (`C43_log_half_turn_fails`). -/
theorem C43_exp_log_partial {N : ℕ} (hN : 0 < N) (R : Fin N → M3) (hR : ∀ n, IsRot (R n)) :
    ∃ w, so3LogMap R 1e-4 = .ok w ∧
      ∀ n, (bandAngle ≤ rotAngle (R n) → rotAngle (R n) ≤ π - bandAngle →
          so3ExpMap (w n) 1e-4 = R n ∧ vlen (w n) = rotAngle (R n)) ∧
        (rotAngle (R n) ≤ bandAngle → ∀ i j, |so3ExpMap (w n) 1e-4 i j - R n i j| ≤ 1e-5) := by
  refine ⟨_, so3LogMap_ok hN (fun n => isRot_cosOf (hR n)) 1e-4, fun n => ?_⟩
  have hRn := hR n
  generalize R n = R at *
  obtain ⟨x1, x2⟩ := isRot_cosOf hRn
  have hang : rotAngle R = arccos (cosOf R) := by rw [cosOf_eq]; rfl
  have hcosang : cos (rotAngle R) = cosOf R := by rw [hang, Real.cos_arccos x1 x2]
  have hband : cos bandAngle = 1 - 1e-4 := Real.cos_arccos (by norm_num) (by norm_num)
  obtain ⟨b1, b2⟩ := bandAngle_bounds
  have hpi := Real.two_le_pi
  have ha0 : 0 ≤ rotAngle R := by rw [hang]; exact Real.arccos_nonneg _
  have hapi : rotAngle R ≤ π := by rw [hang]; exact Real.arccos_le_pi _
  have hs := skewVec_dot hRn
  constructor
  · intro h1 h2
    have c1 : -(1 - 1e-4) ≤ cosOf R := by
      rw [← hcosang, ← hband, ← Real.cos_pi_sub]
      exact Real.cos_le_cos_of_nonneg_of_le_pi ha0 (by linarith) h2
    have c2 : cosOf R ≤ 1 - 1e-4 := by
      rw [← hcosang, ← hband]
      exact Real.cos_le_cos_of_nonneg_of_le_pi (by linarith) hapi h1
    have hphi : logPhi R = rotAngle R := by rw [logPhi_exact c1 c2, hang]
    have hsin : 0.0141 ≤ sin (rotAngle R) := by
      rw [hang, Real.sin_arccos]; exact exact_sin c1 c2
    have hsp : 0 < sin (rotAngle R) := lt_of_lt_of_le (by norm_num) hsin
    rw [hphi, phiDenom_of_large (le_trans (by norm_num) hsin)]
    have hsq : sin (rotAngle R) ^ 2 = 1 - cosOf R ^ 2 := by rw [← hcosang, Real.sin_sq]
    have hφ : 0 < rotAngle R := by norm_num at *; linarith
    have hdot : dot ((rotAngle R / sin (rotAngle R)) • skewVec R) ((rotAngle R / sin (rotAngle R)) • skewVec R) =
        rotAngle R ^ 2 := by
      have : ∀ (c : ℝ) (a : V3), dot (c • a) (c • a) = c ^ 2 * dot a a := by
        intro c a; simp [dot]; ring
      rw [this, hs, ← hsq]
      field_simp
    refine ⟨?_, ?_⟩
    · have hne : cosOf R ≠ -1 := by intro h; rw [h] at c1; norm_num at c1
      conv_rhs => rw [rot_eq_skew hRn hne]
      unfold so3ExpMap
      simp only
      rw [hdot, max_eq_left (by norm_num at *; nlinarith), Real.sqrt_sq ha0, hatV_smul, hcosang]
      have e2 : (1 : ℝ) / (1 + cosOf R) = (1 - cosOf R) / sin (rotAngle R) ^ 2 := by
        rw [hsq]
        have g1 : 1 + cosOf R ≠ 0 := by intro h; apply hne; linarith
        have g2 : 1 - cosOf R ^ 2 ≠ 0 := by rw [← hsq]; positivity
        field_simp
        ring
      rw [e2]
      rw [Matrix.smul_mul, Matrix.mul_smul, smul_smul, smul_smul, smul_smul]
      have k1 : 1 / rotAngle R * sin (rotAngle R) * (rotAngle R / sin (rotAngle R)) = 1 := by field_simp
      have k2 : 1 / rotAngle R * (1 / rotAngle R) * (1 - cosOf R) *
          (rotAngle R / sin (rotAngle R)) * (rotAngle R / sin (rotAngle R)) = (1 - cosOf R) / sin (rotAngle R) ^ 2 := by
        field_simp
      rw [k1, k2, one_smul]
      abel
    · rw [vlen_eq_norm3, norm3, hdot, Real.sqrt_sq ha0]
  · intro h
    have hx : 1 - 1e-4 ≤ cosOf R := by
      rw [← hcosang, ← hband]
      exact Real.cos_le_cos_of_nonneg_of_le_pi ha0 (by linarith) h
    obtain ⟨p1, p2⟩ := logPhi_small hx x2
    obtain ⟨q1, q2, q3, q4⟩ := ratio_band p1 p2
    rw [q1]
    generalize logPhi R / sin (logPhi R) = r at *
    have hdot : dot (r • skewVec R) (r • skewVec R) = r ^ 2 * (1 - cosOf R ^ 2) := by
      rw [← hs]; simp [dot]; ring
    have hd0 : 0 ≤ 1 - cosOf R ^ 2 := by nlinarith
    have hd1 : 1 - cosOf R ^ 2 ≤ 0.0002 := by norm_num at *; nlinarith
    have hne : cosOf R ≠ -1 := by intro h; rw [h] at hx; norm_num at hx
    set m := max (dot (r • skewVec R) (r • skewVec R)) 1e-4 with hm
    set θ := sqrt m with hθ
    have m1 : 1e-4 ≤ m := le_max_right _ _
    have m3 : m ≤ 0.0142 * 0.0142 := by
      rw [hm, hdot]
      have : r ^ 2 ≤ 1.00004 ^ 2 := pow_le_pow_left₀ (by linarith) q4 2
      have : r ^ 2 * (1 - cosOf R ^ 2) ≤ 1.00004 ^ 2 * 0.0002 := mul_le_mul this hd1 hd0 (by norm_num)
      apply max_le
      · refine this.trans ?_; norm_num
      · norm_num
    have t1 : 0.01 ≤ θ := Real.le_sqrt_of_sq_le (by norm_num at *; linarith)
    have t2 : θ ≤ 0.0142 := by
      rw [hθ, Real.sqrt_le_left (by norm_num)]; norm_num at *; linarith
    have t0 : 0 < θ := lt_of_lt_of_le (by norm_num) t1
    obtain ⟨s1, s2⟩ := sin_band t0.le (by norm_num at *; linarith)
    have f1 : 1 / θ * sin θ ≤ 1 := by
      rw [one_div, inv_mul_le_iff₀ t0]; linarith
    have f2 : 1 - 0.000035 ≤ 1 / θ * sin θ := by
      rw [one_div, ← div_eq_inv_mul, le_div_iff₀ t0]; exact s1
    have g1 : 1 / θ * (1 / θ) * (1 - cos θ) ≤ 0.5 := by
      have := Real.one_sub_sq_div_two_le_cos (x := θ)
      have e : 1 / θ * (1 / θ) * (1 - cos θ) = (1 - cos θ) / θ ^ 2 := by field_simp
      rw [e, div_le_iff₀ (by positivity)]
      norm_num; linarith
    have g2 : 0.4999 ≤ 1 / θ * (1 / θ) * (1 - cos θ) := by
      have hb := Real.cos_bound (x := θ) (by rw [abs_of_pos t0]; norm_num at *; linarith)
      rw [abs_of_pos t0] at hb
      have hb := (abs_le.1 hb).2
      have e : 1 / θ * (1 / θ) * (1 - cos θ) = (1 - cos θ) / θ ^ 2 := by field_simp
      rw [e, le_div_iff₀ (by positivity)]
      have q : θ ^ 4 = θ ^ 2 * θ ^ 2 := by ring
      have q' : θ ^ 2 ≤ 0.0142 ^ 2 := pow_le_pow_left₀ t0.le t2 2
      have q'' : θ ^ 2 * θ ^ 2 ≤ θ ^ 2 * 0.0142 ^ 2 := mul_le_mul_of_nonneg_left q' (sq_nonneg _)
      have q0 : 0 ≤ θ ^ 2 := sq_nonneg _
      rw [q] at hb
      generalize θ ^ 2 = y at *
      generalize y * y = y2 at *
      linarith
    have hexp : so3ExpMap (r • skewVec R) 1e-4 = (1 / θ * sin θ * r) • hatV (skewVec R) +
        (1 / θ * (1 / θ) * (1 - cos θ) * r * r) • (hatV (skewVec R) * hatV (skewVec R)) + 1 := by
      unfold so3ExpMap
      simp only
      rw [← hm, ← hθ, hatV_smul, Matrix.smul_mul, Matrix.mul_smul, smul_smul, smul_smul, smul_smul]
    intro i j
    have hdiff : so3ExpMap (r • skewVec R) 1e-4 i j - R i j =
        (1 / θ * sin θ * r - 1) * hatV (skewVec R) i j +
        (1 / θ * (1 / θ) * (1 - cos θ) * r * r - 1 / (1 + cosOf R)) * (hatV (skewVec R) * hatV (skewVec R)) i j := by
      have hr := congrFun (congrFun (rot_eq_skew hRn hne) i) j
      rw [hexp, hr]
      simp only [Matrix.add_apply, Matrix.smul_apply, smul_eq_mul]
      ring
    rw [hdiff]
    generalize 1 / θ * (1 / θ) * (1 - cos θ) = g at *
    generalize 1 / θ * sin θ = f at *
    have hA : |f * r - 1| ≤ 1e-4 := by
      rw [abs_le]; norm_num at *; constructor <;> nlinarith
    have hB : |g * r * r - 1 / (1 + cosOf R)| ≤ 1e-3 := by
      have k1 : 0.5 ≤ 1 / (1 + cosOf R) := by
        rw [le_div_iff₀ (by linarith)]; norm_num; linarith
      have k2 : 1 / (1 + cosOf R) ≤ 0.5001 := by
        rw [div_le_iff₀ (by linarith)]; norm_num at *; linarith
      have k3 : 1 ≤ r * r := by nlinarith
      have k4 : r * r ≤ 1.0001 := by norm_num at *; nlinarith
      rw [mul_assoc, abs_le]
      norm_num at *
      constructor <;> nlinarith
    have hsum : dot (skewVec R) (skewVec R) ≤ 0.0002 := by rw [hs]; exact hd1
    obtain ⟨hH, hH2⟩ := hatV_entry_bounds hsum i j
    generalize skewVec R = a at *
    calc |(f * r - 1) * hatV a i j + (g * r * r - 1 / (1 + cosOf R)) * (hatV a * hatV a) i j|
        ≤ |f * r - 1| * |hatV a i j| + |g * r * r - 1 / (1 + cosOf R)| * |(hatV a * hatV a) i j| := by
          rw [← abs_mul, ← abs_mul]; exact abs_add_le _ _
      _ ≤ 1e-4 * 0.0142 + 1e-3 * 0.0002 := by
          apply add_le_add
          · exact mul_le_mul hA hH (abs_nonneg _) (by norm_num)
          · exact mul_le_mul hB hH2 (abs_nonneg _) (by norm_num)
      _ ≤ 1e-5 := by norm_num

/-- a quarter turn is in the exact region -/
example : bandAngle ≤ rotAngle !![0, -1, 0; 1, 0, 0; 0, 0, 1] ∧
    rotAngle !![0, -1, 0; 1, 0, 0; 0, 0, 1] ≤ π - bandAngle := by
  have e : rotAngle !![0, -1, 0; 1, 0, 0; 0, 0, 1] = π / 2 := by
    unfold rotAngle; simp [Matrix.trace, Fin.sum_univ_three]
  have h := bandAngle_bounds.2
  have := Real.two_le_pi
  rw [e]
  norm_num at *
  constructor <;> linarith

/-- C43 is false at half turns: the logarithm of every half turn is the zero vector, whose exponential is the
identity, not the half turn. -/
theorem C43_log_half_turn_fails {N : ℕ} (hN : 0 < N) (R : Fin N → M3) (hR : ∀ n, IsRot (R n))
    (hpi : ∀ n, rotAngle (R n) = π) :
    so3LogMap R 1e-4 = .ok (fun _ => 0) ∧ ∀ n, so3ExpMap (0 : V3) 1e-4 = 1 ∧ R n ≠ 1 := by
  constructor
  · rw [so3LogMap_ok hN (fun n => isRot_cosOf (hR n))]
    congr 1
    funext n
    have hx : cosOf (R n) = -1 := by
      have := isRot_cosOf (hR n)
      have h1 : cos (rotAngle (R n)) = cosOf (R n) := by
        unfold rotAngle; rw [← cosOf_eq, Real.cos_arccos this.1 this.2]
      rw [← h1, hpi n, Real.cos_pi]
    have h0 : skewVec (R n) = 0 := by
      have := skewVec_dot (hR n)
      rw [hx] at this
      apply norm3_eq_zero.1
      rw [norm3, this]; norm_num
    rw [h0, smul_zero]
  · intro n
    refine ⟨?_, ?_⟩
    · apply m3_ext9 <;> simp [so3ExpMap, hatV, Matrix.mul_apply, Fin.sum_univ_three]
    · intro h
      have := hpi n
      rw [h] at this
      unfold rotAngle at this
      norm_num [Matrix.trace] at this
      linarith [Real.pi_pos]

/-- a half turn about x -/
example : IsRot !![1, 0, 0; 0, -1, 0; 0, 0, -1] ∧ rotAngle !![1, 0, 0; 0, -1, 0; 0, 0, -1] = π := by
  constructor
  · apply isRot_of_eqs <;> simp [Matrix.det_fin_three]
  · unfold rotAngle; simp [Matrix.trace, Fin.sum_univ_three]; norm_num

/-- C43: `so3_rotation_angle` and `so3_relative_angle` on rotations: the cosine is exact, the angle is exact between
`bandAngle` and `π - bandAngle`. -/
theorem C43_relative_angle {N : ℕ} (R1 R2 : Fin N → M3) (h1 : ∀ n, IsRot (R1 n)) (h2 : ∀ n, IsRot (R2 n)) :
    ∃ c a, so3RelativeAngle R1 R2 true = .ok c ∧ so3RelativeAngle R1 R2 false = .ok a ∧
      ∀ n, c n = cos (rotAngle (R1 n * (R2 n)ᵀ)) ∧
        (bandAngle ≤ rotAngle (R1 n * (R2 n)ᵀ) → rotAngle (R1 n * (R2 n)ᵀ) ≤ π - bandAngle →
          a n = rotAngle (R1 n * (R2 n)ᵀ)) := by
  have hr : ∀ n, IsRot (R1 n * (R2 n)ᵀ) := fun n => (h1 n).mul (h2 n).transpose
  have hc := fun n => isRot_cosOf (hr n)
  refine ⟨fun n => cosOf (R1 n * (R2 n)ᵀ), _, ?_, so3RotationAngle_ok hc, fun n => ⟨?_, ?_⟩⟩
  · unfold so3RelativeAngle so3RotationAngle
    simp only
    rw [if_neg]
    · simp only [if_true]; congr 1; funext n; unfold cosOf; ring
    · rintro ⟨n, hn | hn⟩ <;> have := hc n <;> unfold cosOf at this <;> norm_num at hn <;> linarith
  · unfold rotAngle; rw [← cosOf_eq, Real.cos_arccos (hc n).1 (hc n).2]
  · intro g1 g2
    have hcos : cos (rotAngle (R1 n * (R2 n)ᵀ)) = cosOf (R1 n * (R2 n)ᵀ) := by
      unfold rotAngle; rw [← cosOf_eq, Real.cos_arccos (hc n).1 (hc n).2]
    have hang : rotAngle (R1 n * (R2 n)ᵀ) = arccos (cosOf (R1 n * (R2 n)ᵀ)) := by rw [cosOf_eq]; rfl
    have hband : cos bandAngle = 1 - 1e-4 := Real.cos_arccos (by norm_num) (by norm_num)
    have b1 := bandAngle_bounds.1
    have b2 := bandAngle_bounds.2
    have hpi := Real.two_le_pi
    have b0 : 0 ≤ bandAngle := Real.arccos_nonneg _
    rw [logPhi_exact, hang]
    · rw [← hcos, ← hband, ← Real.cos_pi_sub]
      exact Real.cos_le_cos_of_nonneg_of_le_pi (by linarith) (by linarith) g2
    · rw [← hcos, ← hband]
      exact Real.cos_le_cos_of_nonneg_of_le_pi b0 (by linarith) g1

/-- C43: a trace outside `[-1-1e-4, 3+1e-4]` anywhere in the batch raises `ValueError`, in the angle functions and in
the logarithm. -/
theorem C43_trace_rejected {N : ℕ} (R : Fin N → M3) (n : Fin N)
    (h : (R n).trace < -1 - 1e-4 ∨ 3 + 1e-4 < (R n).trace) (c : Bool) (b e : ℝ) :
    so3RotationAngle R 1e-4 c b = .error .valueError ∧ so3LogMap R e = .error .valueError := by
  have ht : ∃ n, R n 0 0 + R n 1 1 + R n 2 2 < -1 - 1e-4 ∨ 3 + 1e-4 < R n 0 0 + R n 1 1 + R n 2 2 := by
    refine ⟨n, ?_⟩
    simpa [Matrix.trace, Fin.sum_univ_three] using h
  constructor
  · unfold so3RotationAngle; simp only; rw [if_pos ht]
  · unfold so3LogMap so3RotationAngle; simp only; rw [if_pos ht]; rfl

end PK
