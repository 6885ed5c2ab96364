import Verif.Model.Math
import Verif.Model.Perturb
import Verif.Props.Euler
import Verif.Props.AxisAngle
import Verif.Lemmas.Rigid
import Verif.Lemmas.MatQuat
import Verif.Lemmas.Quat
import Mathlib.Analysis.SpecialFunctions.Trigonometric.InverseDeriv

/-!
# C44 (acos extrapolation), C45 (angular distance), C46/C47 (slerp), C48 (perturbations)
-/

namespace PK
open Matrix Spec Real

/-! ## C44 -/

theorem dacosDx_eq_deriv (x : ℝ) : dacosDx x = deriv arccos x := by
  rw [Real.deriv_arccos, dacosDx, neg_div]; ring_nf

theorem dacosDx_neg {x : ℝ} (h1 : -1 < x) (h2 : x < 1) : dacosDx x < 0 := by
  unfold dacosDx
  exact div_neg_of_neg_of_pos (by norm_num) (Real.sqrt_pos.2 (by nlinarith))

theorem acosApprox_self (x : ℝ) : acosLinearApproximation x x = arccos x := by
  simp [acosLinearApproximation]

theorem acosApprox_strictAnti {x0 : ℝ} (h1 : -1 < x0) (h2 : x0 < 1) :
    StrictAnti fun x => acosLinearApproximation x x0 := by
  intro a b h
  have := dacosDx_neg h1 h2
  simp only [acosLinearApproximation]
  nlinarith

theorem acosExtrap_lower {l u x : ℝ} (h : x ≤ l) : acosExtrapElem l u x = acosLinearApproximation x l := by
  rw [acosExtrapElem, if_pos h]

theorem acosExtrap_upper {l u x : ℝ} (hlu : l ≤ u) (h : u ≤ x) :
    acosExtrapElem l u x = acosLinearApproximation x u := by
  unfold acosExtrapElem
  by_cases hx : x ≤ l
  · have e1 : x = u := le_antisymm (hx.trans hlu) h
    have e2 : l = u := le_antisymm hlu (h.trans hx)
    rw [if_pos hx, e1, e2]
  · rw [if_neg hx, if_pos h]

theorem acosExtrap_mid {l u x : ℝ} (h1 : l ≤ x) (h2 : x ≤ u) : acosExtrapElem l u x = arccos x := by
  unfold acosExtrapElem
  split_ifs with a b
  · rw [le_antisymm a h1, acosApprox_self]
  · rw [le_antisymm h2 b, acosApprox_self]
  · rfl

theorem acosExtrap_continuous {l u : ℝ} (hlu : l ≤ u) : Continuous (acosExtrapElem l u) := by
  have e : acosExtrapElem l u = fun x => if x ≤ l then acosLinearApproximation x l
      else if u ≤ x then acosLinearApproximation x u else arccos x := rfl
  rw [e]
  have hc : ∀ x0, Continuous fun x => acosLinearApproximation x x0 := by
    intro x0; unfold acosLinearApproximation; fun_prop
  apply Continuous.if_le (hc l) ?_ continuous_id continuous_const
  · intro x hx
    simp only [id] at hx
    subst hx
    rw [acosApprox_self]
    split_ifs with h
    · rw [le_antisymm hlu h, acosApprox_self]
    · rfl
  · apply Continuous.if_le (hc u) continuous_arccos continuous_const continuous_id
    intro x hx
    simp only [id] at hx
    rw [← hx, acosApprox_self]

theorem acosExtrap_strictAnti {l u : ℝ} (h0 : -1 < l) (hlu : l ≤ u) (h1 : u < 1) :
    StrictAnti (acosExtrapElem l u) := by
  have hl := acosApprox_strictAnti h0 (lt_of_le_of_lt hlu h1)
  have hu := acosApprox_strictAnti (lt_of_lt_of_le h0 hlu) h1
  have hm : ∀ a b, l ≤ a → b ≤ u → a ≤ b → arccos b ≤ arccos a := fun a b _ _ h => Real.arccos_le_arccos h
  intro a b hab
  -- compare through the two joints
  have key : ∀ a b, a < b → (b ≤ l ∨ (l ≤ a ∧ b ≤ u) ∨ u ≤ a) → acosExtrapElem l u b < acosExtrapElem l u a := by
    intro a b hab h
    rcases h with h | ⟨h, h'⟩ | h
    · rw [acosExtrap_lower h, acosExtrap_lower (hab.le.trans h)]; exact hl hab
    · rw [acosExtrap_mid h (hab.le.trans h'), acosExtrap_mid (h.trans hab.le) h']
      exact Real.arccos_lt_arccos (by linarith) hab (by linarith)
    · rw [acosExtrap_upper hlu h, acosExtrap_upper hlu (h.trans hab.le)]; exact hu hab
  rcases le_or_gt b l with hb | hb
  · exact key a b hab (.inl hb)
  rcases le_or_gt u a with ha | ha
  · exact key a b hab (.inr (.inr ha))
  rcases lt_or_ge a l with ha' | ha'
  · have s1 := key a l ha' (.inl le_rfl)
    rcases le_or_gt b u with hb' | hb'
    · exact (key l b hb (.inr (.inl ⟨le_rfl, hb'⟩))).trans s1
    · have s3 := key u b hb' (.inr (.inr le_rfl))
      rcases hlu.eq_or_lt with e | e
      · rw [show acosExtrapElem l u u = acosExtrapElem l u l by rw [← e]] at s3; exact s3.trans s1
      · exact s3.trans ((key l u e (.inr (.inl ⟨le_rfl, le_rfl⟩))).trans s1)
  · rcases le_or_gt b u with hb' | hb'
    · exact key a b hab (.inr (.inl ⟨ha', hb'⟩))
    · exact (key u b hb' (.inr (.inr le_rfl))).trans (key a u ha (.inr (.inl ⟨ha', le_rfl⟩)))

/-- the two numbers a `bound` argument stands for -/
def BoundIs : Bound → ℝ → ℝ → Prop
  | .scalar b, l, u => l = -b ∧ u = b
  | .pair a b, l, u => l = a ∧ u = b

theorem boundIs_iff {b : Bound} {l u : ℝ} : BoundIs b l u ↔ b.unpack = (l, u) := by
  cases b <;> simp [BoundIs, Bound.unpack, eq_comm]

/-- C44: bad bounds raise `ValueError`, and only they do. -/
theorem C44_errors {ι : Type} (xs : ι → ℝ) (b : Bound) (l u : ℝ) (hb : BoundIs b l u) :
    acosLinearExtrapolation xs b = .error .valueError ↔ (u < l ∨ l ≤ -1 ∨ 1 ≤ u) := by
  rw [boundIs_iff] at hb
  unfold acosLinearExtrapolation
  rw [hb]
  simp only
  split_ifs with h1 h2
  · simp [h1]
  · simpa using Or.inr h2
  · simp only [reduceCtorEq, false_iff]; tauto

/-- C44: with good bounds the result is one fixed function applied to every entry, which is `arccos` between the
bounds, its tangent outside, continuous and strictly decreasing. -/
theorem C44_extends_acos (b : Bound) (l u : ℝ) (hb : BoundIs b l u) (h0 : -1 < l) (hlu : l ≤ u) (h1 : u < 1) :
    ∃ f : ℝ → ℝ, (∀ (ι : Type) (xs : ι → ℝ), acosLinearExtrapolation xs b = .ok fun i => f (xs i)) ∧
      (∀ x, l ≤ x → x ≤ u → f x = arccos x) ∧
      (∀ x, x ≤ l → f x = arccos l + deriv arccos l * (x - l)) ∧
      (∀ x, u ≤ x → f x = arccos u + deriv arccos u * (x - u)) ∧
      Continuous f ∧ StrictAnti f := by
  rw [boundIs_iff] at hb
  refine ⟨acosExtrapElem l u, ?_, fun x => acosExtrap_mid, ?_, ?_, acosExtrap_continuous hlu,
    acosExtrap_strictAnti h0 hlu h1⟩
  · intro ι xs
    unfold acosLinearExtrapolation
    rw [hb]
    simp only
    rw [if_neg (not_lt.2 hlu), if_neg (by rintro (h | h) <;> linarith)]
  · intro x hx
    rw [acosExtrap_lower hx, acosLinearApproximation, dacosDx_eq_deriv]; ring
  · intro x hx
    rw [acosExtrap_upper hlu hx, acosLinearApproximation, dacosDx_eq_deriv]; ring

/-- the default bound -/
example : BoundIs (.scalar (1 - 1e-4)) (-(1 - 1e-4)) (1 - 1e-4) ∧ (-1 : ℝ) < -(1 - 1e-4) := by
  constructor
  · exact ⟨rfl, rfl⟩
  · norm_num
example : BoundIs (.pair (-0.5) (-0.5)) (-0.5) (-0.5) := ⟨rfl, rfl⟩

/-! ## C45 -/

theorem qdot_le_one {a b : Quat} (ha : IsUnitQ a) (hb : IsUnitQ b) : |qdot a b| ≤ 1 := by
  unfold IsUnitQ at *
  have h : qdot a b ^ 2 ≤ 1 := by
    have : (qdot a b) ^ 2 + ((a.w * b.x - a.x * b.w) ^ 2 + (a.w * b.y - a.y * b.w) ^ 2 + (a.w * b.z - a.z * b.w) ^ 2
      + (a.x * b.y - a.y * b.x) ^ 2 + (a.x * b.z - a.z * b.x) ^ 2 + (a.y * b.z - a.z * b.y) ^ 2)
      = (a.w ^ 2 + a.x ^ 2 + a.y ^ 2 + a.z ^ 2) * (b.w ^ 2 + b.x ^ 2 + b.y ^ 2 + b.z ^ 2) := by
      unfold qdot; ring
    rw [ha, hb] at this
    nlinarith [sq_nonneg (a.w * b.x - a.x * b.w), sq_nonneg (a.w * b.y - a.y * b.w),
      sq_nonneg (a.w * b.z - a.z * b.w), sq_nonneg (a.x * b.y - a.y * b.x), sq_nonneg (a.x * b.z - a.z * b.x),
      sq_nonneg (a.y * b.z - a.z * b.y)]
  exact abs_le_one_iff_mul_self_le_one.2 (by nlinarith)

theorem clampR_id {x : ℝ} (h : |x| ≤ 1) : clampR x (-1) 1 = x := by
  obtain ⟨h1, h2⟩ := abs_le.1 h
  rw [clampR, max_eq_left h1, min_eq_left h2]

theorem two_atan2_eq {d : ℝ} (h0 : 0 ≤ d) (h1 : d ≤ 1) : atan2 (sqrt (1 - d ^ 2)) d = arccos d := by
  have hs := Real.sin_arccos d
  have hc := Real.cos_arccos (by linarith) h1
  rw [← hs]
  conv_lhs => rw [show d = cos (arccos d) from hc.symm]
  rw [Real.cos_arccos (by linarith) h1]
  nth_rewrite 2 [← hc]
  exact atan2_sin_cos (by linarith [Real.arccos_nonneg d, Real.pi_pos]) (Real.arccos_le_pi d)

/-- the result when some pair of the batch is not close -/
theorem qad_not_close {N : ℕ} (q1 q2 : Fin N → Quat) (h1 : ∀ n, IsUnitQ (q1 n)) (h2 : ∀ n, IsUnitQ (q2 n))
    (hfar : ∃ n, 1e-4 ≤ 1 - qdot (q1 n) (q2 n) ^ 2) (n : Fin N) :
    quaternionAngularDistance q1 q2 n = 2 * arccos |qdot (q1 n) (q2 n)| := by
  unfold quaternionAngularDistance
  have : ¬ quaternionClose q1 q2 1e-4 := by
    rintro h
    obtain ⟨m, hm⟩ := hfar
    exact absurd (h m) (not_lt.2 hm)
  simp only [if_neg this]
  rw [clampR_id (qdot_le_one (h1 n) (h2 n)), two_atan2_eq (abs_nonneg _) (qdot_le_one (h1 n) (h2 n))]

/-- Hamilton inner product, written out -/
def inner4 (a b : Quat) : ℝ := a.w * b.w + a.x * b.x + a.y * b.y + a.z * b.z

/-- twice the arccosine of `|q1 · q2|` is the angle of the relative rotation -/
theorem rotAngle_relative {a b : Quat} (ha : IsUnitQ a) (hb : IsUnitQ b) :
    rotAngle (quaternionToMatrix a * (quaternionToMatrix b)ᵀ) = 2 * arccos |inner4 a b| := by
  have hd := qdot_le_one ha hb
  change |inner4 a b| ≤ 1 at hd
  have ht : ((quaternionToMatrix a * (quaternionToMatrix b)ᵀ).trace - 1) / 2 = 2 * |inner4 a b| ^ 2 - 1 := by
    have ha' := isUnitQ_normSq.1 ha
    have hb' := isUnitQ_normSq.1 hb
    rw [sq_abs]
    unfold Quat.normSq at ha' hb'
    have hA : ∀ q : Quat, q.normSq = 1 → quaternionToMatrix q =
        !![q.w * q.w + q.x * q.x - q.y * q.y - q.z * q.z, 2 * (q.x * q.y - q.z * q.w), 2 * (q.x * q.z + q.y * q.w);
           2 * (q.x * q.y + q.z * q.w), q.w * q.w - q.x * q.x + q.y * q.y - q.z * q.z, 2 * (q.y * q.z - q.x * q.w);
           2 * (q.x * q.z - q.y * q.w), 2 * (q.y * q.z + q.x * q.w), q.w * q.w - q.x * q.x - q.y * q.y + q.z * q.z] := by
      intro q hq
      unfold quaternionToMatrix
      rw [hq]
      unfold Quat.normSq at hq
      apply m3_ext9 <;> simp only [Matrix.of_apply, Matrix.cons_val] <;> linarith
    rw [hA a (isUnitQ_normSq.1 ha), hA b (isUnitQ_normSq.1 hb)]
    simp only [Matrix.trace, Matrix.diag, Fin.sum_univ_three, Matrix.mul_apply, Matrix.transpose_apply,
      Matrix.of_apply, Matrix.cons_val, inner4]
    have hab : (a.w * a.w + a.x * a.x + a.y * a.y + a.z * a.z) * (b.w * b.w + b.x * b.x + b.y * b.y + b.z * b.z) = 1 := by
      rw [ha', hb']; norm_num
    linear_combination (-1 / 2) * hab
  unfold rotAngle
  rw [ht]
  have hc := Real.cos_arccos (x := |inner4 a b|) (by linarith [abs_nonneg (inner4 a b)]) hd
  have h2 : 2 * |inner4 a b| ^ 2 - 1 = cos (2 * arccos |inner4 a b|) := by
    rw [Real.cos_two_mul, hc]
  rw [h2]
  apply Real.arccos_cos
  · have := Real.arccos_nonneg |inner4 a b|; linarith
  · have := Real.arccos_le_pi_div_two.2 (abs_nonneg (inner4 a b)); linarith

/-- C45, the part that holds: when some pair of the batch is at least `1e-4` apart (`1 - (q1·q2)²`), every element
is the angle between its two rotations, `2 arccos |q1·q2|`, in `[0, π]`.
Missing: batches in which every pair is closer than that (see the two theorems below). -/
theorem C45_angular_distance_partial {N : ℕ} (q1 q2 : Fin N → Quat) (h1 : ∀ n, IsUnitQ (q1 n))
    (h2 : ∀ n, IsUnitQ (q2 n)) (hfar : ∃ n, 1e-4 ≤ 1 - inner4 (q1 n) (q2 n) ^ 2) (n : Fin N) :
    quaternionAngularDistance q1 q2 n = 2 * arccos |inner4 (q1 n) (q2 n)| ∧
    quaternionAngularDistance q1 q2 n = rotAngle (quaternionToMatrix (q1 n) * (quaternionToMatrix (q2 n))ᵀ) ∧
    0 ≤ quaternionAngularDistance q1 q2 n ∧ quaternionAngularDistance q1 q2 n ≤ π := by
  have h := qad_not_close q1 q2 h1 h2 hfar n
  refine ⟨h, ?_, ?_, ?_⟩
  · rw [h, rotAngle_relative (h1 n) (h2 n)]; rfl
  · rw [h]; have := Real.arccos_nonneg |qdot (q1 n) (q2 n)|; linarith
  · rw [h]; have := Real.arccos_le_pi_div_two.2 (abs_nonneg (qdot (q1 n) (q2 n))); linarith

theorem arccos_small {d : ℝ} (h0 : 0 ≤ d) (h1 : d ≤ 1) (h : 1 - d ^ 2 < 1e-4) : arccos d ≤ 0.01001 := by
  set t := arccos d with ht
  have t0 : 0 ≤ t := Real.arccos_nonneg d
  have t1 : t ≤ π / 2 := Real.arccos_le_pi_div_two.2 h0
  have hs : sin t < 0.01 := by
    rw [ht, Real.sin_arccos, Real.sqrt_lt' (by norm_num)]
    norm_num at h ⊢; linarith
  have hj := Real.mul_le_sin t0 t1
  have hpi := Real.pi_le_four
  have hpp := Real.pi_pos
  have t2 : t ≤ 0.02 := by
    have : t ≤ π / 2 * sin t := by
      have := mul_le_mul_of_nonneg_left hj (by positivity : 0 ≤ π / 2)
      calc t = π / 2 * (2 / π * t) := by field_simp
        _ ≤ _ := this
    nlinarith
  have hc := sub_cube_le_sin t0
  have : t ^ 3 ≤ 0.02 ^ 3 := pow_le_pow_left₀ t0 t2 3
  norm_num at this hs ⊢
  linarith

/-- C45: for every batch of unit quaternions each element is within 0.0201 rad of the true angle, symmetric in the
two arguments and unchanged by the sign of either. -/
theorem C45_angular_distance_error {N : ℕ} (q1 q2 : Fin N → Quat) (h1 : ∀ n, IsUnitQ (q1 n))
    (h2 : ∀ n, IsUnitQ (q2 n)) (n : Fin N) :
    |quaternionAngularDistance q1 q2 n - rotAngle (quaternionToMatrix (q1 n) * (quaternionToMatrix (q2 n))ᵀ)|
      ≤ 0.0201 ∧
    quaternionAngularDistance q2 q1 = quaternionAngularDistance q1 q2 ∧
    quaternionAngularDistance (fun n => negQ (q1 n)) q2 = quaternionAngularDistance q1 q2 ∧
    quaternionAngularDistance q1 (fun n => negQ (q2 n)) = quaternionAngularDistance q1 q2 := by
  refine ⟨?_, ?_, ?_, ?_⟩
  · rw [rotAngle_relative (h1 n) (h2 n)]
    by_cases hc : quaternionClose q1 q2 1e-4
    · have e : quaternionAngularDistance q1 q2 n = 0 := by
        unfold quaternionAngularDistance; rw [if_pos hc]
      have hd := qdot_le_one (h1 n) (h2 n)
      have hs := arccos_small (abs_nonneg _) hd (by rw [sq_abs]; exact hc n)
      have h0 := Real.arccos_nonneg |qdot (q1 n) (q2 n)|
      rw [e, show inner4 (q1 n) (q2 n) = qdot (q1 n) (q2 n) from rfl, zero_sub, abs_neg, abs_of_nonneg (by linarith)]
      norm_num at hs ⊢; linarith
    · have : ∃ m, 1e-4 ≤ 1 - qdot (q1 m) (q2 m) ^ 2 := by
        simpa [quaternionClose] using hc
      rw [qad_not_close q1 q2 h1 h2 this n]
      rw [show inner4 (q1 n) (q2 n) = qdot (q1 n) (q2 n) from rfl, sub_self, abs_zero]; norm_num
  · have e : ∀ a b, qdot a b = qdot b a := by intro a b; unfold qdot; ring
    unfold quaternionAngularDistance quaternionClose
    simp only [fun n => e (q2 n) (q1 n)]
  · have e : ∀ a b, qdot (negQ a) b = -qdot a b := by intro a b; unfold qdot negQ; ring
    have hn : ∀ n, |-qdot (q1 n) (q2 n)| ≤ 1 := by
      intro n; have := qdot_le_one (h1 n) (h2 n); rwa [abs_neg]
    unfold quaternionAngularDistance quaternionClose
    simp only [e, fun n => clampR_id (hn n), fun n => clampR_id (qdot_le_one (h1 n) (h2 n)), abs_neg, neg_sq]
  · have e : ∀ a b, qdot a (negQ b) = -qdot a b := by intro a b; unfold qdot negQ; ring
    have hn : ∀ n, |-qdot (q1 n) (q2 n)| ≤ 1 := by
      intro n; have := qdot_le_one (h1 n) (h2 n); rwa [abs_neg]
    unfold quaternionAngularDistance quaternionClose
    simp only [e, fun n => clampR_id (hn n), fun n => clampR_id (qdot_le_one (h1 n) (h2 n)), abs_neg, neg_sq]

/-- a unit quaternion 0.004 rad away from the identity -/
noncomputable def nearOne : Quat := ⟨999999 / 1000001, 2000 / 1000001, 0, 0⟩

theorem nearOne_unit : IsUnitQ nearOne := by unfold IsUnitQ nearOne; norm_num
theorem one_unit : IsUnitQ ⟨1, 0, 0, 0⟩ := by unfold IsUnitQ; norm_num
theorem i_unit : IsUnitQ ⟨0, 1, 0, 0⟩ := by unfold IsUnitQ; norm_num
theorem nearOne_dot : inner4 ⟨1, 0, 0, 0⟩ nearOne = 999999 / 1000001 := by unfold inner4 nearOne; norm_num

/-- C45 fails for the code: a pair alone is reported at distance 0 although the quaternions differ, and the same
pair is reported at a positive distance when another pair of the batch is far apart. -/
theorem C45_batch_dependent : ∃ a b c d : Quat, IsUnitQ a ∧ IsUnitQ b ∧ IsUnitQ c ∧ IsUnitQ d ∧
    quaternionAngularDistance ![a] ![b] 0 = 0 ∧
    quaternionAngularDistance ![a, c] ![b, d] 0 = 2 * arccos |inner4 a b| ∧ 0 < 2 * arccos |inner4 a b| := by
  refine ⟨⟨1, 0, 0, 0⟩, nearOne, ⟨1, 0, 0, 0⟩, ⟨0, 1, 0, 0⟩, one_unit, nearOne_unit, one_unit, i_unit, ?_, ?_, ?_⟩
  · unfold quaternionAngularDistance
    rw [if_pos]
    intro n
    fin_cases n
    simp only [Fin.zero_eta, Matrix.cons_val]
    rw [show qdot ⟨1, 0, 0, 0⟩ nearOne = 999999 / 1000001 from nearOne_dot]
    norm_num
  · apply qad_not_close
    · intro n; fin_cases n <;> exact one_unit
    · intro n; fin_cases n
      · exact nearOne_unit
      · exact i_unit
    · exact ⟨1, by simp [qdot]; norm_num⟩
  · rw [nearOne_dot]
    have := Real.arccos_pos (x := |999999 / 1000001|)
    have h : |(999999 / 1000001 : ℝ)| < 1 := by rw [abs_of_pos (by norm_num)]; norm_num
    have := this.2 h
    linarith

/-- the hypotheses of the positive theorems, on a two-element batch -/
example : ∃ n : Fin 2, 1e-4 ≤ 1 - inner4 (![⟨1, 0, 0, 0⟩, ⟨1, 0, 0, 0⟩] n) (![nearOne, ⟨0, 1, 0, 0⟩] n) ^ 2 :=
  ⟨1, by simp [inner4]; norm_num⟩

/-! ## C46, C47: slerp -/

theorem slerpCos_abs {N : ℕ} (q1 q2 : Fin N → Quat) (n : Fin N) : slerpCos q1 q2 n = |qdot (q1 n) (q2 n)| := by
  unfold slerpCos
  split_ifs with h
  · rw [abs_of_neg h]
  · rw [abs_of_nonneg (not_lt.1 h)]

theorem slerpFlip_dot {N : ℕ} (q1 q2 : Fin N → Quat) (n : Fin N) :
    qdot (q1 n) (slerpFlip q1 q2 n) = |qdot (q1 n) (q2 n)| := by
  unfold slerpFlip
  split_ifs with h
  · rw [abs_of_neg h]; unfold qdot Quat.neg; ring
  · rw [abs_of_nonneg (not_lt.1 h)]

theorem slerpFlip_unit {N : ℕ} {q1 q2 : Fin N → Quat} (n : Fin N) (h : IsUnitQ (q2 n)) :
    IsUnitQ (slerpFlip q1 q2 n) := by
  unfold slerpFlip
  split_ifs
  · unfold IsUnitQ Quat.neg at *; simpa using h
  · exact h

theorem slerpFlip_cases {N : ℕ} (q1 q2 : Fin N → Quat) (n : Fin N) :
    slerpFlip q1 q2 n = q2 n ∨ slerpFlip q1 q2 n = negQ (q2 n) := by
  unfold slerpFlip
  split_ifs
  · exact .inr rfl
  · exact .inl rfl

/-- the spherical weights give a unit quaternion at angle `t θ` from the first -/
theorem slerpElem_spec {a b : Quat} (ha : IsUnitQ a) (hb : IsUnitQ b) {c : ℝ} (hc : qdot a b = c)
    (h0 : 0 ≤ c) (h1 : c < 1) (t : ℝ) :
    ∃ q, slerpElem c t a b = some q ∧ IsUnitQ q ∧ qdot a q = cos (t * arccos c) ∧
      qdot q b = cos ((1 - t) * arccos c) ∧ (t = 0 → q = a) ∧ (t = 1 → q = b) := by
  have hs : 0 < sin (arccos c) := by
    rw [Real.sin_arccos]; exact Real.sqrt_pos.2 (by nlinarith)
  have hcos := Real.cos_arccos (x := c) (by linarith) h1.le
  have hsq := Real.sin_sq_add_cos_sq (arccos c)
  refine ⟨_, by unfold slerpElem; simp only; rw [if_neg hs.ne'], ?_⟩
  set θ := arccos c
  have e1 : sin ((1 - t) * θ) = sin θ * cos (t * θ) - cos θ * sin (t * θ) := by
    rw [show (1 - t) * θ = θ - t * θ by ring, Real.sin_sub]
  have e2 : cos ((1 - t) * θ) = cos θ * cos (t * θ) + sin θ * sin (t * θ) := by
    rw [show (1 - t) * θ = θ - t * θ by ring, Real.cos_sub]
  have hst := Real.sin_sq_add_cos_sq (t * θ)
  unfold IsUnitQ at *
  unfold qdot at hc
  refine ⟨?_, ?_, ?_, ?_, ?_⟩
  · have key : ∀ w1 w2 : ℝ, (Quat.comb w1 a w2 b).w ^ 2 + (Quat.comb w1 a w2 b).x ^ 2 + (Quat.comb w1 a w2 b).y ^ 2
        + (Quat.comb w1 a w2 b).z ^ 2 = w1 ^ 2 + w2 ^ 2 + 2 * w1 * w2 * c := by
      intro w1 w2
      simp only [Quat.comb]
      linear_combination w1 ^ 2 * ha + w2 ^ 2 * hb + 2 * w1 * w2 * hc
    rw [key, e1, ← hcos]
    generalize cos (t * θ) = C at *
    generalize sin (t * θ) = S at *
    generalize sin θ = s at *
    generalize cos θ = k at *
    field_simp
    grind
  · have key : ∀ w1 w2 : ℝ, qdot a (Quat.comb w1 a w2 b) = w1 + w2 * c := by
      intro w1 w2
      simp only [Quat.comb, qdot]
      linear_combination w1 * ha + w2 * hc
    rw [key, e1, ← hcos]
    field_simp; ring
  · have key : ∀ w1 w2 : ℝ, qdot (Quat.comb w1 a w2 b) b = w1 * c + w2 := by
      intro w1 w2
      simp only [Quat.comb, qdot]
      linear_combination w1 * hc + w2 * hb
    rw [key, e1, e2, ← hcos]
    generalize cos (t * θ) = C at *
    generalize sin (t * θ) = S at *
    generalize sin θ = s at *
    generalize cos θ = k at *
    field_simp
    grind
  · rintro rfl
    simp [Quat.comb, hs.ne']
  · rintro rfl
    simp [Quat.comb, hs.ne']

/-- C46, the part that holds in the spherical branch (some pair of the batch not within `1e-6` of parallel): every
element that is not exactly parallel is a unit quaternion on the great arc from `q1` to `±q2` (the nearer of the
two), at angle `t θ` from the start, equal to `q1` at 0 and `±q2` at 1.
Missing: exactly parallel pairs (NaN), and unit length when all pairs are within `1e-6` of parallel. -/
theorem C46_slerp_partial {N : ℕ} (q1 q2 : Fin N → Quat) (t : ℝ) (h1 : ∀ n, IsUnitQ (q1 n))
    (h2 : ∀ n, IsUnitQ (q2 n)) (hb : ∃ n, |inner4 (q1 n) (q2 n)| ≤ 1 - 1e-6) (n : Fin N)
    (hn : |inner4 (q1 n) (q2 n)| < 1) :
    ∃ q r, (quaternionSlerp q1 q2 t).1 n = some q ∧ (r = q2 n ∨ r = negQ (q2 n)) ∧ 0 ≤ inner4 (q1 n) r ∧
      IsUnitQ q ∧ inner4 (q1 n) q = cos (t * arccos (inner4 (q1 n) r)) ∧
      inner4 q r = cos ((1 - t) * arccos (inner4 (q1 n) r)) ∧ (t = 0 → q = q1 n) ∧ (t = 1 → q = r) := by
  have hnot : ¬ ∀ n, 1 - 1e-6 < slerpCos q1 q2 n := by
    intro h
    obtain ⟨m, hm⟩ := hb
    have := h m
    rw [slerpCos_abs] at this
    exact absurd this (not_lt.2 hm)
  have hd := slerpFlip_dot q1 q2 n
  obtain ⟨q, hq, hu, ha, hb', h0, h1'⟩ := slerpElem_spec (h1 n) (slerpFlip_unit (q1 := q1) n (h2 n)) hd
    (abs_nonneg _) hn t
  refine ⟨q, slerpFlip q1 q2 n, ?_, slerpFlip_cases q1 q2 n, ?_, hu, ?_, ?_, h0, h1'⟩
  · unfold quaternionSlerp
    simp only
    rw [if_neg hnot]
    simp only
    rw [slerpCos_abs, hq]
  · change 0 ≤ qdot _ _
    rw [hd]; exact abs_nonneg _
  · change qdot _ _ = cos (t * arccos (qdot _ _))
    rw [hd, ha]
  · change qdot _ _ = cos ((1 - t) * arccos (qdot _ _))
    rw [hd, hb']

/-- C46 in the other branch (all pairs within `1e-6` of parallel): `q1` at 0, `±q2` at 1, and for `t` in `[0,1]` the
squared length is within `5e-7` of 1. -/
theorem C46_lerp_branch {N : ℕ} (q1 q2 : Fin N → Quat) (t : ℝ) (h1 : ∀ n, IsUnitQ (q1 n))
    (h2 : ∀ n, IsUnitQ (q2 n)) (hb : ∀ n, 1 - 1e-6 < |inner4 (q1 n) (q2 n)|) (n : Fin N) :
    ∃ q r, (quaternionSlerp q1 q2 t).1 n = some q ∧ (r = q2 n ∨ r = negQ (q2 n)) ∧ 0 ≤ inner4 (q1 n) r ∧
      inner4 q q = 1 - 2 * t * (1 - t) * (1 - inner4 (q1 n) r) ∧ (t = 0 → q = q1 n) ∧ (t = 1 → q = r) ∧
      (0 ≤ t → t ≤ 1 → 1 - 5e-7 ≤ inner4 q q ∧ inner4 q q ≤ 1) := by
  have hall : ∀ n, 1 - 1e-6 < slerpCos q1 q2 n := by intro n; rw [slerpCos_abs]; exact hb n
  have hd := slerpFlip_dot q1 q2 n
  have hu := slerpFlip_unit (q1 := q1) n (h2 n)
  have hle := qdot_le_one (h1 n) (h2 n)
  refine ⟨_, slerpFlip q1 q2 n, by unfold quaternionSlerp; simp only; rw [if_pos hall], slerpFlip_cases q1 q2 n,
    by change 0 ≤ qdot _ _; rw [hd]; exact abs_nonneg _, ?_⟩
  have hq1 := h1 n
  have hbn := hb n
  change 1 - 1e-6 < |qdot (q1 n) (q2 n)| at hbn
  rw [← hd] at hbn hle
  change qdot (q1 n) (slerpFlip q1 q2 n) ≤ 1 at hle
  generalize q1 n = a at *
  generalize slerpFlip q1 q2 n = b at *
  unfold IsUnitQ at hq1 hu
  have key : inner4 ⟨a.w + t * (b.w - a.w), a.x + t * (b.x - a.x), a.y + t * (b.y - a.y), a.z + t * (b.z - a.z)⟩
      ⟨a.w + t * (b.w - a.w), a.x + t * (b.x - a.x), a.y + t * (b.y - a.y), a.z + t * (b.z - a.z)⟩
      = 1 - 2 * t * (1 - t) * (1 - inner4 a b) := by
    simp only [inner4]
    linear_combination (1 - t) ^ 2 * hq1 + t ^ 2 * hu
  refine ⟨key, ?_, ?_, ?_⟩
  · rintro rfl; ext <;> simp
  · rintro rfl; ext <;> simp
  · intro t0 t1
    rw [key]
    have e : inner4 a b = qdot a b := rfl
    rw [e]
    have p1 : 0 ≤ t * (1 - t) := mul_nonneg t0 (by linarith)
    have p2 : t * (1 - t) ≤ 1 / 4 := by nlinarith [sq_nonneg (t - 1 / 2)]
    norm_num at hbn ⊢
    constructor <;> nlinarith

/-- C46 fails for the code: interpolating a quaternion with itself gives NaN as soon as another pair of the batch
is not close, although the same pair alone interpolates to itself (each element should depend on its own pair). -/
theorem C46_identical_pair_nan : ∃ a c d : Quat, IsUnitQ a ∧ IsUnitQ c ∧ IsUnitQ d ∧
    (∀ t, (quaternionSlerp ![a, c] ![a, d] t).1 0 = none) ∧ (∀ t, (quaternionSlerp ![a] ![a] t).1 0 = some a) := by
  have hself : qdot ⟨1, 0, 0, 0⟩ ⟨1, 0, 0, 0⟩ = 1 := by unfold qdot; norm_num
  refine ⟨⟨1, 0, 0, 0⟩, ⟨1, 0, 0, 0⟩, ⟨0, 1, 0, 0⟩, one_unit, one_unit, i_unit, ?_, ?_⟩
  · intro t
    unfold quaternionSlerp
    simp only
    rw [if_neg]
    · have : slerpCos ![(⟨1, 0, 0, 0⟩ : Quat), ⟨1, 0, 0, 0⟩] ![⟨1, 0, 0, 0⟩, ⟨0, 1, 0, 0⟩] 0 = 1 := by
        rw [slerpCos_abs]; simp [hself]
      simp only
      rw [this]
      simp [slerpElem]
    · intro h
      have := h 1
      rw [slerpCos_abs] at this
      simp [qdot] at this
      norm_num at this
  · intro t
    unfold quaternionSlerp
    simp only
    rw [if_pos]
    · have h10 : ¬ (1 : ℝ) < 0 := by norm_num
      simp [slerpFlip, hself, h10]
    · intro n
      fin_cases n
      rw [slerpCos_abs]; simp [hself]; norm_num

/-- C46 fails for the code: in the linear branch the result need not be a unit quaternion. -/
theorem C46_lerp_not_unit : ∃ a b q : Quat, IsUnitQ a ∧ IsUnitQ b ∧
    (quaternionSlerp ![a] ![b] (1 / 2)).1 0 = some q ∧ ¬ IsUnitQ q := by
  have u : IsUnitQ ⟨99999999 / 100000001, 20000 / 100000001, 0, 0⟩ := by unfold IsUnitQ; norm_num
  have hd : inner4 ⟨1, 0, 0, 0⟩ ⟨99999999 / 100000001, 20000 / 100000001, 0, 0⟩ = 99999999 / 100000001 := by
    unfold inner4; norm_num
  obtain ⟨q, r, hq, hr, hr0, hl, -⟩ := C46_lerp_branch ![⟨1, 0, 0, 0⟩]
    ![⟨99999999 / 100000001, 20000 / 100000001, 0, 0⟩] (1 / 2) (by intro n; fin_cases n; exact one_unit)
    (by intro n; fin_cases n; exact u)
    (by intro n; fin_cases n; simp only [Fin.zero_eta, Matrix.cons_val]; rw [hd, abs_of_pos (by norm_num)]; norm_num) 0
  refine ⟨_, _, q, one_unit, u, hq, ?_⟩
  intro hu
  have e : inner4 q q = 1 := by unfold IsUnitQ at hu; unfold inner4; linarith
  rw [e] at hl
  simp only [Matrix.cons_val] at hr hl hr0
  rcases hr with rfl | rfl
  · rw [hd] at hl; norm_num at hl
  · simp [inner4, negQ] at hr0
    norm_num at hr0

/-- C47 (slerp): a call leaves the caller's `q2` unchanged exactly when no pair has a negative inner product, always
leaves the same rotation in it, and a repeated call on the modified tensor returns the same result.
Missing: unchanged for every input, which is false (`C47_slerp_mutates`). -/
theorem C47_slerp_partial {N : ℕ} (q1 q2 : Fin N → Quat) (t : ℝ) :
    ((∀ n, 0 ≤ inner4 (q1 n) (q2 n)) → (quaternionSlerp q1 q2 t).2 = q2) ∧
    (∀ n, (quaternionSlerp q1 q2 t).2 n = q2 n ∨ (quaternionSlerp q1 q2 t).2 n = negQ (q2 n)) ∧
    quaternionSlerp q1 (quaternionSlerp q1 q2 t).2 t = quaternionSlerp q1 q2 t := by
  have e : (quaternionSlerp q1 q2 t).2 = slerpFlip q1 q2 := by
    unfold quaternionSlerp; simp only; split_ifs <;> rfl
  have hf : slerpFlip q1 (slerpFlip q1 q2) = slerpFlip q1 q2 := by
    funext n
    conv_lhs => unfold slerpFlip
    rw [if_neg]
    · rfl
    · have := slerpFlip_dot q1 q2 n
      unfold slerpFlip at this
      rw [this]; exact not_lt.2 (abs_nonneg _)
  have hc : slerpCos q1 (slerpFlip q1 q2) = slerpCos q1 q2 := by
    funext n
    rw [slerpCos_abs, slerpCos_abs, slerpFlip_dot, abs_abs]
  refine ⟨?_, ?_, ?_⟩
  · intro h
    rw [e]
    funext n
    unfold slerpFlip
    exact if_neg (not_lt.2 (h n))
  · intro n; rw [e]; exact slerpFlip_cases q1 q2 n
  · rw [e]
    unfold quaternionSlerp
    simp only
    rw [hf, hc]

/-- C47 is false for slerp: the caller's `q2` is negated in place. -/
theorem C47_slerp_mutates : ∃ a b : Quat, IsUnitQ a ∧ IsUnitQ b ∧ (quaternionSlerp ![a] ![b] 0).2 0 ≠ b := by
  refine ⟨⟨1, 0, 0, 0⟩, ⟨-1, 0, 0, 0⟩, one_unit, by unfold IsUnitQ; norm_num, ?_⟩
  have e : (quaternionSlerp ![(⟨1, 0, 0, 0⟩ : Quat)] ![⟨-1, 0, 0, 0⟩] 0).2 0 = ⟨1, 0, 0, 0⟩ := by
    have : (quaternionSlerp ![(⟨1, 0, 0, 0⟩ : Quat)] ![⟨-1, 0, 0, 0⟩] 0).2 =
        slerpFlip ![(⟨1, 0, 0, 0⟩ : Quat)] ![⟨-1, 0, 0, 0⟩] := by
      unfold quaternionSlerp; simp only; split_ifs <;> rfl
    rw [this]
    simp [slerpFlip, qdot, Quat.neg]
  rw [e]
  intro h
  have := congrArg Quat.w h
  norm_num at this

/-! ## C48 -/

/-- C48: perturbations of rigid transforms are rigid, for every draw: with a unit axis, or with a random axis that is
not exactly zero. -/
theorem C48_rigid {N : ℕ} (T : Fin N → M4) (d : Fin N → PerturbDraw) (rs ts : ℝ) (axis : Option V3) (perp : Bool)
    (n : Fin N) (hT : IsRigid (T n)) (hax : ∀ a, axis = some a → IsUnitV a) (hd : axis = none → (d n).axis ≠ 0) :
    IsRigid (samplePerturbations T d rs ts axis perp n) := by
  unfold samplePerturbations samplePerturbation
  simp only
  rw [hom_eq_mkHom]
  apply isRigid_mkHom
  apply Spec.IsRot.mul _ hT.1
  apply axisAndAngle_isRot
  cases axis with
  | some a => exact isUnitV_dot.1 (hax a rfl)
  | none => exact dot_unit_of_norm (fun h => hd rfl (norm3_eq_zero.1 h))

/-- C48: the rotation noise is a rotation by the drawn angle about the axis applied after the rotation of `T`, the
translation noise is the drawn one; with a unit axis and the default flag it is the drawn one minus its component
along the axis, hence orthogonal to the axis. -/
theorem C48_noise {N : ℕ} (T : Fin N → M4) (d : Fin N → PerturbDraw) (rs ts : ℝ) (a : V3) (ha : IsUnitV a)
    (n : Fin N) :
    (∀ perp, rotPart (samplePerturbations T d rs ts (some a) perp n) = rotAbout a ((d n).angle * rs) * rotPart (T n)) ∧
    (posPart (samplePerturbations T d rs ts (some a) true n) - posPart (T n)) ⬝ᵥ a = 0 ∧
    (∃ c : ℝ, posPart (samplePerturbations T d rs ts (some a) true n) - posPart (T n) = ts • (d n).t - c • a) ∧
    posPart (samplePerturbations T d rs ts (some a) false n) - posPart (T n) = ts • (d n).t := by
  have ha' := isUnitV_dot.1 ha
  unfold dot at ha'
  refine ⟨?_, ?_, ⟨dot (fun i => (d n).t i * ts) a, ?_⟩, ?_⟩
  · intro perp
    unfold samplePerturbations samplePerturbation
    simp only [perturbAxis]
    rw [hom_eq_mkHom, rotPart_mkHom, axisAndAngleToMatrix33_eq_rotAbout]
  · simp only [samplePerturbations, samplePerturbation, perturbDeltaT, if_true, hom, posPart, dotProduct,
      Fin.sum_univ_three, Pi.sub_apply, dot]
    simp
    linear_combination (-((d n).t 0 * ts * a 0 + (d n).t 1 * ts * a 1 + (d n).t 2 * ts * a 2)) * ha'
  · apply v3_ext <;> simp [samplePerturbations, samplePerturbation, perturbDeltaT, hom, posPart] <;> ring
  · apply v3_ext <;> simp [samplePerturbations, samplePerturbation, perturbDeltaT, hom, posPart] <;> ring

/-- C48: without a given axis the rotation noise is about the normalised random axis. -/
theorem C48_noise_random_axis {N : ℕ} (T : Fin N → M4) (d : Fin N → PerturbDraw) (rs ts : ℝ) (perp : Bool) (n : Fin N)
    (hd : (d n).axis ≠ 0) :
    ∃ k, IsUnitV k ∧ (d n).axis = vlen (d n).axis • k ∧
      rotPart (samplePerturbations T d rs ts none perp n) = rotAbout k ((d n).angle * rs) * rotPart (T n) ∧
      posPart (samplePerturbations T d rs ts none perp n) - posPart (T n) = ts • (d n).t := by
  have hn : norm3 (d n).axis ≠ 0 := fun h => hd (norm3_eq_zero.1 h)
  refine ⟨fun i => (d n).axis i / norm3 (d n).axis, isUnitV_dot.2 (dot_unit_of_norm hn), ?_, ?_, ?_⟩
  · funext i
    rw [vlen_eq_norm3, Pi.smul_apply, smul_eq_mul]
    field_simp
  · unfold samplePerturbations samplePerturbation
    simp only [perturbAxis]
    rw [hom_eq_mkHom, rotPart_mkHom, axisAndAngleToMatrix33_eq_rotAbout]
  · apply v3_ext <;> simp [samplePerturbations, samplePerturbation, perturbDeltaT, hom, posPart] <;> ring

example : IsUnitV ![3/5, 0, 4/5] := by unfold IsUnitV; simp; norm_num

end PK
