import Verif.Props.TapeRot
import Verif.Spec.Gradient

namespace PK
open AD Filter Topology Finset Sum Spec
open scoped Classical

namespace AD

/-- four numbers as a quaternion -/
def toQ (x : Fin 4 → ℝ) : Quat := ⟨x 0, x 1, x 2, x 3⟩

theorem toQ_get (x : Fin 4 → ℝ) : (toQ x).get = x := by funext i; fin_cases i <;> rfl

theorem vjp {ι μ : Type} [Fintype ι] [Fintype μ] {nr : NormRule} {p : Prog ι μ} {x : ι → ℝ} {g : μ → ℝ} (h : p.Good nr x g)
    {f : (ι → ℝ) → μ → ℝ} (hf : ∀ x, p.runR x = f x) :
    p.run (up x) = up (f x) ∧ ∃ G, p.back nr (up x) (up g) = up G ∧ IsVJP f x g G := by
  obtain ⟨h1, G, h2, h3⟩ := p.sound nr x g h
  refine ⟨by rw [h1, hf], G, h2, ?_⟩
  unfold IsVJP IsGrad
  simpa only [hf] using h3

theorem Prog.run_stage {ι κ μ : Type} [Fintype κ] {f : κ → Op ι} {p : Prog (ι ⊕ κ) μ} {e : ι → ℝ} (v : κ → ℝ)
    (hv : ∀ k, (f k).eval (up e) = .fin (v k)) : (Prog.stage κ f p).run (up e) = p.run (up (Sum.elim e v)) := by
  have : (fun k => (f k).eval (up e)) = up v := funext hv
  simp only [Prog.run]
  rw [this, up_elim]

theorem m2q_run (m : M3) : m2q.run (up (ent m)) = up (matrixToQuaternion m).get := by
  rw [← m2q_runR, m2qWith_runR, m2q, m2qWith,
    Prog.run_stage (sums (ent m)) (fun c => by rw [(good_lin (nr := .maskScaled) (w := 0) _ _).val]; simp [Op.evalR, sums]; ring),
    Prog.run_stage (fun c => max (sums (ent m) c) 0) (fun c => by simp only [Op.eval, up, Sum.elim_inr, Sum.elim_inl, max_fin]),
    Prog.run_stage (qAbsOf (ent m)) (fun c => by simp [Op.eval, up, AD.sqrt, qAbsOf]), m2qTail,
    Prog.run_stage (rijk (ent m)) (fun p => ?_), Prog.run_stage (fun c => max (qAbsOf (ent m) c) 0.1) (fun c => by simp only [Op.eval, up, Sum.elim_inr, Sum.elim_inl, max_fin]), m2qPick,
    Prog.run_stage (fun c => 2 * max (qAbsOf (ent m) c) 0.1) (fun c => by
      rw [(good_lin (nr := .maskScaled) (w := 0) _ _).val]; simp [Op.evalR]),
    Prog.run_stage (candOf (ent m)) (fun p => ?_), Prog.run_stage (fun k => candOf (ent m) (argmax4 (qAbsOf (ent m)), k)) (fun k => ?_)]
  · rfl
  · show up (candOf (ent m)) (_, k) = _
    have := argmaxFl_up (qAbsOf (ent m))
    simp only [Option.getD_none]
    erw [this]
  · have : max (qAbsOf (ent m) p.1) 0.1 ≠ 0 := (lt_of_lt_of_le (by norm_num) (le_max_right _ _ : (0.1 : ℝ) ≤ max (qAbsOf (ent m) p.1) 0.1)).ne'
    rw [(good_div (nr := .maskScaled) (w := 0) (by simpa using this)).val]
    rfl
  · by_cases h : p.1 = p.2
    · simp only [rijk, h, if_true]; rfl
    · simp only [rijk, h, if_false]
      rw [(good_lin (nr := .maskScaled) (w := 0) _ _).val]
      simp only [Op.evalR, List.map_map, zero_add]
      rfl

end AD

theorem AD.aa33_nan {nr : NormRule} {x : Fin 3 ⊕ Unit → ℝ} {U : Fin 3 × Fin 3 → Fl} (h : U (0, 0) = .nan) :
    aa33.back nr (up x) U (inr ()) = .nan := by
  unfold aa33
  refine Prog.back_nan_pull (up fun _ => Real.cos (x (inr ()))) (fun _ => rfl) () ?_
  have s1 : ∀ v y : Fl, y = .nan → (inr (), Fl.nan) ∈ (Op.cos (inr ()) : Op (Fin 3 ⊕ Unit)).pull nr (up x) v y := by
    rintro v y rfl
    simp [Op.pull, nan_mul]
  apply s1
  refine Prog.back_nan_left _ (fun _ => rfl) ?_
  refine Prog.back_nan_left _ (fun _ => rfl) ?_
  refine Prog.back_nan_left _ (fun _ => rfl) ?_
  refine Prog.back_nan_left _ (fun _ => rfl) ?_
  refine Prog.back_nan_left _ (fun _ => rfl) ?_
  refine Prog.back_nan_pull _ (fun _ => rfl) (0, 0) ?_
  have : ∀ (f : Fin 3 × Fin 3 → Fl) , (∑ k, if k = ((0, 0) : Fin 3 × Fin 3) then U k else 0) = .nan := fun f =>
    sum_nan (mem_univ (0, 0)) (by simp [h])
  simp [Op.pull, Prog.back, h, nan_mul]

theorem AD.a2q_zero_deriv (g : Fin 4 → ℝ) : IsVJP (fun v => (axisAngleToQuaternion v).get) 0 g fun k => 0.5 * g k.succ := by
  have h00 : axisAngleToQuaternion 0 = ⟨1, 0, 0, 0⟩ := axisAngleToQuaternion_zero
  set C := |g 0| + |g 1| + |g 2| + |g 3| with hC
  have hC0 : 0 ≤ C := by positivity
  unfold IsVJP IsGrad
  rw [hasFDerivAt_iff_isLittleO]
  have hbig : (fun v : Fin 3 → ℝ => ∑ k, g k * (axisAngleToQuaternion v).get k - ∑ k, g k * (axisAngleToQuaternion 0).get k
      - (∑ j, (0.5 * g j.succ) • (ContinuousLinearMap.proj j : (Fin 3 → ℝ) →L[ℝ] ℝ)) (v - 0)) =O[𝓝 0] fun v => ‖v‖ ^ 2 := by
    refine Asymptotics.IsBigO.of_bound (3 * C) ?_
    have hs : ∀ v : V3, ‖v‖ < 1e-7 → PK.norm3 v < 1e-6 := fun v hv => by
      have h1 := norm3_sq v
      have h2 : dot v v ≤ 3 * ‖v‖ ^ 2 := by
        have hi : ∀ i, v i * v i ≤ ‖v‖ ^ 2 := fun i => by
          have := norm_le_pi_norm v i
          rw [Real.norm_eq_abs] at this
          rw [← abs_mul_abs_self, sq]; exact mul_self_le_mul_self (abs_nonneg _) this
        have := hi 0; have := hi 1; have := hi 2
        simp only [dot]; linarith
      have h3 := norm_nonneg v
      by_contra hc
      have h4 : (1e-6 : ℝ) ≤ PK.norm3 v := not_lt.1 hc
      have h5 : (1e-6 : ℝ) ^ 2 ≤ PK.norm3 v ^ 2 := pow_le_pow_left₀ (by norm_num) h4 2
      have h6 : ‖v‖ ^ 2 ≤ (1e-7 : ℝ) ^ 2 := pow_le_pow_left₀ h3 hv.le 2
      norm_num at h5 h6
      linarith
    filter_upwards [Metric.ball_mem_nhds (0 : Fin 3 → ℝ) (show (0 : ℝ) < 1e-7 by norm_num)] with v hv
    rw [mem_ball_zero_iff] at hv
    have hn := hs v hv
    have hn0 := norm3_nonneg v
    have h2 : PK.norm3 v ^ 2 ≤ 3 * ‖v‖ ^ 2 := by
      rw [norm3_sq]
      have hi : ∀ i, v i * v i ≤ ‖v‖ ^ 2 := fun i => by
        have := norm_le_pi_norm v i
        rw [Real.norm_eq_abs] at this
        rw [← abs_mul_abs_self, sq]; exact mul_self_le_mul_self (abs_nonneg _) this
      have := hi 0; have := hi 1; have := hi 2
      simp only [dot]; linarith
    set n := PK.norm3 v with hnn
    have hv1 : ∀ i, |v i| ≤ 1 := fun i => by
      have := norm_le_pi_norm v i
      rw [Real.norm_eq_abs] at this
      norm_num at hv; linarith
    have hax : axisAngleToQuaternion v = ⟨Real.cos (0.5 * n), v 0 * (0.5 - n * n / 48), v 1 * (0.5 - n * n / 48), v 2 * (0.5 - n * n / 48)⟩ := by
      simp only [axisAngleToQuaternion, ← hnn]
      rw [if_pos (by rwa [abs_of_nonneg hn0])]
    have hcos : |Real.cos (0.5 * n) - 1| ≤ n ^ 2 := by
      have h3 := Real.one_sub_sq_div_two_le_cos (x := 0.5 * n)
      have h4 := Real.cos_le_one (0.5 * n)
      rw [abs_le]
      have := sq_nonneg n
      constructor <;> nlinarith
    have hexp : ∑ k, g k * (axisAngleToQuaternion v).get k - ∑ k, g k * (axisAngleToQuaternion 0).get k
      - (∑ j, (0.5 * g j.succ) • (ContinuousLinearMap.proj j : (Fin 3 → ℝ) →L[ℝ] ℝ)) (v - 0)
        = g 0 * (Real.cos (0.5 * n) - 1) - (g 1 * v 0 + g 2 * v 1 + g 3 * v 2) * (n ^ 2 / 48) := by
      rw [h00, hax]
      simp [Fin.sum_univ_succ, Quat.get, ContinuousLinearMap.sum_apply]
      ring
    rw [hexp, Real.norm_eq_abs, Real.norm_eq_abs, abs_of_nonneg (sq_nonneg ‖v‖)]
    have t0 : |g 0 * (Real.cos (0.5 * n) - 1)| ≤ |g 0| * n ^ 2 := by rw [abs_mul]; exact mul_le_mul_of_nonneg_left hcos (abs_nonneg _)
    have t : ∀ i j, |g i * v j| ≤ |g i| := fun i j => by
      rw [abs_mul]; exact mul_le_of_le_one_right (abs_nonneg _) (hv1 j)
    have t1 : |(g 1 * v 0 + g 2 * v 1 + g 3 * v 2) * (n ^ 2 / 48)| ≤ (|g 1| + |g 2| + |g 3|) * n ^ 2 := by
      rw [abs_mul, abs_of_nonneg (show 0 ≤ n ^ 2 / 48 by positivity)]
      refine mul_le_mul ?_ (by have := sq_nonneg n; linarith) (by positivity) (by positivity)
      refine (abs_add_three _ _ _).trans ?_
      have := t 1 0; have := t 2 1; have := t 3 2
      linarith
    have t2 : C * n ^ 2 ≤ C * (3 * ‖v‖ ^ 2) := mul_le_mul_of_nonneg_left h2 hC0
    have t3 := abs_sub (g 0 * (Real.cos (0.5 * n) - 1)) ((g 1 * v 0 + g 2 * v 1 + g 3 * v 2) * (n ^ 2 / 48))
    rw [hC] at t2
    rw [hC]
    linarith
  refine hbig.trans_isLittleO ?_
  simpa using Asymptotics.isLittleO_norm_pow_id (E' := Fin 3 → ℝ) one_lt_two

theorem AD.matrixToQuaternion_of_pos {q : Quat} (hq : IsUnitQ q) {R : M3} (hR : quaternionToMatrix q = R)
    (hpos : ∀ c, 1 / 2 ≤ |q.get c| → 0 ≤ q.get c) : matrixToQuaternion R = q := by
  have hb := qAbs_max hq hR
  set b := argmax4 (qAbsOf (ent R)) with hbd
  rw [qAbs_eq hq hR] at hb
  have h2 : 1 / 2 ≤ |q.get b| := by linarith
  rw [abs_of_nonneg (hpos b h2)] at h2
  have : (matrixToQuaternion R).get = q.get := by
    rw [← m2q_runR, m2qWith_runR]
    funext k
    exact candOf_eq hq hR (le_trans (by norm_num) h2) k
  have h0 := congrFun this 0; have h1 := congrFun this 1; have h2 := congrFun this 2; have h3 := congrFun this 3
  cases hm : matrixToQuaternion R
  cases q
  rw [hm] at h0 h1 h2 h3
  exact Quat.mk.injEq .. ▸ ⟨h0, h1, h2, h3⟩

/-- **C117**: backpropagation through `quaternion_to_matrix` delivers the derivative, at every quaternion but zero. -/
theorem C117_quaternion_to_matrix (nr : NormRule) {q : Fin 4 → ℝ} (hq : q ≠ 0) (g : Fin 3 × Fin 3 → ℝ) :
    q2m.run (up q) = up (fun p => quaternionToMatrix (toQ q) p.1 p.2) ∧
    ∃ G, q2m.back nr (up q) (up g) = up G ∧ IsVJP (fun q p => quaternionToMatrix (toQ q) p.1 p.2) q g G := by
  refine vjp (f := fun q p => quaternionToMatrix (toQ q) p.1 p.2) (q2m_good (fun h => hq ?_) g) fun q => ?_
  · have h0 := mul_self_nonneg (q 0); have h1 := mul_self_nonneg (q 1); have h2 := mul_self_nonneg (q 2); have h3 := mul_self_nonneg (q 3)
    have e0 : q 0 = 0 := mul_self_eq_zero.1 (by linarith)
    have e1 : q 1 = 0 := mul_self_eq_zero.1 (by linarith)
    have e2 : q 2 = 0 := mul_self_eq_zero.1 (by linarith)
    have e3 : q 3 = 0 := mul_self_eq_zero.1 (by linarith)
    funext i
    fin_cases i
    exacts [e0, e1, e2, e3]
  · conv_lhs => rw [← toQ_get q]
    exact q2m_runR (toQ q)

/-- a quaternion that is not a unit -/
example : ∃ G, q2m.back .maskScaled (up ![1, 2, 0, -1]) (up fun p => if p = (0, 1) then 1 else 0) = up G ∧
    IsVJP (fun q p => quaternionToMatrix (toQ q) p.1 p.2) ![1, 2, 0, -1] (fun p => if p = (0, 1) then 1 else 0) G :=
  (C117_quaternion_to_matrix .maskScaled (fun h => by have := congrFun h 0; norm_num at this) _).2

/-- **C117**: backpropagation through `axis_and_angle_to_matrix_33` delivers the derivative with respect to axis and angle, everywhere. -/
theorem C117_axis_and_angle_to_matrix_33 (nr : NormRule) (x : Fin 3 ⊕ Unit → ℝ) (g : Fin 3 × Fin 3 → ℝ) :
    aa33.run (up x) = up (fun p => axisAndAngleToMatrix33 (x ∘ inl) (x (inr ())) p.1 p.2) ∧
    ∃ G, aa33.back nr (up x) (up g) = up G ∧ IsVJP (fun x p => axisAndAngleToMatrix33 (x ∘ inl) (x (inr ())) p.1 p.2) x g G := by
  refine vjp (f := fun x p => axisAndAngleToMatrix33 (x ∘ inl) (x (inr ())) p.1 p.2) (aa33_good x g) fun x => ?_
  rw [← aa33_runR]
  congr 1
  funext i
  rcases i with i | i <;> rfl

/-- **C117**, what holds for `matrix_to_quaternion`: at a rotation whose quaternion has no zero component, backpropagation delivers the
derivative along every curve of rotations. -/
theorem C117_matrix_to_quaternion_partial (nr : NormRule) {R : ℝ → M3} {q : ℝ → Quat} (hq : ∀ t, IsUnitQ (q t)) (hR : ∀ t, Turns (q t) (R t))
    (h0 : matrixToQuaternion (R 0) = q 0) (hcont : ∀ c, ContinuousAt (fun t => (q t).get c) 0) (hne : ∀ c, (q 0).get c ≠ 0)
    {R' : M3} (hR' : ∀ i j, HasDerivAt (fun t => R t i j) (R' i j) 0) (g : Fin 4 → ℝ) :
    m2q.run (up (ent (R 0))) = up (q 0).get ∧
    ∃ G : Fin 3 × Fin 3 → ℝ, m2q.back nr (up (ent (R 0))) (up g) = up G ∧
      HasDerivAt (fun t => ∑ k, g k * (q t).get k) (∑ p, G p * R' p.1 p.2) 0 :=
  ⟨by rw [m2q_run, h0], m2q_deriv hq (fun t => (turns_iff (unitQ_ne (hq t))).1 (hR t)) h0 hcont hne hR' g⟩

/-- turning about the third axis, from the rotation that exchanges the axes cyclically -/
noncomputable def AD.exCurve (t : ℝ) : Quat :=
  ⟨(Real.cos t - Real.sin t) / 2, (Real.cos t + Real.sin t) / 2, (Real.cos t - Real.sin t) / 2, (Real.cos t + Real.sin t) / 2⟩

theorem AD.exCurve_unit (t : ℝ) : IsUnitQ (exCurve t) := by
  have := Real.sin_sq_add_cos_sq t
  simp only [IsUnitQ, exCurve]
  linear_combination this

theorem AD.exCurve_zero (c : Fin 4) : (exCurve 0).get c = 1 / 2 := by fin_cases c <;> simp [exCurve, Quat.get]

example (g : Fin 4 → ℝ) : ∃ (R' : M3) (G : Fin 3 × Fin 3 → ℝ),
    (∀ i j, HasDerivAt (fun t => quaternionToMatrix (exCurve t) i j) (R' i j) 0) ∧ R' 1 1 ≠ 0 ∧
    m2q.back .maskDirection (up (ent (quaternionToMatrix (exCurve 0)))) (up g) = up G ∧
    HasDerivAt (fun t => ∑ k, g k * (exCurve t).get k) (∑ p, G p * R' p.1 p.2) 0 := by
  have hd : ∀ i j, DifferentiableAt ℝ (fun t => quaternionToMatrix (exCurve t) i j) 0 := by
    intro i j
    have hn : ∀ t, (exCurve t).normSq = 1 := fun t => by
      have := exCurve_unit t; unfold IsUnitQ at this; unfold Quat.normSq; linarith
    fin_cases i <;> fin_cases j <;> simp [quaternionToMatrix, hn] <;> simp only [exCurve] <;> fun_prop
  have h11 : HasDerivAt (fun t => quaternionToMatrix (exCurve t) 1 1) (-2) 0 := by
    have : ∀ t, quaternionToMatrix (exCurve t) 1 1 = -(2 * Real.sin t * Real.cos t) := by
      intro t
      have hn : (exCurve t).normSq = 1 := by
        have := exCurve_unit t; unfold IsUnitQ at this; unfold Quat.normSq; linarith
      have h1 := Real.sin_sq_add_cos_sq t
      simp only [quaternionToMatrix, hn, Matrix.of_apply, Matrix.cons_val]
      simp only [exCurve]
      linear_combination -h1
    simp only [this]
    have h1 := (((Real.hasDerivAt_sin 0).const_mul 2).mul (Real.hasDerivAt_cos 0)).neg
    refine h1.congr_deriv ?_
    simp
  obtain ⟨-, G, hG, hD⟩ := C117_matrix_to_quaternion_partial .maskDirection exCurve_unit (R := fun t => quaternionToMatrix (exCurve t))
    (fun t => (turns_iff (unitQ_ne (exCurve_unit t))).2 rfl) (by
      exact matrixToQuaternion_of_pos (exCurve_unit 0) rfl fun c _ => by rw [exCurve_zero]; norm_num)
    (fun c => by fin_cases c <;> simp only [Quat.get, exCurve] <;> exact (by fun_prop : Continuous _).continuousAt)
    (fun c => by rw [exCurve_zero]; norm_num) (fun i j => (hd i j).hasDerivAt) g
  exact ⟨_, G, fun i j => (hd i j).hasDerivAt, by rw [h11.deriv]; norm_num, hG, hD⟩

/-- **C117 is violated** by `matrix_to_quaternion`: at every rotation whose quaternion has a zero component, the gradients of the three
diagonal entries are NaN, whatever the loss is. -/
theorem C117_fails_matrix_to_quaternion (nr : NormRule) {q : Quat} (hq : IsUnitQ q) {R : M3} (hR : Turns q R) {c : Fin 4} (hc : q.get c = 0)
    (g : Fin 4 → ℝ) (i : Fin 3) : m2q.back nr (up (ent R)) (up g) (i, i) = .nan :=
  m2q_nan hq ((turns_iff (unitQ_ne hq)).1 hR) hc g i

/-- no rotation: the loss on the real part alone -/
example : m2q.back .maskScaled (up (ent 1)) (up ![1, 0, 0, 0]) (0, 0) = .nan :=
  C117_fails_matrix_to_quaternion .maskScaled (q := ⟨1, 0, 0, 0⟩) (by simp [IsUnitQ])
    ((turns_iff (unitQ_ne (by simp [IsUnitQ]))).2 (by
      apply m3_ext9 <;> simp [quaternionToMatrix, Quat.normSq])) (c := 2) rfl _ 0

/-- the record of `_sqrt_positive_part` (l.93-98) -/
noncomputable def AD.sqrtPos : Prog Unit Unit := .stage Unit (fun _ => .clampMin 0 ()) <| .stage Unit (fun _ => .sqrt (inr ())) <| .ret inr

/-- **C117 is violated** by `_sqrt_positive_part`, the cause: its documentation promises gradient zero at zero.  The gradient is
NaN for no loss, and infinite otherwise. -/
theorem C117_fails_sqrt_positive_part (nr : NormRule) (g : ℝ) :
    sqrtPos.back nr (up fun _ => 0) (up fun _ => g) () = if g = 0 then .nan else if 0 < g then .pinf else .ninf := by
  have h1 : ∀ x, Fl.fin x = 0 ↔ x = 0 := fun x => by rw [zero_def]; simp
  rcases lt_trichotomy g 0 with h | h | h
  · simp [sqrtPos, Prog.back, Op.pull, total, up, Op.eval, max_fin, AD.sqrt, Fl.le, AD.mul, AD.div, infTimes, h, h.ne, not_lt.2 h.le]
  · simp [sqrtPos, Prog.back, Op.pull, total, up, Op.eval, max_fin, AD.sqrt, Fl.le, AD.mul, AD.div, infTimes, h]
  · simp [sqrtPos, Prog.back, Op.pull, total, up, Op.eval, max_fin, AD.sqrt, Fl.le, AD.mul, AD.div, infTimes, h, h.ne']

/-- **C117 is violated** by a joint: for a revolute joint whose axis has a zero component, at *every* angle, the gradient of the angle through
the rotation matrix and `matrix_to_quaternion` is NaN. -/
theorem C117_fails_revolute_joint (nr : NormRule) {axis : V3} (hunit : axis 0 ^ 2 + axis 1 ^ 2 + axis 2 ^ 2 = 1) {c : Fin 3} (hc : axis c = 0)
    (theta : ℝ) (g : Fin 4 → ℝ) :
    aa33.run (up (Sum.elim axis fun _ => theta)) = up (ent (axisAndAngleToMatrix33 axis theta)) ∧
    aa33.back nr (up (Sum.elim axis fun _ => theta)) (m2q.back nr (up (ent (axisAndAngleToMatrix33 axis theta))) (up g)) (inr ()) = .nan := by
  refine ⟨(C117_axis_and_angle_to_matrix_33 nr _ 0).1, ?_⟩
  set q : Quat := ⟨Real.cos (theta / 2), Real.sin (theta / 2) * axis 0, Real.sin (theta / 2) * axis 1, Real.sin (theta / 2) * axis 2⟩ with hq
  have hqu : IsUnitQ q := by
    have := Real.sin_sq_add_cos_sq (theta / 2)
    simp only [IsUnitQ, hq]
    linear_combination this + Real.sin (theta / 2) ^ 2 * hunit
  have hqR : quaternionToMatrix q = axisAndAngleToMatrix33 axis theta := by
    have hn : q.normSq = 1 := by unfold IsUnitQ at hqu; unfold Quat.normSq; linarith
    have hc2 : Real.cos theta = 1 - 2 * Real.sin (theta / 2) ^ 2 := by
      have h2 : Real.cos theta = 2 * Real.cos (theta / 2) ^ 2 - 1 := by rw [← Real.cos_two_mul]; congr 1; ring
      have := Real.sin_sq_add_cos_sq (theta / 2); linarith
    have hs2 : Real.sin theta = 2 * Real.sin (theta / 2) * Real.cos (theta / 2) := by
      rw [← Real.sin_two_mul]; congr 1; ring
    apply m3_ext9 <;>
      simp only [quaternionToMatrix, hn, axisAndAngleToMatrix33, Matrix.of_apply, Matrix.cons_val, hc2, hs2] <;> simp only [hq] <;>
      first | ring1 | linear_combination (-2 * Real.sin (theta / 2) ^ 2) * hunit
  have hz : q.get c.succ = 0 := by
    fin_cases c <;> simp [hq, Quat.get] <;> right <;> exact hc
  have hnan := m2q_nan (nr := nr) hqu hqR hz g 0
  generalize m2q.back nr (up (ent (axisAndAngleToMatrix33 axis theta))) (up g) = U at hnan
  exact aa33_nan hnan

/-- a joint turning about the vertical, at a quarter turn -/
example : aa33.back .maskDirection (up (Sum.elim ![0, 0, 1] fun _ => Real.pi / 2))
    (m2q.back .maskDirection (up (ent (axisAndAngleToMatrix33 ![0, 0, 1] (Real.pi / 2)))) (up ![1, 2, 3, 4])) (inr ()) = .nan :=
  (C117_fails_revolute_joint .maskDirection (by simp) (c := 0) rfl _ _).2

/-- **C117**, what holds for `quaternion_to_axis_angle`: away from no rotation, and from the angle at which the formula changes,
backpropagation delivers the derivative. -/
theorem C117_quaternion_to_axis_angle_partial (nr : NormRule) {q : Fin 4 → ℝ} (hv : ![q 1, q 2, q 3] ≠ 0)
    (ha : 2 * PK.atan2 (PK.norm3 ![q 1, q 2, q 3]) (q 0) ≠ 1e-6) (g : Fin 3 → ℝ) :
    q2a.run (up q) = up (quaternionToAxisAngle (toQ q)) ∧
    ∃ G, q2a.back nr (up q) (up g) = up G ∧ IsVJP (fun q => quaternionToAxisAngle (toQ q)) q g G := by
  refine vjp (f := fun q => quaternionToAxisAngle (toQ q)) (q2a_good hv ha g) fun q => ?_
  conv_lhs => rw [← toQ_get q]
  exact q2a_runR (toQ q)

/-- **C117 is violated** by `quaternion_to_axis_angle` at no rotation: the gradient of the real part is NaN, with the newer
derivative of the norm all of them. -/
theorem C117_fails_quaternion_to_axis_angle (nr : NormRule) {w : ℝ} (hw : 0 < w) (g : Fin 3 → ℝ) :
    q2a.back nr (up ![w, 0, 0, 0]) (up g) 0 = .nan ∧ (nr = .maskDirection → ∀ k, q2a.back nr (up ![w, 0, 0, 0]) (up g) k = .nan) := by
  obtain ⟨h1, h2⟩ := q2a_nan (nr := nr) hw (up g)
  refine ⟨h1, fun hn k => ?_⟩
  by_cases hk : k = 0
  · rw [hk]; exact h1
  · exact h2 hn k hk

example (g : Fin 3 → ℝ) : q2a.back .maskScaled (up ![1, 0, 0, 0]) (up g) 0 = .nan :=
  (C117_fails_quaternion_to_axis_angle .maskScaled one_pos g).1

/-- **C117 is violated** by `matrix_to_axis_angle` likewise: at every rotation whose quaternion has a zero component. -/
theorem C117_fails_matrix_to_axis_angle (nr : NormRule) {R : M3} (hq : IsUnitQ (matrixToQuaternion R)) (hR : Turns (matrixToQuaternion R) R)
    {c : Fin 4} (hc : (matrixToQuaternion R).get c = 0)
    (hv : ![(matrixToQuaternion R).get 1, (matrixToQuaternion R).get 2, (matrixToQuaternion R).get 3] ≠ 0)
    (ha : 2 * PK.atan2 (PK.norm3 ![(matrixToQuaternion R).get 1, (matrixToQuaternion R).get 2, (matrixToQuaternion R).get 3])
      ((matrixToQuaternion R).get 0) ≠ 1e-6) (g : Fin 3 → ℝ) (i : Fin 3) :
    m2q.back nr (up (ent R)) (q2a.back nr (m2q.run (up (ent R))) (up g)) (i, i) = .nan := by
  obtain ⟨-, G, hG, -⟩ := C117_quaternion_to_axis_angle_partial nr hv ha g
  rw [m2q_run, hG]
  exact C117_fails_matrix_to_quaternion nr hq hR hc G i

/-- a half turn about the first axis -/
example (g : Fin 3 → ℝ) (i : Fin 3) : let R : M3 := !![1, 0, 0; 0, -1, 0; 0, 0, -1]
    m2q.back .maskDirection (up (ent R)) (q2a.back .maskDirection (m2q.run (up (ent R))) (up g)) (i, i) = .nan := by
  intro R
  have hR : quaternionToMatrix ⟨0, 1, 0, 0⟩ = R := by
    apply m3_ext9 <;> simp [quaternionToMatrix, Quat.normSq, R] <;> norm_num
  have hq : matrixToQuaternion R = ⟨0, 1, 0, 0⟩ := by
    exact matrixToQuaternion_of_pos (by simp [IsUnitQ]) hR fun c => by fin_cases c <;> norm_num [Quat.get]
  have hu : IsUnitQ ⟨0, 1, 0, 0⟩ := by simp [IsUnitQ]
  refine C117_fails_matrix_to_axis_angle .maskDirection (by rw [hq]; exact hu) (by rw [hq]; exact (turns_iff (unitQ_ne hu)).2 hR) (c := 0)
    (by rw [hq]; rfl) ?_ ?_ g i
  · rw [hq]
    intro h
    have := congrFun h 0
    simp [Quat.get] at this
  · rw [hq]
    have h1 : PK.norm3 ![1, 0, 0] = 1 := by simp [PK.norm3, dot]
    have h2 : PK.atan2 1 0 = Real.pi / 2 := by
      have := atan2_of_pos (x := 0) one_pos
      simpa using this
    have := Real.pi_gt_three
    show 2 * PK.atan2 (PK.norm3 ![1, 0, 0]) 0 ≠ 1e-6
    rw [h1, h2]
    norm_num
    linarith

/-- **C117**, what holds for `axis_angle_to_quaternion`: away from no rotation, and from the angle at which the formula changes,
backpropagation delivers the derivative; at no rotation, it does for the older derivative of the norm. -/
theorem C117_axis_angle_to_quaternion_partial (g : Fin 4 → ℝ) :
    (∀ nr : NormRule, ∀ v : V3, v ≠ 0 → PK.norm3 v ≠ 1e-6 → a2q.run (up v) = up (axisAngleToQuaternion v).get ∧
      ∃ G, a2q.back nr (up v) (up g) = up G ∧ IsVJP (fun v => (axisAngleToQuaternion v).get) v g G) ∧
    ∃ G, a2q.back .maskScaled (up 0) (up g) = up G ∧ IsVJP (fun v => (axisAngleToQuaternion v).get) 0 g G := by
  refine ⟨fun nr v hv ha => vjp (f := fun v => (axisAngleToQuaternion v).get) (a2q_good hv ha g) a2q_runR, fun k => 0.5 * g k.succ,
    funext (a2q_zero g), a2q_zero_deriv g⟩

example : PK.norm3 ![0, 3, 4] ≠ 1e-6 := by
  rw [show PK.norm3 ![0, 3, 4] = 5 by rw [PK.norm3, show dot ![0, 3, 4] ![0, 3, 4] = 5 ^ 2 by simp [dot]; norm_num, Real.sqrt_sq (by norm_num)]]
  norm_num

/-- **C117 is violated** by `axis_angle_to_quaternion` at no rotation, with the newer derivative of the norm: all gradients are NaN. -/
theorem C117_fails_axis_angle_to_quaternion (g : Fin 4 → ℝ) (k : Fin 3) : a2q.back .maskDirection (up 0) (up g) k = .nan :=
  a2q_nan (up g) k

/-- **C117**: backpropagation through `acos_linear_extrapolation` delivers the derivative, for every number, also outside (-1, 1) and at
the bounds. -/
theorem C117_acos_linear_extrapolation (nr : NormRule) {ι : Type} {xs ys : ι → ℝ} {bound : Bound} (h : acosLinearExtrapolation xs bound = .ok ys)
    (i : ι) (g : ℝ) :
    let p := acosProg bound.unpack.1 bound.unpack.2 (xs i)
    p.run (up fun _ => xs i) = up (fun _ => ys i) ∧
    ∃ d, p.back nr (up fun _ => xs i) (up fun _ => g) = up (fun _ => g * d) ∧
      HasDerivAt (fun x => acosExtrapElem bound.unpack.1 bound.unpack.2 x) d (xs i) := by
  simp only [acosLinearExtrapolation] at h
  split_ifs at h with h1 h2
  injection h with h
  rw [not_or, not_le, not_le] at h2
  rw [not_lt] at h1
  intro p
  refine ⟨?_, _, acosProg_back h2.1 h2.2 g, hasDerivAt_acosExtrap h2.1 h1 h2.2 _⟩
  rw [(Prog.sound nr _ _ _ (acosProg_good h2.1 h2.2 fun _ => g)).1, acosProg_runR, ← h]

/-- outside the domain of the inverse cosine -/
example : ∃ ys, acosLinearExtrapolation (fun _ : Unit => 2) (.scalar 0.5) = .ok ys := by
  refine ⟨fun _ => acosExtrapElem (-0.5) 0.5 2, ?_⟩
  have h1 : ¬ ((0.5 : ℝ) < -0.5) := by norm_num
  simp [acosLinearExtrapolation, Bound.unpack, h1]
  norm_num

/-- **C117**, what holds for `quaternion_angular_distance`: when no pair is equal, opposite or orthogonal, and some pair of the batch is not close,
backpropagation delivers the derivative. -/
theorem C117_quaternion_angular_distance_partial (nr : NormRule) {N : ℕ} {q1 q2 : Fin N → Quat} (h0 : ∀ n, qdot (q1 n) (q2 n) ≠ 0)
    (h1 : ∀ n, |qdot (q1 n) (q2 n)| < 1) (hclose : ∃ n, 1e-4 < 1 - qdot (q1 n) (q2 n) ^ 2) (g : Fin N → ℝ) :
    (angDist N).run (up (pairIn q1 q2)) = up (quaternionAngularDistance q1 q2) ∧
    ∃ G, (angDist N).back nr (up (pairIn q1 q2)) (up g) = up G ∧
      IsVJP (fun x => quaternionAngularDistance (fun n => toQ fun k => x (n, inl k)) (fun n => toQ fun k => x (n, inr k))) (pairIn q1 q2) g G := by
  have hd : ∀ n, dotIn (pairIn q1 q2) n = qdot (q1 n) (q2 n) := fun n => by simp [dotIn, pairIn, qdot, Quat.get]
  have := vjp (nr := nr) (f := fun x => quaternionAngularDistance (fun n => toQ fun k => x (n, inl k)) (fun n => toQ fun k => x (n, inr k)))
    (angDist_good (nr := nr) (x := pairIn q1 q2) (by simpa only [hd] using h0) (by simpa only [hd] using h1) (by simpa only [hd] using hclose) g)
    fun x => by
      rw [← angDist_runR_pair]
      congr 1
      funext ⟨n, k⟩
      rcases k with k | k <;> simp [pairIn, toQ_get]
  refine ⟨this.1, this.2⟩

example : ∃ q1 q2 : Fin 1 → Quat, (∀ n, qdot (q1 n) (q2 n) ≠ 0) ∧ (∀ n, |qdot (q1 n) (q2 n)| < 1) ∧ ∃ n, 1e-4 < 1 - qdot (q1 n) (q2 n) ^ 2 :=
  ⟨fun _ => ⟨1, 0, 0, 0⟩, fun _ => ⟨3 / 5, 4 / 5, 0, 0⟩, fun _ => by norm_num [qdot], fun _ => by norm_num [qdot, abs_of_pos],
    0, by norm_num [qdot]⟩

/-- **C117 is violated** by `quaternion_angular_distance` at its minimum: in a batch of close pairs, every gradient of a pair of equal (or
opposite) quaternions is NaN, although the distance is set to zero there. -/
theorem C117_fails_quaternion_angular_distance (nr : NormRule) {N : ℕ} {q1 q2 : Fin N → Quat} (hclose : quaternionClose q1 q2 1e-4) {m : Fin N}
    (hm : IsUnitQ (q1 m)) (heq : q2 m = q1 m ∨ q2 m = negQ (q1 m)) (g : Fin N → ℝ) (k : Fin 4 ⊕ Fin 4) :
    quaternionAngularDistance q1 q2 m = 0 ∧ (angDist N).back nr (up (pairIn q1 q2)) (up g) (m, k) = .nan := by
  have hd : ∀ n, dotIn (pairIn q1 q2) n = qdot (q1 n) (q2 n) := fun n => by simp [dotIn, pairIn, qdot, Quat.get]
  refine ⟨by simp only [quaternionAngularDistance]; rw [if_pos hclose], angDist_nan (by simp only [hd]; exact hclose) ?_ g k⟩
  have hu : qdot (q1 m) (q1 m) = 1 := by unfold IsUnitQ at hm; unfold qdot; linarith
  rw [hd]
  rcases heq with h | h
  · rw [h, hu, abs_one]
  · have : qdot (q1 m) (negQ (q1 m)) = -1 := by rw [← hu]; simp [qdot, negQ]; ring
    rw [h, this, abs_neg, abs_one]

/-- the distance of a batch to itself -/
example (g : Fin 2 → ℝ) (k : Fin 4 ⊕ Fin 4) : let q : Fin 2 → Quat := ![⟨1, 0, 0, 0⟩, ⟨3 / 5, 4 / 5, 0, 0⟩]
    (angDist 2).back .maskDirection (up (pairIn q q)) (up g) (1, k) = .nan := by
  intro q
  refine (C117_fails_quaternion_angular_distance .maskDirection (fun n => ?_) ?_ (Or.inl rfl) g k).2
  · fin_cases n <;> norm_num [q, qdot]
  · norm_num [q, IsUnitQ]

end PK
