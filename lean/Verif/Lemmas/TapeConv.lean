import Verif.Model.TapeConv
import Verif.Lemmas.TapeBatch
import Verif.Props.Gradients
import Verif.Lemmas.Euler2

/-!
# Values and differentiability of the records of the conversions
-/

namespace PK.AD
open Filter Topology Finset Sum Spec
open scoped Classical

variable {ι μ : Type}

/-- nine numbers as a matrix -/
def toM (x : Fin 3 × Fin 3 → ℝ) : M3 := fun i j => x (i, j)

theorem qMul_smooth : qMul.Smooth := ⟨fun _ => trivial, fun _ => trivial, trivial⟩

theorem qMul_runR (x : Fin 4 ⊕ Fin 4 → ℝ) :
    qMul.runR x = (quaternionRawMultiply (toQ fun k => x (inl k)) (toQ fun k => x (inr k))).get := by
  funext k
  fin_cases k <;> simp [qMul, Prog.runR, Op.evalR, qmTerms, quaternionRawMultiply, Quat.get, toQ] <;> ring

theorem qInv_smooth : qInv.Smooth := ⟨fun _ => trivial, trivial⟩

theorem qInv_runR (x : Fin 4 → ℝ) : qInv.runR x = (quaternionInvert (toQ x)).get := by
  funext k
  fin_cases k <;> simp [qInv, Prog.runR, Op.evalR, quaternionInvert, Quat.get, toQ]

theorem qApply_smooth : qApply.Smooth :=
  ⟨fun k => by fin_cases k <;> trivial,
    Prog.smooth_andThen _ (Prog.smooth_rename _ qMul_smooth _) _ <|
    Prog.smooth_andThen _ (Prog.smooth_rename _ qInv_smooth _) _ <|
    Prog.smooth_andThen _ (Prog.smooth_rename _ qMul_smooth _) _ trivial⟩

theorem qApply_runR (x : Fin 4 ⊕ Fin 3 → ℝ) : qApply.runR x = quaternionApply (toQ fun k => x (inl k)) fun k => x (inr k) := by
  rw [qApply, Prog.runR_stage (![0, x (inr 0), x (inr 1), x (inr 2)]) fun k => by fin_cases k <;> simp [Op.evalR]]
  funext k
  simp only [Prog.runR, Prog.runR_andThen, Prog.runR_rename, qMul_runR, qInv_runR, Sum.elim_inl, Sum.elim_inr]
  fin_cases k <;> simp [quaternionApply, quaternionRawMultiply, quaternionInvert, Quat.get, toQ]

theorem negReal_up (x : ℝ) : negReal (.fin x) ↔ x < 0 := Iff.rfl

theorem qStdOn_good [Fintype ι] {nr : NormRule} {v : Fin 4 → ι} {e : ι → ℝ} (h : e (v 0) ≠ 0) (g : Fin 4 → ℝ) : (qStdOn v).Good nr e g := by
  refine ⟨⟨trivial, fun k w _ => good_pick ?_⟩, fun _ _ _ => good_lin _ _⟩
  have hc : ∀ i, ContinuousAt (fun e' : ι ⊕ Fin 4 → ℝ => e' i) (Sum.elim e fun k => (Op.lin 0 [(-1, v k)]).evalR e) := fun i => continuousAt_apply i _
  rcases lt_or_gt_of_ne h with h | h
  · have := (hc (inl (v 0))).eventually (gt_mem_nhds (show Sum.elim e (fun k => (Op.lin 0 [(-1, v k)]).evalR e) (inl (v 0)) < 0 from h))
    filter_upwards [this] with e' he
    rw [if_pos, if_pos]
    · exact h
    · exact he
  · have := (hc (inl (v 0))).eventually (lt_mem_nhds (show 0 < Sum.elim e (fun k => (Op.lin 0 [(-1, v k)]).evalR e) (inl (v 0)) from h))
    filter_upwards [this] with e' he
    rw [if_neg, if_neg]
    · exact not_lt.2 (le_of_lt h)
    · exact not_lt.2 (le_of_lt he)

theorem qStdOn_runR {v : Fin 4 → ι} (e : ι → ℝ) : (qStdOn v).runR e = (standardizeQuaternion (toQ fun k => e (v k))).get := by
  rw [qStdOn, Prog.runR_stage (fun k => -e (v k)) (fun k => by simp [Op.evalR]),
    Prog.runR_stage (fun k => if e (v 0) < 0 then -e (v k) else e (v k)) fun k => ?_]
  · funext k
    simp only [Prog.runR, Sum.elim_inr, standardizeQuaternion]
    by_cases h : e (v 0) < 0
    · rw [if_pos h, if_pos (show (toQ fun k => e (v k)).w < 0 from h)]
      fin_cases k <;> simp [toQ, Quat.get]
    · rw [if_neg h, if_neg (show ¬ (toQ fun k => e (v k)).w < 0 from h), toQ_get]
  · have hn : negReal (up (Sum.elim e fun k => -e (v k)) (inl (v 0))) ↔ e (v 0) < 0 := Iff.rfl
    simp only [Op.evalR, hn]
    split_ifs <;> rfl

theorem qMultiply_good {nr : NormRule} {x : Fin 4 ⊕ Fin 4 → ℝ}
    (h : (quaternionRawMultiply (toQ fun k => x (inl k)) (toQ fun k => x (inr k))).w ≠ 0) (g : Fin 4 → ℝ) : qMultiply.Good nr x g := by
  refine ⟨⟨qStdOn_good ?_ g, fun _ _ _ => good_lin _ _⟩, fun _ _ _ => good_mul _ _⟩
  have := congrFun (qMul_runR x) 0
  rw [show (quaternionRawMultiply (toQ fun k => x (inl k)) (toQ fun k => x (inr k))).w = _ from this.symm] at h
  exact h

theorem qMultiply_runR (x : Fin 4 ⊕ Fin 4 → ℝ) :
    qMultiply.runR x = (quaternionMultiply (toQ fun k => x (inl k)) (toQ fun k => x (inr k))).get := by
  have h := qMul_runR x
  rw [quaternionMultiply, qMultiply, Prog.runR_stage (fun p => x (inl p.1) * x (inr p.2)) (fun _ => rfl), Prog.runR_stage (qMul.runR x) (fun _ => rfl),
    qStdOn_runR]
  simp only [Sum.elim_inr, h]
  rfl

/-! ## Euler angles -/

theorem mm3_runR (A B : Fin 3 × Fin 3 → ι) (p : Prog ((ι ⊕ (Fin 3 × Fin 3) × Fin 3) ⊕ Fin 3 × Fin 3) μ) (e : ι → ℝ) :
    (mm3 A B p).runR e = p.runR (Sum.elim (Sum.elim e fun q => e (A (q.1.1, q.2)) * e (B (q.2, q.1.2)))
      fun q => (toM (fun q => e (A q)) * toM fun q => e (B q)) q.1 q.2) := by
  rw [mm3, Prog.runR_stage (fun q => e (A (q.1.1, q.2)) * e (B (q.2, q.1.2))) (fun _ => rfl),
    Prog.runR_stage (fun q => (toM (fun q => e (A q)) * toM fun q => e (B q)) q.1 q.2) fun q => ?_]
  simp [Op.evalR, Matrix.mul_apply, Fin.sum_univ_three, toM]
  ring

theorem axEntry_eval (a : Ax) (t : ℝ) (p : Fin 3 × Fin 3) :
    (axEntry a p).1 + ((axEntry a p).2.map fun s => s.1 * if s.2 then Real.cos t else Real.sin t).sum = axisAngleRotation a t p.1 p.2 := by
  obtain ⟨i, j⟩ := p
  cases a <;> fin_cases i <;> fin_cases j <;> simp [axEntry, axisAngleRotation]

theorem eulMat_smooth (a : Fin 3 → Ax) : (eulMat a).Smooth :=
  ⟨fun _ => trivial, fun _ => trivial, fun _ => trivial, fun _ => trivial, fun _ => trivial, fun _ => trivial, fun _ => trivial, trivial⟩

theorem eulMat_runR (a : Fin 3 → Ax) (x : Fin 3 → ℝ) : (eulMat a).runR x
    = fun p => (axisAngleRotation (a 0) (x 0) * axisAngleRotation (a 1) (x 1) * axisAngleRotation (a 2) (x 2)) p.1 p.2 := by
  rw [eulMat, Prog.runR_stage (fun i => Real.cos (x i)) (fun _ => rfl), Prog.runR_stage (fun i => Real.sin (x i)) (fun _ => rfl),
    Prog.runR_stage (fun q => axisAngleRotation (a q.1) (x q.1) q.2.1 q.2.2) fun q => ?_, mm3_runR, mm3_runR]
  · rfl
  · rw [← axEntry_eval]
    simp only [Op.evalR, List.map_map]
    congr 2
    apply List.map_congr_left
    rintro ⟨s, b⟩ _
    cases b <;> rfl

theorem tanOps_eval (axis other : Ax) (data : V3) (h tb : Bool) : angleFromTan axis other data h tb
    = PK.atan2 ((tanOps axis other h tb).1.1 * data (tanOps axis other h tb).1.2) ((tanOps axis other h tb).2.1 * data (tanOps axis other h tb).2.2) := by
  cases axis <;> cases other <;> cases h <;> cases tb <;> simp [angleFromTan, tanOps]

theorem ax_index {a c : Ax} : a = c ↔ indexFromLetter a = indexFromLetter c := by cases a <;> cases c <;> simp [indexFromLetter]

/-- the number of which the middle angle is computed -/
noncomputable def midVal (a c : Ax) (m : M3) : ℝ := (midOp a c).1 * m (midOp a c).2.1 (midOp a c).2.2

/-- the operands of the two calls of `atan2` -/
noncomputable def outVal (a b c : Ax) (m : M3) (q : Fin 2 × Fin 2) : ℝ := (outOps a b c q).1 * m (outOps a b c q).2.1 (outOps a b c q).2.2

/-- the middle angle -/
noncomputable def midAngle (a c : Ax) (m : M3) : ℝ := if a = c then Real.arccos (midVal a c m) else Real.pi / 2 - Real.arccos (midVal a c m)

/-- the three angles -/
noncomputable def angles (a b c : Ax) (m : M3) : V3 :=
  ![PK.atan2 (outVal a b c m (0, 0)) (outVal a b c m (0, 1)), midAngle a c m, PK.atan2 (outVal a b c m (1, 0)) (outVal a b c m (1, 1))]

theorem matEul_runR (a b c : Ax) (m : M3) : (matEul a b c).runR (ent m) = angles a b c m := by
  rw [matEul, Prog.runR_stage (fun _ => midVal a c m) (fun _ => by simp [Op.evalR, midVal, ent]),
    Prog.runR_stage (fun _ => Real.arccos (midVal a c m)) (fun _ => rfl),
    Prog.runR_stage (fun _ => midAngle a c m) (fun _ => by
      simp only [midAngle]; split_ifs <;> simp [Op.evalR] <;> ring),
    Prog.runR_stage (outVal a b c m) (fun q => by simp [Op.evalR, outVal, ent]),
    Prog.runR_stage (fun i => PK.atan2 (outVal a b c m (i, 0)) (outVal a b c m (i, 1))) (fun _ => rfl)]
  funext k
  fin_cases k <;> rfl

theorem matEul_good {nr : NormRule} (a b c : Ax) {m : M3} (hm : -1 < midVal a c m) (hm' : midVal a c m < 1)
    (ho : ∀ i, 0 < outVal a b c m (i, 1) ∨ outVal a b c m (i, 0) ≠ 0) (g : Fin 3 → ℝ) : (matEul a b c).Good nr (ent m) g := by
  refine Prog.good_stage (fun _ => midVal a c m) (fun _ => by simp [Op.evalR, midVal, ent]) ?_ fun _ _ _ => good_lin _ _
  refine Prog.good_stage (fun _ => Real.arccos (midVal a c m)) (fun _ => rfl) ?_ fun _ _ _ => good_acos hm hm'
  refine Prog.good_stage (fun _ => midAngle a c m) (fun _ => by
      simp only [midAngle]; split_ifs <;> simp [Op.evalR] <;> ring) ?_ fun _ _ _ => by split_ifs <;> exact good_lin _ _
  refine Prog.good_stage (outVal a b c m) (fun q => by simp [Op.evalR, outVal, ent]) ?_ fun _ _ _ => good_lin _ _
  exact ⟨trivial, fun i _ _ => good_atan2_slit (ho i)⟩

theorem angles_eq (a b c : Ax) (m : M3) : angles a b c m
    = ![angleFromTan a b (fun r => m r (indexFromLetter c)) false (indexFromLetter a ≠ indexFromLetter c),
        if indexFromLetter a ≠ indexFromLetter c then Real.arcsin (m (indexFromLetter a) (indexFromLetter c) *
          (if (((indexFromLetter a).val : ℤ) - ((indexFromLetter c).val : ℤ)) = -1 ∨ (((indexFromLetter a).val : ℤ) - ((indexFromLetter c).val : ℤ)) = 2 then -1 else 1))
        else Real.arccos (m (indexFromLetter a) (indexFromLetter a)),
        angleFromTan c b (fun k => m (indexFromLetter a) k) true (indexFromLetter a ≠ indexFromLetter c)] := by
  rw [tanOps_eval, tanOps_eval]
  have h1 : midAngle a c m = if indexFromLetter a ≠ indexFromLetter c then Real.arcsin (m (indexFromLetter a) (indexFromLetter c) *
          (if (((indexFromLetter a).val : ℤ) - ((indexFromLetter c).val : ℤ)) = -1 ∨ (((indexFromLetter a).val : ℤ) - ((indexFromLetter c).val : ℤ)) = 2 then -1 else 1))
        else Real.arccos (m (indexFromLetter a) (indexFromLetter a)) := by
    by_cases h : a = c
    · subst h; simp [midAngle, midVal, midOp]
    · have h' : ¬ indexFromLetter a = indexFromLetter c := fun e => h (ax_index.2 e)
      simp only [midAngle, midVal, midOp, h, h', if_false, ne_eq, not_false_eq_true, if_true, Real.arccos]
      rw [mul_comm]; ring
  rw [angles, h1]
  simp only [outVal, outOps]

theorem matrixToEulerAngles_eq {conv : List Char} {a b c : Ax} (h : parseConvention conv = .ok (a, b, c)) (m : M3) :
    matrixToEulerAngles m conv = .ok (angles a b c m) := by
  rw [angles_eq]
  simp only [matrixToEulerAngles, h]
  congr 2
  simp

/-! ## Gimbal lock -/

theorem rot_sq {m : M3} (h : Spec.IsRot m) : (∀ i, m i 0 ^ 2 + m i 1 ^ 2 + m i 2 ^ 2 = 1) ∧ ∀ j, m 0 j ^ 2 + m 1 j ^ 2 + m 2 j ^ 2 = 1 := by
  have h1 := ((isRot_iff m).1 h).1
  have h2 : m.transpose * m = 1 := mul_eq_one_comm.1 h1
  constructor
  · intro i
    have := congrFun (congrFun h1 i) i
    simp only [Matrix.mul_apply, Fin.sum_univ_three, Matrix.transpose_apply, Matrix.one_apply_eq] at this
    linarith
  · intro j
    have := congrFun (congrFun h2 j) j
    simp only [Matrix.mul_apply, Fin.sum_univ_three, Matrix.transpose_apply, Matrix.one_apply_eq] at this
    linarith

theorem midVal_sq (a c : XYZ) (m : M3) : midVal (axOf a) (axOf c) m ^ 2 = m (XYZidx a) (XYZidx c) ^ 2 := by
  cases a <;> cases c <;> simp [midVal, midOp, axOf, indexFromLetter, XYZidx]

theorem outVal_sq {m : M3} (h : Spec.IsRot m) {a b c : XYZ} (hab : a ≠ b) (hbc : b ≠ c) (i : Fin 2) :
    outVal (axOf a) (axOf b) (axOf c) m (i, 0) ^ 2 + outVal (axOf a) (axOf b) (axOf c) m (i, 1) ^ 2 = 1 - m (XYZidx a) (XYZidx c) ^ 2 := by
  obtain ⟨h1, h2⟩ := rot_sq h
  have r0 := h1 0; have r1 := h1 1; have r2 := h1 2
  have c0 := h2 0; have c1 := h2 1; have c2 := h2 2
  clear h1 h2
  fin_cases i <;> cases a <;> cases b <;> simp at hab <;> cases c <;> simp at hbc <;>
    simp [outVal, outOps, tanOps, axOf, indexFromLetter, XYZidx] <;> linarith

theorem atan2_slit {y x : ℝ} (h : y ^ 2 + x ^ 2 ≠ 0) (hpi : PK.atan2 y x ≠ Real.pi) : 0 < x ∨ y ≠ 0 := by
  by_contra hc
  rw [not_or, not_lt, not_not] at hc
  obtain ⟨h1, rfl⟩ := hc
  have hx : x < 0 := lt_of_le_of_ne h1 (by rintro rfl; simp at h)
  exact hpi (Complex.arg_eq_pi_iff.2 ⟨hx, rfl⟩)

/-- the entries of which the outer angles are computed -/
theorem outOps_entries {a b c : XYZ} (hab : a ≠ b) (hbc : b ≠ c) {p : Fin 3 × Fin 3}
    (hp : (p.1 ≠ XYZidx a ∧ p.2 = XYZidx c) ∨ (p.1 = XYZidx a ∧ p.2 ≠ XYZidx c)) :
    ∃ q, (outOps (axOf a) (axOf b) (axOf c) q).2 = p := by
  obtain ⟨i, j⟩ := p
  revert hp
  cases a <;> cases b <;> simp at hab <;> cases c <;> simp at hbc <;> fin_cases i <;> fin_cases j <;>
    simp [XYZidx, outOps, tanOps, axOf, indexFromLetter, Prod.exists, Fin.exists_fin_two]

theorem matEul_nan {nr : NormRule} {a b c : Ax} {m : M3} (hm : midVal a c m ^ 2 ≤ 1) (ho : ∀ q, outVal a b c m q = 0) (g : Fin 3 → Fl)
    (q : Fin 2 × Fin 2) : (matEul a b c).back nr (up (ent m)) g (outOps a b c q).2 = .nan := by
  have hm1 : ¬ (midVal a c m < -1 ∨ 1 < midVal a c m) := by
    rintro (h | h) <;> nlinarith
  have hlin : ∀ {ι : Type} [Fintype ι] (e : ι → ℝ) (k : ℝ) (l : List (ℝ × ι)), (Op.lin k l).eval (up e) = .fin ((Op.lin k l).evalR e) :=
    fun e k l => (good_lin (nr := .maskScaled) (w := 0) k l).val
  unfold matEul
  refine Prog.back_nan_left (up fun _ => midVal a c m) (fun _ => by rw [hlin]; simp [Op.evalR, midVal, ent, up]) ?_
  rw [← up_elim]
  refine Prog.back_nan_left (up fun _ => Real.arccos (midVal a c m)) (fun _ => by simp [Op.eval, up, AD.acos, hm1]) ?_
  rw [← up_elim]
  refine Prog.back_nan_left (up fun _ => midAngle a c m) (fun _ => by
      simp only [midAngle]; split_ifs <;> rw [hlin] <;> simp [Op.evalR, up] <;> ring) ?_
  rw [← up_elim]
  refine Prog.back_nan_pull (up (outVal a b c m)) (fun q => by rw [hlin]; simp [Op.evalR, outVal, ent, up]) q ?_
  have s1 : ∀ v y : Fl, y = .nan → (inl (inl (inl (outOps a b c q).2)), Fl.nan) ∈
      (Op.lin 0 [((outOps a b c q).1, inl (inl (inl (outOps a b c q).2)))] : Op (((Fin 3 × Fin 3 ⊕ Unit) ⊕ Unit) ⊕ Unit)).pull nr
        (up (Sum.elim (Sum.elim (Sum.elim (ent m) fun _ => midVal a c m) fun _ => Real.arccos (midVal a c m)) fun _ => midAngle a c m)) v y := by
    rintro v y rfl
    simp [Op.pull, nan_mul]
  apply s1
  rw [← up_elim]
  refine Prog.back_nan_pull (up fun i => PK.atan2 (outVal a b c m (i, 0)) (outVal a b c m (i, 1))) (fun i => by simp [Op.eval, up, AD.atan2]) q.1 ?_
  have s2 : ∀ {X : Type} (E : X → ℝ) (v y : Fl), (inr q, Fl.nan) ∈
      (Op.atan2 (inr (q.1, 0)) (inr (q.1, 1)) : Op (X ⊕ Fin 2 × Fin 2)).pull nr (up (Sum.elim E (outVal a b c m))) v y := by
    intro X E v y
    obtain ⟨i, s⟩ := q
    have h0 := ho (i, 0); have h1 := ho (i, 1)
    fin_cases s <;> cases y <;> simp [Op.pull, up, h0, h1, AD.mul, AD.div, fin_add, Fl.neg, infTimes]
  exact s2 _ _ _

/-! ## Six numbers -/

theorem good_norm3_zero [Fintype ι] {nr : NormRule} {e : ι → ℝ} {a b c : ι} (h : ![e a, e b, e c] = 0) : (Op.norm3 a b c).Good nr e 0 where
  val := rfl
  big := by
    have ha : e a = 0 := congrFun h 0
    have hb : e b = 0 := congrFun h 1
    have hc : e c = 0 := congrFun h 2
    have h0 : (Op.norm3 a b c).evalR e = 0 := norm3_eq_zero.2 h
    refine Asymptotics.IsBigO.of_bound 3 (Eventually.of_forall fun e' => ?_)
    rw [h0, sub_zero]
    simp only [Op.evalR, Real.norm_eq_abs]
    have hi : ∀ i, e i = 0 → |e' i| ≤ ‖e' - e‖ := fun i hi => by
      have := norm_le_pi_norm (e' - e) i
      simpa [hi] using this
    have h1 := hi a ha; have h2 := hi b hb; have h3 := hi c hc
    rw [abs_of_nonneg (norm3_nonneg _)]
    refine (abs_le_of_sq_le_sq' (b := |e' a| + |e' b| + |e' c|) ?_ (by positivity)).2.trans (by linarith)
    rw [norm3_sq]
    have ea := sq_abs (e' a); have eb := sq_abs (e' b); have ec := sq_abs (e' c)
    have pa := abs_nonneg (e' a); have pb := abs_nonneg (e' b); have pc := abs_nonneg (e' c)
    simp only [dot]
    simp
    nlinarith [mul_nonneg pa pb, mul_nonneg pa pc, mul_nonneg pb pc]
  pull := ⟨[(a, 0), (b, 0), (c, 0)], by
    have ha : e a = 0 := congrFun h 0
    have hb : e b = 0 := congrFun h 1
    have hc : e c = 0 := congrFun h 2
    have h0 : (Op.norm3 a b c).evalR e = 0 := norm3_eq_zero.2 h
    rw [h0]
    cases nr <;> simp [Op.pull, normBack, up, upL, AD.mul, ha, hb, hc], by simp [pair]⟩

/-- the entries after `normalize3` -/
noncomputable def normEnv (v : Fin 3 → ι) (e : ι → ℝ) : ((ι ⊕ Unit) ⊕ Unit) ⊕ Fin 3 → ℝ :=
  Sum.elim (Sum.elim (Sum.elim e fun _ => PK.norm3 fun k => e (v k)) fun _ => max (PK.norm3 fun k => e (v k)) 1e-12) (fNormalize fun k => e (v k))

theorem vec3 (f : Fin 3 → ℝ) : ![f 0, f 1, f 2] = f := by funext i; fin_cases i <;> rfl

theorem normalize3_runR (v : Fin 3 → ι) (p : Prog (((ι ⊕ Unit) ⊕ Unit) ⊕ Fin 3) μ) (e : ι → ℝ) :
    (normalize3 v p).runR e = p.runR (normEnv v e) := by
  rw [normalize3, Prog.runR_stage (fun _ => PK.norm3 fun k => e (v k)) (fun _ => by simp only [Op.evalR]; rw [vec3 fun k => e (v k)]),
    Prog.runR_stage (fun _ => max (PK.norm3 fun k => e (v k)) 1e-12) (fun _ => rfl), Prog.runR_stage (fNormalize fun k => e (v k)) (fun _ => rfl)]
  rfl

theorem normalize3_good [Fintype ι] [Fintype μ] {nr : NormRule} {v : Fin 3 → ι} {p : Prog (((ι ⊕ Unit) ⊕ Unit) ⊕ Fin 3) μ} {e : ι → ℝ} {g : μ → ℝ}
    (h : (PK.norm3 fun k => e (v k)) ≠ 1e-12) (hp : p.Good nr (normEnv v e) g)
    (hi : ∀ e', (∀ i, i ≠ inl (inl (inr ())) → e' i = normEnv v e i) → p.runR e' = p.runR (normEnv v e)) : (normalize3 v p).Good nr e g := by
  have hmax : (0 : ℝ) < max (PK.norm3 fun k => e (v k)) 1e-12 := lt_of_lt_of_le (by norm_num) (le_max_right _ _)
  have g3 : (Prog.stage (Fin 3) (fun k => Op.div (inl (inl (v k))) (inr ())) p).Good nr
      (Sum.elim (Sum.elim e fun _ => PK.norm3 fun k => e (v k)) fun _ => max (PK.norm3 fun k => e (v k)) 1e-12) g :=
    Prog.good_stage (fNormalize fun k => e (v k)) (fun _ => rfl) hp fun _ _ _ => good_div hmax.ne'
  have g2 : (Prog.stage Unit (fun _ => Op.clampMin 1e-12 (inr ())) (Prog.stage (Fin 3) (fun k => Op.div (inl (inl (v k))) (inr ())) p)).Good nr
      (Sum.elim e fun _ => PK.norm3 fun k => e (v k)) g :=
    Prog.good_stage (fun _ => max (PK.norm3 fun k => e (v k)) 1e-12) (fun _ => rfl) g3 fun _ _ _ => good_clampMin h
  refine Prog.good_stage (fun _ => PK.norm3 fun k => e (v k)) (fun _ => by simp only [Op.evalR]; rw [vec3 fun k => e (v k)]) g2 fun _ w hw => ?_
  by_cases h0 : (fun k => e (v k)) = 0
  · have hn : (PK.norm3 fun k => e (v k)) = 0 := norm3_eq_zero.2 h0
    have hz : w = 0 := by
      rw [Prog.back_stage (up fun _ => max (PK.norm3 fun k => e (v k)) 1e-12) (fun _ => by exact max_fin _ _), ← up_elim,
        Prog.back_zero g3 (inl (inr ())) fun e' he => ?_] at hw
      · simp only [univ_unique, sum_singleton, Op.pull, total, List.map, List.sum_cons, List.sum_nil, up, Sum.elim_inr, hn, Fl.le] at hw
        norm_num at hw
        simpa [zero_def, fin_add] using hw.symm
      · rw [Prog.runR_stage (fNormalize fun k => e (v k)) fun k => ?_, Prog.runR_stage (fNormalize fun k => e (v k)) fun _ => rfl]
        · rw [hi _ fun i hi => ?_, ← hi _ fun i hi => rfl]
          · rfl
          · rcases i with i | i
            · exact he i (by rintro rfl; exact hi rfl)
            · rfl
        · simp only [Op.evalR]
          rw [he _ (by simp), he _ (by simp)]
          rfl
    rw [hz]
    exact good_norm3_zero (by rw [vec3 fun k => e (v k)]; exact h0)
  · exact good_norm3 (by rw [vec3 fun k => e (v k)]; exact h0)

/-- the three rows -/
def rows3 (b1 b2 : V3) (p : Fin 3 × Fin 3) : ℝ := (!![b1 0, b1 1, b1 2; b2 0, b2 1, b2 2; cross b1 b2 0, cross b1 b2 1, cross b1 b2 2] : M3) p.1 p.2

theorem rot6dStack_smooth : rot6dStack.Smooth := by
  refine ⟨fun _ => trivial, fun p => ?_, trivial⟩
  obtain ⟨i, j⟩ := p
  fin_cases i <;> trivial

theorem rot6dStack_runR (e : ((R6' ⊕ Unit) ⊕ Unit) ⊕ Fin 3 → ℝ) :
    rot6dStack.runR e = rows3 (fun k => e (inl (inl (inl (inl (inl (inl (inl (inr k))))))))) fun k => e (inr k) := by
  funext ⟨i, j⟩
  fin_cases i <;> fin_cases j <;> simp [rot6dStack, Prog.runR, Op.evalR, rows3, crossTerms, cross] <;> try ring

/-- the part of `a` across `b` -/
def across (b a : V3) : V3 := fun k => a k - dot b a * b k

theorem rot6dTail_runR (e : R6 → ℝ) : rot6dTail.runR e = rows3 (fun k => e (inr k))
    (fNormalize (across (fun k => e (inr k)) fun k => e (inl (inl (inl (![3, 4, 5] k)))))) := by
  rw [rot6dTail, Prog.runR_stage (fun k => e (inr k) * e (inl (inl (inl (![3, 4, 5] k))))) (fun _ => rfl),
    Prog.runR_stage (fun _ => dot (fun k => e (inr k)) fun k => e (inl (inl (inl (![3, 4, 5] k))))) (fun _ => by simp [Op.evalR, dot]; try ring),
    Prog.runR_stage (fun k => dot (fun k => e (inr k)) (fun k => e (inl (inl (inl (![3, 4, 5] k))))) * e (inr k)) (fun _ => rfl),
    Prog.runR_stage (across (fun k => e (inr k)) fun k => e (inl (inl (inl (![3, 4, 5] k))))) (fun _ => by simp [Op.evalR, across]; try ring),
    normalize3_runR, rot6dStack_runR]
  rfl

theorem rot6dTail_good {nr : NormRule} {e : R6 → ℝ}
    (h : PK.norm3 (across (fun k => e (inr k)) fun k => e (inl (inl (inl (![3, 4, 5] k))))) ≠ 1e-12) (g : Fin 3 × Fin 3 → ℝ) :
    rot6dTail.Good nr e g := by
  refine Prog.good_stage (fun k => e (inr k) * e (inl (inl (inl (![3, 4, 5] k))))) (fun _ => rfl) ?_ fun _ _ _ => good_mul _ _
  refine Prog.good_stage (fun _ => dot (fun k => e (inr k)) fun k => e (inl (inl (inl (![3, 4, 5] k))))) (fun _ => by simp [Op.evalR, dot]; try ring) ?_
    fun _ _ _ => good_lin _ _
  refine Prog.good_stage (fun k => dot (fun k => e (inr k)) (fun k => e (inl (inl (inl (![3, 4, 5] k))))) * e (inr k)) (fun _ => rfl) ?_
    fun _ _ _ => good_mul _ _
  refine Prog.good_stage (across (fun k => e (inr k)) fun k => e (inl (inl (inl (![3, 4, 5] k))))) (fun _ => by simp [Op.evalR, across]; try ring) ?_
    fun _ _ _ => good_lin _ _
  refine normalize3_good h (Prog.good_of_smooth _ rot6dStack_smooth _ _) fun e' he => ?_
  rw [rot6dStack_runR, rot6dStack_runR]
  congr 1
  · funext k; exact he _ (by simp)
  · funext k; exact he _ (by simp)

theorem rot6d_runR (x : Fin 6 → ℝ) : rot6d.runR x = fun p => rotation6dToMatrix (![x 0, x 1, x 2], ![x 3, x 4, x 5]) p.1 p.2 := by
  rw [rot6d, normalize3_runR, rot6dTail_runR]
  have h1 : (fun k => x (![0, 1, 2] k)) = ![x 0, x 1, x 2] := by funext i; fin_cases i <;> rfl
  have h2 : (fun k => x (![3, 4, 5] k)) = ![x 3, x 4, x 5] := by funext i; fin_cases i <;> rfl
  simp only [normEnv, Sum.elim_inl, Sum.elim_inr, h1, h2]
  rfl

theorem rot6d_good {nr : NormRule} {x : Fin 6 → ℝ} (h1 : PK.norm3 ![x 0, x 1, x 2] ≠ 1e-12)
    (h2 : PK.norm3 (across (fNormalize ![x 0, x 1, x 2]) ![x 3, x 4, x 5]) ≠ 1e-12) (g : Fin 3 × Fin 3 → ℝ) : rot6d.Good nr x g := by
  have e1 : (fun k => x (![0, 1, 2] k)) = ![x 0, x 1, x 2] := by funext i; fin_cases i <;> rfl
  have e2 : (fun k => x (![3, 4, 5] k)) = ![x 3, x 4, x 5] := by funext i; fin_cases i <;> rfl
  refine normalize3_good (by rw [e1]; exact h1) (rot6dTail_good ?_ g) fun e' he => ?_
  · simp only [normEnv, Sum.elim_inl, Sum.elim_inr, e1, e2]
    exact h2
  · rw [rot6dTail_runR, rot6dTail_runR]
    have a1 : (fun k => e' (inr k)) = fun k => normEnv ![0, 1, 2] x (inr k) := by funext k; exact he _ (by simp)
    have a2 : (fun k => e' (inl (inl (inl (![3, 4, 5] k))))) = fun k => normEnv ![0, 1, 2] x (inl (inl (inl (![3, 4, 5] k)))) := by
      funext k; exact he _ (by simp)
    rw [a1, a2]

/-! ## Homogeneous matrices -/

theorem homOp_evalR {rot : Fin 3 × Fin 3 → ι} {pos : Fin 3 → ι} (e : ι → ℝ) (p : Fin 4 × Fin 4) :
    (homOp rot pos p).evalR e = hom (fun i j => e (rot (i, j))) (fun k => e (pos k)) p.1 p.2 := by
  obtain ⟨i, j⟩ := p
  fin_cases i <;> fin_cases j <;> simp [homOp, Op.evalR, hom]

theorem homOp_smooth {rot : Fin 3 × Fin 3 → ι} {pos : Fin 3 → ι} (p : Fin 4 × Fin 4) : (homOp rot pos p).Smooth := by
  unfold homOp; split_ifs <;> trivial

theorem q2m_regAt {q : Fin 4 → ℝ} (h : q ≠ 0) : q2m.RegAt q := by
  refine ⟨fun _ => trivial, fun _ => trivial, fun _ => ?_, fun _ => trivial, fun _ => trivial, fun _ => trivial, fun _ => trivial, fun p => ?_, trivial⟩
  · intro h0
    apply h
    simp [Op.evalR] at h0
    have s0 := mul_self_nonneg (q 0); have s1 := mul_self_nonneg (q 1); have s2 := mul_self_nonneg (q 2); have s3 := mul_self_nonneg (q 3)
    funext i
    have e0 : q 0 = 0 := mul_self_eq_zero.1 (by linarith)
    have e1 : q 1 = 0 := mul_self_eq_zero.1 (by linarith)
    have e2 : q 2 = 0 := mul_self_eq_zero.1 (by linarith)
    have e3 : q 3 = 0 := mul_self_eq_zero.1 (by linarith)
    fin_cases i
    exacts [e0, e1, e2, e3]
  · beta_reduce; split_ifs <;> trivial

theorem posRotMat_regAt {x : Fin 3 ⊕ Fin 4 → ℝ} (h : ∃ k, x (inr k) ≠ 0) : posRotMat.RegAt x := by
  refine (Prog.regAt_andThen _ _ _).2 ⟨(Prog.regAt_rename _ _ _).2 (q2m_regAt fun h0 => ?_), fun p => Op.regAt_of_smooth (homOp_smooth p) _, trivial⟩
  obtain ⟨k, hk⟩ := h
  apply hk
  fin_cases k
  · exact congrFun h0 1
  · exact congrFun h0 2
  · exact congrFun h0 3
  · exact congrFun h0 0

theorem posRotMat_runR (x : Fin 3 ⊕ Fin 4 → ℝ) : posRotMat.runR x = fun p => posRotToMatrix (fun k => x (inl k)) (fun k => x (inr k)) p.1 p.2 := by
  funext p
  simp only [posRotMat, Prog.runR_andThen, Prog.runR_rename, Prog.runR, homOp_evalR, Sum.elim_inl, Sum.elim_inr]
  rw [show (fun k => x (inr (![3, 0, 1, 2] k))) = (xyzwToWxyz fun k => x (inr k)).get by funext k; fin_cases k <;> rfl, q2m_runR]
  rfl

theorem normalize3_regAt {v : Fin 3 → ι} {p : Prog (((ι ⊕ Unit) ⊕ Unit) ⊕ Fin 3) μ} {e : ι → ℝ}
    (h : 1e-12 < PK.norm3 fun k => e (v k)) (hp : p.RegAt (normEnv v e)) : (normalize3 v p).RegAt e := by
  have h0 : (fun k => e (v k)) ≠ 0 := fun h0 => by rw [norm3_eq_zero.2 h0] at h; norm_num at h
  have hmax : (0 : ℝ) < max (PK.norm3 fun k => e (v k)) 1e-12 := lt_of_lt_of_le (by norm_num) (le_max_right _ _)
  have hn : (fun _ : Unit => (Op.norm3 (v 0) (v 1) (v 2)).evalR e) = fun _ => PK.norm3 fun k => e (v k) := by
    funext _; simp only [Op.evalR]; rw [vec3 fun k => e (v k)]
  refine ⟨fun _ => ?_, fun _ => ?_, fun _ => ?_, ?_⟩
  · show ![e (v 0), e (v 1), e (v 2)] ≠ 0
    rw [vec3 fun k => e (v k)]; exact h0
  · rw [hn]; exact h.ne'
  · rw [hn]; exact hmax.ne'
  · rw [hn]; exact hp

theorem rot6d_regAt {x : Fin 6 → ℝ} (h1 : 1e-12 < PK.norm3 ![x 0, x 1, x 2])
    (h2 : 1e-12 < PK.norm3 (across (fNormalize ![x 0, x 1, x 2]) ![x 3, x 4, x 5])) : rot6d.RegAt x := by
  have e1 : (fun k => x (![0, 1, 2] k)) = ![x 0, x 1, x 2] := by funext i; fin_cases i <;> rfl
  have e2 : (fun k => x (![3, 4, 5] k)) = ![x 3, x 4, x 5] := by funext i; fin_cases i <;> rfl
  refine normalize3_regAt (by rw [e1]; exact h1) ⟨fun _ => trivial, fun _ => trivial, fun _ => trivial, fun _ => trivial,
    normalize3_regAt ?_ (Prog.regAt_of_smooth _ rot6dStack_smooth _)⟩
  convert h2 using 2
  funext k
  simp only [Op.evalR, Sum.elim_inr, Sum.elim_inl, normEnv, List.map, List.sum_cons, List.sum_nil, across, dot, e1]
  fin_cases k <;> simp <;> ring

theorem se3Mat_regAt {x : Fin 9 → ℝ} (h1 : 1e-12 < PK.norm3 ![x 0, x 1, x 2])
    (h2 : 1e-12 < PK.norm3 (across (fNormalize ![x 0, x 1, x 2]) ![x 3, x 4, x 5])) : se3Mat.RegAt x :=
  (Prog.regAt_andThen _ _ _).2 ⟨(Prog.regAt_rename _ _ _).2 (rot6d_regAt h1 h2), fun p => Op.regAt_of_smooth (homOp_smooth p) _, trivial⟩

theorem se3Mat_runR (x : Fin 9 → ℝ) : se3Mat.runR x
    = fun p => se3_9dToMatrix44 ((![x 0, x 1, x 2], ![x 3, x 4, x 5]), ![x 6, x 7, x 8]) p.1 p.2 := by
  funext p
  simp only [se3Mat, Prog.runR_andThen, Prog.runR_rename, Prog.runR, homOp_evalR, Sum.elim_inl, Sum.elim_inr, rot6d_runR, se3_9dToMatrix44]
  congr 2
  funext k
  fin_cases k <;> rfl

/-- the distance of `a` from the line of `b` -/
theorem across_eq {b : V3} (h : 1e-12 < PK.norm3 b) (a : V3) : across (fNormalize b) a = fun k => a k - dot b a / dot b b * b k := by
  have hp : 0 < PK.norm3 b := lt_trans (by norm_num) h
  funext k
  simp only [across, fNormalize, max_eq_left h.le]
  rw [← norm3_sq b]
  have : dot (fNormalize b) a = dot b a / PK.norm3 b := by simp only [dot, fNormalize, max_eq_left h.le]; ring
  rw [this]
  field_simp

end PK.AD
