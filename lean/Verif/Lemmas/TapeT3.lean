import Verif.Lemmas.TapeBatch
import Verif.Props.TapeRot

/-!
# Records of transforms: values, and when they can be differentiated
-/

namespace PK.AD
open Sum
open scoped Classical

noncomputable section

variable {ι κ μ ν α β γ : Type}

/-! ## One element -/

def toM3 (v : E3 → ℝ) : M3 := Matrix.of fun i j => v (i, j)
def toM4 (v : E4 → ℝ) : M4 := Matrix.of fun i j => v (i, j)
def toPts {P : ℕ} (v : Fin P × Fin 3 → ℝ) : Matrix (Fin P) (Fin 3) ℝ := Matrix.of fun i j => v (i, j)
def quatOf (v : Fin 4 → ℝ) : Quat := ⟨v 0, v 1, v 2, v 3⟩

theorem toM4_translateP (v : Fin 3 → ℝ) : toM4 (translateP.runR v) = hom 1 v := by
  ext i j
  fin_cases i <;> fin_cases j <;> simp [toM4, translateP, Prog.runR, Op.evalR, hom]

theorem toM4_scaleP (v : Fin 3 → ℝ) : toM4 (scaleP.runR v) = Matrix.diagonal ![v 0, v 1, v 2, 1] := by
  ext i j
  fin_cases i <;> fin_cases j <;> simp [toM4, scaleP, Prog.runR, Op.evalR]

theorem toM4_rotateP (v : E3 → ℝ) : toM4 (rotateP.runR v) = hom (toM3 v) 0 := by
  ext i j
  fin_cases i <;> fin_cases j <;> simp [toM4, toM3, rotateP, Prog.runR, Op.evalR, hom]

theorem toM3_axisP (a : Ax) (v : Unit → ℝ) : toM3 ((axisP a).runR v) = axisAngleRotation a (v ()) := by
  ext i j
  cases a <;> fin_cases i <;> fin_cases j <;> simp [toM3, axisP, Prog.runR, Op.evalR, axisEntry, axisAngleRotation]

theorem toM3_axisAngleP (a : Ax) (d : Bool) (v : Unit → ℝ) :
    toM3 ((axisAngleP a d).runR v) = axisAngleRotation a (if d then v () / 180 * Real.pi else v ()) := by
  have : (axisAngleP a d).runR v = (axisP a).runR fun _ => if d then v () / 180 * Real.pi else v () := by
    simp only [axisAngleP, Prog.runR, Prog.runR_rename]
    congr 1
    funext _
    cases d <;> simp [Op.evalR]
    ring
  rw [this, toM3_axisP]

theorem toMulP (n : ℕ) (v w : Fin n × Fin n → ℝ) :
    (Matrix.of fun i j => (mulP n).runR (Sum.elim v w) (i, j)) = (Matrix.of fun i j => v (i, j)) * Matrix.of fun i j => w (i, j) := by
  ext i j
  simp only [mulP, Prog.runR, Op.evalR, Matrix.of_apply, Matrix.mul_apply, Sum.elim_inr, Sum.elim_inl, List.map_map, Function.comp_def, one_mul,
    zero_add]
  rw [← List.ofFn_eq_map, List.sum_ofFn]

theorem toM4_mulP (v w : E4 → ℝ) : toM4 ((mulP 4).runR (Sum.elim v w)) = toM4 v * toM4 w := toMulP 4 v w
theorem toM3_mulP (v w : E3 → ℝ) : toM3 ((mulP 3).runR (Sum.elim v w)) = toM3 v * toM3 w := toMulP 3 v w

theorem eulerXYZ_eq (e : V3) : eulerXYZ e = axisAngleRotation .X (e 0) * axisAngleRotation .Y (e 1) * axisAngleRotation .Z (e 2) := by
  simp [eulerXYZ, eulerAnglesToMatrix, parseConvention, letterAx]

theorem reduce_runR (a b c : Prog Unit μ) (m : Prog (μ ⊕ μ) μ) (v : Fin 3 → ℝ) :
    ((a.rename fun _ => (0 : Fin 3)).andThen <| (b.rename fun _ => inl (1 : Fin 3)).andThen <|
      (m.rename (Sum.elim (fun p => inl (inr p)) inr)).andThen <| (c.rename fun _ => inl (inl (inl (2 : Fin 3)))).andThen <|
      m.rename (Sum.elim (fun p => inl (inr p)) inr)).runR v
    = m.runR (Sum.elim (m.runR (Sum.elim (a.runR fun _ => v 0) (b.runR fun _ => v 1))) (c.runR fun _ => v 2)) := by
  simp only [Prog.runR_andThen, Prog.runR_rename, Sum.elim_inl]
  congr 1
  funext p
  rcases p with p | p
  · simp only [Sum.elim_inl, Sum.elim_inr]
    congr 1
    funext q
    rcases q with q | q <;> simp only [Sum.elim_inl, Sum.elim_inr]
  · simp only [Sum.elim_inr]

theorem toM3_eulerP (v : Fin 3 → ℝ) : toM3 (eulerP.runR v) = eulerXYZ v := by
  rw [eulerXYZ_eq, ← toM3_axisP .X fun _ => v 0, ← toM3_axisP .Y fun _ => v 1, ← toM3_axisP .Z fun _ => v 2, ← toM3_mulP, ← toM3_mulP]
  unfold eulerP
  rw [reduce_runR]

theorem toM3_q2m (v : Fin 4 → ℝ) : toM3 (q2m.runR v) = quaternionToMatrix (quatOf v) := by
  have : v = (quatOf v).get := by funext i; fin_cases i <;> rfl
  conv_lhs => rw [this, q2m_runR]
  rfl

theorem toM4_withPosP (v : E4 → ℝ) (w : Fin 3 → ℝ) : toM4 (withPosP.runR (Sum.elim v w)) = withPos (toM4 v) w := by
  ext i j
  fin_cases i <;> fin_cases j <;> simp [toM4, withPosP, Prog.runR, Op.evalR, withPos]

theorem toM4_withRotP (v : E3 → ℝ) (w : E4 → ℝ) : toM4 (withRotP.runR (Sum.elim v w)) = withRot (toM3 v) (toM4 w) := by
  ext i j
  fin_cases i <;> fin_cases j <;> simp [toM4, toM3, withRotP, Prog.runR, Op.evalR, withRot]

theorem toM4_invertP (v : E4 → ℝ) : toM4 (invertP.runR v) = invertMatrix (toM4 v) := by
  ext i j
  fin_cases i <;> fin_cases j <;> simp [toM4, invertP, Prog.runR, Op.evalR, invertMatrix] <;> ring

theorem toM4_invertTranslateP (v : E4 → ℝ) : toM4 (invertTranslateP.runR v) = invertTranslate (toM4 v) := by
  ext i j
  fin_cases i <;> fin_cases j <;> simp [toM4, invertTranslateP, Prog.runR, Op.evalR, invertTranslate]

theorem toM4_invertScaleP (v : E4 → ℝ) : toM4 (invertScaleP.runR v) = invertScale (toM4 v) := by
  ext i j
  fin_cases i <;> fin_cases j <;> simp [toM4, invertScaleP, Prog.runR, Op.evalR, invertScale]

theorem toM4_transposeP (v : E4 → ℝ) : toM4 ((transposeP 4).runR v) = (toM4 v).transpose := rfl

theorem toPts_pointsP {P : ℕ} (v : Fin P × Fin 3 → ℝ) (w : E4 → ℝ) :
    toPts ((pointsP P).runR (Sum.elim v w)) = applyPoints none (toPts v) (toM4 w) := by
  ext p j
  fin_cases j <;> simp [toPts, toM4, pointsP, Prog.runR, Op.evalR, applyPoints, add_assoc]

theorem toPts_normalsP {P : ℕ} (v : Fin P × Fin 3 → ℝ) (w : E4 → ℝ) :
    toPts ((normalsP P).runR (Sum.elim v w)) = applyNormals (toPts v) (toM4 w) := by
  ext p j
  simp [toPts, toM4, normalsP, Prog.runR, Op.evalR, applyNormals, Matrix.mul_apply, rotPart, Fin.sum_univ_three, add_assoc]

/-! ## Differentiability of one element -/

theorem smooth_translateP : translateP.Smooth := ⟨fun p => by beta_reduce; split_ifs <;> trivial, trivial⟩
theorem smooth_scaleP : scaleP.Smooth := ⟨fun p => by beta_reduce; split_ifs <;> trivial, trivial⟩
theorem smooth_rotateP : rotateP.Smooth := ⟨fun p => by beta_reduce; split_ifs <;> trivial, trivial⟩
theorem smooth_axisEntry (c s : κ) (a : Ax) (p : E3) : (axisEntry c s a p).Smooth := by
  obtain ⟨i, j⟩ := p
  cases a <;> fin_cases i <;> fin_cases j <;> trivial
theorem smooth_axisP (a : Ax) : (axisP a).Smooth := ⟨fun _ => trivial, fun _ => trivial, fun p => smooth_axisEntry _ _ a p, trivial⟩
theorem smooth_axisAngleP (a : Ax) (d : Bool) : (axisAngleP a d).Smooth :=
  ⟨fun _ => trivial, fun _ => trivial, Prog.smooth_rename _ (smooth_axisP a) _⟩
theorem smooth_mulP (n : ℕ) : (mulP n).Smooth := ⟨fun _ => trivial, fun _ => trivial, trivial⟩
theorem smooth_eulerP : eulerP.Smooth :=
  Prog.smooth_andThen _ (Prog.smooth_rename _ (smooth_axisP _) _) _ <|
  Prog.smooth_andThen _ (Prog.smooth_rename _ (smooth_axisP _) _) _ <|
  Prog.smooth_andThen _ (Prog.smooth_rename _ (smooth_mulP _) _) _ <|
  Prog.smooth_andThen _ (Prog.smooth_rename _ (smooth_axisP _) _) _ <|
  Prog.smooth_rename _ (smooth_mulP _) _
theorem smooth_withPosP : withPosP.Smooth := ⟨fun p => by beta_reduce; split_ifs <;> trivial, trivial⟩
theorem smooth_withRotP : withRotP.Smooth := ⟨fun p => by beta_reduce; split_ifs <;> trivial, trivial⟩
theorem smooth_invertP : invertP.Smooth :=
  ⟨fun _ => trivial, fun _ => trivial, fun _ => trivial, fun p => by beta_reduce; split_ifs <;> trivial, trivial⟩
theorem smooth_invertTranslateP : invertTranslateP.Smooth := ⟨fun _ => trivial, trivial⟩
theorem smooth_normalsP (P : ℕ) : (normalsP P).Smooth := ⟨fun _ => trivial, fun _ => trivial, trivial⟩

theorem regAt_invertScaleP {v : E4 → ℝ} (h : ∀ i, v (i, i) ≠ 0) : invertScaleP.RegAt v :=
  ⟨fun i => h i, fun p => by beta_reduce; split_ifs <;> trivial, trivial⟩

theorem regAt_q2m {v : Fin 4 → ℝ} (h : v 0 * v 0 + v 1 * v 1 + v 2 * v 2 + v 3 * v 3 ≠ 0) : q2m.RegAt v := by
  refine ⟨fun _ => trivial, fun _ => trivial, fun _ => ?_, fun _ => trivial, fun _ => trivial, fun _ => trivial, fun _ => trivial, fun p => ?_, trivial⟩
  · simp only [Op.RegAt, Op.evalR, Sum.elim_inr, List.map_cons, List.map_nil, List.sum_cons, List.sum_nil]
    convert h using 1
    ring
  · beta_reduce; split_ifs <;> trivial

theorem regAt_pointsP {P : ℕ} {v : Fin P × Fin 3 → ℝ} {w : E4 → ℝ} (h : ∀ p, v (p, 0) * w (3, 0) + v (p, 1) * w (3, 1) + v (p, 2) * w (3, 2) + w (3, 3) ≠ 0) :
    (pointsP P).RegAt (Sum.elim v w) := by
  refine ⟨fun p => by beta_reduce; split_ifs <;> trivial, fun _ => trivial, fun _ => trivial, fun p => ?_, trivial⟩
  have := h p.1
  simp [Op.RegAt, Op.evalR]
  convert this using 1
  ring

end
end PK.AD
