import Verif.Lemmas.Quat

namespace PK
open Matrix Spec

theorem sqrtPositivePart_sq_of_pos {x : ℝ} (h : 0 < sqrtPositivePart x) :
    sqrtPositivePart x ^ 2 = x := by
  unfold sqrtPositivePart at *
  rw [Real.sqrt_pos] at h
  have hx : 0 < x := by
    rcases lt_max_iff.1 h with h | h
    · exact h
    · exact absurd h (lt_irrefl _)
  rw [Real.sq_sqrt h.le, max_eq_left hx.le]

theorem le_sqrtPositivePart_sq (x : ℝ) : x ≤ sqrtPositivePart x ^ 2 := by
  unfold sqrtPositivePart
  rw [Real.sq_sqrt (le_max_right _ _)]; exact le_max_left _ _

theorem sqrtPositivePart_nonneg (x : ℝ) : 0 ≤ sqrtPositivePart x := Real.sqrt_nonneg _

/-- The four candidate numerators with `s` the selected `q_abs` entry. -/
noncomputable def candQ (m : M3) (c : Fin 4) (s : ℝ) : Quat :=
  let d := 2 * s
  (![⟨s ^ 2 / d, (m 2 1 - m 1 2) / d, (m 0 2 - m 2 0) / d, (m 1 0 - m 0 1) / d⟩,
    ⟨(m 2 1 - m 1 2) / d, s ^ 2 / d, (m 1 0 + m 0 1) / d, (m 0 2 + m 2 0) / d⟩,
    ⟨(m 0 2 - m 2 0) / d, (m 1 0 + m 0 1) / d, s ^ 2 / d, (m 1 2 + m 2 1) / d⟩,
    ⟨(m 1 0 - m 0 1) / d, (m 2 0 + m 0 2) / d, (m 2 1 + m 1 2) / d, s ^ 2 / d⟩] : Fin 4 → Quat) c

/-- Diagonal combinations `1 ± m00 ± m11 ± m22` selecting the branch. -/
def diagArg (m : M3) (c : Fin 4) : ℝ :=
  (![1 + m 0 0 + m 1 1 + m 2 2, 1 + m 0 0 - m 1 1 - m 2 2,
    1 - m 0 0 + m 1 1 - m 2 2, 1 - m 0 0 - m 1 1 + m 2 2] : Fin 4 → ℝ) c

theorem argmax4_spec (a : Fin 4 → ℝ) (c : Fin 4) : a c ≤ a (argmax4 a) := by
  unfold argmax4
  split_ifs with h1 h2 h3
  · fin_cases c <;> simp_all
  · fin_cases c <;> simp_all
    by_contra hc
    exact absurd (h1 (by linarith) (by linarith)) (by linarith)
  · fin_cases c <;> simp_all <;> by_contra hc <;> grind
  · fin_cases c <;> simp_all <;> by_contra hc <;> grind

/-- The result of `matrixToQuaternion` is the candidate selected by some `c` with `s ≥ 1`. -/
theorem matrixToQuaternion_cases (m : M3) :
    ∃ c s, 1 ≤ s ∧ s ^ 2 = diagArg m c ∧ matrixToQuaternion m = candQ m c s := by
  set qa : Fin 4 → ℝ := fun c => sqrtPositivePart (diagArg m c) with hqa
  have hmax := argmax4_spec qa
  set c := argmax4 qa with hc
  have h1 : 1 ≤ qa c := by
    by_contra hlt
    have hlt : qa c < 1 := not_le.1 hlt
    have hall : ∀ d, diagArg m d < 1 := by
      intro d
      have h0 := sqrtPositivePart_nonneg (diagArg m d)
      have h2 := hmax d
      have h3 := le_sqrtPositivePart_sq (diagArg m d)
      have : qa d = sqrtPositivePart (diagArg m d) := rfl
      nlinarith
    have a0 := hall 0; have a1 := hall 1; have a2 := hall 2; have a3 := hall 3
    simp [diagArg] at a0 a1 a2 a3
    linarith
  have hs : qa c ^ 2 = diagArg m c := sqrtPositivePart_sq_of_pos (by show 0 < qa c; linarith)
  refine ⟨c, qa c, h1, hs, ?_⟩
  have hvec : qa = ![sqrtPositivePart (1 + m 0 0 + m 1 1 + m 2 2),
      sqrtPositivePart (1 + m 0 0 - m 1 1 - m 2 2),
      sqrtPositivePart (1 - m 0 0 + m 1 1 - m 2 2),
      sqrtPositivePart (1 - m 0 0 - m 1 1 + m 2 2)] := by
    ext d; fin_cases d <;> rfl
  have hm : max (qa c) (0.1 : ℝ) = qa c := max_eq_left (by norm_num; linarith)
  unfold matrixToQuaternion
  simp only [← hvec, ← hc, hm]
  clear_value c
  fin_cases c <;> simp [candQ]

theorem candQ_unit {m : M3} (h : RotEqs m) {c : Fin 4} {s : ℝ} (h1 : 1 ≤ s)
    (hs : s ^ 2 = diagArg m c) : (candQ m c s).normSq = 1 := by
  have hs0 : s ≠ 0 := by linarith
  obtain ⟨⟩ := h
  fin_cases c <;> simp [candQ, diagArg, Quat.normSq] at hs ⊢ <;> field_simp <;> grind

theorem candQ_matrix {m : M3} (h : RotEqs m) {c : Fin 4} {s : ℝ} (h1 : 1 ≤ s)
    (hs : s ^ 2 = diagArg m c) : quaternionToMatrix (candQ m c s) = m := by
  have hn := candQ_unit h h1 hs
  have hs0 : s ≠ 0 := by linarith
  obtain ⟨⟩ := h
  fin_cases c <;> apply m3_ext9 <;>
    simp only [quaternionToMatrix, hn, Matrix.of_apply, Matrix.cons_val] <;>
    simp [candQ, diagArg] at hs ⊢ <;> field_simp <;> grind

theorem matrixToQuaternion_unit {m : M3} (h : IsRot m) : (matrixToQuaternion m).normSq = 1 := by
  obtain ⟨c, s, h1, hs, e⟩ := matrixToQuaternion_cases m
  rw [e]; exact candQ_unit h.eqs h1 hs

theorem quaternionToMatrix_matrixToQuaternion {m : M3} (h : IsRot m) :
    quaternionToMatrix (matrixToQuaternion m) = m := by
  obtain ⟨c, s, h1, hs, e⟩ := matrixToQuaternion_cases m
  rw [e]; exact candQ_matrix h.eqs h1 hs

end PK

namespace PK
open Matrix Spec

theorem quat_eq_or_neg_of_dot {a b : Quat} (ha : a.normSq = 1) (hb : b.normSq = 1)
    (h : (a.w * b.w + a.x * b.x + a.y * b.y + a.z * b.z) ^ 2 = 1) : a = b ∨ a = negQ b := by
  unfold Quat.normSq at ha hb
  rcases sq_eq_one_iff.1 h with h | h
  · left
    have : (a.w - b.w) ^ 2 + (a.x - b.x) ^ 2 + (a.y - b.y) ^ 2 + (a.z - b.z) ^ 2 = 0 := by
      linear_combination ha + hb - 2 * h
    have h1 := sq_nonneg (a.w - b.w); have h2 := sq_nonneg (a.x - b.x)
    have h3 := sq_nonneg (a.y - b.y); have h4 := sq_nonneg (a.z - b.z)
    ext <;> apply sub_eq_zero.1 <;> apply (sq_eq_zero_iff).1 <;> linarith
  · right
    have : (a.w + b.w) ^ 2 + (a.x + b.x) ^ 2 + (a.y + b.y) ^ 2 + (a.z + b.z) ^ 2 = 0 := by
      linear_combination ha + hb + 2 * h
    have h1 := sq_nonneg (a.w + b.w); have h2 := sq_nonneg (a.x + b.x)
    have h3 := sq_nonneg (a.y + b.y); have h4 := sq_nonneg (a.z + b.z)
    ext <;> simp only [negQ] <;> apply eq_neg_of_add_eq_zero_left <;>
      apply (sq_eq_zero_iff).1 <;> linarith

theorem quat_eq_or_neg_of_matrix {a b : Quat} (ha : a.normSq = 1) (hb : b.normSq = 1)
    (h : quaternionToMatrix a = quaternionToMatrix b) : a = b ∨ a = negQ b := by
  apply quat_eq_or_neg_of_dot ha hb
  have e := fun i j => congrFun (congrFun h i) j
  have e00 := e 0 0; have e01 := e 0 1; have e02 := e 0 2
  have e10 := e 1 0; have e11 := e 1 1; have e12 := e 1 2
  have e20 := e 2 0; have e21 := e 2 1; have e22 := e 2 2
  simp only [quaternionToMatrix, ha, hb, Matrix.of_apply, Matrix.cons_val] at e00 e01 e02 e10 e11 e12 e20 e21 e22
  unfold Quat.normSq at ha hb
  clear h e
  have xx : a.x * a.x = b.x * b.x := by linarith
  have yy : a.y * a.y = b.y * b.y := by linarith
  have zz : a.z * a.z = b.z * b.z := by linarith
  have ww : a.w * a.w = b.w * b.w := by linarith
  have xy : a.x * a.y = b.x * b.y := by linarith
  have xz : a.x * a.z = b.x * b.z := by linarith
  have yz : a.y * a.z = b.y * b.z := by linarith
  have wx : a.w * a.x = b.w * b.x := by linarith
  have wy : a.w * a.y = b.w * b.y := by linarith
  have wz : a.w * a.z = b.w * b.z := by linarith
  clear e00 e01 e02 e10 e11 e12 e20 e21 e22
  have : (a.w * b.w + a.x * b.x + a.y * b.y + a.z * b.z) ^ 2
      = (a.w * a.w + a.x * a.x + a.y * a.y + a.z * a.z)
        * (b.w * b.w + b.x * b.x + b.y * b.y + b.z * b.z) := by
    linear_combination (-1)*(ww * (b.x*b.x+b.y*b.y+b.z*b.z)) - xx * (b.w*b.w+b.y*b.y+b.z*b.z) -
      yy * (b.w*b.w+b.x*b.x+b.z*b.z) - zz * (b.w*b.w+b.x*b.x+b.y*b.y) + 2 * (wx*(b.w*b.x)+wy*(b.w*b.y)+wz*(b.w*b.z)+xy*(b.x*b.y)+xz*(b.x*b.z)+yz*(b.y*b.z))
  rw [this, ha, hb]; norm_num

end PK
