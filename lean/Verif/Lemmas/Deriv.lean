import Verif.Props.Fk
import Verif.Spec.Deriv

/-!
# Derivatives of joint motions and path products
-/

namespace PK
open Spec Matrix

theorem hat_eq (w : V3) : hat w = !![0, -w 2, w 1; w 2, 0, -w 0; -w 1, w 0, 0] := by
  ext i j
  fin_cases i <;> fin_cases j <;> simp [hat, crossProduct]

theorem rotAbout_eq (k : V3) (θ : ℝ) : rotAbout k θ =
    !![Real.cos θ + (1 - Real.cos θ) * k 0 * k 0, - Real.sin θ * k 2 + (1 - Real.cos θ) * k 1 * k 0, Real.sin θ * k 1 + (1 - Real.cos θ) * k 2 * k 0;
       Real.sin θ * k 2 + (1 - Real.cos θ) * k 0 * k 1, Real.cos θ + (1 - Real.cos θ) * k 1 * k 1, - Real.sin θ * k 0 + (1 - Real.cos θ) * k 2 * k 1;
       - Real.sin θ * k 1 + (1 - Real.cos θ) * k 0 * k 2, Real.sin θ * k 0 + (1 - Real.cos θ) * k 1 * k 2, Real.cos θ + (1 - Real.cos θ) * k 2 * k 2] := by
  ext i j
  fin_cases i <;> fin_cases j <;> simp [rotAbout, rodrigues, crossProduct, Matrix.vecHead, Matrix.vecTail]

theorem hasDerivAt_rotAbout {k : V3} (hk : IsUnitV k) (θ : ℝ) (i j : Fin 3) :
    HasDerivAt (fun x => rotAbout k x i j) ((rotAbout k θ * hat k) i j) θ := by
  have hc := Real.hasDerivAt_cos θ
  have hs := Real.hasDerivAt_sin θ
  have h1 := (hasDerivAt_const θ (1 : ℝ)).sub hc
  have key : ∀ a b c : ℝ, HasDerivAt (fun x => a * Real.cos x + b * Real.sin x + c * (1 - Real.cos x))
      (a * -Real.sin θ + b * Real.cos θ + c * (0 - -Real.sin θ)) θ := fun a b c =>
    ((hc.const_mul a).add (hs.const_mul b)).add (h1.const_mul c)
  unfold IsUnitV at hk
  simp only [rotAbout_eq, hat_eq]
  fin_cases i <;> fin_cases j
  · convert key 1 0 (k 0 * k 0) using 1
    · funext x; simp; ring
    · simp [Matrix.mul_apply, Fin.sum_univ_three]; linear_combination (-Real.sin θ) * hk
  · convert key 0 (-k 2) (k 1 * k 0) using 1
    · funext x; simp; ring
    · simp [Matrix.mul_apply, Fin.sum_univ_three]; ring
  · convert key 0 (k 1) (k 2 * k 0) using 1
    · funext x; simp; ring
    · simp [Matrix.mul_apply, Fin.sum_univ_three]; ring
  · convert key 0 (k 2) (k 0 * k 1) using 1
    · funext x; simp; ring
    · simp [Matrix.mul_apply, Fin.sum_univ_three]; ring
  · convert key 1 0 (k 1 * k 1) using 1
    · funext x; simp; ring
    · simp [Matrix.mul_apply, Fin.sum_univ_three]; linear_combination (-Real.sin θ) * hk
  · convert key 0 (-k 0) (k 2 * k 1) using 1
    · funext x; simp; ring
    · simp [Matrix.mul_apply, Fin.sum_univ_three]; ring
  · convert key 0 (-k 1) (k 0 * k 2) using 1
    · funext x; simp; ring
    · simp [Matrix.mul_apply, Fin.sum_univ_three]; ring
  · convert key 0 (k 0) (k 1 * k 2) using 1
    · funext x; simp; ring
    · simp [Matrix.mul_apply, Fin.sum_univ_three]; ring
  · convert key 1 0 (k 2 * k 2) using 1
    · funext x; simp; ring
    · simp [Matrix.mul_apply, Fin.sum_univ_three]; linear_combination (-Real.sin θ) * hk

/-- a homogeneous matrix with zero last row -/
def mkTwist (W : M3) (v : V3) : M4 := fun i j =>
  if hi : i.val < 3 then (if hj : j.val < 3 then W ⟨i, hi⟩ ⟨j, hj⟩ else v ⟨i, hi⟩) else 0

/-- derivative of a joint's motion is `motion * gen` -/
def gen (j : Joint) : M4 :=
  match j.jtype with
  | .revolute => mkTwist (hat j.axis) 0
  | .prismatic => mkTwist 0 j.axis
  | .fixed => 0

theorem mkHom_mul_mkTwist (R W : M3) (t v : V3) : mkHom R t * mkTwist W v = mkTwist (R * W) (R *ᵥ v) := by
  ext i j
  fin_cases i <;> fin_cases j <;>
    simp [mkHom, mkTwist, Matrix.mul_apply, Fin.sum_univ_four, Fin.sum_univ_three, Matrix.mulVec, dotProduct]

theorem mkTwist_mul_mkHom (R W : M3) (t v : V3) : mkTwist W v * mkHom R t = mkTwist (W * R) (W *ᵥ t + v) := by
  ext i j
  fin_cases i <;> fin_cases j <;>
    simp [mkHom, mkTwist, Matrix.mul_apply, Fin.sum_univ_four, Fin.sum_univ_three, Matrix.mulVec, dotProduct]

theorem hasDerivAt_motion {j : Joint} (hj : Moving j → IsUnitV j.axis) (x : ℝ) (r s : Fin 4) :
    HasDerivAt (fun y => motion j y r s) ((motion j x * gen j) r s) x := by
  unfold motion gen
  cases ht : j.jtype
  · simpa using hasDerivAt_const x _
  · have hu := hj (by simp [Moving, ht])
    simp only
    rw [mkHom_mul_mkTwist]
    simp only [mkHom, mkTwist]
    by_cases hr : r.val < 3
    · by_cases hs : s.val < 3
      · simp only [hr, hs, dif_pos]; exact hasDerivAt_rotAbout hu x _ _
      · simp only [hr, hs, dif_pos, dif_neg, not_false_iff]; simpa using hasDerivAt_const x _
    · simp only [hr, dif_neg, not_false_iff]; exact hasDerivAt_const x _
  · simp only
    rw [mkHom_mul_mkTwist]
    simp only [mkHom, mkTwist]
    by_cases hr : r.val < 3
    · by_cases hs : s.val < 3
      · simp only [hr, hs, dif_pos]; simpa using hasDerivAt_const x _
      · simp only [hr, hs, dif_pos, dif_neg, not_false_iff]
        simpa using (hasDerivAt_id x).mul_const (j.axis ⟨r, hr⟩)
    · simp only [hr, dif_neg, not_false_iff]; exact hasDerivAt_const x _

theorem hasDerivAt_sandwich {M : ℝ → M4} {M' : M4} {x : ℝ}
    (h : ∀ r s, HasDerivAt (fun y => M y r s) (M' r s) x) (A C : M4) (i l : Fin 4) :
    HasDerivAt (fun y => (A * M y * C) i l) ((A * M' * C) i l) x := by
  simp only [Matrix.mul_apply]
  exact HasDerivAt.fun_sum fun s _ => (HasDerivAt.fun_sum fun r _ => (h r s).const_mul (A i r)).mul_const (C s l)

/-- position, angular and linear velocity of a frame `Tl = Tk * C` when the joint at `Tk` moves -/
theorem twist_geometry {j : Joint} {Tk C : M4} (hk : IsRigid Tk) (hC : IsAffine C) :
    let z := rotPart Tk *ᵥ j.axis
    Tk * gen j * C =
      match j.jtype with
      | .revolute => mkTwist (hat z * rotPart (Tk * C)) (cross z (posPart (Tk * C) - posPart Tk))
      | .prismatic => mkTwist 0 z
      | .fixed => 0 := by
  intro z
  have hTk := eq_mkHom_of_affine hk.2
  have hCe := eq_mkHom_of_affine hC
  have hR : IsRot (rotPart Tk) := hk.1
  generalize rotPart Tk = R at *
  generalize posPart Tk = o at *
  generalize rotPart C = Rc at *
  generalize posPart C = c at *
  subst hTk; subst hCe
  unfold gen
  cases ht : j.jtype
  · simp
  · simp only
    rw [mkHom_mul_mkTwist, mkTwist_mul_mkHom, mkHom_mul, rotPart_mkHom, posPart_mkHom]
    have hconj : R * hat j.axis = hat z * R := by
      obtain ⟨⟩ := hR.eqs
      rw [hat_eq, hat_eq]
      apply m3_ext9 <;>
        simp [z, Matrix.mul_apply, Fin.sum_univ_three, Matrix.mulVec, dotProduct] <;> grind
    congr 1
    · rw [hconj, Matrix.mul_assoc]
    · rw [hconj, Matrix.mulVec_zero, add_zero, ← Matrix.mulVec_mulVec]
      rw [add_sub_cancel_right, hat_eq]
      generalize R *ᵥ c = w
      ext i; fin_cases i <;> simp [cross, Matrix.mulVec, dotProduct, Fin.sum_univ_three] <;> ring
  · simp only
    rw [mkHom_mul_mkTwist, mkTwist_mul_mkHom]
    simp [z]

end PK
