import Verif.Props.Velocity
import Mathlib.Analysis.Calculus.ContDiff.RCLike
import Mathlib.Analysis.SpecialFunctions.Trigonometric.Deriv
import Mathlib.Analysis.SpecialFunctions.ExpDeriv

/-!
# Poses and Jacobians are smooth functions of the joint values
-/

namespace PK
open Spec Matrix

variable {k : WithTop ℕ∞}

theorem contDiff_look {n : ℕ} (c : ℕ) : ContDiff ℝ k (fun q : Fin n → ℝ => look q c) := by
  unfold look
  split_ifs with h
  · exact contDiff_apply ℝ ℝ _
  · exact contDiff_const

theorem contDiff_rotAbout (a : V3) (i j : Fin 3) : ContDiff ℝ k (fun x => rotAbout a x i j) := by
  simp only [← axisAndAngleToMatrix33_eq_rotAbout, axisAndAngleToMatrix33, Matrix.of_apply]
  have hs : ContDiff ℝ k Real.sin := Real.contDiff_sin
  have hc : ContDiff ℝ k Real.cos := Real.contDiff_cos
  fin_cases i <;> fin_cases j <;> simp <;> fun_prop

theorem contDiff_motion (j : Joint) (r s : Fin 4) : ContDiff ℝ k (fun y => motion j y r s) := by
  unfold motion
  cases ht : j.jtype
  · exact contDiff_const
  · simp only [mkHom]
    by_cases hr : r.val < 3
    · by_cases hs : s.val < 3
      · simp only [hr, hs, dif_pos]; exact contDiff_rotAbout _ _ _
      · simp only [hr, hs, dif_pos, dif_neg, not_false_iff]; exact contDiff_const
    · simp only [hr, dif_neg, not_false_iff]; exact contDiff_const
  · simp only [mkHom]
    by_cases hr : r.val < 3
    · by_cases hs : s.val < 3
      · simp only [hr, hs, dif_pos]; exact contDiff_const
      · simp only [hr, hs, dif_pos, dif_neg, not_false_iff, Pi.smul_apply, smul_eq_mul]
        exact contDiff_id.mul contDiff_const
    · simp only [hr, dif_neg, not_false_iff]; exact contDiff_const

theorem contDiff_localT {n : ℕ} (f : Frame) {g : (Fin n → ℝ) → ℝ}
    (hg : ContDiff ℝ k g) (i l : Fin 4) : ContDiff ℝ k (fun q => localT f (g q) i l) := by
  have hm : ∀ r s, ContDiff ℝ k (fun q => motion f.joint (g q) r s) := fun r s => (contDiff_motion f.joint r s).comp hg
  simp only [localT, Matrix.mul_apply]
  exact ContDiff.sum fun s _ => contDiff_const.mul (hm s l)

theorem contDiff_pathT {n : ℕ} {root : Frame} : ∀ (p : List Frame) i l,
    ContDiff ℝ k (fun q : Fin n → ℝ => pathT (fun j => look q (column root j)) p i l)
  | [], i, l => by simp only [pathT, List.map_nil, List.prod_nil]; exact contDiff_const
  | f :: p, i, l => by
    have h1 := fun r s => contDiff_localT (n := n) (k := k) f (contDiff_look (column root f.joint)) r s
    have h2 := contDiff_pathT (n := n) (root := root) p
    have e : ∀ q : Fin n → ℝ, pathT (fun j => look q (column root j)) (f :: p) i l =
        ∑ s, localT f (look q (column root f.joint)) i s * pathT (fun j => look q (column root j)) p s l := by
      intro q
      rw [pathT, List.map_cons, List.prod_cons, Matrix.mul_apply]; rfl
    simp only [e]
    exact ContDiff.sum fun s _ => (h1 i s).mul (h2 s l)

theorem rowOf_ofFn {B d : ℕ} (q : Fin d → ℝ) (b : Fin B) : rowOf d (List.ofFn fun j (_ : Fin B) => q j) b = q := by
  funext i
  simp [rowOf, List.getD]

/-- the pose of every frame is a smooth function of the joint values -/
theorem contDiff_poseAt {root f : Frame} (h : WF root) (hf : f ∈ preorder root) {d : ℕ} (i l : Fin 4) :
    ContDiff ℝ k (fun q : Fin d → ℝ => poseAt root (List.ofFn fun j (_ : Fin 1) => q j) (posOf root f.name) 0 i l) := by
  obtain ⟨pp, hpp, hpl⟩ := exists_path hf
  have e : ∀ q : Fin d → ℝ, poseAt root (List.ofFn fun j (_ : Fin 1) => q j) (posOf root f.name) 0 =
      pathT (fun j => look q (column root j)) pp := by
    intro q
    rw [h.pose_path _ hpp hpl]
    congr 1
    funext j
    rw [colVal_look (n := d) _ (by simp), rowOf_ofFn]
  simp only [e]
  exact contDiff_pathT pp i l

/-- the Jacobian of a serial chain is a smooth function of the joint values -/
theorem contDiff_jacCols {rf : Frame} {rest : List Frame} (h : WF (serialRoot rf rest)) {d : ℕ} (c : ℕ) (a : Fin 6) :
    ContDiff ℝ k (fun q : Fin d → ℝ => ((jacCols rf rest (List.ofFn fun j (_ : Fin 1) => q j)).getD c fun _ _ => 0) 0 a) := by
  obtain ⟨fl, -, hfn, hfm⟩ := exists_last rf rest
  by_cases hc : c < (dofFrames rf rest).length
  swap
  · have e : ∀ q : Fin d → ℝ, ((jacCols rf rest (List.ofFn fun j (_ : Fin 1) => q j)).getD c fun _ _ => 0) 0 a = 0 := by
      intro q
      rw [List.getD, List.getElem?_eq_none (by rw [jacCols, List.length_map]; omega)]; rfl
    simp only [e]; exact contDiff_const
  set f := (dofFrames rf rest)[c] with hf
  have hfm' := (dofFrames_mem (List.getElem_mem hc)).1
  have hP := fun i l => contDiff_poseAt (k := k) (d := d) h hfm i l
  have hQ := fun i l => contDiff_poseAt (k := k) (d := d) h hfm' i l
  rw [hfn] at hP
  have e : ∀ q : Fin d → ℝ, ((jacCols rf rest (List.ofFn fun j (_ : Fin 1) => q j)).getD c fun _ _ => 0) 0 a =
      jcol (rotPart (poseAt (serialRoot rf rest) (List.ofFn fun j (_ : Fin 1) => q j) (posOf (serialRoot rf rest) f.name) 0) *ᵥ f.joint.axis)
        (posPart (poseAt (serialRoot rf rest) (List.ofFn fun j (_ : Fin 1) => q j) (posOf (serialRoot rf rest) (lastName rf rest)) 0) -
         posPart (poseAt (serialRoot rf rest) (List.ofFn fun j (_ : Fin 1) => q j) (posOf (serialRoot rf rest) f.name) 0))
         (f.joint.jtype = .revolute) a := by
    intro q
    rw [List.getD, jacCols, List.getElem?_map, List.getElem?_eq_getElem hc]; rfl
  set Z : (Fin d → ℝ) → V3 := fun q => rotPart (poseAt (serialRoot rf rest) (List.ofFn fun j (_ : Fin 1) => q j)
      (posOf (serialRoot rf rest) f.name) 0) *ᵥ f.joint.axis with hZ
  set D : (Fin d → ℝ) → V3 := fun q =>
      posPart (poseAt (serialRoot rf rest) (List.ofFn fun j (_ : Fin 1) => q j) (posOf (serialRoot rf rest) (lastName rf rest)) 0) -
         posPart (poseAt (serialRoot rf rest) (List.ofFn fun j (_ : Fin 1) => q j) (posOf (serialRoot rf rest) f.name) 0) with hD
  have hz : ∀ i : Fin 3, ContDiff ℝ k (fun q => Z q i) := by
    intro i
    simp only [hZ, Matrix.mulVec, dotProduct]
    exact ContDiff.sum fun s _ => (hQ i.castSucc s.castSucc).mul contDiff_const
  have hp : ∀ i : Fin 3, ContDiff ℝ k (fun q => D q i) := fun i => (hP i.castSucc 3).sub (hQ i.castSucc 3)
  have e' : ∀ q : Fin d → ℝ, ((jacCols rf rest (List.ofFn fun j (_ : Fin 1) => q j)).getD c fun _ _ => 0) 0 a =
      jcol (Z q) (D q) (f.joint.jtype = .revolute) a := e
  simp only [e', jcol]
  by_cases hr : f.joint.jtype = .revolute
  · simp only [hr, if_true, cross]
    fin_cases a
    · exact ((hz 1).mul (hp 2)).sub ((hz 2).mul (hp 1))
    · exact ((hz 2).mul (hp 0)).sub ((hz 0).mul (hp 2))
    · exact ((hz 0).mul (hp 1)).sub ((hz 1).mul (hp 0))
    · exact hz 0
    · exact hz 1
    · exact hz 2
  · simp only [hr, if_false]
    fin_cases a
    · exact hz 0
    · exact hz 1
    · exact hz 2
    all_goals exact contDiff_const

end PK
