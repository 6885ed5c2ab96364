import Verif.Props.Tree
import Verif.Props.Urdf

/-!
# C85, C86: what a single frame or joint says agrees with the chain
-/

namespace PK
open Spec

theorem getTransform_eq (f : Frame) (q : ℝ) : f.link.offset.getD 1 * f.getTransform q = localT f q := by
  have hr : hom (axisAndAngleToMatrix33 f.joint.axis q) ![0, 0, 0] = mkHom (rotAbout f.joint.axis q) 0 := by
    rw [axisAndAngleToMatrix33_eq_rotAbout, hom_eq_mkHom]
    congr 1
    ext i; fin_cases i <;> rfl
  have hp : hom 1 ![q * f.joint.axis 0, q * f.joint.axis 1, q * f.joint.axis 2] = mkHom 1 (q • f.joint.axis) := by
    rw [hom_eq_mkHom]
    congr 1
    ext i; fin_cases i <;> rfl
  unfold Frame.getTransform localT motion
  rw [hr, hp]
  cases f.joint.offset <;> cases f.joint.jtype <;> simp [mul_assoc]

/-- C85: `frame.get_transform(theta)` is the transform forward kinematics uses: the pose of a frame is the pose of its
parent, times the offset of its link, times `get_transform` at the value of its joint; for the root without the parent. -/
theorem C85_get_transform (root : Frame) (h : WF root) {B : ℕ} (th : List (Fin B → ℝ))
    (hth : th.length = (movingJoints root).length) :
    ∃ d, (Chain.init root).forwardKinematics th = .ok d ∧
      (∃ T, d.get? root.name = some T ∧ ∀ b, T b = root.link.offset.getD 1 * root.getTransform (colVal root th b root.joint)) ∧
      ∀ f ∈ preorder root, ∀ c ∈ f.children, ∃ T T', d.get? f.name = some T ∧ d.get? c.name = some T' ∧
        ∀ b, T' b = T b * (c.link.offset.getD 1 * c.getTransform (colVal root th b c.joint)) := by
  obtain ⟨d, h1, -, h3⟩ := C01_fk_is_path_product root h th hth
  refine ⟨d, h1, ?_, ?_⟩
  · obtain ⟨T, h4, h5⟩ := h3 [root] root .single rfl
    refine ⟨T, h4, fun b => ?_⟩
    rw [h5, getTransform_eq]
    simp [pathT]
  · intro f hf c hc
    obtain ⟨l, hl, hlast, hl'⟩ := path_snoc hf hc
    obtain ⟨T, h4, h5⟩ := h3 l f hl hlast
    obtain ⟨T', h6, h7⟩ := h3 (l ++ [c]) c hl' (by simp)
    refine ⟨T, T', h4, h6, fun b => ?_⟩
    rw [h5, h7, getTransform_eq]
    simp [pathT]

example : ∃ f ∈ preorder exTree, ∃ c ∈ f.children, Moving c.joint ∧ c.link.offset ≠ none := by
  refine ⟨exTree, by simp [exTree, preorder], ?_⟩
  simp [exTree, Frame.children, Moving, Frame.joint, Frame.link]

/-- C86: `Chain.clamp` is `Joint.clamp` of every moving joint on its column. -/
theorem C86_joint_clamp (root : Frame) (th : List Fl) (hlen : th.length = (movingJoints root).length) :
    ∃ out, (Chain.init root).clamp th = .ok out ∧ out.length = th.length ∧
      ∀ (i : ℕ) (x : Fl) (j : Joint), th[i]? = some x → (movingJoints root)[i]? = some j → out[i]? = some (j.clamp x) := by
  unfold Chain.clamp
  rw [zip_limits]
  simp only [broadcast2, List.length_map, hlen, if_true]
  refine ⟨_, rfl, by simp [hlen], ?_⟩
  intro i x j hx hj
  simp [List.getElem?_map, List.zip, List.getElem?_zipWith, hx, hj]
  unfold Joint.clamp
  cases h0 : j.limits with
  | none => simpa using Fl.clamp_unlimited x
  | some l => rfl

example : (movingJoints exTree).length = 3 := by
  simp [exTree, movingJoints, preorder, preorderL, Frame.joint, Moving]

end PK
