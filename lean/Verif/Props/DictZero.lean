import Verif.Props.Tree

/-!
# C106: unspecified joints in a dictionary are zero (README)
-/

namespace PK
open Spec

/-- C106 (part): whatever dictionary is accepted, the columns hold the given values, and zero for joints that are not given.
Missing from the full statement: a dictionary that leaves out a joint is not accepted at all, `C106_missing_joint_fails`. -/
theorem C106_accepted_partial (root : Frame) (h : WF root) {B : ℕ} (hB : 0 < B) (d : Dict (Option Name) (Fin B → Option ℝ))
    (hn : d.keys.Nodup) (th : List (Fin B → ℝ)) (hth : (Chain.init root).ensureTensorDict d = .ok th) :
    th = (movingJoints root).map fun j b => ((d.get? j.name).getD fun _ => some 0) b |>.getD 0 := by
  by_cases hbad : (∃ k ∈ d.keys, k ∉ (movingJoints root).map Joint.name) ∨
      (∃ j ∈ movingJoints root, j.name ∉ d.keys) ∨ (∃ kv ∈ d, ∃ b, kv.2 b = none)
  · rw [C09_bad_dict_raises root h hB d hn hbad] at hth
    cases hth
  · rw [not_or, not_or] at hbad
    obtain ⟨h1, h2, h3⟩ := hbad
    push Not at h1 h2 h3
    have hk : d.keys.Perm ((movingJoints root).map Joint.name) := (List.perm_ext_iff_of_nodup hn h.joints_nodup).2 fun k =>
      ⟨fun hk => h1 k hk, fun hk => by obtain ⟨j, hj, rfl⟩ := List.mem_map.1 hk; exact h2 j hj⟩
    by_cases hne : movingJoints root = []
    · rw [hne] at hk
      have : d = [] := by
        have := List.perm_nil.1 (show d.keys.Perm [] from hk)
        simpa [Dict.keys] using this
      subst this
      cases hth
    · rw [C08_dict_to_tensor root h d hk hne h3] at hth
      cases hth
      unfold dictCols
      refine List.map_congr_left fun j hj => funext fun b => ?_
      cases hg : d.get? j.name with
      | none => exact absurd (h2 j hj) ((Dict.get?_eq_none_iff _ _).1 hg)
      | some v => simp

/-- C106 is false: leaving out a joint raises ValueError, for every chain, every other joint values and every batch (not even the
empty dictionary is accepted, `C08_empty_dict_raises`). -/
theorem C106_missing_joint_fails (root : Frame) (h : WF root) {B : ℕ} (hB : 0 < B) (d : Dict (Option Name) (Fin B → Option ℝ))
    (hd : d ≠ []) (hn : d.keys.Nodup) (j : Joint) (hj : j ∈ movingJoints root) (hm : j.name ∉ d.keys) :
    (Chain.init root).ensureTensorDict d = .error .valueError ∧ (Chain.init root).forwardKinematicsDict d = .error .valueError := by
  have := C09_bad_dict_raises root h hB d hn (.inr (.inl ⟨j, hj, hm⟩))
  rw [if_neg hd] at this
  refine ⟨this, ?_⟩
  unfold Chain.forwardKinematicsDict
  rw [this, getAllFrameIndices_ok h]
  rfl

/-- only the first of three joints is given -/
example : (Chain.init exTree).forwardKinematicsDict (B := 1) [(some ['j', '1'], fun _ => some 1)] = .error .valueError := by
  refine (C106_missing_joint_fails exTree exTree_wf one_pos _ (by simp) (by simp [Dict.keys]) { name := some ['j', '3'], jtype := .revolute, axis := ![0, 1, 0] } ?_ ?_).2
  · simp [exTree, movingJoints, preorder, preorderL, Frame.joint, Moving]
  · simp [Dict.keys]

end PK
