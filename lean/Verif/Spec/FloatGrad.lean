import Verif.Spec.Float
import Verif.Spec.Deriv

/-!
# How large a gradient can be
-/

namespace PK.Spec
noncomputable section

/-- What the upstream gradient `G` of a pose at distance `len` from the base can contribute to the gradient of a joint of the
given type: turning by one radian changes the rotation block by at most 2 (Frobenius norm) and the position by at most twice the
distance; sliding by one changes the position by one. -/
def pull (t : JType) (G : M4) (len : ℝ) : ℝ :=
  match t with
  | .revolute => 2 * (fro (rotPart G) + len * vlen (posPart G))
  | _ => vlen (posPart G)

open Classical in
/-- the sum over the frames whose path contains the frame `f` -/
def pullSum (I : Ideal) (val : Joint → ℝ) (f : Frame) (G : List M4) (paths : List (List Frame)) : ℝ :=
  (List.zipWith (fun g p => if f ∈ p then pull f.joint.jtype g (I.reach val p) else 0) G paths).sum

/-- `paths` lists, for every index of a pose in the output of `forward_kinematics_tensor`, the frames from the root to the frame
that the chain names at this index -/
def ListsPaths (root : Frame) (names : ℕ → Option Name) (paths : List (List Frame)) : Prop :=
  paths.length = (preorder root).length ∧
    ∀ l p, paths[l]? = some p → IsPath root p ∧ p.getLast?.map Frame.name = names l

end
end PK.Spec
