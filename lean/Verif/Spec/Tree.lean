import Verif.Spec.Rot
import Verif.Model.Frame

/-!
# Independent specification of kinematic trees

Uses only the data type `Frame` (the user's input), not the chain's index tables.
-/

namespace PK.Spec
open PK

mutual
/-- All frames in depth-first pre-order. -/
def preorder : Frame → List Frame
  | .mk n l j cs => .mk n l j cs :: preorderL cs
/-- pre-order of a forest -/
def preorderL : List Frame → List Frame
  | [] => []
  | c :: cs => preorder c ++ preorderL cs
end

/-- `IsPath root p`: `p` is the list of frames from the root down to some frame, each a child of the
previous one. -/
inductive IsPath (root : Frame) : List Frame → Prop
  | single : IsPath root [root]
  | snoc (p : List Frame) (f c : Frame) : IsPath root (p ++ [f]) → c ∈ f.children →
      IsPath root (p ++ [f] ++ [c])

/-- `g` is `f` or below it. -/
inductive Below (f : Frame) : Frame → Prop
  | refl : Below f f
  | child (g c : Frame) : Below f g → c ∈ g.children → Below f c

/-- A joint that moves. -/
def Moving (j : Joint) : Prop := j.jtype ≠ .fixed

instance (j : Joint) : Decidable (Moving j) := inferInstanceAs (Decidable (_ ≠ _))

/-- The moving joints in depth-first order: the documented column order of a joint tensor. -/
def movingJoints (root : Frame) : List Joint :=
  ((preorder root).map Frame.joint).filter fun j => decide (Moving j)

/-- Position of the column that drives joint `j`. -/
def column (root : Frame) (j : Joint) : ℕ := ((movingJoints root).map Joint.name).idxOf j.name

/-- Value of joint `j` in row `b` of a `(B, m)` joint tensor given as its list of columns. -/
noncomputable def colVal (root : Frame) {B : ℕ} (th : List (Fin B → ℝ)) (b : Fin B) (j : Joint) : ℝ :=
  (th.getD (column root j) fun _ => 0) b

/-- What a joint at value `q` does: Rodrigues rotation, translation along the axis, or nothing. -/
noncomputable def motion (j : Joint) (q : ℝ) : M4 :=
  match j.jtype with
  | .revolute => mkHom (rotAbout j.axis q) 0
  | .prismatic => mkHom 1 (q • j.axis)
  | .fixed => 1

/-- Transform from a frame's parent to the frame: link offset, joint offset, joint motion. -/
noncomputable def localT (f : Frame) (q : ℝ) : M4 :=
  f.link.offset.getD 1 * f.joint.offset.getD 1 * motion f.joint q

/-- Product of the local transforms along a path; `val j` is the value of joint `j`. -/
noncomputable def pathT (val : Joint → ℝ) (p : List Frame) : M4 :=
  (p.map fun f => localT f (val f.joint)).prod

/-- Names are usable: pairwise distinct frame names without newline at either end (the constructor
strips them), pairwise distinct names of moving joints. -/
structure WF (root : Frame) : Prop where
  names_nodup : ((preorder root).map Frame.name).Nodup
  no_newline : ∀ f ∈ preorder root, f.name.head? ≠ some '\n' ∧ f.name.getLast? ≠ some '\n'
  joints_nodup : ((movingJoints root).map Joint.name).Nodup

/-- Offsets are rigid and moving joints have unit axes. -/
structure RigidTree (root : Frame) : Prop where
  link : ∀ f ∈ preorder root, ∀ o, f.link.offset = some o → IsRigid o
  joint : ∀ f ∈ preorder root, ∀ o, f.joint.offset = some o → IsRigid o
  axis : ∀ f ∈ preorder root, Moving f.joint → IsUnitV f.joint.axis

end PK.Spec
