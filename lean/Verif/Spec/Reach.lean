import Verif.Spec.Serial
import Verif.Spec.Float

/-!
# How far a serial chain reaches
-/

namespace PK.Spec
open PK
noncomputable section

/-- value of joint `j` in row `b` of a joint tensor of the serial chain along `p`: one column per moving joint below the
first frame -/
def pathVal (p : List Frame) {B : ℕ} (th : List (Fin B → ℝ)) (b : Fin B) (j : Joint) : ℝ :=
  (th.getD (((pathJoints p).map Joint.name).idxOf j.name) fun _ => 0) b

/-- distance from the parent frame to the joint of `f` -/
def linkLen (f : Frame) : ℝ := vlen (posPart (f.link.offset.getD 1 * f.joint.offset.getD 1))

/-- length of the arm along a list of frames: the links and how far the prismatic joints are extended -/
def armLen (val : Joint → ℝ) (p : List Frame) : ℝ := (p.map fun f => linkLen f + travel f (val f.joint)).sum

/-- how much the revolute joints turn between two sets of joint values -/
def turning (val val' : Joint → ℝ) (p : List Frame) : ℝ :=
  (p.map fun f => if f.joint.jtype = .revolute then |val f.joint - val' f.joint| else 0).sum

/-- how much the end moves at most between two sets of joint values: each prismatic joint by its own change, each revolute
joint by its change times the length of the arm beyond it -/
def moving (val val' : Joint → ℝ) : List Frame → ℝ
  | [] => 0
  | f :: p => moving val val' p + match f.joint.jtype with
    | .revolute => |val f.joint - val' f.joint| * armLen val p
    | .prismatic => |val f.joint - val' f.joint|
    | .fixed => 0

end
end PK.Spec
