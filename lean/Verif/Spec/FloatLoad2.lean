import Verif.Spec.Sdf
import Verif.Spec.Mjcf
import Verif.Spec.FloatLoad

/-!
# What SDF and MJCF descriptions say about poses

By recursion from the root.  Uses the records of the descriptions only.
-/

namespace PK.Spec
open PK
noncomputable section

/-- the motion of an SDF joint at value `q`: about or along the declared axis, scaled to length 1 -/
def sdfMotion (j : Sdf.Jnt) (q : ℝ) : M4 :=
  match sdfKind j.type with
  | some .revolute => mkHom (rotAbout ((vlen j.axis)⁻¹ • j.axis) q) 0
  | some .prismatic => mkHom 1 (q • (vlen j.axis)⁻¹ • j.axis)
  | _ => 1

/-- how far the joint moves its child without turning it -/
def sdfTravel (j : Sdf.Jnt) (q : ℝ) : ℝ := if sdfKind j.type = some .prismatic then |q| else 0

/-- With the joints at the values `val`, link `l` has pose `P l` in the model, is `depth l - 1` joints below the root; `len l` is
the distance of the root from the origin of the model plus, for every joint on the way, the distances of its two links from the
origin and its travel.  The poses of the description are `sdfPoseZYX` (see C27, C28). -/
structure SdfPosed (m : Sdf.Model) (root : Name) (val : Option Name → ℝ) (P : Name → M4) (len : Name → ℝ) (depth : Name → ℕ) : Prop where
  root : ∀ l ∈ m.links, l.name = some root →
    P root = sdfPoseZYX l.pose ∧ len root = vlen (posPart (sdfPoseZYX l.pose)) ∧ depth root = 1
  step : ∀ j ∈ m.joints, ∀ p ∈ m.links, ∀ c ∈ m.links, p.name = some j.parent → c.name = some j.child →
    P j.child = P j.parent * ((sdfPoseZYX p.pose)⁻¹ * sdfPoseZYX c.pose * sdfMotion j (val j.name)) ∧
    len j.child = len j.parent + (vlen (posPart (sdfPoseZYX p.pose)) + vlen (posPart (sdfPoseZYX c.pose)) + sdfTravel j (val j.name)) ∧
    depth j.child = depth j.parent + 1

/-- the angles of a pose are at most `A` -/
def SdfAnglesLe (A : ℝ) (o : Option Sdf.Pose) : Prop := ∀ p, o = some p → ∀ i, |p.rpy i| ≤ A

/-- `q` is the joint that `j` declares between links with poses `X` (parent) and `Y` (child): the offset from one to the other is
stored up to `δ` (rotation) and the factor `δ` of the distances of the two links from the origin, the axis up to `α` per
component. -/
structure SdfDeclaredUpTo (δ α : ℝ) (X Y : M4) (j : Sdf.Jnt) (q : Joint) : Prop where
  name : q.name = j.name
  kind : sdfKind j.type = some q.jtype
  offset : ∃ T, q.offset = some T ∧ Within δ (vlen (posPart X) + vlen (posPart Y)) T (X⁻¹ * Y)
  axis : j.axis ≠ 0 → ∀ i, |q.axis i - ((vlen j.axis)⁻¹ • j.axis) i| ≤ α
  limits : Moving q → q.limits = j.limit.bind fun m => m.lower.bind fun l => m.upper.map fun u => (l, u)

/-- how far a MuJoCo joint moves its body without turning it -/
def mjTravel (j : Mjcf.MJoint) (q : ℝ) : ℝ := if j.type = .slide then |q| else 0

/-- the joint of a body, as the loader places it: at its anchor, and the body there (C29) -/
def mjJointT (o : Option Mjcf.MJoint) (val : Name → ℝ) : M4 :=
  match o with
  | none => 1
  | some j => transT j.pos * mjMotion j (val j.name)

/-- the length of the translations of a joint -/
def mjJointLen (o : Option Mjcf.MJoint) (val : Name → ℝ) : ℝ :=
  match o with
  | none => 0
  | some j => vlen j.pos + mjTravel j (val j.name)

/-- With the joints at the values `val`, the body or site called `n` has pose `P n` in the world, is `depth n - 1` steps below the
world body, and the translations on the way are together `len n` long. -/
structure MjPosed (m : Mjcf.MjModel) (val : Name → ℝ) (P : Name → M4) (len : Name → ℝ) (depth : Name → ℕ) : Prop where
  world : ∀ b, m.bodies[0]? = some b → P b.name = quatPose b.pos b.quat ∧ len b.name = vlen b.pos ∧ depth b.name = 1
  body : ∀ i b p, m.bodies[i]? = some b → 0 < i → m.bodies[b.parentid]? = some p →
    P b.name = P p.name * (quatPose b.pos b.quat * mjJointT (bodyJnt m b) val) ∧
    len b.name = len p.name + (vlen b.pos + mjJointLen (bodyJnt m b) val) ∧ depth b.name = depth p.name + 1
  site : ∀ s ∈ m.sites, ∀ p, m.bodies[s.bodyid]? = some p → P s.name = P p.name * quatPose s.pos s.quat ∧
    len s.name = len p.name + vlen s.pos ∧ depth s.name = depth p.name + 1

/-- `q` is the joint of a body whose MuJoCo joint is `o`, the anchor stored up to the factor `δ` of its length, the axis up to `α` per
component. -/
def MjDeclaredUpTo (δ α : ℝ) (o : Option Mjcf.MJoint) (q : Joint) : Prop :=
  match o with
  | none => q.jtype = .fixed ∧ q.offset = none
  | some j => q.name = some j.name ∧ q.limits = some j.range ∧
      (j.type = .hinge ∧ q.jtype = .revolute ∨ j.type = .slide ∧ q.jtype = .prismatic) ∧
      (∃ T, q.offset = some T ∧ Within δ (vlen j.pos) T (transT j.pos)) ∧
      ∀ i, |q.axis i - ((vlen j.axis)⁻¹ • j.axis) i| ≤ α

end
end PK.Spec
