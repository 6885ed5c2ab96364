import Verif.Spec.Urdf
import Verif.Spec.Float

/-!
# What a URDF description says about poses

The poses of the links of a description, by recursion from the root.  Uses the records of the description only.
-/

namespace PK.Spec
open PK Urdf
noncomputable section

/-- the motion of a joint at value `q`: about or along the declared axis, scaled to length 1 -/
def urdfMotion (j : Jnt) (q : ℝ) : M4 :=
  match urdfKind j.type, j.axis with
  | some .revolute, some a => mkHom (rotAbout ((vlen a)⁻¹ • a) q) 0
  | some .prismatic, some a => mkHom 1 (q • (vlen a)⁻¹ • a)
  | _, _ => 1

/-- how far the joint moves its child without turning it -/
def urdfTravel (j : Jnt) (q : ℝ) : ℝ := if urdfKind j.type = some .prismatic then |q| else 0

/-- With the joints at the values `val`, link `l` has pose `P l` in the root link, is `depth l - 1` joints below it, and the
translations on the way are together `len l` long. -/
structure Posed (r : Robot) (root : Name) (val : Name → ℝ) (P : Name → M4) (len : Name → ℝ) (depth : Name → ℕ) : Prop where
  root_pose : P root = 1
  root_len : len root = 0
  root_depth : depth root = 1
  pose : ∀ j ∈ r.joints, P j.child = P j.parent * (originT j.origin * urdfMotion j (val j.name))
  len : ∀ j ∈ r.joints, len j.child = len j.parent + (vlen (posPart (originT j.origin)) + urdfTravel j (val j.name))
  depth : ∀ j ∈ r.joints, depth j.child = depth j.parent + 1

/-- the angles of an origin are at most `A` -/
def AnglesLe (A : ℝ) (o : Option Pose) : Prop := ∀ p, o = some p → ∀ i, |p.rpy i| ≤ A

/-- `q` is the joint that `j` declares, the rotation of its origin stored up to `δ`, the translation up to the factor `δ` of
its length and the axis up to `α` per component. -/
structure DeclaredUpTo (δ α : ℝ) (j : Jnt) (q : Joint) : Prop where
  name : q.name = some j.name
  kind : urdfKind j.type = some q.jtype
  offset : ∃ T, q.offset = some T ∧ Within δ (vlen (posPart (originT j.origin))) T (originT j.origin)
  axis : ∀ a, j.axis = some a → a ≠ 0 → ∀ i, |q.axis i - ((vlen a)⁻¹ • a) i| ≤ α
  limits : q.limits = j.limit.map fun m => (m.lower, m.upper)
  velocity : q.velocityLimits = j.limit.map fun m => (m.velocity.neg, m.velocity)
  effort : q.effortLimits = j.limit.map fun m => (m.effort.neg, m.effort)

end
end PK.Spec
