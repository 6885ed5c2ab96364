import Verif.Spec.Desc
import Verif.Spec.Quat
import Verif.Model.Mjcf

/-!
# Independent specification of compiled MuJoCo models

What the fields of a compiled model mean, from the MuJoCo documentation: a body's frame is placed in its
parent's by `pos` and `quat`, then its joint moves it about (or along) the joint axis through the joint's
anchor `jnt_pos`; sites are fixed to their body.
-/

namespace PK.Spec
open PK

/-- Rotation of a quaternion: `v ↦ q v q⁻¹`, as a matrix. -/
noncomputable def quatRot (q : Quat) : M3 := Matrix.of fun i j =>
  let h := toH q * pureH (Pi.single j 1) * (toH q)⁻¹
  ![h.imI, h.imJ, h.imK] i

/-- The pose given by a position and a quaternion. -/
noncomputable def quatPose (pos : V3) (quat : Quat) : M4 := mkHom (quatRot quat) pos

/-- A translation. -/
def transT (p : V3) : M4 := mkHom 1 p

/-- What a joint does to its body at value `q`: hinge and slide about / along the (normalised) axis. -/
noncomputable def mjMotion (j : Mjcf.MJoint) (q : ℝ) : M4 :=
  match j.type with
  | .hinge => mkHom (rotAbout ((1 / vlen j.axis) • j.axis) q) 0
  | .slide => mkHom 1 (q • ((1 / vlen j.axis) • j.axis))
  | _ => 1

/-- Joint of a body, if it has one. -/
def bodyJnt (m : Mjcf.MjModel) (b : Mjcf.Body) : Option Mjcf.MJoint :=
  if b.jntnum = 0 then none else m.joints[b.jntadr]?

/-- Placement of a body in its parent, MuJoCo: the joint moves the body about its anchor. -/
noncomputable def mjLocal (m : Mjcf.MjModel) (val : Name → ℝ) (b : Mjcf.Body) : M4 :=
  quatPose b.pos b.quat *
    match bodyJnt m b with
    | none => 1
    | some j => transT j.pos * mjMotion j (val j.name) * transT (-j.pos)

/-- World pose of body number `i`. -/
inductive MjPlaced (m : Mjcf.MjModel) (val : Name → ℝ) : ℕ → M4 → Prop
  | world (b : Mjcf.Body) : m.bodies[0]? = some b → MjPlaced m val 0 (quatPose b.pos b.quat)
  | child (i : ℕ) (b : Mjcf.Body) (T : M4) : m.bodies[i]? = some b → 0 < i → MjPlaced m val b.parentid T →
      MjPlaced m val i (T * mjLocal m val b)

/-- The compiled model is one the loader supports: the world comes first, parents come before their children, at most one
joint per body, hinge or slide, with a non-zero axis; names of bodies and sites are distinct, do not begin
or end with a newline; joint names are distinct; quaternions are not zero. -/
structure MjSupported (m : Mjcf.MjModel) : Prop where
  world : m.bodies ≠ []
  /-- the world is its own parent -/
  world_parent : ∀ b, m.bodies[0]? = some b → b.parentid = 0
  parent_lt : ∀ i b, m.bodies[i]? = some b → 0 < i → b.parentid < i
  site_body : ∀ s ∈ m.sites, s.bodyid < m.bodies.length
  names : (m.bodies.map Mjcf.Body.name ++ m.sites.map Mjcf.Site.name).Nodup
  newline : ∀ n ∈ m.bodies.map Mjcf.Body.name ++ m.sites.map Mjcf.Site.name, n.head? ≠ some '\n' ∧ n.getLast? ≠ some '\n'
  jnt_num : ∀ b ∈ m.bodies, b.jntnum ≤ 1
  jnt_adr : ∀ b ∈ m.bodies, b.jntnum = 1 → b.jntadr < m.joints.length
  /-- no two bodies share a joint -/
  jnt_own : ∀ (i k : ℕ) (a b : Mjcf.Body), m.bodies[i]? = some a → m.bodies[k]? = some b → a.jntnum = 1 → b.jntnum = 1 →
    a.jntadr = b.jntadr → i = k
  /-- every joint belongs to a body -/
  jnt_body : ∀ k, k < m.joints.length → ∃ (i : ℕ) (b : Mjcf.Body), m.bodies[i]? = some b ∧ 0 < i ∧ b.jntnum = 1 ∧ b.jntadr = k
  jnt_kind : ∀ j ∈ m.joints, j.type = .hinge ∨ j.type = .slide
  jnt_axis : ∀ j ∈ m.joints, j.axis ≠ 0
  jnt_names : (m.joints.map Mjcf.MJoint.name).Nodup
  /-- the world body has no joint -/
  world_fixed : ∀ b, m.bodies[0]? = some b → b.jntnum = 0
  quat_body : ∀ b ∈ m.bodies, toH b.quat ≠ 0
  quat_site : ∀ s ∈ m.sites, toH s.quat ≠ 0

/-- Something hanging below a body: a child body or a site. -/
structure MjEdge where
  parent : Name
  child : Name
  joint : Option Mjcf.MJoint

/-- All of them: the bodies other than the world in order, then the sites in order. -/
def mjEdges (m : Mjcf.MjModel) : List MjEdge :=
  (m.bodies.drop 1).map (fun b => ⟨(m.bodies[b.parentid]?.map Mjcf.Body.name).getD [], b.name, bodyJnt m b⟩) ++
  m.sites.map (fun s => ⟨(m.bodies[s.bodyid]?.map Mjcf.Body.name).getD [], s.name, none⟩)

/-- `q` is the joint the loader should make for a body whose MuJoCo joint is `o`. -/
def MjDeclared (o : Option Mjcf.MJoint) (q : Joint) : Prop :=
  match o with
  | none => q.jtype = .fixed ∧ q.offset = none
  | some j => q.name = some j.name ∧ q.offset = some (transT j.pos) ∧ q.limits = some j.range ∧ IsUnitV q.axis ∧
      ∀ x, motion q x = mjMotion j x

end PK.Spec
