import Verif.Spec.Desc
import Verif.Model.Urdf

/-!
# Independent specification of URDF

The meaning of a URDF description, from the URDF specification: joint kinds, origins, the document
syntax (a writer).  Uses the record types of the description only.
-/

namespace PK.Spec
open PK

/-- Pose of `xyz`, `rpy` with fixed-axis roll-pitch-yaw: `T(xyz) Rz(yaw) Ry(pitch) Rx(roll)`. -/
noncomputable def rpyPose (xyz rpy : V3) : M4 :=
  mkHom (elem .z (rpy 2) * elem .y (rpy 1) * elem .x (rpy 0)) xyz

/-- An optional `<origin>`; absent means identity. -/
noncomputable def originT (o : Option Urdf.Pose) : M4 :=
  match o with
  | none => 1
  | some p => rpyPose p.xyz p.rpy

/-- Joint types with one degree of freedom or none, and what they do. -/
def urdfKind : Name → Option JType
  | ['r', 'e', 'v', 'o', 'l', 'u', 't', 'e'] => some .revolute
  | ['c', 'o', 'n', 't', 'i', 'n', 'u', 'o', 'u', 's'] => some .revolute
  | ['p', 'r', 'i', 's', 'm', 'a', 't', 'i', 'c'] => some .prismatic
  | ['f', 'i', 'x', 'e', 'd'] => some .fixed
  | _ => none

/-- `q` is the joint that `j` declares. -/
structure Declared (j : Urdf.Jnt) (q : Joint) : Prop where
  name : q.name = some j.name
  kind : urdfKind j.type = some q.jtype
  offset : q.offset = some (originT j.origin)
  axis : ∀ a, j.axis = some a → a ≠ 0 → ∃ c : ℝ, 0 < c ∧ q.axis = c • a
  unit : (∀ a, j.axis = some a → a ≠ 0) → IsUnitV q.axis
  limits : q.limits = j.limit.map fun m => (m.lower, m.upper)
  velocity : q.velocityLimits = j.limit.map fun m => (m.velocity.neg, m.velocity)
  effort : q.effortLimits = j.limit.map fun m => (m.effort.neg, m.effort)

/-- The description is a tree with this root. -/
def UrdfTree (r : Urdf.Robot) (root : Name) : Prop :=
  IsTree (r.links.map Urdf.Lnk.name) Urdf.Jnt.parent Urdf.Jnt.child r.joints root

/-- `val` obeys the `<mimic>` elements: a mimic joint is at `multiplier * value + offset` of the joint it names
(multiplier 1 and offset 0 when absent). -/
def Mimics (r : Urdf.Robot) (val : Name → ℝ) : Prop :=
  ∀ j ∈ r.joints, ∀ m, j.mimic = some m → ∀ a b : ℝ, m.multiplier.getD (.fin 1) = .fin a → m.offset.getD (.fin 0) = .fin b →
    val j.name = a * val m.joint + b

/-! ## document syntax -/

/-- a vector attribute value: three numbers separated by blanks -/
def vecText (sh : Fl → Name) (v : V3) : Name :=
  sh (.fin (v 0)) ++ [' '] ++ sh (.fin (v 1)) ++ [' '] ++ sh (.fin (v 2))

/-- `<origin xyz=".." rpy=".."/>` -/
def poseXml (sh : Fl → Name) (p : Urdf.Pose) : Xml :=
  .elem n!"origin" [(n!"xyz", vecText sh p.xyz), (n!"rpy", vecText sh p.rpy)] none []

/-- `<limit lower=".." upper=".." effort=".." velocity=".."/>` -/
def limitXml (sh : Fl → Name) (l : Urdf.Limit) : Xml :=
  .elem n!"limit" [(n!"lower", sh l.lower), (n!"upper", sh l.upper), (n!"effort", sh l.effort),
    (n!"velocity", sh l.velocity)] none []

/-- `<mimic joint=".." multiplier=".." offset=".."/>` -/
def mimicXml (sh : Fl → Name) (m : Urdf.Mimic) : Xml :=
  .elem n!"mimic" ((n!"joint", m.joint) :: (m.multiplier.map fun x => (n!"multiplier", sh x)).toList ++
    (m.offset.map fun x => (n!"offset", sh x)).toList) none []

/-- an attribute with a number, when it is given -/
def numAttr (sh : Fl → Name) (k : Name) (x : Option Fl) : List (Name × Name) := (x.map fun x => (k, sh x)).toList

/-- `<dynamics damping=".." friction=".."/>` -/
def dynamicsXml (sh : Fl → Name) (d : Urdf.Dynamics) : Xml :=
  .elem n!"dynamics" (numAttr sh n!"damping" d.damping ++ numAttr sh n!"friction" d.friction) none []

/-- `<safety_controller soft_lower_limit=".." soft_upper_limit=".." k_position=".." k_velocity=".."/>` -/
def safetyXml (sh : Fl → Name) (s : Urdf.Safety) : Xml :=
  .elem n!"safety_controller" [(n!"soft_lower_limit", sh s.lower), (n!"soft_upper_limit", sh s.upper),
    (n!"k_position", sh s.kPosition), (n!"k_velocity", sh s.kVelocity)] none []

/-- `<calibration rising=".." falling=".."/>` -/
def calibrationXml (sh : Fl → Name) (c : Urdf.Calibration) : Xml :=
  .elem n!"calibration" [(n!"rising", sh c.rising), (n!"falling", sh c.falling)] none []

/-- `<joint name=".." type=".."> <origin/> <axis/> <parent/> <child/> <limit/> <mimic/> <dynamics/>
<safety_controller/> <calibration/> </joint>` -/
def jointXml (sh : Fl → Name) (j : Urdf.Jnt) : Xml :=
  .elem n!"joint" [(n!"name", j.name), (n!"type", j.type)] none <|
    (j.origin.map (poseXml sh)).toList ++
    ((j.axis.map fun a => .elem n!"axis" [(n!"xyz", vecText sh a)] none []).toList ++
    ([.elem n!"parent" [(n!"link", j.parent)] none []] ++ ([.elem n!"child" [(n!"link", j.child)] none []] ++
    ((j.limit.map (limitXml sh)).toList ++ ((j.mimic.map (mimicXml sh)).toList ++
    ((j.dynamics.map (dynamicsXml sh)).toList ++ ((j.safety.map (safetyXml sh)).toList ++
    (j.calibration.map (calibrationXml sh)).toList)))))))

/-- the shape elements, `<box size=".."/>` and so on -/
def shapeXml (sh : Fl → Name) : Urdf.Geom → Xml
  | .box v => .elem n!"box" [(n!"size", vecText sh v)] none []
  | .cylinder r l => .elem n!"cylinder" [(n!"radius", sh r), (n!"length", sh l)] none []
  | .sphere r => .elem n!"sphere" [(n!"radius", sh r)] none []
  | .mesh f s => .elem n!"mesh" ((n!"filename", f) :: (s.map fun v => (n!"scale", vecText sh v)).toList) none []
  | .capsule r l => .elem n!"capsule" [(n!"radius", sh r), (n!"length", sh l)] none []

/-- `<geometry> shape </geometry>` -/
def geometryXml (sh : Fl → Name) (g : Urdf.Geom) : Xml := .elem n!"geometry" [] none [shapeXml sh g]

/-- four numbers separated by blanks -/
def rgbaText (sh : Fl → Name) (c : Fin 4 → ℝ) : Name :=
  sh (.fin (c 0)) ++ [' '] ++ sh (.fin (c 1)) ++ [' '] ++ sh (.fin (c 2)) ++ [' '] ++ sh (.fin (c 3))

/-- `<material name=".."> <color rgba=".."/> <texture filename=".."/> </material>` -/
def materialXml (sh : Fl → Name) (m : Urdf.Material) : Xml :=
  .elem n!"material" [(n!"name", m.name)] none <|
    (m.color.map fun c => .elem n!"color" [(n!"rgba", rgbaText sh c)] none []).toList ++
    (m.texture.map fun t => .elem n!"texture" [(n!"filename", t)] none []).toList

/-- `<visual> <origin/> <geometry/> <material/> </visual>` -/
def visualXml (sh : Fl → Name) (v : Urdf.Vis) : Xml :=
  .elem n!"visual" [] none <|
    (v.origin.map (poseXml sh)).toList ++ ([geometryXml sh v.geometry] ++ (v.material.map (materialXml sh)).toList)

/-- `<collision> <origin/> <geometry/> </collision>` -/
def collisionXml (sh : Fl → Name) (v : Urdf.Coll) : Xml :=
  .elem n!"collision" [] none <| (v.origin.map (poseXml sh)).toList ++ [geometryXml sh v.geometry]

/-- `<inertial> <origin/> <mass value=".."/> <inertia ixx=".." …/> </inertial>` -/
def inertialXml (sh : Fl → Name) (i : Urdf.Inertial) : Xml :=
  .elem n!"inertial" [] none <|
    (i.origin.map (poseXml sh)).toList ++ ([.elem n!"mass" [(n!"value", sh i.mass)] none []] ++
    (i.inertia.map fun m => .elem n!"inertia" [(n!"ixx", sh (m 0)), (n!"ixy", sh (m 1)), (n!"ixz", sh (m 2)),
      (n!"iyy", sh (m 3)), (n!"iyz", sh (m 4)), (n!"izz", sh (m 5))] none []).toList)

/-- `<link name=".."> <origin/> <visual/>* <collision/>* <inertial/> </link>` -/
def linkXml (sh : Fl → Name) (l : Urdf.Lnk) : Xml :=
  .elem n!"link" [(n!"name", l.name)] none <|
    (l.origin.map (poseXml sh)).toList ++ (l.visuals.map (visualXml sh) ++ (l.collisions.map (collisionXml sh) ++
    (l.inertial.map (inertialXml sh)).toList))

/-- `<robot> materials links joints </robot>` -/
def robotXml (sh : Fl → Name) (r : Urdf.Robot) : Xml :=
  .elem n!"robot" [] none <|
    r.materials.map (materialXml sh) ++ (r.links.map (linkXml sh) ++ r.joints.map (jointXml sh))

/-- The number is written as a blank-free word that the number syntax reads back. -/
def Written (num : NumParser) (sh : Fl → Name) (x : Fl) : Prop :=
  num (sh x) = some x ∧ sh x ≠ [] ∧ ∀ c ∈ sh x, c ≠ ' ' ∧ c ≠ '\t' ∧ c ≠ '\n' ∧ c ≠ '\r' ∧ c ≠ '\x0b' ∧ c ≠ '\x0c'

/-- All numbers of a pose are. -/
def OriginWritten (num : NumParser) (sh : Fl → Name) (o : Option Urdf.Pose) : Prop :=
  ∀ p, o = some p → ∀ i, Written num sh (.fin (p.xyz i)) ∧ Written num sh (.fin (p.rpy i))

/-- All numbers of a joint are. -/
structure JointWritten (num : NumParser) (sh : Fl → Name) (j : Urdf.Jnt) : Prop where
  pose : OriginWritten num sh j.origin
  axis : ∀ a, j.axis = some a → ∀ i, Written num sh (.fin (a i))
  limit : ∀ l, j.limit = some l → Written num sh l.lower ∧ Written num sh l.upper ∧
    Written num sh l.effort ∧ Written num sh l.velocity
  mimic : ∀ m, j.mimic = some m → (∀ x, m.multiplier = some x → Written num sh x) ∧
    ∀ x, m.offset = some x → Written num sh x
  dynamics : ∀ d, j.dynamics = some d → (∀ x, d.damping = some x → Written num sh x) ∧
    ∀ x, d.friction = some x → Written num sh x
  safety : ∀ s, j.safety = some s → Written num sh s.kVelocity ∧ Written num sh s.kPosition ∧
    Written num sh s.lower ∧ Written num sh s.upper
  calibration : ∀ c, j.calibration = some c → Written num sh c.rising ∧ Written num sh c.falling

/-- All numbers of a shape are. -/
def ShapeWritten (num : NumParser) (sh : Fl → Name) : Urdf.Geom → Prop
  | .box v => ∀ i, Written num sh (.fin (v i))
  | .cylinder r l => Written num sh r ∧ Written num sh l
  | .sphere r => Written num sh r
  | .mesh _ s => ∀ v, s = some v → ∀ i, Written num sh (.fin (v i))
  | .capsule r l => Written num sh r ∧ Written num sh l

/-- All numbers of a material are. -/
def MaterialWritten (num : NumParser) (sh : Fl → Name) (m : Urdf.Material) : Prop :=
  ∀ c, m.color = some c → ∀ i, Written num sh (.fin (c i))

/-- All numbers of a link are. -/
structure LinkWritten (num : NumParser) (sh : Fl → Name) (l : Urdf.Lnk) : Prop where
  pose : OriginWritten num sh l.origin
  visuals : ∀ v ∈ l.visuals, OriginWritten num sh v.origin ∧ ShapeWritten num sh v.geometry ∧
    ∀ m, v.material = some m → MaterialWritten num sh m
  collisions : ∀ v ∈ l.collisions, OriginWritten num sh v.origin ∧ ShapeWritten num sh v.geometry
  inertial : ∀ i, l.inertial = some i → OriginWritten num sh i.origin ∧ Written num sh i.mass ∧
    ∀ m, i.inertia = some m → ∀ k, Written num sh (m k)

/-- All numbers of a description are. -/
structure RobotWritten (num : NumParser) (sh : Fl → Name) (r : Urdf.Robot) : Prop where
  links : ∀ l ∈ r.links, LinkWritten num sh l
  joints : ∀ j ∈ r.joints, JointWritten num sh j
  materials : ∀ m ∈ r.materials, MaterialWritten num sh m

end PK.Spec
