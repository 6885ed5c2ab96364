import Verif.Spec.Desc
import Verif.Spec.Urdf
import Verif.Model.Sdf

/-!
# Independent specification of SDF

The meaning of an SDF model, from the SDF specification: poses, joint kinds, the tree of links.
Uses the record types of the description only.
-/

namespace PK.Spec
open PK

/-- A pose element as the SDF specification defines it: `T(x,y,z) Rz(yaw) Ry(pitch) Rx(roll)`; absent means
identity. -/
noncomputable def sdfPose (o : Option Sdf.Pose) : M4 :=
  match o with
  | none => 1
  | some p => rpyPose p.xyz p.rpy

/-- The pose with the three angles applied the other way round: `T(x,y,z) Rz(a) Ry(b) Rx(c)` for `a b c` in the
order they are written. -/
noncomputable def sdfPoseZYX (o : Option Sdf.Pose) : M4 :=
  match o with
  | none => 1
  | some p => mkHom (elem .z (p.rpy 0) * elem .y (p.rpy 1) * elem .x (p.rpy 2)) p.xyz

/-- Joint types with one degree of freedom or none that the loader supports. -/
def sdfKind : Option Name → Option JType
  | some ['r', 'e', 'v', 'o', 'l', 'u', 't', 'e'] => some .revolute
  | some ['p', 'r', 'i', 's', 'm', 'a', 't', 'i', 'c'] => some .prismatic
  | some ['f', 'i', 'x', 'e', 'd'] => some .fixed
  | _ => none

/-- `q` is the joint that `j` declares, between links whose poses are `P` (parent) and `C` (child). -/
structure SdfDeclared (P C : M4) (j : Sdf.Jnt) (q : Joint) : Prop where
  name : q.name = j.name
  kind : sdfKind j.type = some q.jtype
  offset : ∃ o, q.offset = some o ∧ P * o = C
  axis : j.axis ≠ 0 → (∃ c : ℝ, 0 < c ∧ q.axis = c • j.axis) ∧ IsUnitV q.axis
  limits : Moving q → q.limits = j.limit.bind fun m => m.lower.bind fun l => m.upper.map fun u => (l, u)

/-- All links are named `names`, and the model is a tree with this root. -/
structure SdfTree (m : Sdf.Model) (names : List Name) (root : Name) : Prop where
  named : m.links.map Sdf.Lnk.name = names.map some
  tree : IsTree names Sdf.Jnt.parent Sdf.Jnt.child m.joints root
  kinds : ∀ j ∈ m.joints, sdfKind j.type ≠ none
  /-- both bounds of a moving joint's limits are given -/
  bounds : ∀ j ∈ m.joints, sdfKind j.type ≠ some .fixed → ∀ l, j.limit = some l → l.lower ≠ none ∧ l.upper ≠ none

/-! ## document syntax -/

/-- an element with a text and nothing else -/
def textElem (tag text : Name) : Xml := .elem tag [] (some text) []

/-- `<pose>x y z roll pitch yaw</pose>` -/
def sdfPoseXml (sh : Fl → Name) (p : Sdf.Pose) : Xml :=
  textElem n!"pose" (vecText sh p.xyz ++ [' '] ++ vecText sh p.rpy)

/-- `<inertial> <mass/> <inertia> <ixx/> … </inertia> <pose/> </inertial>` -/
def sdfInertialXml (sh : Fl → Name) (i : Sdf.Inertial) : Xml :=
  .elem n!"inertial" [] none <| [textElem n!"mass" (sh i.mass)] ++ ([.elem n!"inertia" [] none
    [textElem n!"ixx" (sh (i.inertia 0)), textElem n!"ixy" (sh (i.inertia 1)), textElem n!"ixz" (sh (i.inertia 2)),
     textElem n!"iyy" (sh (i.inertia 3)), textElem n!"iyz" (sh (i.inertia 4)), textElem n!"izz" (sh (i.inertia 5))]] ++
    (i.pose.map (sdfPoseXml sh)).toList)

/-- the shape elements as the loader's format has them (a mesh by `<filename>`) -/
def sdfShapeXml (sh : Fl → Name) : Sdf.Geom → Xml
  | .box v => .elem n!"box" [] none [textElem n!"size" (vecText sh v)]
  | .cylinder r l => .elem n!"cylinder" [] none [textElem n!"radius" (sh r), textElem n!"length" (sh l)]
  | .sphere r => .elem n!"sphere" [] none [textElem n!"radius" (sh r)]
  | .mesh f s => .elem n!"mesh" [] none <| [textElem n!"filename" f] ++
      (s.map fun v => textElem n!"scale" (vecText sh v)).toList

/-- `<visual> <geometry> shape </geometry> <pose/> </visual>`, and the same for collisions -/
def sdfBodyXml (sh : Fl → Name) (tag : Name) (v : Sdf.Vis) : Xml :=
  .elem tag [] none <| [.elem n!"geometry" [] none [sdfShapeXml sh v.geometry]] ++ (v.pose.map (sdfPoseXml sh)).toList

/-- `<link name=".."> <inertial/> <visual/>* <collision/>* <pose/> </link>` -/
def sdfLinkXml (sh : Fl → Name) (l : Sdf.Lnk) : Xml :=
  .elem n!"link" (l.name.map fun n => (n!"name", n)).toList none <|
    [sdfInertialXml sh l.inertial] ++ (l.visuals.map (sdfBodyXml sh n!"visual") ++
    (l.collisions.map (sdfBodyXml sh n!"collision") ++ (l.pose.map (sdfPoseXml sh)).toList))

/-- `<limit> <lower/> <upper/> </limit>` -/
def sdfLimitXml (sh : Fl → Name) (l : Sdf.Limit) : Xml :=
  .elem n!"limit" [] none ((l.lower.map fun y => textElem n!"lower" (sh y)).toList ++
    (l.upper.map fun y => textElem n!"upper" (sh y)).toList)

/-- `<dynamics> <damping/> <friction/> </dynamics>` -/
def sdfDynamicsXml (sh : Fl → Name) (l : Sdf.Dynamics) : Xml :=
  .elem n!"dynamics" [] none ((l.damping.map fun y => textElem n!"damping" (sh y)).toList ++
    (l.friction.map fun y => textElem n!"friction" (sh y)).toList)

/-- `<axis> <xyz/> <limit/> <dynamics/> </axis>` -/
def sdfAxisXml (sh : Fl → Name) (j : Sdf.Jnt) : Xml :=
  .elem n!"axis" [] none <| [textElem n!"xyz" (vecText sh j.axis)] ++ ((j.limit.map (sdfLimitXml sh)).toList ++
    (j.dynamics.map (sdfDynamicsXml sh)).toList)

/-- `<joint name=".." type=".."> <parent/> <child/> <axis/> <pose/> </joint>` -/
def sdfJointXml (sh : Fl → Name) (j : Sdf.Jnt) : Xml :=
  .elem n!"joint" ((j.name.map fun n => (n!"name", n)).toList ++ (j.type.map fun n => (n!"type", n)).toList) none <|
    [textElem n!"parent" j.parent] ++ ([textElem n!"child" j.child] ++ ([sdfAxisXml sh j] ++
     (j.pose.map (sdfPoseXml sh)).toList))

/-- `<sdf> <model> links joints </model> </sdf>` -/
def sdfXml (sh : Fl → Name) (m : Sdf.Model) : Xml :=
  .elem n!"sdf" [(n!"version", n!"1.6")] none
    [.elem n!"model" [(n!"name", n!"m")] none (m.links.map (sdfLinkXml sh) ++ m.joints.map (sdfJointXml sh))]

/-- All numbers of a pose are written as words the number syntax reads back. -/
def PoseWritten (num : NumParser) (sh : Fl → Name) (o : Option Sdf.Pose) : Prop :=
  ∀ p, o = some p → ∀ i, Written num sh (.fin (p.xyz i)) ∧ Written num sh (.fin (p.rpy i))

/-- All numbers of a joint are. -/
structure SdfJointWritten (num : NumParser) (sh : Fl → Name) (j : Sdf.Jnt) : Prop where
  pose : PoseWritten num sh j.pose
  axis : ∀ i, Written num sh (.fin (j.axis i))
  limit : ∀ l, j.limit = some l → (∀ y, l.lower = some y → Written num sh y) ∧ ∀ y, l.upper = some y → Written num sh y
  dynamics : ∀ d, j.dynamics = some d → (∀ y, d.damping = some y → Written num sh y) ∧
    ∀ y, d.friction = some y → Written num sh y

/-- All numbers of a shape are. -/
def SdfShapeWritten (num : NumParser) (sh : Fl → Name) : Sdf.Geom → Prop
  | .box v => ∀ i, Written num sh (.fin (v i))
  | .cylinder r l => Written num sh r ∧ Written num sh l
  | .sphere r => Written num sh r
  | .mesh _ s => ∀ v, s = some v → ∀ i, Written num sh (.fin (v i))

/-- All numbers of a link are. -/
structure SdfLinkWritten (num : NumParser) (sh : Fl → Name) (l : Sdf.Lnk) : Prop where
  pose : PoseWritten num sh l.pose
  visuals : ∀ v ∈ l.visuals, PoseWritten num sh v.pose ∧ SdfShapeWritten num sh v.geometry
  collisions : ∀ v ∈ l.collisions, PoseWritten num sh v.pose ∧ SdfShapeWritten num sh v.geometry
  mass : Written num sh l.inertial.mass
  inertia : ∀ i, Written num sh (l.inertial.inertia i)
  inertial : PoseWritten num sh l.inertial.pose

/-- All numbers of a model are. -/
structure SdfWritten (num : NumParser) (sh : Fl → Name) (m : Sdf.Model) : Prop where
  links : ∀ l ∈ m.links, SdfLinkWritten num sh l
  joints : ∀ j ∈ m.joints, SdfJointWritten num sh j

end PK.Spec
