import Verif.Model.Loader
import Verif.Model.Serial

/-!
# Model of `urdf_parser_py/urdf.py` (reading) and `urdf.py` (chain construction)

`UP` = `/repo/src/pytorch_kinematics/urdf_parser_py/urdf.py`,
`UR` = `/repo/src/pytorch_kinematics/urdf.py`.
Writing XML (`to_xml`) and YAML are not modelled; neither is `from_parameter_server`.
-/

namespace PK.Urdf
open PK

/-- UP l.16-42 `Pose`. -/
structure Pose where
  xyz : V3
  rpy : V3

/-- UP l.268-281 `JointLimit`. -/
structure Limit where
  effort : Fl
  velocity : Fl
  lower : Fl
  upper : Fl

/-- UP l.287-298 `JointMimic`; read, then ignored by the loader. -/
structure Mimic where
  joint : Name
  multiplier : Option Fl
  offset : Option Fl

/-- UP l.71-80 `JointDynamics`. -/
structure Dynamics where
  damping : Option Fl
  friction : Option Fl

/-- UP l.301-314 `SafetyController`. -/
structure Safety where
  kVelocity : Fl
  kPosition : Fl
  lower : Fl
  upper : Fl

/-- UP l.256-265 `JointCalibration`. -/
structure Calibration where
  rising : Fl
  falling : Fl

/-- UP l.83-144 the geometry alternatives with their parameters. -/
inductive Geom where
  | box (size : V3)
  | cylinder (radius length : Fl)
  | sphere (radius : Fl)
  | mesh (filename : Name) (scale : Option V3)
  | capsule (radius length : Fl)

/-- UP l.49-68, l.172-203 `Material` and `LinkMaterial` with `Color` and `Texture`. -/
structure Material where
  name : Name
  color : Option (Fin 4 → ℝ)
  texture : Option Name

/-- UP l.205-216 `Visual`. -/
structure Vis where
  origin : Option Pose
  geometry : Geom
  material : Option Material

/-- UP l.160-169 `Collision`. -/
structure Coll where
  origin : Option Pose
  geometry : Geom

/-- UP l.219-252 `Inertial`; `inertia` are the six numbers of `Inertia.KEYS`. -/
structure Inertial where
  origin : Option Pose
  mass : Fl
  inertia : Option (Fin 6 → Fl)

/-- UP l.363-408 `Link`. -/
structure Lnk where
  name : Name
  origin : Option Pose
  visuals : List Vis
  collisions : List Coll := []
  inertial : Option Inertial := none

/-- UP l.317-360 `Joint`. -/
structure Jnt where
  name : Name
  type : Name
  parent : Name
  child : Name
  axis : Option V3
  origin : Option Pose
  limit : Option Limit
  mimic : Option Mimic
  dynamics : Option Dynamics := none
  safety : Option Safety := none
  calibration : Option Calibration := none

/-- UP l.484-514 `Robot`: the lists, and `link_map`, built by `add_aggregate` in document order. The name,
`gazebo` elements and transmissions are not kept. -/
structure Robot where
  links : List Lnk
  joints : List Jnt
  materials : List Material := []

/-- UP l.512-514 `link_map`: a later link of the same name replaces the earlier one. -/
def Robot.linkMap (r : Robot) : Dict Name Lnk := r.links.foldl (fun d l => d.set l.name l) []

/-- UP l.39-42 -/
def readPose (num : NumParser) (n : Xml) : Except Err Pose := do
  let xyz ← optional (n.attr n!"xyz") fun s => readV3 num (some s)
  let rpy ← optional (n.attr n!"rpy") fun s => readV3 num (some s)
  pure ⟨xyz.getD 0, rpy.getD 0⟩

/-- UP l.276-281 -/
def readLimit (num : NumParser) (n : Xml) : Except Err Limit := do
  let effort ← floatAttr num n n!"effort"
  let lower ← optional (n.attr n!"lower") fun s => readFloat num (some s)
  let upper ← optional (n.attr n!"upper") fun s => readFloat num (some s)
  let velocity ← floatAttr num n n!"velocity"
  pure ⟨effort, velocity, lower.getD (.fin 0), upper.getD (.fin 0)⟩

/-- UP l.294-298 -/
def readMimic (num : NumParser) (n : Xml) : Except Err Mimic := do
  let joint ← required (n.attr n!"joint")
  let multiplier ← optional (n.attr n!"multiplier") fun s => readFloat num (some s)
  let offset ← optional (n.attr n!"offset") fun s => readFloat num (some s)
  pure ⟨joint, multiplier, offset⟩

/-- an optional float attribute -/
def optFloat (num : NumParser) (n : Xml) (k : Name) : Except Err (Option Fl) :=
  optional (n.attr k) fun s => readFloat num (some s)

/-- UP l.77-80 `JointDynamics` -/
def readDynamics (num : NumParser) (n : Xml) : Except Err Dynamics := do
  let d ← optFloat num n n!"damping"
  let f ← optFloat num n n!"friction"
  pure ⟨d, f⟩

/-- UP l.309-314 `SafetyController` -/
def readSafety (num : NumParser) (n : Xml) : Except Err Safety := do
  let v ← floatAttr num n n!"k_velocity"
  let p ← optFloat num n n!"k_position"
  let l ← optFloat num n n!"soft_lower_limit"
  let u ← optFloat num n n!"soft_upper_limit"
  pure ⟨v, p.getD (.fin 0), l.getD (.fin 0), u.getD (.fin 0)⟩

/-- UP l.262-265 `JointCalibration` -/
def readCalibration (num : NumParser) (n : Xml) : Except Err Calibration := do
  let r ← optFloat num n n!"rising"
  let f ← optFloat num n n!"falling"
  pure ⟨r.getD (.fin 0), f.getD (.fin 0)⟩

/-- UP l.318-319 `Joint.TYPES` -/
def jointTypes : List Name :=
  [n!"unknown", n!"revolute", n!"continuous", n!"prismatic", n!"floating", n!"planar", n!"fixed"]

/-- UP l.348-360, check l.337-338; `element_link` l.10: `str(node.get('link'))`. -/
def readJoint (num : NumParser) (n : Xml) : Except Err Jnt := do
  let name ← required (n.attr n!"name")
  let type ← required (n.attr n!"type")
  let origin ← optional (n.scalar n!"origin") (readPose num)
  let axis ← optional (n.scalar n!"axis") fun a => readV3 num (a.attr n!"xyz")
  let parent ← required (n.scalar n!"parent")
  let child ← required (n.scalar n!"child")
  let limit ← optional (n.scalar n!"limit") (readLimit num)
  let dynamics ← optional (n.scalar n!"dynamics") (readDynamics num)
  let safety ← optional (n.scalar n!"safety_controller") (readSafety num)
  let calibration ← optional (n.scalar n!"calibration") (readCalibration num)
  let mimic ← optional (n.scalar n!"mimic") (readMimic num)
  if type ∈ jointTypes then
    pure ⟨name, type, readStr (parent.attr n!"link"), readStr (child.attr n!"link"), axis, origin, limit,
      mimic, dynamics, safety, calibration⟩
  else .error .parseError

/-- UP l.83-133, l.146-149 `GeometricType.from_xml`: exactly one child, of a known tag. -/
def readGeom (num : NumParser) (n : Xml) : Except Err Geom :=
  match n.children with
  | [g] =>
    if g.tag = n!"box" then do
      let s ← required (g.attr n!"size")
      let v ← readV3 num (some s)
      pure (.box v)
    else if g.tag = n!"cylinder" then do
      let r ← floatAttr num g n!"radius"
      let l ← floatAttr num g n!"length"
      pure (.cylinder r l)
    else if g.tag = n!"sphere" then do
      let r ← floatAttr num g n!"radius"
      pure (.sphere r)
    else if g.tag = n!"mesh" then do
      let f ← required (g.attr n!"filename")
      let s ← optional (g.attr n!"scale") fun s => readV3 num (some s)
      pure (.mesh f s)
    else if g.tag = n!"capsule" then do
      let r ← floatAttr num g n!"radius"
      let l ← floatAttr num g n!"length"
      pure (.capsule r l)
    else .error .parseError
  | _ => .error .parseError

/-- UP l.66-68, l.177-179, l.193-197 `Material` / `LinkMaterial` (`check_valid` l.188-190 only prints). -/
def readMaterial (num : NumParser) (n : Xml) : Except Err Material := do
  let name ← required (n.attr n!"name")
  let color ← optional (n.scalar n!"color") fun c => do
    let s ← required (c.attr n!"rgba")
    let l ← readVec num 4 (some s)
    pure fun i : Fin 4 => l.getD i 0
  let texture ← optional (n.scalar n!"texture") fun c => required (c.attr n!"filename")
  pure ⟨name, color, texture⟩

/-- UP l.212-216 -/
def readVisual (num : NumParser) (n : Xml) : Except Err Vis := do
  let origin ← optional (n.scalar n!"origin") (readPose num)
  let g ← required (n.scalar n!"geometry")
  let geometry ← readGeom num g
  let material ← optional (n.scalar n!"material") (readMaterial num)
  pure ⟨origin, geometry, material⟩

/-- UP l.166-169 -/
def readCollision (num : NumParser) (n : Xml) : Except Err Coll := do
  let origin ← optional (n.scalar n!"origin") (readPose num)
  let g ← required (n.scalar n!"geometry")
  let geometry ← readGeom num g
  pure ⟨origin, geometry⟩

/-- UP l.237-238 `Inertia` -/
def readInertia (num : NumParser) (n : Xml) : Except Err (Fin 6 → Fl) := do
  let a ← floatAttr num n n!"ixx"
  let b ← floatAttr num n n!"ixy"
  let c ← floatAttr num n n!"ixz"
  let d ← floatAttr num n n!"iyy"
  let e ← floatAttr num n n!"iyz"
  let f ← floatAttr num n n!"izz"
  pure ![a, b, c, d, e, f]

/-- UP l.248-252 `Inertial`; `element_value` is `float(node.get('value'))`. -/
def readInertial (num : NumParser) (n : Xml) : Except Err Inertial := do
  let origin ← optional (n.scalar n!"origin") (readPose num)
  let m ← required (n.scalar n!"mass")
  let mass ← readFloat num (m.attr n!"value")
  let inertia ← optional (n.scalar n!"inertia") (readInertia num)
  pure ⟨origin, mass, inertia⟩

/-- UP l.402-408 -/
def readLink (num : NumParser) (n : Xml) : Except Err Lnk := do
  let name ← required (n.attr n!"name")
  let origin ← optional (n.scalar n!"origin") (readPose num)
  let visuals ← (n.aggregate n!"visual").mapM (readVisual num)
  let collisions ← (n.aggregate n!"collision").mapM (readCollision num)
  let inertial ← optional (n.scalar n!"inertial") (readInertial num)
  pure ⟨name, origin, visuals, collisions, inertial⟩

/-- UP l.430-477 `Transmission` -/
def checkTransmissionNew (num : NumParser) (n : Xml) : Except Err Unit := do
  let _ ← required (n.attr n!"name")
  let _ ← required (n.scalar n!"type")
  let js := n.aggregate n!"joint"
  let acts := n.aggregate n!"actuator"
  js.forM fun j => do
    let _ ← required (j.attr n!"name")
    if (j.aggregate n!"hardwareInterface").isEmpty then .error .parseError else pure ()
  acts.forM fun a => do
    let _ ← required (a.attr n!"name")
    let _ ← optional (a.scalar n!"mechanicalReduction") fun m => readFloat num m.text
    pure ()
  if js.isEmpty || acts.isEmpty then .error .parseError else pure ()

/-- UP l.411-427 `PR2Transmission` -/
def checkTransmissionPR2 (num : NumParser) (n : Xml) : Except Err Unit := do
  let _ ← required (n.attr n!"name")
  let _ ← required (n.attr n!"type")
  let _ ← required (n.scalar n!"joint")
  let _ ← required (n.scalar n!"actuator")
  let _ ← floatElem num n n!"mechanicalReduction"
  pure ()

/-- core.py l.266-283 `DuckTypedFactory.from_xml` over the two transmission classes. -/
def checkTransmission (num : NumParser) (n : Xml) : Except Err Unit :=
  match checkTransmissionNew num n with
  | .ok _ => .ok ()
  | .error _ => match checkTransmissionPR2 num n with
    | .ok _ => .ok ()
    | .error _ => .error .parseError

/-- UP l.560-567 `Robot`; the tag of the root element is not checked (core.py l.606-610). `gazebo`
elements are kept raw and cannot fail. Elements are read in document order; which of several errors is
raised first is not modelled. -/
def readRobot (num : NumParser) (n : Xml) : Except Err Robot := do
  let links ← (n.aggregate n!"link").mapM (readLink num)
  let joints ← (n.aggregate n!"joint").mapM (readJoint num)
  let _ ← (n.aggregate n!"transmission").mapM (checkTransmission num)
  let materials ← (n.aggregate n!"material").mapM (readMaterial num)
  pure ⟨links, joints, materials⟩

/-- UR l.13-18 `_convert_transform`. The result has batch size 1; the matrix is kept. -/
noncomputable def convertTransform : Option Pose → Except Err M4
  | none => do
    let t ← T3.init (.default 1) none none .f32 cpu
    pure (t.mats.headD 1)
  | some o => do
    let q ← quaternionFromEuler o.rpy n!"sxyz"
    let t ← T3.init (.default 1) (some (.single o.xyz)) (some (.quat q.1)) .f32 cpu
    pure (t.mats.headD 1)

/-- UR l.26-40 `g_type`; a capsule is none of the four classes -/
def Geom.gType : Geom → Option GeomType
  | .mesh .. => some (.name n!"mesh")
  | .cylinder .. => some (.name n!"cylinder")
  | .box .. => some (.name n!"box")
  | .sphere .. => some (.name n!"sphere")
  | .capsule .. => none

/-- UR l.26-40 `g_param` -/
def Geom.gParam : Geom → GeomParam
  | .mesh f s => .meshScale f s
  | .cylinder r l => .radiusLength r l
  | .box v => .size v
  | .sphere r => .radius r
  | .capsule .. => .none

/-- UR l.21-41 `_convert_visual`. -/
noncomputable def convertVisual : Option Vis → Except Err Visual
  | none => .ok ⟨none, none, .none⟩
  | some v => do
    let t ← convertTransform v.origin
    pure ⟨some t, v.geometry.gType, v.geometry.gParam⟩

/-- UR l.7-10 `JOINT_TYPE_MAP`; other types raise KeyError. -/
def jointTypeMap (t : Name) : Except Err JType :=
  if t = n!"revolute" then .ok .revolute
  else if t = n!"continuous" then .ok .revolute
  else if t = n!"prismatic" then .ok .prismatic
  else if t = n!"fixed" then .ok .fixed
  else .error .keyError

/-- UR l.65-67, l.121-122 the frame's link from the description's link (first visual, UP l.373-376). -/
noncomputable def convertLink (l : Lnk) : Except Err Link := do
  let o ← convertTransform l.origin
  let v ← convertVisual l.visuals.head?
  pure ⟨some l.name, some o, [v]⟩

/-- UR l.48-67 the joint and link of a child frame. `j.limit` is `None` when there is no `<limit>`:
the three `AttributeError` handlers l.50, l.55, l.59. -/
noncomputable def convertJoint (lmap : Dict Name Lnk) (j : Jnt) : Except Err (Joint × Link) := do
  let o ← convertTransform j.origin
  let t ← jointTypeMap j.type
  let lnk ← (match lmap.get? j.child with
    | none => .error .keyError
    | some l => .ok l)
  let l ← convertLink lnk
  pure (Joint.init (some j.name) (some o) t j.axis
      (j.limit.map fun m => (m.lower, m.upper))
      (j.limit.map fun m => (m.velocity.neg, m.velocity))
      (j.limit.map fun m => (m.effort.neg, m.effort)), l)

/-- UR l.105-123: the root frame; `fuel` = available Python recursion depth. -/
noncomputable def buildRoot (fuel : ℕ) (r : Robot) : Except Err Frame := do
  let rn ← (match rootName Jnt.parent Jnt.child r.joints with
    | none => .error .unboundLocal
    | some n => .ok n)
  let lnk ← (match r.linkMap.get? rn with
    | none => .error .keyError
    | some l => .ok l)
  let link ← convertLink lnk
  let cs ← buildRecurse Jnt.parent Jnt.child (convertJoint r.linkMap) r.joints fuel lnk.name
  pure (Frame.mk lnk.name link Joint.init cs)

/-- UR l.73-124 `build_chain_from_urdf` on the parsed document. -/
noncomputable def buildChain (num : NumParser) (fuel : ℕ) (doc : Xml) : Except Err Chain := do
  let r ← readRobot num doc
  let f ← buildRoot fuel r
  pure (Chain.init f)

/-- UR l.127-146 `build_serial_chain_from_urdf`. -/
noncomputable def buildSerialChain (num : NumParser) (fuel : ℕ) (doc : Xml) (endLink rootLink : Name) :
    Except Err SerialChain := do
  let c ← buildChain num fuel doc
  SerialChain.init c.root endLink rootLink

end PK.Urdf
