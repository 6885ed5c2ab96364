import Verif.Model.Loader
import Verif.Model.Serial

/-!
# Model of `urdf_parser_py/sdf.py` (reading) and `sdf.py` (chain construction)

`SP` = `/repo/src/pytorch_kinematics/urdf_parser_py/sdf.py`, `SD` = `/repo/src/pytorch_kinematics/sdf.py`.
Writing XML is not modelled.
-/

namespace PK.Sdf
open PK

/-- `<pose>`: six numbers, position and three angles (SP l.9, `vector6`). -/
structure Pose where
  xyz : V3
  rpy : V3

/-- SP l.13-31, l.39-49 `Inertial`; `inertia` are the six numbers of `Inertia.KEYS`. -/
structure Inertial where
  mass : Fl
  inertia : Fin 6 → Fl
  pose : Option Pose

/-- SP l.52-103 the geometry alternatives with their parameters. -/
inductive Geom where
  | box (size : V3)
  | cylinder (radius length : Fl)
  | sphere (radius : Fl)
  | mesh (filename : Name) (scale : Option V3)

/-- SP l.143-155 `Visual`; name and material are not kept. -/
structure Vis where
  pose : Option Pose
  geometry : Geom

/-- SP l.245-263 `Link`; the name is optional. `kinematic` is not kept. Collisions (l.158-169) have the
fields of visuals. -/
structure Lnk where
  name : Option Name
  pose : Option Pose
  visuals : List Vis
  collisions : List Vis
  inertial : Inertial

/-- SP l.184-193 `Limit`; a missing bound is `None`. -/
structure Limit where
  lower : Option Fl
  upper : Option Fl

/-- SP l.172-181 `Dynamics`. -/
structure Dynamics where
  damping : Option Fl
  friction : Option Fl

/-- SP l.213-242 `Joint` with its `Axis` (l.196-210); `<axis>` is required, the joint's `<pose>` is read
and not used by the loader. -/
structure Jnt where
  name : Option Name
  type : Option Name
  parent : Name
  child : Name
  axis : V3
  limit : Option Limit
  pose : Option Pose
  dynamics : Option Dynamics := none

/-- SP l.266-292 `Model`. -/
structure Model where
  links : List Lnk
  joints : List Jnt

/-- SP l.290-292 `link_map`; the key of a link without name is `None`. -/
def Model.linkMap (r : Model) : Dict (Option Name) Lnk := r.links.foldl (fun d l => d.set l.name l) []

/-- SP l.9: the text of the element as a vector of six numbers. -/
def readPose (num : NumParser) (n : Xml) : Except Err Pose := do
  let l ← readVec num 6 n.text
  pure ⟨fun i => l.getD i 0, fun i => l.getD (3 + i) 0⟩

/-- SP l.30-31 `Inertia`. -/
def readInertia (num : NumParser) (n : Xml) : Except Err (Fin 6 → Fl) := do
  let a ← floatElem num n n!"ixx"
  let b ← floatElem num n n!"ixy"
  let c ← floatElem num n n!"ixz"
  let d ← floatElem num n n!"iyy"
  let e ← floatElem num n n!"iyz"
  let f ← floatElem num n n!"izz"
  pure ![a, b, c, d, e, f]

/-- SP l.45-49 `Inertial`. -/
def readInertial (num : NumParser) (n : Xml) : Except Err Inertial := do
  let mass ← floatElem num n n!"mass"
  let i ← required (n.scalar n!"inertia")
  let inertia ← readInertia num i
  let pose ← optional (n.scalar n!"pose") (readPose num)
  pure ⟨mass, inertia, pose⟩

/-- SP l.57-93, l.105-108 `GeometricType.from_xml`. -/
def readGeom (num : NumParser) (n : Xml) : Except Err Geom :=
  match n.children with
  | [g] =>
    if g.tag = n!"box" then do
      let s ← required (g.scalar n!"size")
      let v ← readV3 num s.text
      pure (.box v)
    else if g.tag = n!"cylinder" then do
      let r ← floatElem num g n!"radius"
      let l ← floatElem num g n!"length"
      pure (.cylinder r l)
    else if g.tag = n!"sphere" then do
      let r ← floatElem num g n!"radius"
      pure (.sphere r)
    else if g.tag = n!"mesh" then do
      let f ← required (g.scalar n!"filename")
      let s ← optional (g.scalar n!"scale") fun s => readV3 num s.text
      pure (.mesh (readStr f.text) s)
    else .error .parseError
  | _ => .error .parseError

/-- SP l.150-155; the material (l.125-140) has only optional text and cannot fail. -/
def readVisual (num : NumParser) (n : Xml) : Except Err Vis := do
  let g ← required (n.scalar n!"geometry")
  let geometry ← readGeom num g
  let pose ← optional (n.scalar n!"pose") (readPose num)
  pure ⟨pose, geometry⟩

/-- SP l.165-169: the parameters of a collision are those of a visual without the material. -/
def readCollision (num : NumParser) (n : Xml) : Except Err Vis := readVisual num n

/-- SP l.256-263; `kinematic` is `bool(text)`, which cannot fail. -/
def readLink (num : NumParser) (n : Xml) : Except Err Lnk := do
  let i ← required (n.scalar n!"inertial")
  let inertial ← readInertial num i
  let visuals ← (n.aggregate n!"visual").mapM (readVisual num)
  let collisions ← (n.aggregate n!"collision").mapM (readCollision num)
  let pose ← optional (n.scalar n!"pose") (readPose num)
  pure ⟨n.attr n!"name", pose, visuals, collisions, inertial⟩

/-- SP l.190-193 -/
def readLimit (num : NumParser) (n : Xml) : Except Err Limit := do
  let lower ← optional (n.scalar n!"lower") fun c => readFloat num c.text
  let upper ← optional (n.scalar n!"upper") fun c => readFloat num c.text
  pure ⟨lower, upper⟩

/-- SP l.178-181 -/
def readDynamics (num : NumParser) (n : Xml) : Except Err Dynamics := do
  let d ← optional (n.scalar n!"damping") fun c => readFloat num c.text
  let f ← optional (n.scalar n!"friction") fun c => readFloat num c.text
  pure ⟨d, f⟩

/-- SP l.205-210; `use_parent_model_frame` is `bool(text)`, which cannot fail, and is not kept. -/
def readAxis (num : NumParser) (n : Xml) : Except Err (V3 × Option Limit × Option Dynamics) := do
  let x ← required (n.scalar n!"xyz")
  let xyz ← readV3 num x.text
  let limit ← optional (n.scalar n!"limit") (readLimit num)
  let dynamics ← optional (n.scalar n!"dynamics") (readDynamics num)
  pure (xyz, limit, dynamics)

/-- SP l.235-242; parent and child are the element texts (`str(node.text)`), the type is not checked. -/
def readJoint (num : NumParser) (n : Xml) : Except Err Jnt := do
  let a ← required (n.scalar n!"axis")
  let ax ← readAxis num a
  let parent ← required (n.scalar n!"parent")
  let child ← required (n.scalar n!"child")
  let pose ← optional (n.scalar n!"pose") (readPose num)
  pure ⟨n.attr n!"name", n.attr n!"type", readStr parent.text, readStr child.text, ax.1, ax.2.1, pose, ax.2.2⟩

/-- SP l.301-306 -/
def readModel (num : NumParser) (n : Xml) : Except Err Model := do
  let links ← (n.aggregate n!"link").mapM (readLink num)
  let joints ← (n.aggregate n!"joint").mapM (readJoint num)
  let _ ← optional (n.scalar n!"pose") (readPose num)
  pure ⟨links, joints⟩

/-- SP l.314-317, SD l.81-83: without `<model>` the attribute access `robot.link_map` fails. -/
def readSdf (num : NumParser) (n : Xml) : Except Err Model := do
  let m ← optional (n.scalar n!"model") (readModel num)
  match m with
  | none => .error .attributeError
  | some m => .ok m

/-- SD l.13-17 `_convert_transform`, a `Transform3d` of batch size 1. -/
noncomputable def convertTransform : Option Pose → Except Err T3
  | none => T3.init (.default 1) none none .f32 cpu
  | some p => do
    let r ← eulerAnglesToMatrix p.rpy n!"ZYX"
    T3.init (.default 1) (some (.single p.xyz)) (some (.mat r)) .f32 cpu

/-- SD l.24-40 `g_type` -/
def Geom.gType : Geom → GeomType
  | .mesh .. => .name n!"mesh"
  | .cylinder .. => .name n!"cylinder"
  | .box .. => .name n!"box"
  | .sphere .. => .name n!"sphere"

/-- SD l.24-40 `g_param`; the scale of a mesh is not passed on (l.26). -/
def Geom.gParam : Geom → GeomParam
  | .mesh f _ => .file f
  | .cylinder r l => .radiusLength r l
  | .box v => .size v
  | .sphere r => .radius r

/-- SD l.22-41 one visual; a cylinder is turned by `euler_angles_to_matrix([π/2, 0, 0], "ZYX")` (l.28-31). -/
noncomputable def convertVisual (v : Vis) : Except Err Visual := do
  let t ← convertTransform v.pose
  match v.geometry with
  | .cylinder .. => do
    let r ← eulerAnglesToMatrix ![0.5 * Real.pi, 0, 0] n!"ZYX"
    let c ← T3.init (.default 1) none (some (.mat r)) .f32 cpu
    let t' ← t.compose [c]
    pure ⟨some (t'.mats.headD 1), some v.geometry.gType, v.geometry.gParam⟩
  | _ => pure ⟨some (t.mats.headD 1), some v.geometry.gType, v.geometry.gParam⟩

/-- SD l.8-10 `JOINT_TYPE_MAP` -/
def jointTypeMap (t : Option Name) : Except Err JType :=
  if t = some n!"revolute" then .ok .revolute
  else if t = some n!"prismatic" then .ok .prismatic
  else if t = some n!"fixed" then .ok .fixed
  else .error .keyError

/-- SD l.54-57 `limits`. With a missing bound the tuple contains `None`, and `torch.tensor` in
`Chain.__init__` raises TypeError for a moving joint (chain.py l.238-239); the model raises it here.
The limits of a fixed joint are never read. -/
def convertLimit (t : JType) : Option Limit → Except Err (Option (Fl × Fl))
  | none => .ok none
  | some ⟨some l, some u⟩ => .ok (some (l, u))
  | some _ => match t with
    | .fixed => .ok none
    | _ => .error .typeError

/-- SD l.60-61, l.99-100 -/
noncomputable def convertLink (l : Lnk) : Except Err Link := do
  let o ← T3.init (.default 1) none none .f32 cpu
  let vs ← l.visuals.mapM convertVisual
  pure ⟨l.name, some (o.mats.headD 1), vs⟩

/-- `lmap[name]` -/
def lookupLink (lmap : Dict (Option Name) Lnk) (n : Name) : Except Err Lnk :=
  match lmap.get? (some n) with
  | none => .error .keyError
  | some l => .ok l

/-- SD l.49-61 the joint and link of a child frame. -/
noncomputable def convertJoint (lmap : Dict (Option Name) Lnk) (j : Jnt) : Except Err (Joint × Link) := do
  let lp ← lookupLink lmap j.parent
  let lc ← lookupLink lmap j.child
  let tp ← convertTransform lp.pose
  let tc ← convertTransform lc.pose
  let o ← tp.inverse.compose [tc]
  let t ← jointTypeMap j.type
  let lim ← convertLimit t j.limit
  let l ← convertLink lc
  pure (Joint.init j.name (some (o.mats.headD 1)) t (some j.axis) lim, l)

/-- SD l.83-101: the root frame. -/
noncomputable def buildRoot (fuel : ℕ) (r : Model) : Except Err Frame := do
  let rn ← (match rootName Jnt.parent Jnt.child r.joints with
    | none => .error .unboundLocal
    | some n => .ok n)
  let lnk ← lookupLink r.linkMap rn
  let o ← convertTransform lnk.pose
  let link ← convertLink lnk
  let cs ← buildRecurse Jnt.parent Jnt.child (convertJoint r.linkMap) r.joints fuel rn
  pure (Frame.mk rn link (Joint.init none (some (o.mats.headD 1))) cs)

/-- SD l.67-102 `build_chain_from_sdf` on the parsed document. -/
noncomputable def buildChain (num : NumParser) (fuel : ℕ) (doc : Xml) : Except Err Chain := do
  let r ← readSdf num doc
  let f ← buildRoot fuel r
  pure (Chain.init f)

/-- SD l.105-108 `build_serial_chain_from_sdf`. -/
noncomputable def buildSerialChain (num : NumParser) (fuel : ℕ) (doc : Xml) (endLink rootLink : Name) :
    Except Err SerialChain := do
  let c ← buildChain num fuel doc
  SerialChain.init c.root endLink rootLink

end PK.Sdf
