import Verif.Model.Transform3d
import Verif.Model.Serial
import Verif.Model.Xml

/-!
# Model of `mjcf.py`

Line numbers refer to `/repo/src/pytorch_kinematics/mjcf.py`.  The MuJoCo compiler
(`mujoco.MjModel.from_xml_string`, l.76) is outside the repository: the input of the model is the compiled
model, as the arrays the loader reads.
-/

namespace PK.Mjcf
open PK

/-- `mujoco.mjtJoint` -/
inductive MjJnt where | free | ball | slide | hinge
  deriving DecidableEq, Repr

/-- `m.body(i)`: the fields the loader reads. -/
structure Body where
  name : Name
  parentid : ℕ
  pos : V3
  quat : Quat
  jntnum : ℕ
  jntadr : ℕ

/-- `m.joint(i)`; `limited` is `m.jnt_limited`, which the loader does not read. -/
structure MJoint where
  name : Name
  type : MjJnt
  pos : V3
  axis : V3
  range : Fl × Fl
  limited : Bool

/-- `m.site(i)` -/
structure Site where
  name : Name
  bodyid : ℕ
  pos : V3
  quat : Quat

/-- `m.geom(i)`; `type` is the integer code `mujoco.mjtGeom`. -/
structure Geom where
  bodyid : ℕ
  type : ℕ
  size : V3
  pos : V3
  quat : Quat

/-- `mujoco.MjModel` -/
structure MjModel where
  bodies : List Body
  joints : List MJoint
  sites : List Site
  geoms : List Geom

/-- `tf.Transform3d(rot=quat, pos=pos)`, batch size 1, as its matrix (l.23, l.46, l.55, l.83). -/
noncomputable def poseMatrix (pos : V3) (quat : Quat) : Except Err M4 := do
  let t ← T3.init (.default 1) (some (.single pos)) (some (.quat quat)) .f32 cpu
  pure (t.mats.headD 1)

/-- l.17-25 `body_to_geoms` -/
noncomputable def bodyToGeoms (m : MjModel) (id : ℕ) : Except Err (List Visual) :=
  (m.geoms.filter fun g => g.bodyid == id).mapM fun g => do
    let o ← poseMatrix g.pos g.quat
    pure ⟨some o, some (.code g.type), .size g.size⟩

/-- l.11-14 `JOINT_TYPE_MAP`; ball and free joints raise KeyError. -/
def jointTypeMap : MjJnt → Except Err JType
  | .hinge => .ok .revolute
  | .slide => .ok .prismatic
  | _ => .error .keyError

/-- l.34-45 the joint of a body: none gives a fixed joint named after the body, more than one is
rejected. -/
noncomputable def bodyJoint (m : MjModel) (b : Body) : Except Err Joint :=
  if 1 < b.jntnum then .error .valueError
  else if b.jntnum = 1 then
    match m.joints[b.jntadr]? with
    | none => .error .keyError
    | some j => do
      let o ← T3.init (.default 1) (some (.single j.pos)) none .f32 cpu
      let t ← jointTypeMap j.type
      pure (Joint.init (some j.name) (some (o.mats.headD 1)) t (some j.axis) (some j.range))
  else pure (Joint.init (some (b.name ++ n!"_fixed_joint")))

/-- l.51-57 the frames of the sites of a body. -/
noncomputable def siteFrames (m : MjModel) (id : ℕ) : Except Err (List Frame) :=
  (m.sites.filter fun s => s.bodyid == id).mapM fun s => do
    let o ← poseMatrix s.pos s.quat
    pure (Frame.mk s.name ⟨some s.name, some o, []⟩ Joint.init [])

/-- l.28-57 `_build_chain_recurse(m, parent_frame, parent_body)`: the visuals and the children given to
`parent_frame`. `fuel` is the available recursion depth. -/
noncomputable def buildRecurse (m : MjModel) : ℕ → ℕ → Except Err (List Visual × List Frame)
  | 0, _ => .error .recursionError
  | fuel + 1, id => do
    let vis ← bodyToGeoms m id
    let bs ← (m.bodies.zipIdx.filter fun p => p.1.parentid == id && p.2 != id).mapM fun p => do
      let j ← bodyJoint m p.1
      let o ← poseMatrix p.1.pos p.1.quat
      let r ← buildRecurse m fuel p.2
      pure (Frame.mk p.1.name ⟨some p.1.name, some o, r.1⟩ j r.2)
    let ss ← siteFrames m id
    pure (vis, bs ++ ss)

/-- the `body` argument: absent, an index, or a name (l.77-80) -/
inductive BodyArg where
  | default
  | idx (i : ℕ)
  | name (n : Name)

/-- `m.body(arg)`: KeyError for an unknown name, IndexError for an index out of range. -/
def findBody (m : MjModel) : BodyArg → Except Err (Body × ℕ)
  | .default => match m.bodies[0]? with
    | none => .error .indexError
    | some b => .ok (b, 0)
  | .idx i => match m.bodies[i]? with
    | none => .error .indexError
    | some b => .ok (b, i)
  | .name n => match m.bodies.zipIdx.find? fun p => p.1.name == n with
    | none => .error .keyError
    | some p => .ok p

/-- l.77-85 the root frame. -/
noncomputable def buildRoot (m : MjModel) (fuel : ℕ) (arg : BodyArg) : Except Err Frame := do
  let b ← findBody m arg
  let o ← poseMatrix b.1.pos b.1.quat
  let r ← buildRecurse m fuel b.2
  pure (Frame.mk b.1.name ⟨some b.1.name, some o, r.1⟩ Joint.init r.2)

/-- l.60-86 `build_chain_from_mjcf` on the compiled model. -/
noncomputable def buildChain (m : MjModel) (fuel : ℕ) (arg : BodyArg := .default) : Except Err Chain := do
  let f ← buildRoot m fuel arg
  pure (Chain.init f)

/-- l.89-109 `build_serial_chain_from_mjcf`. -/
noncomputable def buildSerialChain (m : MjModel) (fuel : ℕ) (endLink rootLink : Name) :
    Except Err SerialChain := do
  let c ← buildChain m fuel
  SerialChain.init c.root endLink rootLink

end PK.Mjcf
