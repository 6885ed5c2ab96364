import Verif.Model.FloatLoad
import Verif.Model.FloatT3
import Verif.Model.Sdf
import Verif.Model.Mjcf

/-!
# Loading SDF and MJCF descriptions in floating-point arithmetic

`Model/Sdf.lean` and `Model/Mjcf.lean` have the loaders with exact numbers.  Here the numbers are stored in single precision and
offsets and axes are computed from them.  RC is `/repo/src/pytorch_kinematics/transforms/rotation_conversions.py`, SD `sdf.py`,
MJ `mjcf.py`, T3 `transforms/transform3d.py`.
-/

namespace PK
noncomputable section

/-- `torch.matmul` of two 3x3 matrices (RC l.207) -/
def mul3Fl (m : Machine) (A B : M3) : M3 := Matrix.of fun i j => m.dot (A i) fun k => B k j

/-- RC l.185-207 `euler_angles_to_matrix` -/
def eulerAnglesToMatrixFl (m : Machine) (e : V3) (conv : List Char) : Except Err M3 :=
  match parseConvention conv with
  | .error er => .error er
  | .ok (a, b, c) =>
    .ok (mul3Fl m (mul3Fl m (axisAngleRotationFl m a (e 0)) (axisAngleRotationFl m b (e 1))) (axisAngleRotationFl m c (e 2)))

namespace Sdf

/-- SD l.13-17 `_convert_transform`: the angles are stored (l.17), the constructor stores the position (T3 l.191-193) -/
def convertTransformFl (m : Machine) : Option Pose → Except Err M4
  | none => .ok 1
  | some p => do
    let r ← eulerAnglesToMatrixFl m (fun i => m.rnd (p.rpy i)) n!"ZYX"
    pure (hom r fun i => m.rnd (p.xyz i))

/-- SD l.22-41 one visual; `0.5 * math.pi` is stored (l.30), the rounding of `π` to double precision before is left out -/
def convertVisualFl (m : Machine) (v : Vis) : Except Err Visual := do
  let t ← convertTransformFl m v.pose
  match v.geometry with
  | .cylinder .. => do
    let r ← eulerAnglesToMatrixFl m ![m.rnd (0.5 * Real.pi), 0, 0] n!"ZYX"
    pure ⟨some (m.mul t (hom r 0)), some v.geometry.gType, v.geometry.gParam⟩
  | _ => pure ⟨some t, some v.geometry.gType, v.geometry.gParam⟩

/-- SD l.60-61, l.99-100 -/
def convertLinkFl (m : Machine) (l : Lnk) : Except Err Link := do
  let vs ← l.visuals.mapM (convertVisualFl m)
  pure ⟨l.name, some 1, vs⟩

/-- SD l.49-61; the offset is `t_p.inverse().compose(t_c)` (l.58), T3 l.264-274 and l.232-249; the limits are kept as they are -/
def convertJointFl (m : TrigMachine) (lmap : Dict (Option Name) Lnk) (j : Jnt) : Except Err (Joint × Link) := do
  let lp ← lookupLink lmap j.parent
  let lc ← lookupLink lmap j.child
  let tp ← convertTransformFl m.toMachine lp.pose
  let tc ← convertTransformFl m.toMachine lc.pose
  let t ← jointTypeMap j.type
  let lim ← convertLimit t j.limit
  let l ← convertLinkFl m.toMachine lc
  pure (Joint.initFl m j.name (some (m.mul (invertMatrixFl m.toMachine tp) tc)) t (some j.axis) lim, l)

/-- SD l.83-101: the root frame -/
def buildRootFl (m : TrigMachine) (fuel : ℕ) (r : Model) : Except Err Frame := do
  let rn ← (match rootName Jnt.parent Jnt.child r.joints with
    | none => .error .unboundLocal
    | some n => .ok n)
  let lnk ← lookupLink r.linkMap rn
  let o ← convertTransformFl m.toMachine lnk.pose
  let link ← convertLinkFl m.toMachine lnk
  let cs ← buildRecurse Jnt.parent Jnt.child (convertJointFl m r.linkMap) r.joints fuel rn
  pure (Frame.mk rn link (Joint.initFl m none (some o)) cs)

end Sdf

namespace Mjcf

/-- `tf.Transform3d(rot=quat, pos=pos)` (MJ l.23, l.46, l.55, l.83): position and quaternion are stored (T3 l.191-193, l.203-204),
the quaternion is converted (l.206) -/
def poseMatrixFl (m : Machine) (pos : V3) (q : Quat) : M4 :=
  hom (quaternionToMatrixFl m ⟨m.rnd q.w, m.rnd q.x, m.rnd q.y, m.rnd q.z⟩) fun i => m.rnd (pos i)

/-- MJ l.17-25 `body_to_geoms` -/
def bodyToGeomsFl (L : Machine) (m : MjModel) (id : ℕ) : List Visual :=
  (m.geoms.filter fun g => g.bodyid == id).map fun g => ⟨some (poseMatrixFl L g.pos g.quat), some (.code g.type), .size g.size⟩

/-- MJ l.34-45 the joint of a body; the range is kept as it is -/
def bodyJointFl (L : TrigMachine) (m : MjModel) (b : Body) : Except Err Joint :=
  if 1 < b.jntnum then .error .valueError
  else if b.jntnum = 1 then
    match m.joints[b.jntadr]? with
    | none => .error .keyError
    | some j => do
      let t ← jointTypeMap j.type
      pure (Joint.initFl L (some j.name) (some (hom 1 fun i => L.rnd (j.pos i))) t (some j.axis) (some j.range))
  else pure (Joint.initFl L (some (b.name ++ n!"_fixed_joint")))

/-- MJ l.51-57 the frames of the sites of a body -/
def siteFramesFl (L : TrigMachine) (m : MjModel) (id : ℕ) : List Frame :=
  (m.sites.filter fun s => s.bodyid == id).map fun s =>
    Frame.mk s.name ⟨some s.name, some (poseMatrixFl L.toMachine s.pos s.quat), []⟩ (Joint.initFl L) []

/-- MJ l.28-57 `_build_chain_recurse` -/
def buildRecurseFl (L : TrigMachine) (m : MjModel) : ℕ → ℕ → Except Err (List Visual × List Frame)
  | 0, _ => .error .recursionError
  | fuel + 1, id => do
    let bs ← (m.bodies.zipIdx.filter fun p => p.1.parentid == id && p.2 != id).mapM fun p => do
      let j ← bodyJointFl L m p.1
      let r ← buildRecurseFl L m fuel p.2
      pure (Frame.mk p.1.name ⟨some p.1.name, some (poseMatrixFl L.toMachine p.1.pos p.1.quat), r.1⟩ j r.2)
    pure (bodyToGeomsFl L.toMachine m id, bs ++ siteFramesFl L m id)

/-- MJ l.77-85 the root frame -/
def buildRootFl (L : TrigMachine) (m : MjModel) (fuel : ℕ) (arg : BodyArg) : Except Err Frame := do
  let b ← findBody m arg
  let r ← buildRecurseFl L m fuel b.2
  pure (Frame.mk b.1.name ⟨some b.1.name, some (poseMatrixFl L.toMachine b.1.pos b.1.quat), r.1⟩ (Joint.initFl L) r.2)

end Mjcf
end
end PK
