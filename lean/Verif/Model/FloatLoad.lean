import Verif.Model.FloatRot
import Verif.Model.Urdf

/-!
# Loading a URDF description in floating-point arithmetic

`Model/Urdf.lean` has the loader with exact numbers.  Here the numbers of the file are stored in single precision and the
offsets and axes are computed from them, operation by operation, by a machine (`Model/Float.lean`).  RC is
`/repo/src/pytorch_kinematics/transforms/rotation_conversions.py`, UR `/repo/src/pytorch_kinematics/urdf.py`, FR `frame.py`,
T3 `transforms/transform3d.py`.
-/

namespace PK
noncomputable section

/-- RC l.724-777 `quaternion_from_euler`, operation by operation; negation is exact.  The caller's tensor is left out. -/
def quaternionFromEulerFl (m : Machine) (rpy : V3) (axes : List Char) : Except Err Quat :=
  match axes2tuple.lookup (axes.map Char.toLower) with
  | none => .error .keyError
  | some (firstaxis, parity, repetition, frame) =>
    let i := firstaxis + 1
    match nextAxis (i + parity - 1), nextAxis (i - parity) with
    | some j', some k' =>
      let j := j' + 1
      let k := k' + 1
      let r := m.rnd
      let ai := r ((if frame ≠ 0 then rpy 2 else rpy 0) / 2)
      let aj := r ((if parity ≠ 0 then -(rpy 1) else rpy 1) / 2)
      let ak := r ((if frame ≠ 0 then rpy 0 else rpy 2) / 2)
      let ci := m.cos ai; let si := m.sin ai; let cj := m.cos aj; let sj := m.sin aj
      let ck := m.cos ak; let sk := m.sin ak
      let cc := r (ci * ck); let cs := r (ci * sk); let sc := r (si * ck); let ss := r (si * sk)
      let q0 : ℕ → ℝ := fun _ => 0
      let q1 : ℕ → ℝ :=
        if repetition ≠ 0 then
          Function.update (Function.update (Function.update (Function.update q0
            0 (r (cj * r (cc - ss)))) i (r (cj * r (cs + sc)))) j (r (sj * r (cc + ss)))) k (r (sj * r (cs - sc)))
        else
          Function.update (Function.update (Function.update (Function.update q0
            0 (r (r (cj * cc) + r (sj * ss)))) i (r (r (cj * sc) - r (sj * cs)))) j (r (r (cj * ss) + r (sj * cc))))
            k (r (r (cj * cs) - r (sj * sc)))
      let q2 := if parity ≠ 0 then Function.update q1 j (q1 j * -1) else q1
      .ok ⟨q2 0, q2 1, q2 2, q2 3⟩
    | _, _ => .error .indexError

/-- FR l.58-66: the axis is stored in the dtype of the joint and divided by its norm -/
def normalizeAxisFl (m : TrigMachine) (a : V3) : V3 :=
  let s : V3 := fun i => m.rnd (a i)
  fun i => m.rnd (s i / m.norm s)

/-- FR l.47-70 `Joint.__init__`; only the axis is computed -/
def Joint.initFl (m : TrigMachine) (name : Option Name := none) (offset : Option M4 := none)
    (jtype : JType := .fixed) (axis : Option V3 := some ![0, 0, 1]) (limits : Option (Fl × Fl) := none)
    (velocityLimits : Option (Fl × Fl) := none) (effortLimits : Option (Fl × Fl) := none) : Joint :=
  { Joint.init name offset jtype axis limits velocityLimits effortLimits with
    axis := normalizeAxisFl m (match axis with | none => ![0, 0, 1] | some a => a) }

namespace Urdf

/-- UR l.13-18 `_convert_transform`: roll, pitch and yaw are stored (l.17), converted to a quaternion and, in the
constructor T3 l.188-214, to a matrix; the constructor stores the position (T3 l.191-193). -/
def convertTransformFl (m : TrigMachine) : Option Pose → Except Err M4
  | none => .ok 1
  | some o => do
    let q ← quaternionFromEulerFl m.toMachine (fun i => m.rnd (o.rpy i)) n!"sxyz"
    pure (hom (quaternionToMatrixFl m.toMachine q) fun i => m.rnd (o.xyz i))

/-- UR l.21-41 `_convert_visual`; the sizes of the shape are kept as they are -/
def convertVisualFl (m : TrigMachine) : Option Vis → Except Err Visual
  | none => .ok ⟨none, none, .none⟩
  | some v => do
    let t ← convertTransformFl m v.origin
    pure ⟨some t, v.geometry.gType, v.geometry.gParam⟩

/-- UR l.65-67, l.121-122 -/
def convertLinkFl (m : TrigMachine) (l : Lnk) : Except Err Link := do
  let o ← convertTransformFl m l.origin
  let v ← convertVisualFl m l.visuals.head?
  pure ⟨some l.name, some o, [v]⟩

/-- UR l.48-67; the limits are kept as they are -/
def convertJointFl (m : TrigMachine) (lmap : Dict Name Lnk) (j : Jnt) : Except Err (Joint × Link) := do
  let o ← convertTransformFl m j.origin
  let t ← jointTypeMap j.type
  let lnk ← (match lmap.get? j.child with
    | none => .error .keyError
    | some l => .ok l)
  let l ← convertLinkFl m lnk
  pure (Joint.initFl m (some j.name) (some o) t j.axis
      (j.limit.map fun m => (m.lower, m.upper))
      (j.limit.map fun m => (m.velocity.neg, m.velocity))
      (j.limit.map fun m => (m.effort.neg, m.effort)), l)

/-- UR l.105-123 -/
def buildRootFl (m : TrigMachine) (fuel : ℕ) (r : Robot) : Except Err Frame := do
  let rn ← (match rootName Jnt.parent Jnt.child r.joints with
    | none => .error .unboundLocal
    | some n => .ok n)
  let lnk ← (match r.linkMap.get? rn with
    | none => .error .keyError
    | some l => .ok l)
  let link ← convertLinkFl m lnk
  let cs ← buildRecurse Jnt.parent Jnt.child (convertJointFl m r.linkMap) r.joints fuel lnk.name
  pure (Frame.mk lnk.name link (Joint.initFl m) cs)

end Urdf
end
end PK
