import Verif.Model.Reflect

/-!
# The class tables of `urdf_parser_py/urdf.py` and `urdf_parser_py/sdf.py`

`UP` = `/repo/src/pytorch_kinematics/urdf_parser_py/urdf.py`, `SP` = `sdf.py` next to it.
Parameters are listed in the order of the `reflect` calls, split into attributes, scalar elements and aggregates
(core.py l.420-458). `init` is what `__init__()` without arguments assigns (lists and maps of aggregates left out).
-/

namespace PK.Reflect
open PK

/-- the number 0 of the defaults `0`, `0.0` -/
def zero : PVal := .num (.fin 0)

namespace U
variable (F : Fmt)

/-- UP l.21-23 `len(self.xyz) == 3` unless it is `None` -/
def len3 : Option PVal → Bool
  | some (.vec l) => l.length == 3
  | some .none => true
  | _ => false

/-- UP l.16-23, l.39-42 `Pose` -/
def pose : Cls where
  name := n!"Pose"
  tag := n!"origin"
  attributes := [
    { xmlVar := n!"xyz", vt := vecT F 3, required := false, dflt := .vec [.fin 0, .fin 0, .fin 0] },
    { xmlVar := n!"rpy", vt := vecT F 3, required := false, dflt := .vec [.fin 0, .fin 0, .fin 0] }]
  init := [(n!"xyz", .none), (n!"rpy", .none)]
  check
    | .obj _ f _ => len3 (f n!"xyz") && len3 (f n!"rpy")
    | _ => false

/-- UP l.45 `name_attribute` -/
def nameAttr : Param := { xmlVar := n!"name", vt := strT F }
/-- UP l.46 `origin_element` -/
def originElem : Param := { xmlVar := n!"origin", vt := (pose F).type, required := false }

/-- UP l.49-68 `Color` -/
def color : Cls where
  name := n!"Color"
  tag := n!"color"
  attributes := [{ xmlVar := n!"rgba", vt := vecT F 4 }]
  init := [(n!"rgba", .none)]

/-- UP l.71-80 `JointDynamics` -/
def dynamics : Cls where
  name := n!"JointDynamics"
  tag := n!"dynamics"
  attributes := [
    { xmlVar := n!"damping", vt := floatT F, required := false },
    { xmlVar := n!"friction", vt := floatT F, required := false }]
  init := [(n!"damping", .none), (n!"friction", .none)]

/-- UP l.83-90 `Box` -/
def box : Cls where
  name := n!"Box"
  tag := n!"box"
  attributes := [{ xmlVar := n!"size", vt := vecT F 3 }]
  init := [(n!"size", .none)]

/-- UP l.93-102 `Cylinder` -/
def cylinder : Cls where
  name := n!"Cylinder"
  tag := n!"cylinder"
  attributes := [{ xmlVar := n!"radius", vt := floatT F }, { xmlVar := n!"length", vt := floatT F }]
  init := [(n!"radius", zero), (n!"length", zero)]

/-- UP l.104-112 `Capsule` -/
def capsule : Cls where
  name := n!"Capsule"
  tag := n!"capsule"
  attributes := [{ xmlVar := n!"radius", vt := floatT F }, { xmlVar := n!"length", vt := floatT F }]
  init := [(n!"radius", zero), (n!"length", zero)]

/-- UP l.114-121 `Sphere` -/
def sphere : Cls where
  name := n!"Sphere"
  tag := n!"sphere"
  attributes := [{ xmlVar := n!"radius", vt := floatT F }]
  init := [(n!"radius", zero)]

/-- UP l.124-133 `Mesh` -/
def mesh : Cls where
  name := n!"Mesh"
  tag := n!"mesh"
  attributes := [{ xmlVar := n!"filename", vt := strT F }, { xmlVar := n!"scale", vt := vecT F 3, required := false }]
  init := [(n!"filename", .none), (n!"scale", .none)]

/-- UP l.138-144 the classes of geometries -/
def geometries : List (Name × Cls) :=
  [(n!"box", box F), (n!"cylinder", cylinder F), (n!"sphere", sphere F), (n!"mesh", mesh F), (n!"capsule", capsule F)]

/-- UP l.160-169 `Collision` -/
def collision : Cls where
  name := n!"Collision"
  tag := n!"collision"
  scalars := [originElem F, { xmlVar := n!"geometry", vt := geometricT (geometries F) }]
  init := [(n!"geometry", .none), (n!"origin", .none)]

/-- UP l.172-179 `Texture` -/
def texture : Cls where
  name := n!"Texture"
  tag := n!"texture"
  attributes := [{ xmlVar := n!"filename", vt := strT F }]
  init := [(n!"filename", .none)]

/-- UP l.182-197 `Material`; `check_valid` only prints -/
def material : Cls where
  name := n!"Material"
  tag := n!"material"
  attributes := [nameAttr F]
  scalars := [
    { xmlVar := n!"color", vt := (color F).type, required := false },
    { xmlVar := n!"texture", vt := (texture F).type, required := false }]
  init := [(n!"name", .none), (n!"color", .none), (n!"texture", .none)]

/-- UP l.200-202 `LinkMaterial` -/
def linkMaterial : Cls := { material F with name := n!"LinkMaterial" }

/-- UP l.205-216 `Visual` -/
def visual : Cls where
  name := n!"Visual"
  tag := n!"visual"
  scalars := [originElem F, { xmlVar := n!"geometry", vt := geometricT (geometries F) },
    { xmlVar := n!"material", vt := (linkMaterial F).type, required := false }]
  init := [(n!"geometry", .none), (n!"material", .none), (n!"origin", .none)]

/-- UP l.220 `Inertia.KEYS` -/
def inertiaKeys : List Name := [n!"ixx", n!"ixy", n!"ixz", n!"iyy", n!"iyz", n!"izz"]

/-- UP l.219-238 `Inertia` -/
def inertia : Cls where
  name := n!"Inertia"
  tag := n!"inertia"
  attributes := inertiaKeys.map fun k => { xmlVar := k, vt := floatT F }
  init := inertiaKeys.map fun k => (k, zero)

/-- UP l.241-252 `Inertial`; `element_value` is core.py l.677 -/
def inertial : Cls where
  name := n!"Inertial"
  tag := n!"inertial"
  scalars := [originElem F, { xmlVar := n!"mass", vt := simpleT n!"value" (floatT F) },
    { xmlVar := n!"inertia", vt := (inertia F).type, required := false }]
  init := [(n!"mass", zero), (n!"inertia", .none), (n!"origin", .none)]

/-- UP l.256-265 `JointCalibration` -/
def calibration : Cls where
  name := n!"JointCalibration"
  tag := n!"calibration"
  attributes := [
    { xmlVar := n!"rising", vt := floatT F, required := false, dflt := zero },
    { xmlVar := n!"falling", vt := floatT F, required := false, dflt := zero }]
  init := [(n!"rising", .none), (n!"falling", .none)]

/-- UP l.268-281 `JointLimit` -/
def limit : Cls where
  name := n!"JointLimit"
  tag := n!"limit"
  attributes := [
    { xmlVar := n!"effort", vt := floatT F },
    { xmlVar := n!"lower", vt := floatT F, required := false, dflt := zero },
    { xmlVar := n!"upper", vt := floatT F, required := false, dflt := zero },
    { xmlVar := n!"velocity", vt := floatT F }]
  init := [(n!"effort", .none), (n!"velocity", .none), (n!"lower", .none), (n!"upper", .none)]

/-- UP l.287-298 `JointMimic` -/
def mimic : Cls where
  name := n!"JointMimic"
  tag := n!"mimic"
  attributes := [
    { xmlVar := n!"joint", vt := strT F },
    { xmlVar := n!"multiplier", vt := floatT F, required := false },
    { xmlVar := n!"offset", vt := floatT F, required := false }]
  init := [(n!"joint", .none), (n!"multiplier", .none), (n!"offset", .none)]

/-- UP l.301-314 `SafetyController` -/
def safety : Cls where
  name := n!"SafetyController"
  tag := n!"safety_controller"
  attributes := [
    { xmlVar := n!"k_velocity", vt := floatT F },
    { xmlVar := n!"k_position", vt := floatT F, required := false, dflt := zero },
    { xmlVar := n!"soft_lower_limit", vt := floatT F, required := false, dflt := zero },
    { xmlVar := n!"soft_upper_limit", vt := floatT F, required := false, dflt := zero }]
  init := [(n!"k_velocity", .none), (n!"k_position", .none), (n!"soft_lower_limit", .none), (n!"soft_upper_limit", .none)]

/-- UP l.318-319 `Joint.TYPES` -/
def jointTypes : List Name :=
  [n!"unknown", n!"revolute", n!"continuous", n!"prismatic", n!"floating", n!"planar", n!"fixed"]

/-- UP l.317-360 `Joint`; `element_link`, `element_xyz` are UP l.10-11 -/
def joint : Cls where
  name := n!"Joint"
  tag := n!"joint"
  attributes := [nameAttr F, { xmlVar := n!"type", vt := strT F }]
  scalars := [originElem F,
    { xmlVar := n!"axis", vt := simpleT n!"xyz" (vecT F 3), required := false },
    { xmlVar := n!"parent", vt := simpleT n!"link" (strT F) },
    { xmlVar := n!"child", vt := simpleT n!"link" (strT F) },
    { xmlVar := n!"limit", vt := (limit F).type, required := false },
    { xmlVar := n!"dynamics", vt := (dynamics F).type, required := false },
    { xmlVar := n!"safety_controller", vt := (safety F).type, required := false },
    { xmlVar := n!"calibration", vt := (calibration F).type, required := false },
    { xmlVar := n!"mimic", vt := (mimic F).type, required := false }]
  init := [n!"name", n!"parent", n!"child", n!"type", n!"axis", n!"origin", n!"limit", n!"dynamics",
    n!"safety_controller", n!"calibration", n!"mimic"].map fun k => (k, .none)
  check
    | .obj _ f _ => match f n!"type" with
      | some (.str s) => jointTypes.contains s
      | _ => false
    | _ => false

/-- UP l.363-408 `Link` -/
def link : Cls where
  name := n!"Link"
  tag := n!"link"
  attributes := [nameAttr F]
  scalars := [originElem F, { xmlVar := n!"inertial", vt := (inertial F).type, required := false }]
  aggregates := [
    { xmlVar := n!"visual", vt := (visual F).type, required := false, var := n!"visuals" },
    { xmlVar := n!"collision", vt := (collision F).type, required := false, var := n!"collisions" }]
  init := [(n!"name", .none), (n!"inertial", .none), (n!"origin", .none)]

/-- UP l.411-427 `PR2Transmission`; `element_name` is core.py l.676 -/
def pr2Transmission : Cls where
  name := n!"PR2Transmission"
  tag := n!"pr2_transmission"
  attributes := [nameAttr F, { xmlVar := n!"type", vt := strT F }]
  scalars := [
    { xmlVar := n!"joint", vt := simpleT n!"name" (strT F) },
    { xmlVar := n!"actuator", vt := simpleT n!"name" (strT F) },
    { xmlVar := n!"mechanicalReduction", vt := floatT F }]
  init := [(n!"name", .none), (n!"type", .none), (n!"joint", .none), (n!"actuator", .none),
    (n!"mechanicalReduction", .num (.fin 1))]

/-- UP l.430-439 `Actuator` -/
def actuator : Cls where
  name := n!"Actuator"
  tag := n!"actuator"
  attributes := [nameAttr F]
  scalars := [{ xmlVar := n!"mechanicalReduction", vt := floatT F, required := false }]
  init := [(n!"name", .none), (n!"mechanicalReduction", .none)]

/-- the list of aggregates with this tag is not empty -/
def some? (k : Name) : PVal → Bool
  | .obj _ _ ord => ord.any fun a => a.1 == k
  | _ => false

/-- UP l.442-455 `TransmissionJoint` -/
def transmissionJoint : Cls where
  name := n!"TransmissionJoint"
  tag := n!"joint"
  attributes := [nameAttr F]
  aggregates := [{ xmlVar := n!"hardwareInterface", vt := strT F, required := false, var := n!"hardwareInterfaces" }]
  init := [(n!"name", .none)]
  check v := some? n!"hardwareInterface" v

/-- UP l.458-477 `Transmission`; `__init__` does not assign `type` -/
def transmission : Cls where
  name := n!"Transmission"
  tag := n!"new_transmission"
  attributes := [nameAttr F]
  scalars := [{ xmlVar := n!"type", vt := strT F }]
  aggregates := [
    { xmlVar := n!"joint", vt := (transmissionJoint F).type, required := false, var := n!"joints" },
    { xmlVar := n!"actuator", vt := (actuator F).type, required := false, var := n!"actuators" }]
  init := [(n!"name", .none)]
  check v := some? n!"joint" v && some? n!"actuator" v

/-- UP l.484-498, l.560-567 `Robot` -/
def robot : Cls where
  name := n!"Robot"
  tag := n!"robot"
  attributes := [{ xmlVar := n!"name", vt := strT F, required := false }]
  aggregates := [
    { xmlVar := n!"link", vt := (link F).type, required := false, var := n!"links" },
    { xmlVar := n!"joint", vt := (joint F).type, required := false, var := n!"joints" },
    { xmlVar := n!"gazebo", vt := rawT, required := false, var := n!"gazebos" },
    { xmlVar := n!"transmission", vt := duckT [transmission F, pr2Transmission F], required := false,
      var := n!"transmissions" },
    { xmlVar := n!"material", vt := (material F).type, required := false, var := n!"materials" }]
  init := [(n!"name", .none)]

end U

namespace S
variable (F : Fmt)

/-- SP l.8 `name_attribute` -/
def nameAttr : Param := { xmlVar := n!"name", vt := strT F, required := false }
/-- SP l.9 `pose_element` -/
def poseElem : Param := { xmlVar := n!"pose", vt := vecT F 6, required := false }

/-- SP l.12-31 `Inertia` -/
def inertia : Cls where
  name := n!"Inertia"
  scalars := U.inertiaKeys.map fun k => { xmlVar := k, vt := floatT F }
  init := U.inertiaKeys.map fun k => (k, zero)

/-- SP l.38-49 `Inertial` -/
def inertial : Cls where
  name := n!"Inertial"
  scalars := [{ xmlVar := n!"mass", vt := floatT F }, { xmlVar := n!"inertia", vt := (inertia F).type }, poseElem F]
  init := [(n!"mass", zero), (n!"inertia", .none), (n!"pose", .none)]

/-- SP l.52-59 `Box` -/
def box : Cls where
  name := n!"Box"
  tag := n!"box"
  scalars := [{ xmlVar := n!"size", vt := vecT F 3 }]
  init := [(n!"size", .none)]

/-- SP l.62-71 `Cylinder` -/
def cylinder : Cls where
  name := n!"Cylinder"
  tag := n!"cylinder"
  scalars := [{ xmlVar := n!"radius", vt := floatT F }, { xmlVar := n!"length", vt := floatT F }]
  init := [(n!"radius", zero), (n!"length", zero)]

/-- SP l.74-81 `Sphere` -/
def sphere : Cls where
  name := n!"Sphere"
  tag := n!"sphere"
  scalars := [{ xmlVar := n!"radius", vt := floatT F }]
  init := [(n!"radius", zero)]

/-- SP l.84-93 `Mesh` -/
def mesh : Cls where
  name := n!"Mesh"
  tag := n!"mesh"
  scalars := [{ xmlVar := n!"filename", vt := strT F }, { xmlVar := n!"scale", vt := vecT F 3, required := false }]
  init := [(n!"filename", .none), (n!"scale", .none)]

/-- SP l.98-103 the classes of geometries -/
def geometries : List (Name × Cls) :=
  [(n!"box", box F), (n!"cylinder", cylinder F), (n!"sphere", sphere F), (n!"mesh", mesh F)]

/-- SP l.119-128 `Script` -/
def script : Cls where
  name := n!"Script"
  tag := n!"script"
  scalars := [{ xmlVar := n!"name", vt := strT F, required := false }, { xmlVar := n!"uri", vt := strT F, required := false }]
  init := [(n!"uri", .none), (n!"name", .none)]

/-- SP l.131-140 `Material` -/
def material : Cls where
  name := n!"Material"
  tag := n!"material"
  attributes := [nameAttr F]
  scalars := [{ xmlVar := n!"script", vt := (script F).type, required := false }]
  init := [(n!"name", .none), (n!"script", .none)]

/-- SP l.143-155 `Visual`; `__init__` does not assign `material` -/
def visual : Cls where
  name := n!"Visual"
  tag := n!"visual"
  attributes := [nameAttr F]
  scalars := [{ xmlVar := n!"geometry", vt := geometricT (geometries F) },
    { xmlVar := n!"material", vt := (material F).type, required := false }, poseElem F]
  init := [(n!"name", .none), (n!"geometry", .none), (n!"pose", .none)]

/-- SP l.158-169 `Collision` -/
def collision : Cls where
  name := n!"Collision"
  tag := n!"collision"
  attributes := [nameAttr F]
  scalars := [{ xmlVar := n!"geometry", vt := geometricT (geometries F) }, poseElem F]
  init := [(n!"name", .none), (n!"geometry", .none), (n!"pose", .none)]

/-- SP l.172-181 `Dynamics` -/
def dynamics : Cls where
  name := n!"Dynamics"
  tag := n!"dynamics"
  scalars := [{ xmlVar := n!"damping", vt := floatT F, required := false },
    { xmlVar := n!"friction", vt := floatT F, required := false }]
  init := [(n!"damping", .none), (n!"friction", .none)]

/-- SP l.184-193 `Limit` -/
def limit : Cls where
  name := n!"Limit"
  tag := n!"limit"
  scalars := [{ xmlVar := n!"lower", vt := floatT F, required := false },
    { xmlVar := n!"upper", vt := floatT F, required := false }]
  init := [(n!"lower", .none), (n!"upper", .none)]

/-- SP l.196-210 `Axis` -/
def axis : Cls where
  name := n!"Axis"
  tag := n!"axis"
  scalars := [{ xmlVar := n!"xyz", vt := vecT F 3 }, { xmlVar := n!"limit", vt := (limit F).type, required := false },
    { xmlVar := n!"dynamics", vt := (dynamics F).type, required := false },
    { xmlVar := n!"use_parent_model_frame", vt := boolT F, required := false }]
  init := [(n!"xyz", .none), (n!"limit", .none), (n!"dynamics", .none), (n!"use_parent_model_frame", .none)]

/-- SP l.213-242 `Joint` (the list `TYPES` is not checked) -/
def joint : Cls where
  name := n!"Joint"
  tag := n!"joint"
  attributes := [nameAttr F, { xmlVar := n!"type", vt := strT F, required := false }]
  scalars := [{ xmlVar := n!"axis", vt := (axis F).type }, { xmlVar := n!"parent", vt := strT F },
    { xmlVar := n!"child", vt := strT F }, poseElem F]
  init := [(n!"name", .none), (n!"parent", .none), (n!"child", .none), (n!"type", .none), (n!"axis", .none), (n!"pose", .none)]

/-- SP l.245-263 `Link` -/
def link : Cls where
  name := n!"Link"
  tag := n!"link"
  attributes := [nameAttr F, { xmlVar := n!"kinematic", vt := boolT F, required := false }]
  scalars := [{ xmlVar := n!"inertial", vt := (inertial F).type }, poseElem F]
  aggregates := [
    { xmlVar := n!"visual", vt := (visual F).type, required := false, var := n!"visuals" },
    { xmlVar := n!"collision", vt := (collision F).type, required := false, var := n!"collisions" }]
  init := [(n!"name", .none), (n!"pose", .none), (n!"inertial", .none), (n!"kinematic", .bool false)]

/-- SP l.266-306 `Model` -/
def model : Cls where
  name := n!"Model"
  tag := n!"model"
  attributes := [nameAttr F]
  scalars := [poseElem F]
  aggregates := [
    { xmlVar := n!"link", vt := (link F).type, required := false, var := n!"links" },
    { xmlVar := n!"joint", vt := (joint F).type, required := false, var := n!"joints" }]
  init := [(n!"name", .none), (n!"pose", .none)]

/-- SP l.309-317 `SDF` -/
def sdf : Cls where
  name := n!"SDF"
  tag := n!"sdf"
  attributes := [{ xmlVar := n!"version", vt := strT F, required := false }]
  scalars := [{ xmlVar := n!"model", vt := (model F).type, required := false }]
  init := [(n!"version", .none)]

end S
end PK.Reflect
