import Verif.Model.RotConv
import Verif.Model.Fl

/-!
# Model of `frame.py`
Line numbers refer to `/repo/src/pytorch_kinematics/frame.py`.
-/

namespace PK

/-- Python strings used as names, as lists of characters. -/
abbrev Name := List Char

/-- Values of `Visual.geom_type` (l.15): a name, or the integer code that the MJCF loader passes
(mjcf.py l.23); `None` is `Option.none` below. -/
inductive GeomType where
  | name (n : Name)
  | code (c : ℕ)

/-- Values of `Visual.geom_param` (l.16) that the loaders produce (urdf.py l.26-40, sdf.py l.24-39,
mjcf.py l.24). -/
inductive GeomParam where
  | none
  /-- `(filename, scale)` -/
  | meshScale (filename : Name) (scale : Option V3)
  /-- `filename` -/
  | file (filename : Name)
  /-- `(radius, length)` -/
  | radiusLength (r l : Fl)
  /-- three numbers -/
  | size (v : V3)
  /-- `radius` -/
  | radius (r : Fl)

/-- l.7-16 `Visual`. The offset is a `Transform3d` of batch size 1, kept as its matrix. -/
structure Visual where
  offset : Option M4
  geomType : Option GeomType
  geomParam : GeomParam

/-- l.24-41 `Link`. The offset is a `Transform3d` of batch size 1, kept as its matrix. -/
structure Link where
  name : Option Name := none
  offset : Option M4 := none
  visuals : List Visual := []

/-- l.45 `Joint.TYPES`. -/
inductive JType where | fixed | revolute | prismatic
  deriving DecidableEq, Repr

/-- `Joint.TYPES.index(joint_type)`. -/
def JType.index : JType → ℕ | .fixed => 0 | .revolute => 1 | .prismatic => 2

/-- l.44-88 `Joint` after construction; `axis` is the normalised axis. -/
structure Joint where
  name : Option Name := none
  offset : Option M4 := none
  jtype : JType := .fixed
  axis : V3 := ![0, 0, 1]
  limits : Option (Fl × Fl) := none
  velocityLimits : Option (Fl × Fl) := none
  effortLimits : Option (Fl × Fl) := none

/-- l.66 `axis / axis.norm()`; for the zero vector the code produces NaN, so uses are guarded by
`axis ≠ 0`. -/
noncomputable def normalizeAxis (a : V3) : V3 := fun i => a i / norm3 a

/-- l.47-70 `Joint.__init__`. The type check l.55-56 is in `JType`; `axis = none` is `axis=None`. -/
noncomputable def Joint.init (name : Option Name := none) (offset : Option M4 := none)
    (jtype : JType := .fixed) (axis : Option V3 := some ![0, 0, 1]) (limits : Option (Fl × Fl) := none)
    (velocityLimits : Option (Fl × Fl) := none) (effortLimits : Option (Fl × Fl) := none) : Joint :=
  { name, offset, jtype, limits, velocityLimits, effortLimits,
    axis := normalizeAxis (match axis with | none => ![0, 0, 1] | some a => a) }

/-- l.78-82 `Joint.clamp`. -/
noncomputable def Joint.clamp (j : Joint) (x : Fl) : Fl :=
  match j.limits with
  | none => x
  | some (lo, hi) => Fl.clamp x lo hi

/-- l.98-104 `Frame` (with `name` already defaulted to `'None'`, l.100). -/
inductive Frame where
  | mk (name : Name) (link : Link) (joint : Joint) (children : List Frame)

namespace Frame
/-- attribute `name` -/
def name : Frame → Name | mk n _ _ _ => n
/-- attribute `link` -/
def link : Frame → Link | mk _ l _ _ => l
/-- attribute `joint` -/
def joint : Frame → Joint | mk _ _ j _ => j
/-- attribute `children` -/
def children : Frame → List Frame | mk _ _ _ c => c
end Frame

/-- l.132-148 `Frame.get_transform(theta)`, one batch element. -/
noncomputable def Frame.getTransform (f : Frame) (theta : ℝ) : M4 :=
  let t := match f.joint.jtype with
    | .revolute => hom (axisAndAngleToMatrix33 f.joint.axis theta) ![0, 0, 0]
    | .prismatic => hom 1 ![theta * f.joint.axis 0, theta * f.joint.axis 1, theta * f.joint.axis 2]
    | .fixed => 1
  match f.joint.offset with
  | none => t
  | some o => o * t

/-- l.92-96 the tree drawing strings. -/
def strSpace : Name := [' ', ' ', ' ', ' ']
def strBranch : Name := ['│', ' ', ' ', ' ']
def strTee : Name := ['├', '─', '─', ' ']
def strLast : Name := ['└', '─', '─', ' ']

mutual
/-- l.106-118 `Frame.__str__`. -/
def Frame.str (pre : Name) (root : Bool) : Frame → Name
  | .mk n _ _ cs => (if root then pre ++ n ++ ['\n'] else []) ++ Frame.strL pre cs
/-- the loop l.112-117 over `zip(pointers, children)`: the last child gets `last`, others `tee`. -/
def Frame.strL (pre : Name) : List Frame → Name
  | [] => []
  | .mk n _ _ gs :: cs =>
    let isLast := cs.isEmpty
    pre ++ (if isLast then strLast else strTee) ++ n ++ ['\n'] ++
      (if gs.isEmpty then [] else Frame.strL (pre ++ (if isLast then strSpace else strBranch)) gs) ++
      Frame.strL pre cs
end

end PK
