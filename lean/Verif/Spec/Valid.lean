import Verif.Model.Xml
import Verif.Spec.Desc

/-!
# Valid documents

The parts of the URDF and SDF schemas that concern elements the parsers know, as conditions on the document alone.
-/

namespace PK.Spec
open PK

/-- the text is a number -/
def IsNum (num : NumParser) (s : Name) : Prop := ∃ x, num s = some x

/-- the text consists of `k` numbers of a certain sort, separated by blanks -/
def IsVec (num : NumParser) (ok : Fl → Prop) (k : ℕ) (s : Name) : Prop :=
  (pySplit s).length = k ∧ ∀ w ∈ pySplit s, ∃ x, num w = some x ∧ ok x

/-- any number -/
abbrev anyNum (_ : Fl) : Prop := True
/-- a real number, neither infinite nor NaN -/
abbrev finite (x : Fl) : Prop := ∃ r : ℝ, x = .fin r

/-- the element has the attribute, with such a value -/
def HasAttr (n : Xml) (k : Name) (P : Name → Prop) : Prop := ∃ s, n.attr k = some s ∧ P s
/-- the attribute has such a value if it is given -/
def OptAttr (n : Xml) (k : Name) (P : Name → Prop) : Prop := ∀ s, n.attr k = some s → P s
/-- the element has a child element with the tag; the first one is like this -/
def HasChild (n : Xml) (t : Name) (P : Xml → Prop) : Prop := ∃ c, n.scalar t = some c ∧ P c
/-- the first child element with the tag, if there is one, is like this -/
def OptChild (n : Xml) (t : Name) (P : Xml → Prop) : Prop := ∀ c, n.scalar t = some c → P c
/-- all child elements with the tag are like this -/
def EachChild (n : Xml) (t : Name) (P : Xml → Prop) : Prop := ∀ c ∈ n.aggregate t, P c
/-- the element contains such a text -/
def HasText (P : Name → Prop) (n : Xml) : Prop := ∃ s, n.text = some s ∧ P s
/-- no condition -/
abbrev anyName (_ : Name) : Prop := True
/-- no condition -/
abbrev anyXml (_ : Xml) : Prop := True

/-- what the document says about a joint: its name, its type and the names of the links it connects -/
structure Decl where
  name : Name
  type : Name
  parent : Name
  child : Name

namespace Urdf
variable (num : NumParser) (ok : Fl → Prop)

def Origin (n : Xml) : Prop := OptAttr n n!"xyz" (IsVec num ok 3) ∧ OptAttr n n!"rpy" (IsVec num ok 3)

/-- exactly one shape, of a known kind, with its dimensions -/
def Geometry (n : Xml) : Prop := ∃ g, n.children = [g] ∧
  ((g.tag = n!"box" ∧ HasAttr g n!"size" (IsVec num ok 3)) ∨
   (g.tag = n!"cylinder" ∧ HasAttr g n!"radius" (IsNum num) ∧ HasAttr g n!"length" (IsNum num)) ∨
   (g.tag = n!"sphere" ∧ HasAttr g n!"radius" (IsNum num)) ∨
   (g.tag = n!"mesh" ∧ HasAttr g n!"filename" anyName ∧ OptAttr g n!"scale" (IsVec num ok 3)) ∨
   (g.tag = n!"capsule" ∧ HasAttr g n!"radius" (IsNum num) ∧ HasAttr g n!"length" (IsNum num)))

def Material (n : Xml) : Prop := HasAttr n n!"name" anyName ∧
  OptChild n n!"color" (fun c => HasAttr c n!"rgba" (IsVec num ok 4)) ∧
  OptChild n n!"texture" fun c => HasAttr c n!"filename" anyName

def Visual (n : Xml) : Prop :=
  OptChild n n!"origin" (Origin num ok) ∧ HasChild n n!"geometry" (Geometry num ok) ∧ OptChild n n!"material" (Material num ok)

def Collision (n : Xml) : Prop := OptChild n n!"origin" (Origin num ok) ∧ HasChild n n!"geometry" (Geometry num ok)

def Inertial (n : Xml) : Prop := OptChild n n!"origin" (Origin num ok) ∧
  HasChild n n!"mass" (fun m => HasAttr m n!"value" (IsNum num)) ∧
  OptChild n n!"inertia" fun i => HasAttr i n!"ixx" (IsNum num) ∧ HasAttr i n!"ixy" (IsNum num) ∧
    HasAttr i n!"ixz" (IsNum num) ∧ HasAttr i n!"iyy" (IsNum num) ∧ HasAttr i n!"iyz" (IsNum num) ∧ HasAttr i n!"izz" (IsNum num)

def Link (n : Xml) : Prop := HasAttr n n!"name" anyName ∧ OptChild n n!"origin" (Origin num ok) ∧
  EachChild n n!"visual" (Visual num ok) ∧ EachChild n n!"collision" (Collision num ok) ∧ OptChild n n!"inertial" (Inertial num ok)

def Joint (n : Xml) : Prop :=
  HasAttr n n!"name" anyName ∧
  HasAttr n n!"type" (fun t => t ∈ [n!"revolute", n!"continuous", n!"prismatic", n!"fixed", n!"floating", n!"planar", n!"unknown"]) ∧
  OptChild n n!"origin" (Origin num ok) ∧
  OptChild n n!"axis" (fun a => HasAttr a n!"xyz" (IsVec num ok 3)) ∧
  HasChild n n!"parent" anyXml ∧ HasChild n n!"child" anyXml ∧
  OptChild n n!"limit" (fun l => HasAttr l n!"effort" (IsNum num) ∧ OptAttr l n!"lower" (IsNum num) ∧
    OptAttr l n!"upper" (IsNum num) ∧ HasAttr l n!"velocity" (IsNum num)) ∧
  OptChild n n!"dynamics" (fun d => OptAttr d n!"damping" (IsNum num) ∧ OptAttr d n!"friction" (IsNum num)) ∧
  OptChild n n!"safety_controller" (fun s => HasAttr s n!"k_velocity" (IsNum num) ∧ OptAttr s n!"k_position" (IsNum num) ∧
    OptAttr s n!"soft_lower_limit" (IsNum num) ∧ OptAttr s n!"soft_upper_limit" (IsNum num)) ∧
  OptChild n n!"calibration" (fun c => OptAttr c n!"rising" (IsNum num) ∧ OptAttr c n!"falling" (IsNum num)) ∧
  OptChild n n!"mimic" fun m => HasAttr m n!"joint" anyName ∧ OptAttr m n!"multiplier" (IsNum num) ∧
    OptAttr m n!"offset" (IsNum num)

/-- the current form, or that of the PR2 -/
def Transmission (n : Xml) : Prop :=
  (HasAttr n n!"name" anyName ∧ HasChild n n!"type" anyXml ∧
    (n.aggregate n!"joint" ≠ [] ∧ EachChild n n!"joint" fun j => HasAttr j n!"name" anyName ∧
      j.aggregate n!"hardwareInterface" ≠ []) ∧
    (n.aggregate n!"actuator" ≠ [] ∧ EachChild n n!"actuator" fun a => HasAttr a n!"name" anyName ∧
      OptChild a n!"mechanicalReduction" (HasText (IsNum num)))) ∨
  (HasAttr n n!"name" anyName ∧ HasAttr n n!"type" anyName ∧ HasChild n n!"joint" anyXml ∧ HasChild n n!"actuator" anyXml ∧
    HasChild n n!"mechanicalReduction" (HasText (IsNum num)))

/-- A valid `<robot>`. -/
structure Valid (doc : Xml) : Prop where
  links : EachChild doc n!"link" (Link num ok)
  joints : EachChild doc n!"joint" (Joint num ok)
  transmissions : EachChild doc n!"transmission" (Transmission num)
  materials : EachChild doc n!"material" (Material num ok)

/-- The `<joint>` element declares this joint. -/
def Declares (n : Xml) (j : Decl) : Prop := n.attr n!"name" = some j.name ∧ n.attr n!"type" = some j.type ∧
  HasChild n n!"parent" (fun c => c.attr n!"link" = some j.parent) ∧ HasChild n n!"child" fun c => c.attr n!"link" = some j.child

/-- The document has these links and these joints, in this order; the joints, at least one, are of types with at most one degree
of freedom and make the links a tree. -/
structure TreeDoc (doc : Xml) (links : List Name) (joints : List Decl) (root : Name) : Prop where
  has_links : List.Forall₂ (fun x l => x.attr n!"name" = some l) (doc.aggregate n!"link") links
  has_joints : List.Forall₂ Declares (doc.aggregate n!"joint") joints
  some_joint : joints ≠ []
  tree : IsTree links Decl.parent Decl.child joints root
  types : ∀ j ∈ joints, j.type ∈ [n!"revolute", n!"continuous", n!"prismatic", n!"fixed"]

end Urdf

namespace Sdf
variable (num : NumParser) (ok : Fl → Prop)

def Pose (n : Xml) : Prop := HasText (IsVec num ok 6) n
/-- a required number element -/
abbrev NumChild (n : Xml) (t : Name) : Prop := HasChild n t (HasText (IsNum num))
/-- an optional number element -/
abbrev OptNum (n : Xml) (t : Name) : Prop := OptChild n t (HasText (IsNum num))

/-- exactly one shape, of a known kind, with its dimensions -/
def Geometry (n : Xml) : Prop := ∃ g, n.children = [g] ∧
  ((g.tag = n!"box" ∧ HasChild g n!"size" (HasText (IsVec num ok 3))) ∨
   (g.tag = n!"cylinder" ∧ NumChild num g n!"radius" ∧ NumChild num g n!"length") ∨
   (g.tag = n!"sphere" ∧ NumChild num g n!"radius") ∨
   (g.tag = n!"mesh" ∧ HasChild g n!"filename" anyXml ∧ OptChild g n!"scale" (HasText (IsVec num ok 3))))

def Visual (n : Xml) : Prop := HasChild n n!"geometry" (Geometry num ok) ∧ OptChild n n!"pose" (Pose num ok)

def Inertial (n : Xml) : Prop := NumChild num n n!"mass" ∧
  HasChild n n!"inertia" (fun i => NumChild num i n!"ixx" ∧ NumChild num i n!"ixy" ∧ NumChild num i n!"ixz" ∧
    NumChild num i n!"iyy" ∧ NumChild num i n!"iyz" ∧ NumChild num i n!"izz") ∧ OptChild n n!"pose" (Pose num ok)

def Link (n : Xml) : Prop := HasChild n n!"inertial" (Inertial num ok) ∧ EachChild n n!"visual" (Visual num ok) ∧
  EachChild n n!"collision" (Visual num ok) ∧ OptChild n n!"pose" (Pose num ok)

def Joint (n : Xml) : Prop :=
  HasChild n n!"axis" (fun a => HasChild a n!"xyz" (HasText (IsVec num ok 3)) ∧
    OptChild a n!"limit" (fun l => OptNum num l n!"lower" ∧ OptNum num l n!"upper") ∧
    OptChild a n!"dynamics" fun d => OptNum num d n!"damping" ∧ OptNum num d n!"friction") ∧
  HasChild n n!"parent" anyXml ∧ HasChild n n!"child" anyXml ∧ OptChild n n!"pose" (Pose num ok)

/-- A document with a `<model>` in the form the parser accepts: like the SDF specification, but `<inertial>` and `<axis>` are
not optional and the file of a mesh is given by `<filename>` (see C79). -/
def Valid (doc : Xml) : Prop := HasChild doc n!"model" fun m =>
  EachChild m n!"link" (Link num ok) ∧ EachChild m n!"joint" (Joint num ok) ∧ OptChild m n!"pose" (Pose num ok)

/-- The `<joint>` element declares this joint. -/
def Declares (n : Xml) (j : Decl) : Prop := n.attr n!"name" = some j.name ∧ n.attr n!"type" = some j.type ∧
  HasChild n n!"parent" (fun c => c.text = some j.parent) ∧ HasChild n n!"child" fun c => c.text = some j.child

/-- The first `<model>` has these links and these joints, in this order; the joints, at least one, are of known types, have no
bound or two, and make the links a tree. -/
structure TreeDoc (doc : Xml) (links : List Name) (joints : List Decl) (root : Name) : Prop where
  has_links : HasChild doc n!"model" fun m => List.Forall₂ (fun x l => x.attr n!"name" = some l) (m.aggregate n!"link") links
  has_joints : HasChild doc n!"model" fun m => List.Forall₂ Declares (m.aggregate n!"joint") joints
  some_joint : joints ≠ []
  tree : IsTree links Decl.parent Decl.child joints root
  types : ∀ j ∈ joints, j.type ∈ [n!"revolute", n!"prismatic", n!"fixed"]
  bounds : HasChild doc n!"model" fun m => EachChild m n!"joint" fun j => OptChild j n!"axis" fun a => OptChild a n!"limit" fun l =>
    HasChild l n!"lower" anyXml ∧ HasChild l n!"upper" anyXml

end Sdf

/-- The tree of frames has this root, exactly these names, the declared children in this order, and for every declared joint a
frame with its name, below the frame of its parent, at the frame of its child. -/
structure HasShape (f : Frame) (links : List Name) (joints : List Decl) (root : Name) : Prop where
  top : f.name = root
  frames : ((preorder f).map Frame.name).Perm links
  children : ∀ g ∈ preorder f, g.children.map Frame.name = (joints.filter fun j => decide (j.parent = g.name)).map Decl.child
  declared : ∀ j ∈ joints, ∃ p ∈ preorder f, ∃ g ∈ p.children, p.name = j.parent ∧ g.name = j.child ∧ g.joint.name = some j.name ∧
    (g.joint.jtype = .fixed ↔ j.type = n!"fixed") ∧ (g.joint.jtype = .prismatic ↔ j.type = n!"prismatic")

/-- What holds of every loaded tree of frames, for the joints `joints` of the description. -/
structure Kept {J : Type} (par chi : J → Name) (joints : List J) (f : Frame) : Prop where
  /-- the root has a joint below it -/
  root_parent : ∃ j ∈ joints, par j = f.name
  /-- and none above it -/
  root_top : ∀ j ∈ joints, chi j ≠ f.name
  /-- the frames are the links that can be reached from the root -/
  frames : ∀ n, n ∈ (preorder f).map Frame.name ↔ ∃ k, Reach par chi joints f.name k n
  /-- below each frame are the children of its joints, in order -/
  children : ∀ g ∈ preorder f, g.children.map Frame.name = (joints.filter fun j => decide (par j = g.name)).map chi
  /-- there is no cycle -/
  acyclic : ∀ g ∈ preorder f, ∀ k, ¬ Reach par chi joints g.name (k + 1) g.name

end PK.Spec
