import Verif.Spec.Rot
import Verif.Spec.Urdf
import Verif.Spec.Sdf
import Verif.Spec.Mjcf

/-!
# What a link shows

The shapes a description declares, independent of the format, and when a `Visual` of the chain stands for one.
-/

namespace PK.Spec
open PK Matrix

/-- A declared shape with its dimensions. -/
inductive Shape where
  | box (size : V3)
  | cylinder (radius length : Fl)
  | sphere (radius : Fl)
  | capsule (radius length : Fl)
  | mesh (file : Name) (scale : Option V3)

/-- Two poses at which a shape looks the same: equal, or, for the shapes that are round about their `z` axis, equal up to a
turn about that axis. -/
def SamePlace (s : Shape) (P o : M4) : Prop :=
  o = P ∨ ((∃ r l, s = .cylinder r l ∨ s = .capsule r l) ∧ ∃ φ : ℝ, o = P * mkHom (elem .z φ) 0)

/-- The names and dimensions `Visual` documents (frame.py `Visual.TYPES`); the scale of a mesh may be left out when none
is declared. -/
def Dims : Shape → Option GeomType → GeomParam → Prop
  | .box v, t, p => t = some (.name n!"box") ∧ p = .size v
  | .cylinder r l, t, p => t = some (.name n!"cylinder") ∧ p = .radiusLength r l
  | .sphere r, t, p => t = some (.name n!"sphere") ∧ p = .radius r
  | .capsule r l, t, p => t = some (.name n!"capsule") ∧ p = .radiusLength r l
  | .mesh f s, t, p => t = some (.name n!"mesh") ∧ (p = .meshScale f s ∨ s = none ∧ p = .file f)

/-- The visual stands for the shape at pose `P` relative to the link. -/
def Shows (P : M4) (s : Shape) (w : Visual) : Prop :=
  (∃ o, w.offset = some o ∧ SamePlace s P o) ∧ Dims s w.geomType w.geomParam

/-- the shape of a URDF geometry -/
def urdfShape : Urdf.Geom → Shape
  | .box v => .box v
  | .cylinder r l => .cylinder r l
  | .sphere r => .sphere r
  | .mesh f s => .mesh f s
  | .capsule r l => .capsule r l

/-- the shape of an SDF geometry -/
def sdfShape : Sdf.Geom → Shape
  | .box v => .box v
  | .cylinder r l => .cylinder r l
  | .sphere r => .sphere r
  | .mesh f s => .mesh f s

/-- The points of a cylinder of radius `r` and length `l` about the `z` axis. -/
def cylinderSolid (r l : ℝ) : Set V3 := {x | x 0 ^ 2 + x 1 ^ 2 ≤ r ^ 2 ∧ |x 2| ≤ l / 2}

/-- the points of a set moved by a homogeneous matrix -/
def moved (P : M4) (s : Set V3) : Set V3 := {y | ∃ x ∈ s, y = fun i : Fin 3 => (P *ᵥ ![x 0, x 1, x 2, 1]) i.castSucc}

end PK.Spec
