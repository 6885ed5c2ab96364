import Verif.Spec.Tree

/-!
# Distances between computed and exact poses
-/

namespace PK.Spec
noncomputable section

/-- Frobenius norm: square root of the sum of the squares of the entries. -/
def fro (A : M3) : ℝ := Real.sqrt (∑ i, ∑ j, A i j ^ 2)

/-- What an ideal robot has in place of the numbers stored in the frames of a tree: rigid link and joint offsets, unit axes. -/
structure Ideal where
  lo : Frame → M4
  jo : Frame → M4
  ax : Frame → V3

/-- the exact joint motion of the ideal robot -/
def Ideal.motion (I : Ideal) (f : Frame) (q : ℝ) : M4 :=
  match f.joint.jtype with
  | .revolute => mkHom (rotAbout (I.ax f) q) 0
  | .prismatic => mkHom 1 (q • I.ax f)
  | .fixed => 1

/-- the exact pose of the ideal robot: the product of the transforms along the path -/
def Ideal.pose (I : Ideal) (val : Joint → ℝ) (p : List Frame) : M4 :=
  (p.map fun f => I.lo f * I.jo f * I.motion f (val f.joint)).prod

/-- how far the joint moves the frame without turning it -/
def travel (f : Frame) (q : ℝ) : ℝ :=
  match f.joint.jtype with
  | .prismatic => |q|
  | _ => 0

/-- length of the chain of translations along a path -/
def Ideal.reach (I : Ideal) (val : Joint → ℝ) (p : List Frame) : ℝ :=
  (p.map fun f => vlen (posPart (I.lo f)) + vlen (posPart (I.jo f)) + travel f (val f.joint)).sum

/-- `X'` is a stored or computed version of the rigid transform `X`: the last row is exact, the rotation block is off by at
most `g` (Frobenius norm), the translation by at most `g * l`, where `l` bounds the length of the translation. -/
structure Within (g l : ℝ) (X' X : M4) : Prop where
  rigid : IsRigid X
  affine : IsAffine X'
  rot : fro (rotPart X' - rotPart X) ≤ g
  len : vlen (posPart X) ≤ l
  pos : vlen (posPart X' - posPart X) ≤ g * l

/-- The numbers stored in a frame are those of the ideal robot up to a relative error: rotation blocks up to `δ`
(Frobenius norm), translations up to the factor `δ` of their length, axes of moving joints up to `τ` per component. -/
structure StoredAs (δ τ : ℝ) (I : Ideal) (f : Frame) : Prop where
  lo : Within δ (vlen (posPart (I.lo f))) (f.link.offset.getD 1) (I.lo f)
  jo : Within δ (vlen (posPart (I.jo f))) (f.joint.offset.getD 1) (I.jo f)
  unit : Moving f.joint → IsUnitV (I.ax f)
  ax : Moving f.joint → ∀ i, |f.joint.axis i - I.ax f i| ≤ τ

/-- the robot that the stored numbers describe exactly -/
def asStored : Ideal := ⟨fun f => f.link.offset.getD 1, fun f => f.joint.offset.getD 1, fun f => f.joint.axis⟩

end
end PK.Spec
