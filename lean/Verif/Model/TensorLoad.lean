import Verif.Model.TensorT3
import Verif.Model.Xml

/-!
# Lists given to `Transform3d`, and the offsets that the loaders build from the numbers of a file

`Model/TensorT3.lean` has tensors for `pos` and `rot`; here they may also be lists (or NumPy arrays) of floats, which the
constructor turns into tensors of its argument `dtype`, by default `float32`.  T3 is
`/repo/src/pytorch_kinematics/transforms/transform3d.py`, UR, SD and MJ are `urdf.py`, `sdf.py` and `mjcf.py` in
`/repo/src/pytorch_kinematics`.  `Model/Urdf.lean`, `Model/Sdf.lean` and `Model/Mjcf.lean` have the loaders with exact numbers.
-/

namespace PK
open Tn
noncomputable section
variable (rd : DType → ℝ → ℝ)

/-- An argument `pos` or `rot`: a tensor, or a nested list of floats -/
inductive SeqT where
  | ten (t : Tn ℝ)
  | list (l : Tn ℝ)

/-- T3 l.192-193, l.203-204 `if not torch.is_tensor(pos): pos = torch.tensor(pos, dtype=dtype, device=device)` -/
def seqT (d : DType) (v : Device) : SeqT → Tn ℝ
  | .ten t => t
  | .list l => listT rd d v l

/-- T3 l.146-218 `Transform3d.__init__` with lists; l.187 takes the device from the matrix -/
def T3T.initS (matrix : Option (Tn ℝ)) (pos rot : Option SeqT) (n : ℕ := 1) (dtype : DType := .f32) (device : Device := cpu) :
    Except Err T3T :=
  let v := match matrix with | some m => m.tag.dev | none => device
  T3T.init matrix (pos.map (seqT rd dtype v)) (rot.map (seqT rd dtype v)) n dtype device

/-- A list of floats -/
def floatList {n : ℕ} (x : Fin n → ℝ) : Tn ℝ := ofFn (flTag .f64 cpu) [n] fun i => if h : i.headD 0 < n then x ⟨i.headD 0, h⟩ else 0

/-- UR l.16-18 `_convert_transform` for an `<origin>` -/
def urdfOffsetT (xyz rpy : V3) : Except Err T3T := do
  let q ← Tn.quaternionFromEuler (listT rd .f32 cpu (floatList rpy)) n!"sxyz"
  T3T.initS rd none (some (.list (floatList xyz))) (some (.ten q.1))

/-- SD l.17 `_convert_transform` for a pose; `torch.tensor(list)` has the default dtype `float32` -/
def sdfOffsetT (xyz rpy : V3) : Except Err T3T := do
  let r ← Tn.eulerAnglesToMatrix (listT rd .f32 cpu (floatList rpy)) n!"ZYX"
  T3T.initS rd none (some (.list (floatList xyz))) (some (.ten r))

/-- MJ l.23, l.46, l.55, l.83 `tf.Transform3d(rot=quat, pos=pos)` with the arrays of the compiled model -/
def mjcfOffsetT (pos : V3) (quat : Fin 4 → ℝ) : Except Err T3T :=
  T3T.initS rd none (some (.list (floatList pos))) (some (.list (floatList quat)))

/-- MJ l.40 `tf.Transform3d(pos=joint.pos)` -/
def mjcfJointOffsetT (pos : V3) : Except Err T3T := T3T.initS rd none (some (.list (floatList pos))) none

end
end PK
