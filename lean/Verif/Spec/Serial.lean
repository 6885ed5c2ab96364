import Verif.Spec.Deriv

/-! # What a serial chain is -/

namespace PK.Spec
open PK

/-- `rf` is the frame of the tree under `root` that `SerialChain(chain, end, rootName)` starts at: the
root for the default name `""`, otherwise the frame of that name. -/
def StartsAt (root rf : Frame) (rootName : Name) : Prop :=
  rf ∈ preorder root ∧ ((rootName = [] ∧ rf = root) ∨ (rootName ≠ [] ∧ rf.name = rootName))

/-- Moving joints strictly below the first frame of a path, in order. -/
def pathJoints (p : List Frame) : List Joint := (p.tail.map Frame.joint).filter fun j => decide (Moving j)

end PK.Spec
