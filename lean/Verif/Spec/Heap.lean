import Verif.Model.Heap

/-! # Vocabulary for programs that change frames -/

namespace PK.Spec

/-- the variables that a statement names -/
def usedVars : FOp → List ℕ
  | .newLink _ | .newJoint _ => []
  | .newFrame _ l j => [l, j]
  | .getLink v | .getJoint v | .getChild v _ | .find v .. | .setLink v _ | .setJoint v _ | .setName v _
  | .clearChildren v => [v]
  | .assignLink v u | .assignJoint v u | .addChild v u => [v, u]

/-- the trees of a list of frame objects -/
def trees (h : FHeap) (fuel : ℕ) (rs : List ℕ) : List (Option Frame) := rs.map (h.tree fuel)

end PK.Spec
