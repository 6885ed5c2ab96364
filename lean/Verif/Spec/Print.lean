import Verif.Spec.Tree

/-! # What a printed tree should look like -/

namespace PK.Spec
open PK
mutual
/-- Frames in pre-order with their depth. -/
def preorderDepth (d : ℕ) : Frame → List (Frame × ℕ)
  | .mk n l j cs => (.mk n l j cs, d) :: preorderDepthL (d + 1) cs
/-- forest version -/
def preorderDepthL (d : ℕ) : List Frame → List (Frame × ℕ)
  | [] => []
  | c :: cs => preorderDepth d c ++ preorderDepthL d cs
end

/-- `line` shows frame `fd.1` at depth `fd.2`: `4 * depth` characters of drawing, then the name. -/
def ShowsFrame (line : List Char) (fd : Frame × ℕ) : Prop :=
  ∃ ind, line = ind ++ fd.1.name ∧ ind.length = 4 * fd.2

end PK.Spec
