import Verif.Model.IeeeIK
import Verif.Model.Backward

/-!
# The analytical backward pass with infinities and NaN

Line numbers refer to `/repo/src/pytorch_kinematics/chain.py`; the numbers are those of `Model/Ieee.lean`.  Poses and upstream gradients may
contain infinities and NaN.  Sums of products (`@`, `.sum`) run from left to right.
-/

namespace PK
noncomputable section

/-- the position in a 4x4 matrix -/
def posI (T : FM4) : Fin 3 → Fl := fun i => T i.castSucc 3

/-- a sum of three products: an entry of `@` for 3x3 matrices (l.143, l.150) and `(a * b).sum(dim=-1)` (l.161, l.163) -/
def dot3I (m : Ieee) (a b : Fin 3 → Fl) : Fl :=
  m.add (m.add (m.times (a 0) (b 0)) (m.times (a 1) (b 1))) (m.times (a 2) (b 2))

/-- `torch.cross` (l.157, l.161) -/
def crossI (m : Ieee) (a b : Fin 3 → Fl) : Fin 3 → Fl :=
  ![m.sub (m.times (a 1) (b 2)) (m.times (a 2) (b 1)), m.sub (m.times (a 2) (b 0)) (m.times (a 0) (b 2)),
    m.sub (m.times (a 0) (b 1)) (m.times (a 1) (b 0))]

/-- l.143-146 `tau_link` -/
def tauLinkI (m : Ieee) (T G : FM4) : Fin 3 → Fl :=
  let M : Fin 3 → Fin 3 → Fl := fun i j => dot3I m (rotI T i) (rotI G j)
  ![m.sub (M 1 2) (M 2 1), m.sub (M 2 0) (M 0 2), m.sub (M 0 1) (M 1 0)]

/-- a sum of numbers -/
def sumI (m : Ieee) (l : List Fl) : Fl := l.foldl m.add (.fin 0)

/-- l.155-158 `(dof_ancestor_mask @ x.reshape(L, B * 3))[j]` for one row of the mask and one batch row -/
def maskSumI (m : Ieee) (row : List ℝ) (xs : List (Fin 3 → Fl)) : Fin 3 → Fl :=
  fun i => sumI m (List.zipWith (fun r x => m.times (.fin r) (x i)) row xs)

/-- l.134-166 for one joint and one batch row: poses and upstream gradients of all frames, pose of the frame of the joint, axis,
`dof_is_revolute` and row of the mask -/
def gradEntryI (m : Ieee) (T G : List FM4) (D : FM4) (axis : V3) (rev : Bool) (row : List ℝ) : Fl :=
  let z : Fin 3 → Fl := fun i => dot3I m (rotI D i) fun k => .fin (axis k)
  let sumTau := maskSumI m row (List.zipWith (tauLinkI m) T G)
  let sumGradT := maskSumI m row (G.map posI)
  let sumCross := maskSumI m row (List.zipWith (fun t g => crossI m (posI t) (posI g)) T G)
  let co := crossI m (posI D) sumGradT
  if rev then dot3I m z (fun i => m.sub (m.add (sumTau i) (sumCross i)) (co i)) else dot3I m z sumGradT

/-- l.128-169 `_FKAnalyticalBackward.backward`, with the tables that l.524-536 hands over -/
def Chain.backwardI (m : Ieee) (c : Chain) {B : ℕ} (T G : List (Fin B → FM4)) : Except Err (List (Fin B → Fl)) := do
  let tdof ← c.dofFrameIndices.mapM (tensorAtI T)
  pure (List.zipWith (fun (ta : (Fin B → FM4) × V3) (rm : Bool × List ℝ) => fun b =>
    gradEntryI m (T.map fun t => t b) (G.map fun g => g b) (ta.1 b) ta.2 rm.1 rm.2)
    (List.zip tdof c.axes) (List.zip c.dofIsRevolute c.dofAncestorMask))

end
end PK
