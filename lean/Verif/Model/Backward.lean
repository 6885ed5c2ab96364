import Verif.Model.Chain

/-!
# Model of the analytical backward pass of forward kinematics
Line numbers refer to `/repo/src/pytorch_kinematics/chain.py`.
-/

namespace PK
open Matrix

/-- `T[i]` -/
def tensorAt {α : Type} (T : List α) (i : ℕ) : Except Err α :=
  match T[i]? with
  | some m => .ok m
  | none => .error .indexError

/-- l.143-146 `tau_link` from `M = R_link @ grad_R_link.transpose(-1, -2)`. -/
def tauLink (T G : M4) : V3 :=
  let M := rotPart T * (rotPart G)ᵀ
  ![M 1 2 - M 2 1, M 2 0 - M 0 2, M 0 1 - M 1 0]

/-- l.155-158 `(dof_ancestor_mask @ x.reshape(L, B * 3))[j]` for one row `mask[j]` and one batch row. -/
def maskSum (row : List ℝ) (xs : List V3) : V3 :=
  (List.zipWith (fun m x => m • x) row xs).sum

/-- l.128-169 `_FKAnalyticalBackward.backward` on the tensors `T_world_link` and `grad_output`, both
`(L, B, 4, 4)` (autograd hands `backward` a gradient of the shape of the output).  The result is
`grad_th`, one column per DOF.  Gradients for the other arguments are `None`. -/
def fkBackward {B : ℕ} (T G : List (Fin B → M4)) (dofFrameIndices : List ℕ) (mask : List (List ℝ))
    (isRev : List Bool) (axes : List V3) : Except Err (List (Fin B → ℝ)) := do
  let tdof ← dofFrameIndices.mapM fun i => tensorAt T i
  let tau : Fin B → List V3 := fun b => List.zipWith (fun t g => tauLink (t b) (g b)) T G
  let gt : Fin B → List V3 := fun b => G.map fun g => posPart (g b)
  let cr : Fin B → List V3 := fun b => List.zipWith (fun t g => cross (posPart (t b)) (posPart (g b))) T G
  pure (List.zipWith (fun (ta : (Fin B → M4) × V3) (rm : Bool × List ℝ) => fun b =>
    let z := rotPart (ta.1 b) *ᵥ ta.2
    let o := posPart (ta.1 b)
    let sumTau := maskSum rm.2 (tau b)
    let sumGradT := maskSum rm.2 (gt b)
    let sumCross := maskSum rm.2 (cr b)
    if rm.1 then dot z (sumTau + sumCross - cross o sumGradT) else dot z sumGradT)
    (List.zip tdof axes) (List.zip isRev mask))

/-- The gradient that `backward` attaches in l.524-536 for the chain's own tables. -/
def Chain.backward (c : Chain) {B : ℕ} (T G : List (Fin B → M4)) : Except Err (List (Fin B → ℝ)) :=
  fkBackward T G c.dofFrameIndices c.dofAncestorMask c.dofIsRevolute c.axes

end PK
