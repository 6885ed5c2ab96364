import Verif.Model.FloatJac
import Verif.Model.Backward

/-!
# The analytical backward pass in floating-point arithmetic

Line numbers refer to `/repo/src/pytorch_kinematics/chain.py`; the machine is that of `Model/Float.lean` with sums of products of any
length.
-/

namespace PK
noncomputable section

/-- A floating-point arithmetic with `@` for matrices whose inner dimension is the number of frames. -/
structure SumMachine extends Machine where
  /-- error of a sum of `n` products -/
  Γ : ℕ → ℝ
  Γ_nonneg : ∀ n, 0 ≤ Γ n
  /-- an entry of `mask @ x`: the sum of the products of the pairs, in any order, with or without fused multiply-add -/
  sumProd : List (ℝ × ℝ) → ℝ
  sumProd_err : ∀ l, |sumProd l - (l.map fun p => p.1 * p.2).sum| ≤ Γ l.length * (l.map fun p => |p.1 * p.2|).sum

/-- l.143-146 `tau_link` from `M = R_link @ grad_R_link.transpose(-1, -2)` -/
def tauLinkFl (m : Machine) (T G : M4) : V3 :=
  let M : M3 := fun i j => m.dot (rotPart T i) (rotPart G j)
  ![m.rnd (M 1 2 - M 2 1), m.rnd (M 2 0 - M 0 2), m.rnd (M 0 1 - M 1 0)]

/-- l.155-158 `(dof_ancestor_mask @ x.reshape(L, B * 3))[j]` for one row `mask[j]` and one batch row -/
def maskSumFl (m : SumMachine) (row : List ℝ) (xs : List V3) : V3 :=
  fun i => m.sumProd (List.zip row (xs.map fun x => x i))

/-- l.128-169 `_FKAnalyticalBackward.backward` on the tensors `T_world_link` and `grad_output` -/
def fkBackwardFl (m : SumMachine) {B : ℕ} (T G : List (Fin B → M4)) (dofFrameIndices : List ℕ) (mask : List (List ℝ))
    (isRev : List Bool) (axes : List V3) : Except Err (List (Fin B → ℝ)) := do
  let tdof ← dofFrameIndices.mapM fun i => tensorAt T i
  let tau : Fin B → List V3 := fun b => List.zipWith (fun t g => tauLinkFl m.toMachine (t b) (g b)) T G
  let gt : Fin B → List V3 := fun b => G.map fun g => posPart (g b)
  let cr : Fin B → List V3 := fun b => List.zipWith (fun t g => crossFl m.toMachine (posPart (t b)) (posPart (g b))) T G
  pure (List.zipWith (fun (ta : (Fin B → M4) × V3) (rm : Bool × List ℝ) => fun b =>
    let z := axisFl m.toMachine (ta.1 b) ta.2
    let o := posPart (ta.1 b)
    let sumTau := maskSumFl m rm.2 (tau b)
    let sumGradT := maskSumFl m rm.2 (gt b)
    let sumCross := maskSumFl m rm.2 (cr b)
    let co := crossFl m.toMachine o sumGradT
    if rm.1 then m.dot z (fun i => m.rnd (m.rnd (sumTau i + sumCross i) - co i)) else m.dot z sumGradT)
    (List.zip tdof axes) (List.zip isRev mask))

/-- l.524-536: the gradient of a chain that was constructed on the machine -/
def Chain.backwardFl (m : SumMachine) (c : Chain) {B : ℕ} (T G : List (Fin B → M4)) : Except Err (List (Fin B → ℝ)) :=
  fkBackwardFl m T G c.dofFrameIndices c.dofAncestorMask c.dofIsRevolute c.axes

end
end PK
