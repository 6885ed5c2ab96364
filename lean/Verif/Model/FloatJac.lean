import Verif.Model.Float
import Verif.Model.Serial

/-!
# The Jacobian in floating-point arithmetic

Line numbers refer to `/repo/src/pytorch_kinematics/chain.py`; the machine is that of `Model/Float.lean`.
-/

namespace PK
noncomputable section

/-- l.656-705 `SerialChain.__init__`; the only arithmetic is that of `Chain.__init__` (`Chain.initFl`). The chain of l.662 is used
for its indices only. -/
def SerialChain.initFl (m : Machine) (root : Frame) (endName : Name) (rootName : Name := []) : Except Err SerialChain := do
  let s ← SerialChain.init root endName rootName
  pure { s with chain := Chain.initFl m s.chain.root }

/-- `torch.cross` -/
def crossFl (m : Machine) (a b : V3) : V3 :=
  ![m.det2 (a 1) (b 2) (a 2) (b 1), m.det2 (a 2) (b 0) (a 0) (b 2), m.det2 (a 0) (b 1) (a 1) (b 0)]

/-- l.739, l.800 `torch.einsum('nbij,nj->nbi', R_dof, axes)` -/
def axisFl (m : Machine) (T : M4) (axis : V3) : V3 := fun i => m.dot (rotPart T i) axis

/-- l.714-759 `jacobian_tensor` on given transforms -/
def jacobianColsFl (m : Machine) {B : ℕ} (T : List (Fin B → M4)) (eef : ℕ) (dfi : List ℕ) (axes : List V3) (types : List ℕ) :
    Except Err (List (Fin B → Fin 6 → ℝ)) := do
  let tee ← tensorAt T eef
  let tdof ← dfi.mapM fun i => tensorAt T i
  pure (List.zipWith (fun (ta : (Fin B → M4) × V3) (ty : ℕ) => fun b =>
    let z := axisFl m (ta.1 b) ta.2
    let dp : V3 := fun i => m.rnd (posPart (tee b) i - posPart (ta.1 b) i)
    let cr := crossFl m z dp
    let jv : V3 := if ty = 1 then cr else z
    let jw : V3 := if ty = 1 then z else 0
    ![jv 0, jv 1, jv 2, jw 0, jw 1, jw 2]) (List.zip tdof axes) types)

/-- l.714-759 `jacobian_tensor(th, ret_eef_pose=True)` -/
def SerialChain.jacobianTensorFl (m : Machine) (s : SerialChain) {B : ℕ} (th : List (Fin B → ℝ)) :
    Except Err (List (Fin B → Fin 6 → ℝ) × (Fin B → M4)) := do
  let T ← s.chain.fkTensorFl m th
  let J ← jacobianColsFl m T s.eefIdx s.dofFrameIndices s.dofAxes s.dofTypes
  let tee ← tensorAt T s.eefIdx
  pure (J, tee)

/-- l.761-817 `jacobian(th, locations=tool, ret_eef_pose=True)` with a tool -/
def SerialChain.jacobianToolFl (m : Machine) (s : SerialChain) {B : ℕ} (th : List (Fin B → ℝ)) (tool : List M4) :
    Except Err (List (Fin B → Fin 6 → ℝ) × (Fin B → M4)) := do
  let T ← s.chain.fkTensorFl m th
  let J ← jacobianColsFl m T s.eefIdx s.dofFrameIndices s.dofAxes s.dofTypes
  let tee ← tensorAt T s.eefIdx
  let tm ← broadcastTool B tool
  let teeTool : Fin B → M4 := fun b => m.mul (tee b) (tm b)
  let deltaP : Fin B → V3 := fun b i => m.rnd (posPart (teeTool b) i - posPart (tee b) i)
  let tdof ← s.dofFrameIndices.mapM fun i => tensorAt T i
  let corr : List (Fin B → V3) := List.zipWith (fun (ta : (Fin B → M4) × V3) (ty : ℕ) => fun b =>
    if ty = 1 then crossFl m (axisFl m (ta.1 b) ta.2) (deltaP b) else 0) (List.zip tdof s.dofAxes) s.dofTypes
  let J' := List.zipWith (fun (col : Fin B → Fin 6 → ℝ) (k : Fin B → V3) => fun b =>
    (![m.rnd (col b 0 + k b 0), m.rnd (col b 1 + k b 1), m.rnd (col b 2 + k b 2), col b 3, col b 4, col b 5] : Fin 6 → ℝ)) J corr
  pure (J', teeTool)

end
end PK
