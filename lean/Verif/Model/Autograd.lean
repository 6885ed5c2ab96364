import Verif.Model.Backward
import Verif.Model.Serial
import Verif.Spec.Autograd

/-!
# Model of first and second gradients through `forward_kinematics_tensor`
Line numbers refer to `/repo/src/pytorch_kinematics/chain.py`.

The loss is any function of the returned tensor; torch's own differentiation of it is taken to return its partial
derivatives (`gradOf`).
-/

namespace PK
open Spec Matrix

/-- `T = chain.forward_kinematics_tensor(th); torch.autograd.grad(L(T), th)` for a `th` that requires a gradient:
l.522-529 compute `T` on `th.detach()`, l.533-535 attach `backward`, which receives the gradient of `L` at `T`.
Without `analytical_grad=False` this is also what `forward_kinematics` (l.561), `jacobian_tensor` (l.728) and
`jacobian` (l.782) use. -/
noncomputable def Chain.grad (c : Chain) {N B : ℕ} (L : Tens N B → ℝ) (th : List (Fin B → ℝ)) :
    Except Err (List (Fin B → ℝ)) := do
  let T ← c.fkTensor th
  c.backward T (gradOf L (entriesOf N T))

/-- entry `[b, k]` of the gradient as a function of the tensor `X` that the loss sees, for the tensor `T` that l.127
saved for `backward`. `T` was computed from `th.detach()` and is a constant of the graph (l.525). -/
noncomputable def Chain.gradEntry (c : Chain) {N B : ℕ} (L : Tens N B → ℝ) (T : List (Fin B → M4)) (k : ℕ) (b : Fin B)
    (X : Tens N B) : ℝ :=
  match c.backward T (gradOf L X) with
  | .ok g => (g.getD k fun _ => 0) b
  | .error _ => 0

/-- `g = torch.autograd.grad(L(T), th, create_graph=True); torch.autograd.grad(g[b, k], th)`: the statements of
`backward` (l.130-169) are recorded; they depend on `th` only through `grad_output`, hence only through the tensor
that the loss sees, so the second pass ends in `backward` again. -/
noncomputable def Chain.grad2 (c : Chain) {N B : ℕ} (L : Tens N B → ℝ) (th : List (Fin B → ℝ)) (k : ℕ) (b : Fin B) :
    Except Err (List (Fin B → ℝ)) := do
  let T ← c.fkTensor th
  c.backward T (gradOf (c.gradEntry L T k b) (entriesOf N T))

/-- A loss `M` of the result of `jacobian_tensor(th, ret_eef_pose=True)`, as a function of the tensor of all poses:
l.730-759 read nothing but `all_transforms` and tables of the chain, and are ordinary torch statements. -/
noncomputable def SerialChain.jacLoss (s : SerialChain) {N B n : ℕ} (M : (Fin n → Fin B → Fin 6 → ℝ) × (Fin B → Fin 4 → Fin 4 → ℝ) → ℝ)
    (X : Tens N B) : ℝ :=
  match (do
    let J ← jacobianCols (tensorOf X) s.eefIdx s.dofFrameIndices s.dofAxes s.dofTypes
    let tee ← tensorAt (tensorOf X) s.eefIdx
    pure (J, tee) : Except Err (List (Fin B → Fin 6 → ℝ) × (Fin B → M4))) with
  | .ok (J, tee) => M (fun k b a => (J.getD k fun _ _ => 0) b a, fun b => tee b)
  | .error _ => 0

end PK
