import Verif.Model.TensorRot
import Verif.Model.Serial

/-!
# Forward kinematics, its backward pass and the Jacobian on tensors

Line numbers refer to `/repo/src/pytorch_kinematics/chain.py`.  `Model/Chain.lean`, `Model/Backward.lean` and
`Model/Serial.lean` have the same functions on lists of columns and poses; here every operation acts on whole tensors, as
in the code: indices, permutations, broadcasting, writes to rows.  Tensors of indices have integer entries.

`torch.empty` returns memory with any content: its entries are the argument `junk` of the functions that use it.
-/

namespace PK.Tn
variable {α : Type} [Inhabited α]

/-! ## Operations -/

/-- `t.unsqueeze(k)` for `k` at most the number of dimensions -/
noncomputable def unsqueezeAt (a : Tn α) (k : ℕ) : Tn α :=
  ofFn a.tag (a.shape.take k ++ 1 :: a.shape.drop k) fun i => a.get (i.take k ++ i.drop (k + 1))

/-- `t.squeeze(-1)` -/
noncomputable def squeezeLast (a : Tn α) : Tn α :=
  if a.shape.getLast? = some 1 then ofFn a.tag a.shape.dropLast fun i => a.get (i ++ [0]) else a

/-- `t.expand(B, -1, -1)`: the other dimensions are kept. -/
noncomputable def expandFirst (a : Tn α) (B : ℕ) : Except Err (Tn α) := expand a (B :: a.shape.tail)

/-- `t.reshape(-1, *s)`: the first size is inferred, which PyTorch refuses when `s` has a size 0. -/
noncomputable def reshapeInfer (a : Tn α) (s : Shape) : Except Err (Tn α) :=
  if s.prod = 0 then .error .runtimeError else reshape a (a.shape.prod / s.prod :: s)

/-- `t.permute(*p)` -/
noncomputable def permute (a : Tn ℝ) (p : List ℕ) : Except Err (Tn ℝ) :=
  if p.Perm (List.range a.shape.length) then
    .ok (ofFn a.tag (p.map fun k => a.shape.getD k 0) fun i =>
      a.get ((List.range a.shape.length).map fun k => i.getD (p.idxOf k) 0))
  else .error .runtimeError

/-- `t.transpose(-1, -2)`, `t.T` of a matrix -/
noncomputable def transposeLast (a : Tn ℝ) : Except Err (Tn ℝ) :=
  match a.shape.reverse with
  | c :: r :: s => .ok (ofFn a.tag (s.reverse ++ [c, r]) fun i => a.get (i.dropLast.dropLast ++ [i.getLastD 0, i.dropLast.getLastD 0]))
  | _ => .error .indexError

/-- `t == k` for a tensor of integers -/
noncomputable def eqZ (a : Tn ℤ) (k : ℤ) : Tn Bool := ofFn (eqT a.tag) a.shape fun i => decide (a.get i = k)

/-- The positions that a tensor of indices of one dimension selects from a dimension of size `n`; negative indices count
from the end. -/
def picks (n : ℕ) (idx : Tn ℤ) : Except Err (List ℕ) :=
  match idx.shape with
  | [k] => (List.range k).mapM fun j => match pyIndex n (idx.get [j]) with
    | some p => .ok p
    | none => .error .indexError
  | _ => .error .unmodelled

/-- `t[idx]` for a tensor of indices of one dimension -/
noncomputable def index0 (a : Tn α) (idx : Tn ℤ) : Except Err (Tn α) :=
  match a.shape with
  | [] => .error .indexError
  | n :: s => do
    let l ← picks n idx
    let t ← PK.index a.tag idx.tag
    return ofFn t (l.length :: s) fun i => a.get (l.getD (i.headD 0) 0 :: i.tail)

/-- `t[:, idx]` for a tensor of indices of one dimension -/
noncomputable def index1 (a : Tn α) (idx : Tn ℤ) : Except Err (Tn α) :=
  match a.shape with
  | b :: n :: s => do
    let l ← picks n idx
    let t ← PK.index a.tag idx.tag
    return ofFn t (b :: l.length :: s) fun i => a.get (i.headD 0 :: l.getD (i.tail.headD 0) 0 :: i.tail.tail)
  | _ => .error .indexError

/-- `t[idx] = v` for a tensor of indices of one dimension; of equal indices the last one counts (PyTorch leaves it
open). -/
noncomputable def put0 (a : Tn ℝ) (idx : Tn ℤ) (v : Tn ℝ) : Except Err (Tn ℝ) :=
  match a.shape with
  | [] => .error .indexError
  | n :: s => do
    let l ← picks n idx
    let t ← indexPut a.tag idx.tag v.tag
    let w ← valueFor v (l.length :: s)
    return ofFn t a.shape fun i =>
      match (List.range l.length).reverse.find? fun j => l[j]? == i.head? with
      | some j => w.get (j :: i.tail)
      | none => a.get i

/-- `t[k]` for an integer `0 ≤ k` -/
noncomputable def select0 (a : Tn ℝ) (k : ℕ) : Except Err (Tn ℝ) :=
  match a.shape with
  | [] => .error .indexError
  | n :: s => if k < n then .ok (ofFn a.tag s fun i => a.get (k :: i)) else .error .indexError

/-- `torch.einsum('nbij,nj->nbi', R, x)` (sizes that differ are not modelled) -/
noncomputable def einsumNbij (R x : Tn ℝ) : Except Err (Tn ℝ) :=
  match R.shape, x.shape with
  | [n, b, p, j], [n', j'] =>
    if n = n' ∧ j = j' then do
      let t ← PK.matmul R.tag x.tag
      return ofFn t [n, b, p] fun i => ∑ k ∈ Finset.range j, R.get (i ++ [k]) * x.get [i.headD 0, k]
    else .error .unmodelled
  | _, _ => .error .runtimeError

/-- `t[:, :n, :]` of a tensor with three dimensions -/
noncomputable def sliceMid (a : Tn ℝ) (n : ℕ) : Except Err (Tn ℝ) := sliceRows a n

/-- `t[:, :n, :] = v` for `n` at most the size, of a tensor with three dimensions -/
noncomputable def setMid (t : Tn ℝ) (n : ℕ) (v : Tn ℝ) : Except Err (Tn ℝ) :=
  match t.shape with
  | [b, r, c] =>
    if n ≤ r then do
      let w ← valueFor v [b, n, c]
      return ofFn t.tag t.shape fun i => if i.dropLast.getLastD 0 < n then w.get i else t.get i
    else .error .unmodelled
  | _ => .error .indexError

/-- A tensor of one dimension with the given entries -/
noncomputable def ofList (t : Tag) (l : List α) : Tn α := ofFn t [l.length] fun i => l.getD (i.headD 0) default

end PK.Tn

namespace PK
open Tn

/-! ## The tensors of a chain -/

/-- The attributes of a `Chain` that `_fk_impl` and `_FKAnalyticalBackward` receive. -/
structure ChainT where
  staticOffsets : Tn ℝ
  jointIndicesClamped : Tn ℤ
  jointTypeIndices : Tn ℤ
  directParentIdx : Tn ℤ
  bfsLevels : List (Tn ℤ)
  axes : Tn ℝ
  hasRevolute : Bool
  hasPrismatic : Bool
  numFrames : ℕ
  dofFrameIndices : Tn ℤ
  dofAncestorMask : Tn ℝ
  dofIsRevolute : Tn Bool

/-- `(N, 4, 4)` -/
noncomputable def matsT (t : Tag) (l : List M4) : Tn ℝ :=
  ofFn t [l.length, 4, 4] fun i => (l.getD (i.headD 0) 0) (Fin.ofNat 4 (i.getD 1 0)) (Fin.ofNat 4 (i.getD 2 0))

/-- `(N, 3)` -/
noncomputable def vecsT (t : Tag) (l : List V3) : Tn ℝ :=
  ofFn t [l.length, 3] fun i => (l.getD (i.headD 0) 0) (Fin.ofNat 3 (i.getD 1 0))

/-- The tensors that `__init__` (l.230-348) makes of the tables in `Model/Chain.lean`, with the dtype and device they have
when the chain is on the CPU or was moved by `to` (`Model/Tags.lean` follows dtypes and devices through both). -/
noncomputable def Chain.tensors (c : Chain) (d : DType) (v : Device) : ChainT where
  staticOffsets := matsT (flTag d v) c.staticOffsets
  jointIndicesClamped := ofList (ixTag v) (c.jointIndicesClamped.map Int.ofNat)
  jointTypeIndices := ofList (ixTag v) (c.jointTypeIndices.map Int.ofNat)
  directParentIdx := ofList (ixTag v) c.directParentIdx
  bfsLevels := c.bfsLevels.map fun l => ofList (ixTag v) (l.map Int.ofNat)
  axes := vecsT (flTag d v) c.axes
  hasRevolute := c.hasRevolute
  hasPrismatic := c.hasPrismatic
  numFrames := c.numFrames
  dofFrameIndices := ofList (ixTag v) (c.dofFrameIndices.map Int.ofNat)
  dofAncestorMask := ofFn (flTag d v) [c.nJoints, c.numFrames] fun i =>
    (c.dofAncestorMask.getD (i.headD 0) []).getD (i.getD 1 0) 0
  dofIsRevolute := ofList (eqT (ixTag v)) c.dofIsRevolute

/-! ## Forward kinematics, l.13-93 -/

/-- l.56-61 one kind of joint: a transform per joint, then per frame, `(num_frames, B, 4, 4)` -/
noncomputable def ChainT.perFrame (c : ChainT) (f : Tn ℝ → Tn ℝ → Except Err (Tn ℝ)) (axes_expanded th : Tn ℝ) :
    Except Err (Tn ℝ) := do
  let transforms ← f axes_expanded th
  permute (← index1 transforms c.jointIndicesClamped) [1, 0, 2, 3]

/-- l.76 and elsewhere: `eye4.reshape(1, 1, 4, 4).expand(num_frames, B, 4, 4)` -/
noncomputable def ChainT.eyes (c : ChainT) (th : Tn ℝ) (B : ℕ) : Except Err (Tn ℝ) := do
  expand (← reshape (eye4 th.tag) [1, 1, 4, 4]) [c.numFrames, B, 4, 4]

/-- l.50-79 `joint_transforms`; `B` and `n` are `th.shape[0]` and `th.shape[1]` -/
noncomputable def ChainT.jointTransforms (c : ChainT) (th : Tn ℝ) (B n : ℕ) : Except Err (Tn ℝ) := do
  let axes_expanded ← if 0 < n then expandFirst (unsqueezeAt c.axes 0) B else pure c.axes
  let rev ← if 0 < n ∧ c.hasRevolute = true
    then some <$> c.perFrame Tn.axisAndAngleToMatrix44 axes_expanded th else pure none
  let pris ← if 0 < n ∧ c.hasPrismatic = true
    then some <$> c.perFrame Tn.axisAndDToPrisMatrix axes_expanded th else pure none
  if c.hasRevolute && !c.hasPrismatic then do
    let is_rev ← reshapeInfer (eqZ c.jointTypeIndices 1) [1, 1, 1]
    sel is_rev (← bound rev) (← c.eyes th B)
  else if c.hasPrismatic && !c.hasRevolute then do
    let is_pris ← reshapeInfer (eqZ c.jointTypeIndices 2) [1, 1, 1]
    sel is_pris (← bound pris) (← c.eyes th B)
  else if c.hasRevolute && c.hasPrismatic then do
    let is_rev ← reshapeInfer (eqZ c.jointTypeIndices 1) [1, 1, 1]
    let is_pris ← reshapeInfer (eqZ c.jointTypeIndices 2) [1, 1, 1]
    let j ← c.eyes th B
    let j ← sel is_rev (← bound rev) j
    sel is_pris (← bound pris) j
  else c.eyes th B

/-- l.88-91 the remaining levels -/
noncomputable def fkLevelsT (directParentIdx : Tn ℤ) (local_transforms : Tn ℝ) : List (Tn ℤ) → Tn ℝ → Except Err (Tn ℝ)
  | [], T => .ok T
  | l :: ls, T => do
    let parents ← index0 directParentIdx l
    let m ← matmulT (← index0 T parents) (← index0 local_transforms l)
    let T ← put0 T l m
    fkLevelsT directParentIdx local_transforms ls T

/-- l.13-93 `_fk_impl` -/
noncomputable def ChainT.fkImpl (c : ChainT) (junk : List ℕ → ℝ) (th : Tn ℝ) : Except Err (Tn ℝ) :=
  match th.shape with
  | B :: n :: _ => do
    let joint_transforms ← c.jointTransforms th B n
    let local_transforms ← matmulT (unsqueezeAt c.staticOffsets 1) joint_transforms
    let T := ofFn th.tag [c.numFrames, B, 4, 4] junk
    match c.bfsLevels with
    | [] => .error .indexError
    | l0 :: ls =>
      let T ← put0 T l0 (← index0 local_transforms l0)
      fkLevelsT c.directParentIdx local_transforms ls T
  | _ => .error .indexError

/-- `torch.atleast_2d` -/
noncomputable def atleast2d (a : Tn ℝ) : Tn ℝ :=
  match a.shape with
  | [] => ofFn a.tag [1, 1] fun _ => a.get []
  | [n] => ofFn a.tag [1, n] fun i => a.get i.tail
  | _ => a

/-- l.542-564 `forward_kinematics(th, frame_indices)` for a tensor; the values of the dictionary are the matrices of the
transforms (for the shapes `Transform3d(matrix=…)` accepts) -/
noncomputable def Chain.forwardKinematicsT (c : Chain) (ct : ChainT) (junk : List ℕ → ℝ) (th : Tn ℝ)
    (frameIndices : Option (List ℕ) := none) : Except Err (Dict Name (Tn ℝ)) := do
  let fis ← match frameIndices with
    | none => c.getAllFrameIndices
    | some l => .ok l
  let all ← ct.fkImpl junk (atleast2d th)
  fis.foldlM (fun d fi => do
    let name ← c.idxToFrame.item fi
    let m ← select0 all fi
    match m.shape with
    | [_, 4, 4] => .ok (d.set name m)
    | _ => .error .valueError) []

/-! ## The analytical backward pass, l.127-169 -/

/-- l.141-146 `tau_link` -/
noncomputable def tauT (R_link grad_R_link : Tn ℝ) : Except Err (Tn ℝ) := do
  let M ← matmulT R_link (← transposeLast grad_R_link)
  let e (r c : ℕ) : Except Err (Tn ℝ) := do selectLast (← selectRow M r) c
  stackLast [← sub (← e 1 2) (← e 2 1), ← sub (← e 2 0) (← e 0 2), ← sub (← e 0 1) (← e 1 0)]

/-- l.155-158 `(dof_ancestor_mask @ x.reshape(L, B * 3)).reshape(-1, B, 3)` -/
noncomputable def maskSumT (mask x : Tn ℝ) (L B : ℕ) : Except Err (Tn ℝ) := do
  reshapeInfer (← matmulT mask (← reshape x [L, B * 3])) [B, 3]

/-- l.127-169 `_FKAnalyticalBackward.backward`; the gradient for `th` (those for the other arguments are `None`) -/
noncomputable def ChainT.backward (c : ChainT) (T grad_output : Tn ℝ) : Except Err (Tn ℝ) := do
  let R_link ← rotBlock T
  let t_link ← posColumn T
  let grad_R_link ← rotBlock grad_output
  let grad_t_link ← posColumn grad_output
  let tau_link ← tauT R_link grad_R_link
  let T_dof ← index0 T c.dofFrameIndices
  let z_dof := squeezeLast (← matmulT (← rotBlock T_dof) (unsqueezeAt (unsqueeze c.axes) 1))
  let o_dof ← posColumn T_dof
  match tau_link.shape with
  | [L, B, _] =>
    let sum_tau ← maskSumT c.dofAncestorMask tau_link L B
    let sum_grad_t ← maskSumT c.dofAncestorMask grad_t_link L B
    let cross_t_grad ← crossT t_link grad_t_link
    let sum_cross ← maskSumT c.dofAncestorMask cross_t_grad L B
    let rev_grad ← sum (← mul z_dof (← sub (← add sum_tau sum_cross) (← crossT o_dof sum_grad_t)))
    let pris_grad ← sum (← mul z_dof sum_grad_t)
    transposeLast (← sel (unsqueeze c.dofIsRevolute) rev_grad pris_grad)
  | _ => .error .valueError

/-! ## The Jacobian, l.714-817 -/

/-- The additional attributes of a `SerialChain`, l.687-705 -/
structure SerialT where
  chain : ChainT
  dofFrameIndices : Tn ℤ
  dofAxes : Tn ℝ
  dofTypes : Tn ℤ
  eefIdx : ℕ

/-- The tensors of the tables in `Model/Serial.lean`; dtype and device as for `Chain.tensors` -/
noncomputable def SerialChain.tensors (s : SerialChain) (d : DType) (v : Device) : SerialT where
  chain := s.chain.tensors d v
  dofFrameIndices := ofList (ixTag v) (s.dofFrameIndices.map Int.ofNat)
  dofAxes := vecsT (flTag d v) s.dofAxes
  dofTypes := ofList (ixTag v) (s.dofTypes.map Int.ofNat)
  eefIdx := s.eefIdx

/-- l.729-755 `jacobian_tensor(th, all_transforms=all)` without the final permutation -/
noncomputable def SerialT.jacobianRows (s : SerialT) (all : Tn ℝ) : Except Err (Tn ℝ) := do
  let p_ee ← posColumn (← select0 all s.eefIdx)
  let T_dof ← index0 all s.dofFrameIndices
  let R_dof ← rotBlock T_dof
  let p_dof ← posColumn T_dof
  let z ← einsumNbij R_dof s.dofAxes
  let dp ← sub (unsqueezeAt p_ee 0) p_dof
  let cross ← crossT z dp
  let is_rev ← reshapeInfer (eqZ s.dofTypes 1) [1, 1]
  let J_v ← sel is_rev cross z
  let J_w ← sel is_rev z (fullLike z 0)
  cat J_v J_w

/-- l.714-759 `jacobian_tensor(th, all_transforms=all)` -/
noncomputable def SerialT.jacobianOf (s : SerialT) (all : Tn ℝ) : Except Err (Tn ℝ) := do
  permute (← s.jacobianRows all) [1, 2, 0]

/-- l.775-778: a tensor with at most one dimension becomes one row -/
noncomputable def oneRowT (th : Tn ℝ) : Except Err (Tn ℝ) :=
  if th.shape.length ≤ 1 then reshape th [1, th.shape.prod] else .ok th

/-- l.714-759, l.761-817 `jacobian(th, ret_eef_pose=True)` for a tensor; without `ret_eef_pose` it is the first
component -/
noncomputable def SerialT.jacobian (s : SerialT) (junk : List ℕ → ℝ) (th : Tn ℝ) : Except Err (Tn ℝ × Tn ℝ) := do
  let all ← s.chain.fkImpl junk (← oneRowT th)
  let J ← s.jacobianOf all
  return (J, ← select0 all s.eefIdx)

/-- l.780-811 `jacobian(th, locations, ret_eef_pose=True)`; `tool` is `tool.get_matrix()` after the conversion l.789-790 -/
noncomputable def SerialT.jacobianTool (s : SerialT) (junk : List ℕ → ℝ) (th tool : Tn ℝ) :
    Except Err (Tn ℝ × Tn ℝ) := do
  let all ← s.chain.fkImpl junk (← oneRowT th)
  let J ← s.jacobianOf all
  let T_ee ← select0 all s.eefIdx
  let T_ee_tool ← matmulT T_ee tool
  let delta_p ← sub (← posColumn T_ee_tool) (← posColumn T_ee)
  let T_dof ← index0 all s.dofFrameIndices
  let z ← einsumNbij (← rotBlock T_dof) s.dofAxes
  let correction ← crossT z (← expand (unsqueezeAt delta_p 0) z.shape)
  let is_rev ← reshapeInfer (eqZ s.dofTypes 1) [1, 1]
  let correction ← sel is_rev correction (fullLike correction 0)
  let J ← setMid J 3 (← add (← sliceMid J 3) (← permute correction [1, 2, 0]))
  return (J, T_ee_tool)

end PK
