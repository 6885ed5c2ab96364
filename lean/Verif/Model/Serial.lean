import Verif.Model.Backward

/-!
# Model of class `SerialChain` (`chain.py`)
Line numbers refer to `/repo/src/pytorch_kinematics/chain.py`.
-/

namespace PK
open Matrix

/-- l.656-705 `SerialChain` after construction. -/
structure SerialChain where
  chain : Chain
  serialFrames : List Frame
  dofFrameIndices : List ℕ
  dofAxes : List V3
  /-- 1 = revolute, 2 = prismatic -/
  dofTypes : List ℕ
  eefIdx : ℕ

/-- l.665-678: the copied frames with their children: each has only the next one, the last has none.
The frames are deep copies (l.669), so nothing of the source chain is changed or shared. -/
def serialNest : List Frame → List Frame
  | [] => []
  | .mk n l j _ :: rest =>
    let r := serialNest rest
    .mk n l j (r.take 1) :: r

/-- l.665-684: the same with the root's joint replaced by `Joint()` and its link offset by `None`.
(The code does this to `frames[0]` after linking; no other frame refers to it.) -/
noncomputable def serialFramesOf : List Frame → List Frame
  | [] => []
  | .mk n l _ _ :: rest =>
    let r := serialNest rest
    .mk n { l with offset := none } Joint.init (r.take 1) :: r

/-- l.657-659: the frame the serial chain starts at. -/
def serialStart (root : Frame) (rootName : Name) : Except Err Frame :=
  if rootName = [] then .ok root else match root.findFrame rootName with
    | some f => .ok f
    | none => .error .valueError

/-- l.664 `chain.parents_indices[end_frame_idx]` -/
def ancestorsAt (c : Chain) (i : ℕ) : Except Err (List ℕ) :=
  match c.parentsIndices[i]? with
  | some a => .ok a
  | none => .error .indexError

/-- l.669-670: the frame (to be deep-copied) of ancestor `i`. -/
noncomputable def serialFrameAt (rootFrame : Frame) (c : Chain) (i : ℕ) : Except Err Frame := do
  let nm ← c.idxToFrame.item i
  match rootFrame.findFrame nm with
  | some f => .ok f
  -- `deepcopy(None)`, then `this_frame.children`
  | none => .error .attributeError

/-- l.656-705 `SerialChain.__init__`; `rootName = []` is the default `""`.
`parents_indices[i]` is in range for every value of `frame_to_idx`, and `ancestors` is never empty
(`Verif/Lemmas/Serial.lean`). -/
noncomputable def SerialChain.init (root : Frame) (endName : Name) (rootName : Name := []) :
    Except Err SerialChain := do
  let rootFrame ← serialStart root rootName
  let c := Chain.init rootFrame
  let endIdx ← c.frameToIdx.item endName
  let ancestors ← ancestorsAt c endIdx
  let copies ← ancestors.mapM (serialFrameAt rootFrame c)
  let frames := serialFramesOf copies
  match frames.head?, frames.getLast? with
  | some f0, some fe =>
    let sc := Chain.init f0
    let dof := frames.filter fun f => f.joint.jtype ≠ .fixed
    let dfi ← dof.mapM fun f => sc.frameToIdx.item f.name
    let eef ← sc.frameToIdx.item fe.name
    pure { chain := sc
           serialFrames := frames
           dofFrameIndices := dfi
           dofAxes := dof.map fun f => f.joint.axis
           dofTypes := dof.map fun f => if f.joint.jtype = .revolute then 1 else 2
           eefIdx := eef }
  | _, _ => .error .indexError

/-- l.714-759 `jacobian_tensor` on given transforms: columns `(J_v, J_w)` of the `(B, 6, ndof)` result. -/
def jacobianCols {B : ℕ} (T : List (Fin B → M4)) (eef : ℕ) (dfi : List ℕ) (axes : List V3) (types : List ℕ) :
    Except Err (List (Fin B → Fin 6 → ℝ)) := do
  let tee ← tensorAt T eef
  let tdof ← dfi.mapM fun i => tensorAt T i
  pure (List.zipWith (fun (ta : (Fin B → M4) × V3) (ty : ℕ) => fun b =>
    let z := rotPart (ta.1 b) *ᵥ ta.2
    let dp := posPart (tee b) - posPart (ta.1 b)
    let cr := cross z dp
    let jv : V3 := if ty = 1 then cr else z
    let jw : V3 := if ty = 1 then z else 0
    ![jv 0, jv 1, jv 2, jw 0, jw 1, jw 2]) (List.zip tdof axes) types)

/-- l.714-759 `jacobian_tensor(th)` with `ret_eef_pose=True` (without it only the first component is
returned). -/
noncomputable def SerialChain.jacobianTensor (s : SerialChain) {B : ℕ} (th : List (Fin B → ℝ)) :
    Except Err (List (Fin B → Fin 6 → ℝ) × (Fin B → M4)) := do
  let T ← s.chain.fkTensor th
  let J ← jacobianCols T s.eefIdx s.dofFrameIndices s.dofAxes s.dofTypes
  let tee ← tensorAt T s.eefIdx
  pure (J, tee)

/-- `tool_matrix` of shape `(N, 4, 4)` against a batch of `B`: `N = B` or `N = 1`; otherwise l.791 or
(for `B = 1 < N`) the `expand_as` of l.803 raises RuntimeError. -/
def broadcastTool (B : ℕ) (tool : List M4) : Except Err (Fin B → M4) :=
  if h : tool.length = B then .ok fun b => tool[b.val]'(by omega)
  else match tool with
    | [m] => .ok fun _ => m
    | _ => .error .runtimeError

/-- l.761-817 `jacobian(th, locations=tool, ret_eef_pose=True)` with a tool. -/
noncomputable def SerialChain.jacobianTool (s : SerialChain) {B : ℕ} (th : List (Fin B → ℝ)) (tool : List M4) :
    Except Err (List (Fin B → Fin 6 → ℝ) × (Fin B → M4)) := do
  let T ← s.chain.fkTensor th
  let J ← jacobianCols T s.eefIdx s.dofFrameIndices s.dofAxes s.dofTypes
  let tee ← tensorAt T s.eefIdx
  let tm ← broadcastTool B tool
  let teeTool : Fin B → M4 := fun b => tee b * tm b
  let deltaP : Fin B → V3 := fun b => posPart (teeTool b) - posPart (tee b)
  let tdof ← s.dofFrameIndices.mapM fun i => tensorAt T i
  let corr : List (Fin B → V3) := List.zipWith (fun (ta : (Fin B → M4) × V3) (ty : ℕ) => fun b =>
    let z := rotPart (ta.1 b) *ᵥ ta.2
    if ty = 1 then cross z (deltaP b) else 0) (List.zip tdof s.dofAxes) s.dofTypes
  let J' := List.zipWith (fun (col : Fin B → Fin 6 → ℝ) (k : Fin B → V3) => fun b =>
    (![col b 0 + k b 0, col b 1 + k b 1, col b 2 + k b 2, col b 3, col b 4, col b 5] : Fin 6 → ℝ)) J corr
  pure (J', teeTool)

/-- l.788 `tf.Transform3d(pos=locations)` -/
def toolOfPos (p : V3) : M4 := hom 1 p

/-! ## Inputs of `SerialChain.forward_kinematics`, l.819-860 -/

/-- The documented kinds of joint input. -/
inductive JIn where
  /-- a `(B, m)` tensor or array -/
  | tensor (B : ℕ) (cols : List (Fin B → ℝ))
  /-- a 1-D tensor or array -/
  | vec (v : List ℝ)
  /-- a flat Python list -/
  | list (v : List ℝ)
  /-- a list of equally long lists, given by its number of rows and its columns -/
  | nested (rows : ℕ) (cols : List (Fin rows → ℝ))
  /-- a dict of `(B,)` tensors -/
  | dict (B : ℕ) (d : Dict (Option Name) (Fin B → Option ℝ))
  /-- a dict of Python numbers -/
  | dictNum (d : Dict (Option Name) (Option ℝ))

/-- l.172-187 `get_n_joints` -/
def JIn.nJoints : JIn → ℕ
  | .tensor _ c => c.length
  | .vec v => v.length
  | .list v => v.length
  | .nested r _ => r
  | .dict _ d => d.length
  | .dictNum d => d.length

/-- l.189-200 `get_batch_size`, l.213-220 `get_dict_elem_shape`: only whether it raises matters, since
the value is used in the unreachable branch l.846-859 alone. -/
def JIn.batchSizeOk : JIn → Except Err Unit
  | .dict _ [] => .error .indexError
  | .dict _ _ => .ok ()
  -- `()[0]`, or the first key of an empty dict
  | .dictNum _ => .error .indexError
  | _ => .ok ()

/-- Result of FK for one frame: batch size and poses. -/
abbrev FkResult := (B : ℕ) × Dict Name (Fin B → M4)

/-- a single row as a `(1, m)` tensor (`torch.atleast_2d`) -/
def oneRow (v : List ℝ) : List (Fin 1 → ℝ) := v.map fun x _ => x

/-- l.761-817 `jacobian(th, ret_eef_pose=True)` without tool, with the input conversion l.775-778.
`torch.tensor` of a dict raises RuntimeError ("Could not infer dtype of dict"). -/
noncomputable def SerialChain.jacobian (s : SerialChain) (th : JIn) :
    Except Err ((B : ℕ) × (List (Fin B → Fin 6 → ℝ) × (Fin B → M4))) :=
  match th with
  | .tensor B c => do return ⟨B, ← s.jacobianTensor c⟩
  | .vec v => do return ⟨1, ← s.jacobianTensor (oneRow v)⟩
  | .list v => do return ⟨1, ← s.jacobianTensor (oneRow v)⟩
  | .nested r c => do return ⟨r, ← s.jacobianTensor c⟩
  | .dict _ _ => .error .runtimeError
  | .dictNum _ => .error .runtimeError

/-- l.830-860 and l.542-564: `convert_serial_inputs_to_chain_inputs` followed by
`Chain.forward_kinematics`. When fewer values than joints are given, l.846 compares with the number
of moving serial frames, which equals `n_joints` (`Verif/Props/Serial.lean`), so only its error exit
l.850-851 is modelled. -/
noncomputable def SerialChain.fkWith (s : SerialChain) (th : JIn) (fis : Option (List ℕ)) : Except Err FkResult := do
  th.batchSizeOk
  if th.nJoints < s.chain.nJoints ∧ th.nJoints ≠ (s.serialFrames.filter fun f => f.joint.jtype ≠ .fixed).length then
    .error .valueError
  else match th with
    | .tensor B c => do return ⟨B, ← s.chain.forwardKinematics c fis⟩
    | .vec v => do return ⟨1, ← s.chain.forwardKinematics (oneRow v) fis⟩
    | .list v => do return ⟨1, ← s.chain.forwardKinematics (oneRow v) fis⟩
    | .nested r c => do return ⟨r, ← s.chain.forwardKinematics c fis⟩
    | .dict B d => do return ⟨B, ← s.chain.forwardKinematicsDict d fis⟩
    | .dictNum _ => .error .indexError

/-- l.819-828 `forward_kinematics(th, end_only=True)`. -/
noncomputable def SerialChain.fkEnd (s : SerialChain) (th : JIn) : Except Err ((B : ℕ) × (Fin B → M4)) := do
  match s.serialFrames.getLast? with
  | none => .error .indexError
  | some fe =>
    let i ← s.chain.frameToIdx.item fe.name
    let r ← s.fkWith th (some [i])
    let m ← r.2.item fe.name
    return ⟨r.1, m⟩

/-- l.819-828 `forward_kinematics(th, end_only=False)`. -/
noncomputable def SerialChain.fkAll (s : SerialChain) (th : JIn) : Except Err FkResult := s.fkWith th none

end PK
