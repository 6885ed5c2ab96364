import Verif.Model.Tags

/-!
# dtype and device in the inverse kinematics

`ik.py`, followed for the dtype and device of the tensors only (see `Model/Tags.lean`); the values are in `Model/IK.lean`
and `Model/IKObj.lean`.

Simplifications: how many iterations run, and how many steps a line search makes, depends on values; here they are
arguments and the theorems hold for all of them.  `torch.linalg.solve` has the rule of `matmul`.  Not modelled:
`debug=True` (plots), `use_compile=True`.  Calls of `matrix_to_quaternion`, `quaternion_invert`,
`quaternion_to_axis_angle` and `standardize_quaternion` keep the tag of their argument: they make their constants with
`torch.full(…, dtype=q_abs.dtype, device=q_abs.device)` and `new_tensor` (rotation_conversions.py:101-154, 360-372,
426, 590-613).
-/

namespace PK

/-- l.397-428 `delta_pose`, and l.39-47 and 95-103: the pose error. -/
def deltaPoseTag (m target : Tag) : Except Err Tag := do
  let posDiff ← ew target m
  let rotDiff ← ew target m
  ew posDiff rotDiff

/-- l.13-66 `_ik_step_kernel`: joint step and pose error.  `damped`: `lm_damping > 0`. -/
def ikStepTag (damped : Bool) (m target J reg w : Tag) : Except Err (Tag × Tag) := do
  let dx ← deltaPoseTag m target
  let jw ← ew w J
  let dxw ← ew w dx
  let a ← matmul jw jw
  let a ← ew a reg
  let tmpA ← if damped then do
      let me ← ew dxw J
      ew a me
    else .ok a
  let A ← matmul tmpA dxw
  let dq ← matmul jw A
  return (dq, dx)

/-- l.69-129 `_ik_step_kernel_svd` -/
def ikStepSvdTag (damped : Bool) (m target J reg w : Tag) : Except Err (Tag × Tag) := do
  let dx ← deltaPoseTag m target
  let jw ← ew w J
  let dxw ← ew w dx
  let r ← if damped then ew reg dxw else .ok reg
  let denom ← ew jw r
  let prod ← ew jw denom
  let vi ← matmul jw prod
  let total ← matmul vi jw
  let dq ← matmul total dxw
  return (dq, dx)

/-- l.132-160 the tensors of an `IKSolution` -/
structure SolTags where
  solutions : Tag
  errPos : Tag
  errRot : Tag
  remaining : Tag
  convergedPos : Tag
  convergedRot : Tag
  converged : Tag
  convergedAny : Tag
  deriving DecidableEq, Repr

/-- l.142-160 -/
def SolTags.init (d : DType) (v : Device) : SolTags :=
  ⟨flTag d v, flTag d v, flTag d v, ⟨.bool, v⟩, ⟨.bool, v⟩, ⟨.bool, v⟩, ⟨.bool, v⟩, ⟨.bool, v⟩⟩

/-- l.166-195 `IKSolution.update(q, err, use_keep_mask)` -/
def SolTags.update (s : SolTags) (q err : Tag) (useKeepMask : Bool) : Except Err SolTags := do
  let conv := eqT err
  let remaining ← if useKeepMask then ew s.remaining conv else .ok s.remaining
  let solutions ← whereT s.converged q s.solutions
  let errPos ← whereT s.converged err s.errPos
  let errRot ← whereT s.converged err s.errRot
  let convergedPos ← ew s.convergedPos conv
  let convergedRot ← ew s.convergedRot conv
  let converged ← ew s.converged conv
  let convergedAny ← ew s.convergedAny conv
  return ⟨solutions, errPos, errRot, remaining, convergedPos, convergedRot, converged, convergedAny⟩

/-- The argument `config_sampling_method` (l.374-386): uniform within `joint_limits` of a tag, gaussian, or a callable
returning a tensor of a tag. -/
inductive SamplingTag where
  | uniform (limits : Tag)
  | gaussian
  | callable (t : Tag)
  deriving DecidableEq, Repr

/-- l.374-386 `sample_configs`: `torch.rand` and `torch.randn` are called with a device and without a dtype, which gives
float32. -/
def sampleTag (device : Device) : SamplingTag → Except Err Tag
  | .uniform limits => do
    let range ← ew limits limits
    let r ← ew (flTag .f32 device) range
    ew r limits
  | .gaussian => .ok (flTag .f32 device)
  | .callable t => .ok t

/-- Options of a solver and the choices left open: which kernel, damping, line search with its number of steps, clamping,
limits, iterations. -/
structure SolveOpts where
  svd : Bool
  damped : Bool
  /-- `early_stopping_any_converged` -/
  keepMask : Bool
  /-- `early_stopping_no_improvement is not None` -/
  noImprove : Bool
  lineSearch : Option ℕ
  clamp : Bool
  /-- `enforce_joint_limits` and the chain has a finite limit; with the number of refinements -/
  limits : Option ℕ
  /-- iterations that run -/
  iters : ℕ

/-- The tensors of a `PseudoInverseIK` (l.318-366, 443-457). -/
structure SolverTags where
  chain : SerialTags
  device : Device
  revoluteMask : Tag
  taskWeight : Tag
  regMatrix : Tag
  initialConfig : Tag
  deriving DecidableEq, Repr

/-- l.318-366, 443-457 with `retry_configs` given -/
def SolverTags.withConfigs (c : SerialTags) (configs : Tag) : SolverTags :=
  ⟨c, c.device, ⟨.bool, c.device⟩, flTag c.dtype c.device, flTag c.dtype c.device, configs⟩

/-- l.318-366, 443-457 with sampled configurations -/
def SolverTags.sampled (c : SerialTags) (sampling : SamplingTag) : Except Err SolverTags := do
  let configs ← sampleTag c.device sampling
  return SolverTags.withConfigs c configs

/-- `self._jacobian_fn(q, True)`, then `self._ik_step_fn(…)` -/
def SolverTags.step (s : SolverTags) (o : SolveOpts) (q target : Tag) : Except Err (Tag × Tag) := do
  let T ← s.chain.fk q
  let J ← s.chain.jacobianOf T
  if o.svd then ikStepSvdTag o.damped T target J s.regMatrix s.taskWeight
  else ikStepTag o.damped T target J s.regMatrix s.taskWeight

/-- l.236-261: steps of the line search; the learning rate keeps its tag (`lr[~improved] *= …`). -/
def lineSearchSteps (c : ChainTags) (lr q dq target err remaining : Tag) : ℕ → Except Err Unit
  | 0 => .ok ()
  | k + 1 => do
    let sdq ← ew lr dq
    let qNew ← ew q sdq
    let m ← c.fk qNew
    let dx ← deltaPoseTag m target
    let imp ← ew err dx
    let _ ← index lr (eqT imp)
    let remaining ← ew remaining (eqT imp)
    lineSearchSteps c lr q dq target err remaining k

/-- l.222-265 `do_line_search`: `torch.ones(NM, device=q.device)` is float32. -/
def lineSearchTag (c : ChainTags) (q dq target dx problemRemaining : Tag) (steps : ℕ) : Except Err Tag := do
  let lr := flTag .f32 q.dev
  let remaining ← index ⟨.bool, q.dev⟩ problemRemaining
  lineSearchSteps c lr q dq target dx remaining steps
  return lr

/-- l.507-530: what the no-improvement rule does to `remaining`; its own tensors are made from the error. -/
def noImproveTag (on : Bool) (sol : SolTags) (err : Tag) : Except Err SolTags :=
  if on then do
    let remaining ← ew sol.remaining (eqT err)
    return { sol with remaining := remaining }
  else .ok sol

/-- l.539-547: the step, with the learning rate or with a line search. -/
def stepTag (c : ChainTags) (lineSearch : Option ℕ) (q dq dx target : Tag) (sol : SolTags) : Except Err Tag :=
  match lineSearch with
  | none => ew q dq
  | some k => do
    let lr ← lineSearchTag c q dq target dx sol.remaining k
    let sdq ← ew lr dq
    ew q sdq

/-- `torch.clamp(q, self.chain.low, self.chain.high)` -/
def clampTag (c : ChainTags) (q : Tag) : Except Err Tag := do
  let a ← ew q c.low
  ew a c.high

/-- l.538-549: the step of the joint values. -/
def stepQTag (s : SolverTags) (o : SolveOpts) (q dq dx target : Tag) (sol : SolTags) : Except Err Tag := do
  let q ← stepTag s.chain.toChainTags o.lineSearch q dq dx target sol
  if o.clamp then clampTag s.chain.toChainTags q else .ok q

/-- l.490-549: the iterations. -/
def solveLoop (s : SolverTags) (o : SolveOpts) (target : Tag) : ℕ → Tag → SolTags → Except Err (Tag × SolTags)
  | 0, q, sol => .ok (q, sol)
  | k + 1, q, sol => do
    let (dq, dx) ← s.step o q target
    let sol ← sol.update q dx o.keepMask
    let sol ← noImproveTag o.noImprove sol dx
    let q ← stepQTag s o q dq dx target sol
    solveLoop s o target k q sol

/-- l.593-607 `_wrap_revolute_joints` -/
def wrapTag (s : SolverTags) (q : Tag) : Except Err Tag := do
  let center ← ew s.chain.low s.chain.high
  let n ← ew center q
  let a ← index q s.revoluteMask
  let b ← index n s.revoluteMask
  let v ← ew a b
  indexPut q s.revoluteMask v

/-- l.624-630: the refinement iterations. -/
def refineTag (s : SolverTags) (o : SolveOpts) (target : Tag) : ℕ → Tag → Except Err Tag
  | 0, q => .ok q
  | k + 1, q => do
    let (dq, _) ← s.step o q target
    let q ← ew q dq
    let q ← clampTag s.chain.toChainTags q
    refineTag s o target k q

/-- l.609-642 `_enforce_limits` -/
def enforceTag (s : SolverTags) (o : SolveOpts) (target : Tag) (n : ℕ) (sol : SolTags) : Except Err SolTags := do
  let q ← wrapTag s sol.solutions
  let q ← clampTag s.chain.toChainTags q
  let q ← refineTag s o target n q
  let (_, dx) ← s.step o q target
  sol.update q dx false

/-- l.459-587 `solve(target_poses)`; `target` is the tag of the matrix of the poses. -/
def SolverTags.solve (s : SolverTags) (o : SolveOpts) (target : Tag) : Except Err SolTags := do
  let (q, sol) ← solveLoop s o target o.iters s.initialConfig (SolTags.init s.chain.dtype s.device)
  let (_, dx) ← s.step o q target
  let sol ← sol.update q dx o.keepMask
  match o.limits with
  | none => return sol
  | some n => enforceTag s o target n sol

end PK
