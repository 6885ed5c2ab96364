import Verif.Model.Transform3d
import Verif.Model.Frame

/-!
# dtype and device of the tensors of a chain

`Chain.__init__`, `Chain.to`, `_fk_impl`, `_FKAnalyticalBackward.backward`, `SerialChain.__init__`, `SerialChain.to`,
`jacobian_tensor` and `jacobian` (`chain.py`), followed line by line for what PyTorch checks of the operands and not for
the values: every tensor is represented by its dtype and its device alone.  The values are in `Model/Chain.lean`,
`Model/Serial.lean` and `Model/Backward.lean`.

PyTorch itself is not in the repository.  Its rules used here, one definition each: `ew`, `trig`, `matmul`, `index`,
`indexPut`, `copyTo`, `whereT`, `stackT`.

Simplifications: shapes are right and `th` has one column per joint (`Props/Fk.lean` treats shapes), so
`th.shape[1] > 0` iff the chain has a moving joint; the frames of a tree are listed in the order in which `__init__`
visits them and only the number of levels of the tree is kept; offsets are plain `Transform3d` objects whose `dtype` and
`device` attributes describe their matrix, so that `Transform3d.to` delivers what it is asked for (`C68`).
-/

namespace PK

/-- torch dtypes that occur: booleans, 64 bit integers, floating point -/
inductive Dt where | bool | i64 | fl (d : DType)
  deriving DecidableEq, Repr

/-- dtype and device of a tensor -/
structure Tag where
  dt : Dt
  dev : Device
  deriving DecidableEq, Repr

/-- `torch.promote_types` on the dtypes that occur -/
def Dt.promote : Dt → Dt → Dt
  | .fl .f64, _ => .fl .f64
  | _, .fl .f64 => .fl .f64
  | .fl .f32, _ => .fl .f32
  | _, .fl .f32 => .fl .f32
  | .i64, _ => .i64
  | _, .i64 => .i64
  | .bool, .bool => .bool

/-- An elementwise operation of two tensors (`+`, `*`, `torch.cross`, `torch.cat` of two): one device, dtypes are
promoted. -/
def ew (a b : Tag) : Except Err Tag :=
  if a.dev = b.dev then .ok ⟨a.dt.promote b.dt, a.dev⟩ else .error .runtimeError

/-- `torch.cos`, `torch.sin`: integers become the default float dtype. -/
def trig (a : Tag) : Tag :=
  match a.dt with
  | .fl d => ⟨.fl d, a.dev⟩
  | _ => ⟨.fl .f32, a.dev⟩

/-- `a @ b` and `torch.einsum`: same dtype and same device, or `RuntimeError`. -/
def matmul (a b : Tag) : Except Err Tag := if a = b then .ok a else .error .runtimeError

/-- `a[i]` with a tensor of indices of one or more dimensions: the indices are on the CPU or where `a` is. -/
def index (a i : Tag) : Except Err Tag :=
  if i.dev = a.dev ∨ i.dev = cpu then .ok a else .error .runtimeError

/-- `a[i] = v` with a tensor of indices: "Index put requires the source and destination dtypes match"; same device. -/
def indexPut (a i v : Tag) : Except Err Tag :=
  if (i.dev = a.dev ∨ i.dev = cpu) ∧ v = a then .ok a else .error .runtimeError

/-- `a[k] = v` with integers and slices copies: `a` keeps its dtype and device, `v` may have any. -/
def copyTo (a _v : Tag) : Tag := a

/-- `a == k` -/
def eqT (a : Tag) : Tag := ⟨.bool, a.dev⟩

/-- `torch.where(c, a, b)`: one device, dtypes are promoted. -/
def whereT (c a b : Tag) : Except Err Tag :=
  if c.dev = a.dev ∧ a.dev = b.dev then .ok ⟨a.dt.promote b.dt, a.dev⟩ else .error .runtimeError

/-- `torch.stack`: at least one tensor, one device, dtypes are promoted. -/
def stackT : List Tag → Except Err Tag
  | [] => .error .runtimeError
  | a :: l => l.foldlM ew a

/-- a tensor of floating dtype `d` on `v` -/
def flTag (d : DType) (v : Device) : Tag := ⟨.fl d, v⟩
/-- a tensor of indices on `v` -/
def ixTag (v : Device) : Tag := ⟨.i64, v⟩

/-- `axis_and_angle_to_matrix_33` (rotation_conversions.py:495-524): every entry is made elementwise from the axis and
the cosine and sine of the angle. -/
def axisAngle33Tag (axis th : Tag) : Except Err Tag := ew axis (trig th)

/-- `axis_and_angle_to_matrix_44` (rotation_conversions.py:475-492): zeros like the axis, into which the rotation is
copied. -/
def axisAngle44Tag (axis th : Tag) : Except Err Tag := do
  let rot ← axisAngle33Tag axis th
  return copyTo axis rot

/-- `axis_and_d_to_pris_matrix` (rotation_conversions.py:452-472). -/
def axisDTag (axis d : Tag) : Except Err Tag := do
  let pos ← ew axis d
  return copyTo axis pos

/-- A `Frame` (frame.py:98-104): joint type, axis of the joint, offset of the link, offset of the joint. -/
structure FrameTags where
  jtype : JType
  axis : Tag
  link : Option Tag
  joint : Option Tag
  deriving DecidableEq, Repr

/-- `Frame.to` (frame.py:120-124, 72-76, 33-36) for the frame itself; axis and offsets are converted, visuals stay. -/
def FrameTags.to (f : FrameTags) (d : DType) (v : Device) : FrameTags :=
  ⟨f.jtype, flTag d v, f.link.map fun _ => flTag d v, f.joint.map fun _ => flTag d v⟩

/-- The tensors of a `Chain`. -/
structure ChainTags where
  dtype : DType
  device : Device
  /-- the frames below `_root`, in the order of the indices -/
  frames : List FrameTags
  identity : Tag
  low : Tag
  high : Tag
  parentsIndices : List Tag
  jointIndices : Tag
  jointTypeIndices : Tag
  axes : Tag
  linkOffsets : List (Option Tag)
  jointOffsets : List (Option Tag)
  directParent : Tag
  bfsLevels : List Tag
  staticOffsets : Tag
  jointIndicesClamped : Tag
  hasRevolute : Bool
  hasPrismatic : Bool
  dofFrameIndices : Tag
  dofAncestorMask : Tag
  dofIsRevolute : Tag
  deriving DecidableEq, Repr

/-- l.230-348 `Chain.__init__(root_frame, dtype, device)` on a tree with the frames `fs` and `levels + 1` levels. -/
def ChainTags.init (fs : List FrameTags) (levels : ℕ) (d : DType) (v : Device) : Except Err ChainTags := do
  let t := flTag d v
  -- l.299-300: no device argument, the tensors are on the CPU
  let jointTypeIndices : Tag := ixTag cpu
  let jointIndices : Tag := ixTag cpu
  -- l.316-322
  let offs ← fs.mapM fun f => matmul (f.link.getD t) (f.joint.getD t)
  let static ← stackT offs
  -- l.347
  let jt ← index jointTypeIndices (ixTag v)
  return {
    dtype := d
    device := v
    frames := fs
    identity := t
    low := t
    high := t
    parentsIndices := fs.map fun _ => ixTag v
    jointIndices := jointIndices
    jointTypeIndices := jointTypeIndices
    axes := fs.foldl (fun a f => if f.jtype = .fixed then a else copyTo a f.axis) t
    linkOffsets := fs.map (·.link)
    jointOffsets := fs.map (·.joint)
    directParent := ixTag v
    bfsLevels := List.replicate (levels + 1) (ixTag v)
    staticOffsets := static
    jointIndicesClamped := jointIndices
    hasRevolute := fs.any fun f => f.jtype = .revolute
    hasPrismatic := fs.any fun f => f.jtype = .prismatic
    dofFrameIndices := ixTag v
    dofAncestorMask := t
    dofIsRevolute := eqT jt }

/-- l.350-377 `Chain.to(dtype=None, device=None)`; `.to(device=…)` without a dtype keeps the dtype. -/
def ChainTags.to (c : ChainTags) (d : Option DType) (v : Option Device) : ChainTags :=
  let d' := d.getD c.dtype
  let v' := v.getD c.device
  let t := flTag d' v'
  { c with
    dtype := d'
    device := v'
    frames := c.frames.map (·.to d' v')
    identity := t
    parentsIndices := c.parentsIndices.map fun _ => ixTag v'
    jointTypeIndices := ixTag v'
    jointIndices := ixTag v'
    axes := t
    linkOffsets := c.linkOffsets.map (Option.map fun _ => t)
    jointOffsets := c.jointOffsets.map (Option.map fun _ => t)
    low := t
    high := t
    directParent := ⟨c.directParent.dt, v'⟩
    bfsLevels := c.bfsLevels.map fun l => ⟨l.dt, v'⟩
    staticOffsets := t
    jointIndicesClamped := ⟨c.jointIndicesClamped.dt, v'⟩
    dofFrameIndices := ⟨c.dofFrameIndices.dt, v'⟩
    dofAncestorMask := t
    dofIsRevolute := ⟨c.dofIsRevolute.dt, v'⟩ }

/-- l.54-79: the joint transform of every frame. -/
def ChainTags.jointTransforms (c : ChainTags) (th : Tag) : Except Err Tag := do
  let rev ← if c.hasRevolute then axisAngle44Tag c.axes th >>= fun r => index r c.jointIndicesClamped else .ok th
  let pris ← if c.hasPrismatic then axisDTag c.axes th >>= fun r => index r c.jointIndicesClamped else .ok th
  if c.hasRevolute ∧ ¬ c.hasPrismatic then whereT (eqT c.jointTypeIndices) rev th
  else if c.hasPrismatic ∧ ¬ c.hasRevolute then whereT (eqT c.jointTypeIndices) pris th
  else if c.hasRevolute ∧ c.hasPrismatic then do
    let j ← whereT (eqT c.jointTypeIndices) rev th
    whereT (eqT c.jointTypeIndices) pris j
  else .ok th

/-- l.88-91: one level after the other. -/
def fkLevelsTag (directParent localT : Tag) : List Tag → Tag → Except Err Tag
  | [], T => .ok T
  | l :: ls, T => do
    let parents ← index directParent l
    let a ← index T parents
    let b ← index localT l
    let m ← matmul a b
    let T ← indexPut T l m
    fkLevelsTag directParent localT ls T

/-- l.13-93 `_fk_impl`, for `forward_kinematics_tensor(th)` (l.507-540). -/
def ChainTags.fk (c : ChainTags) (th : Tag) : Except Err Tag := do
  let jts ← c.jointTransforms th
  let localT ← matmul c.staticOffsets jts
  match c.bfsLevels with
  | [] => .error .indexError
  | l :: ls =>
    let r ← index localT l
    let T ← indexPut th l r
    fkLevelsTag c.directParent localT ls T

/-- l.130-169 `_FKAnalyticalBackward.backward`; `T` is the saved result, `g` the incoming gradient. -/
def ChainTags.backward (c : ChainTags) (T g : Tag) : Except Err Tag := do
  let m ← matmul T g
  let tau ← ew m m
  let tdof ← index T c.dofFrameIndices
  let z ← matmul tdof c.axes
  let sumTau ← matmul c.dofAncestorMask tau
  let sumG ← matmul c.dofAncestorMask g
  let cr ← ew T g
  let sumCross ← matmul c.dofAncestorMask cr
  let s ← ew sumTau sumCross
  let oc ← ew tdof sumG
  let s ← ew s oc
  let revGrad ← ew z s
  let prisGrad ← ew z sumG
  whereT c.dofIsRevolute revGrad prisGrad

/-- The joint values handed to `forward_kinematics`: a tensor, or a list, an array or a dict. -/
inductive ThArg where
  | tensor (t : Tag)
  | data
  deriving DecidableEq, Repr

/-- l.566-589 `ensure_tensor`: lists and arrays become tensors of the chain's dtype and device; the values of a dict are
copied into one. -/
def ChainTags.ensureTensor (c : ChainTags) : ThArg → Tag
  | .tensor t => t
  | .data => flTag c.dtype c.device

/-- l.542-564 `forward_kinematics`: the tag of the matrix of the returned transforms; their `dtype` and `device`
attributes are taken from it (transform3d.py:187, 214-216). -/
def ChainTags.forwardKinematics (c : ChainTags) (th : ThArg) : Except Err Tag := c.fk (c.ensureTensor th)

/-- l.595-605 `clamp` -/
def ChainTags.clamp (c : ChainTags) (th : ThArg) : Except Err Tag := do
  let a ← ew (c.ensureTensor th) c.low
  ew a c.high

/-- The tensors of a `SerialChain`. -/
structure SerialTags extends ChainTags where
  serialDofFrameIndices : Tag
  serialDofAxes : Tag
  serialDofTypes : Tag
  deriving DecidableEq, Repr

/-- `Joint()` (frame.py:47-66) has the default dtype and device and no offset. -/
def FrameTags.resetRoot (_f : FrameTags) : FrameTags := ⟨.fixed, flTag .f32 cpu, none, none⟩

/-- l.666-684: the copies of the frames from the root to the end, the first one reset. -/
def serialFramesTag : List FrameTags → List FrameTags
  | [] => []
  | f :: fs => f.resetRoot :: fs

/-- l.691-703 `_serial_dof_axes`: the axes of the moving joints, stacked and converted. -/
def serialAxesTag (frames : List FrameTags) (d : DType) (v : Device) : Except Err Tag :=
  match (frames.filter fun f => f.jtype ≠ .fixed).map (·.axis) with
  | [] => .ok (flTag d v)
  | axes => stackT axes >>= fun _ => .ok (flTag d v)

/-- l.656-705 `SerialChain.__init__(chain, end, root, **kwargs)`.  `sub`: the frames below the root frame; `levels`: the
levels below it; `path`: the frames from it to the end; which frames these are is in `Model/Serial.lean`. -/
def SerialTags.init (sub : List FrameTags) (levels : ℕ) (path : List FrameTags) (d : DType) (v : Device) :
    Except Err SerialTags := do
  let _ ← ChainTags.init sub levels d v
  let c ← ChainTags.init (serialFramesTag path) (path.length - 1) d v
  let dofAxes ← serialAxesTag (serialFramesTag path) d v
  return { c with
    serialDofFrameIndices := ixTag v
    serialDofAxes := dofAxes
    serialDofTypes := ixTag v }

/-- l.707-712 `SerialChain.to` -/
def SerialTags.to (s : SerialTags) (d : Option DType) (v : Option Device) : SerialTags :=
  let c := s.toChainTags.to d v
  { c with
    serialDofFrameIndices := ⟨s.serialDofFrameIndices.dt, c.device⟩
    serialDofAxes := flTag c.dtype c.device
    serialDofTypes := ⟨s.serialDofTypes.dt, c.device⟩ }

/-- l.714-761 `jacobian_tensor`, after the transforms `T` are computed; the result is the Jacobian. -/
def SerialTags.jacobianOf (s : SerialTags) (T : Tag) : Except Err Tag := do
  let tdof ← index T s.serialDofFrameIndices
  let z ← matmul tdof s.serialDofAxes
  let dp ← ew T tdof
  let cr ← ew z dp
  let jv ← whereT (eqT s.serialDofTypes) cr z
  let jw ← whereT (eqT s.serialDofTypes) z z
  ew jv jw

/-- The argument `locations` of `jacobian`: a tensor, a list, or a `Transform3d`. -/
inductive Locations where
  | tensor (t : Tag)
  | data
  | transform (t : Tag)
  deriving DecidableEq, Repr

/-- `Transform3d(pos=locations)` (transform3d.py:178-201) with the default dtype and device: float32 matrices on the CPU;
a list becomes a tensor of these, a tensor stays as it is; the homogeneous coordinate and the matrix are joined to it by
`torch.cat`. -/
def toolOf : Locations → Except Err Tag
  | .transform t => .ok t
  | .data => .ok (flTag .f32 cpu)
  | .tensor t => do
    let posH ← ew t (flTag .f32 cpu)
    ew (flTag .f32 cpu) posH

/-- l.763-819 `jacobian(th, locations)`; `th` is a tensor or a list. -/
def SerialTags.jacobian (s : SerialTags) (th : ThArg) (loc : Option Locations) : Except Err Tag := do
  let T ← s.fk (s.ensureTensor th)
  let J ← s.jacobianOf T
  match loc with
  | none => return J
  | some loc =>
    let tool ← toolOf loc
    -- l.795-796: same dtype and device after the conversion
    let tool := if tool ≠ flTag s.dtype s.device then flTag s.dtype s.device else tool
    let tt ← matmul T tool
    let delta ← ew tt T
    let tdof ← index T s.serialDofFrameIndices
    let z ← matmul tdof s.serialDofAxes
    let corr ← ew z delta
    let corr ← whereT (eqT s.serialDofTypes) corr corr
    let J' ← ew J corr
    return copyTo J J'

end PK
