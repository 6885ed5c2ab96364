import Verif.Model.Math
import Verif.Model.RotConv
import Mathlib.Logic.Relation
import Mathlib.Logic.Function.Basic

/-!
What autograd records about tensors, and when it refuses.

A tensor has a memory block (`storage`), the flag `requires_grad`, the node of the graph that produced it (`fn`; none for leaves and for
tensors without gradient) and a mark for the outputs of `unbind`, which are views that may not be written to once gradients are involved.
Every memory block counts the writes to it (`ver`).  A node lists the nodes of its arguments and the memory blocks it keeps for the
backward pass with their counts at that time.  Values are left out; where the code branches on values, the branch is decided by the
value model.

PyTorch's rules, of `torch/csrc/autograd` (`check_inplace`, `SavedVariable::unpack`), are `push`, `inplace` and `backward`.
Simplifications: a group of operations that writes to nothing is one operation that keeps all of its arguments (its intermediate results
are new memory nobody else sees); a write to a slice of a tensor is a write to the tensor; every operation allocates a node, which
nothing points to if no argument requires a gradient; writing to a view other than an output of `unbind` is not modelled; grad mode is on.
-/

namespace PK.AG

/-- what autograd knows about a tensor -/
structure TInfo where
  storage : ℕ
  req : Bool
  fn : Option ℕ
  multi : Bool

/-- a node of the graph: the nodes of its arguments, and the memory it keeps with the number of writes so far -/
structure Node where
  next : List ℕ
  saved : List (ℕ × ℕ)

/-- all tensors, the graph, and the number of writes to every memory block; `nt`, `nn`, `ns` are the first unused names -/
structure St where
  tens : ℕ → TInfo
  nt : ℕ
  node : ℕ → Node
  nn : ℕ
  ver : ℕ → ℕ
  ns : ℕ

/-- A computation that reads and changes the state and may raise. -/
abbrev G := StateT St (Except Err)

/-- some argument requires a gradient -/
def anyReq (s : St) (l : List ℕ) : Bool := l.any fun i => (s.tens i).req

/-- the node of a new operation with arguments `ins` that keeps `saves` -/
def mkNode (s : St) (ins saves : List ℕ) : Node :=
  ⟨ins.filterMap fun i => (s.tens i).fn, saves.map fun i => ((s.tens i).storage, s.ver (s.tens i).storage)⟩

/-- A new tensor computed from `ins`; in memory of its own, or in that of the tensor `of` it is a view of. -/
def pushWith (of : Option ℕ) (multi : Bool) (ins saves : List ℕ) : G ℕ := fun s =>
  .ok (s.nt,
    { tens := Function.update s.tens s.nt
        ⟨(of.map fun t => (s.tens t).storage).getD s.ns, anyReq s ins, if anyReq s ins then some s.nn else none, multi⟩
      nt := s.nt + 1
      node := Function.update s.node s.nn (mkNode s ins saves)
      nn := s.nn + 1
      ver := s.ver
      ns := s.ns + 1 })

/-- an operation with a result in new memory -/
def push (ins saves : List ℕ) : G ℕ := pushWith none false ins saves
/-- `torch.zeros`, `torch.empty`, `torch.eye`, `torch.randn`: no arguments -/
def fresh : G ℕ := push [] []
/-- an output of `torch.unbind(t)` -/
def unbind (t : ℕ) : G ℕ := pushWith (some t) true [t] []
/-- a slice `t[..., :3]`, `t.transpose(…)`: a view -/
def view (t : ℕ) : G ℕ := pushWith (some t) false [t] []
/-- `a * b`, `a @ b`: each factor is kept if the other requires a gradient -/
def mul (a b : ℕ) : G ℕ := fun s =>
  push [a, b] ((if (s.tens a).req then [b] else []) ++ if (s.tens b).req then [a] else []) s

/-- A write to `t` of something computed from `ins`.  Raises if gradients are involved and `t` is an output of `unbind`, or a leaf that requires
a gradient. -/
def inplace (t : ℕ) (ins : List ℕ) : G Unit := fun s =>
  let r := (s.tens t).req || anyReq s ins
  if r && ((s.tens t).multi || ((s.tens t).req && (s.tens t).fn.isNone)) then .error .runtimeError
  else .ok ((), { s with
    tens := Function.update s.tens t { s.tens t with req := r, fn := if r then some s.nn else none }
    node := Function.update s.node s.nn (mkNode s (t :: ins) [])
    nn := s.nn + 1
    ver := Function.update s.ver (s.tens t).storage (s.ver (s.tens t).storage + 1) })

/-- `m` is an argument of the operation `n` -/
def Edge (s : St) (n m : ℕ) : Prop := m ∈ (s.node n).next

open scoped Classical in
/-- `t.sum().backward()`, up to what it computes: raises if `t` does not require a gradient, and if some node of its graph kept memory that
was written to since. -/
noncomputable def backward (t : ℕ) (s : St) : Except Err Unit :=
  if (s.tens t).req = false then .error .runtimeError
  else if ∃ n ∈ (s.tens t).fn, ∃ m, Relation.ReflTransGen (Edge s) n m ∧ ∃ p ∈ (s.node m).saved, s.ver p.1 ≠ p.2 then .error .runtimeError
  else .ok ()

/-- l.747-748 `if parity: aj = -aj`: a new tensor -/
def negIf (c : Bool) (a : ℕ) : G ℕ := if c then push [a] [] else pure a
/-- l.774-775 `if parity: q[..., j] *= -1.0` -/
def writeIf (c : Bool) (q : ℕ) : G Unit := if c then inplace q [] else pure ()

/-- rotation_conversions.py l.724-777 `quaternion_from_euler`; the entries l.752-773 are one operation on the three halved angles. -/
def quaternionFromEuler (rpy : ℕ) (axes : List Char) : G ℕ :=
  match axes2tuple.lookup (axes.map Char.toLower) with
  | none => throw .keyError
  | some (_, parity, _, frame) => do
    let a0 ← unbind rpy
    let a1 ← unbind rpy
    let a2 ← unbind rpy
    let ai := if frame ≠ 0 then a2 else a0
    let ak := if frame ≠ 0 then a0 else a2
    let aj ← negIf (parity ≠ 0) a1
    inplace ai []
    inplace aj []
    inplace ak []
    let e ← push [ai, aj, ak] [ai, aj, ak]
    let q ← fresh
    inplace q [e]
    writeIf (parity ≠ 0) q
    pure q

open scoped Classical in
/-- math.py l.48-79 `quaternion_slerp`; the test l.67 is that of the value model on the quaternions `v1`, `v2` the tensors hold. -/
noncomputable def quaternionSlerp {N : ℕ} (v1 v2 : Fin N → Quat) (q1 q2 t : ℕ) : G ℕ := do
  let p ← mul q1 q2
  let c ← push [p] []
  let i2 ← push [q2] []
  let n2 ← push [i2] []
  inplace q2 [n2]
  let ic ← push [c] []
  let nc ← push [ic] []
  inplace c [nc]
  if ∀ n, 1 - 1e-6 < slerpCos v1 v2 n then
    let d ← push [q2, q1] []
    let e ← mul t d
    push [q1, e] []
  else
    let theta ← push [c] [c]
    let w1 ← push [t, theta] [t, theta]
    let w2 ← push [t, theta] [t, theta]
    let a ← mul w1 q1
    let b ← mul w2 q2
    push [a, b] []

/-- perturbation.py l.31-32: the translations `dt` are made perpendicular to the axis `a`, in place, if asked for -/
def makePerpendicular (dt a : ℕ) : Bool → G Unit
  | true => do
    let p ← mul dt a
    let u ← push [p] []
    let w ← mul u a
    inplace dt [w]
  | false => pure ()

/-- perturbation.py l.27-36: the axis to turn about, given or drawn -/
def pickAxis (dt : ℕ) (ax : Option ℕ) (perp : Bool) : G ℕ :=
  match ax with
  | some a => do
    makePerpendicular dt a perp
    pure a
  | none => do
    let r3 ← fresh
    push [r3] [r3]

/-- perturbation.py l.5-45 `sample_perturbations`: `T` the transform, `rs` and `ts` the standard deviations (tensors, or numbers, which are
tensors without gradient), `ax` the axis of rotation if one is given, `perp` the last argument. -/
def samplePerturbations (T rs ts : ℕ) (ax : Option ℕ) (perp : Bool) : G ℕ := do
  let out ← fresh
  let r1 ← fresh
  let dt ← mul r1 ts
  let r2 ← fresh
  let theta ← mul r2 rs
  let a ← pickAxis dt ax perp
  let R ← push [a, theta] [a, theta]
  let TR ← view T
  let RT ← mul R TR
  inplace out [RT]
  let Tt ← view T
  inplace out [Tt]
  inplace out [dt]
  pure out

/-- math.py l.13-37 `quaternion_angular_distance`; the steps l.25-31 are one operation. `quaternion_close` (l.34) yields truth values, which
have no gradient. -/
def quaternionAngularDistance (q1 q2 : ℕ) : G ℕ := do
  let p ← mul q1 q2
  let c ← push [p] []
  let theta ← push [c] [c]
  inplace theta []
  pure theta

/-- math.py l.82-139 `acos_linear_extrapolation`, bounds accepted -/
def acosLinearExtrapolation (x : ℕ) : G ℕ := do
  let y ← fresh
  let xm ← push [x] []
  let ym ← push [xm] [xm]
  inplace y [ym]
  let xu ← push [x] []
  let yu ← push [xu] []
  inplace y [yu]
  let xl ← push [x] []
  let yl ← push [xl] []
  inplace y [yl]
  pure y

/-- Filling a new matrix from parts, each one a view or the result of operations on the argument that keep it: rotation_conversions.py
l.664-670 `se3_9d_to_matrix44`, l.681-687 `pos_rot_to_matrix`, l.466-472 `axis_and_d_to_pris_matrix`, l.487-492
`axis_and_angle_to_matrix_44`, so3.py l.240-252 `hat`, transform3d.py l.495-499, l.533-539, l.579-584 the matrices of `Translate`, `Scale`
and `Rotate`.  `parts` lists the arguments, with `true` for those that are copied from a view. -/
def fillPart (isView : Bool) (a : ℕ) : G ℕ := if isView then view a else push [a] [a]

/-- the writes of the parts into the matrix, see `fillPart` -/
def fillMatrix : List (Bool × ℕ) → ℕ → G Unit
  | [], _ => pure ()
  | (isView, a) :: parts, m => do
    let p ← fillPart isView a
    inplace m [p]
    fillMatrix parts m

/-- a new matrix filled from parts -/
def matrixFrom (parts : List (Bool × ℕ)) : G ℕ := do
  let m ← fresh
  fillMatrix parts m
  pure m

/-- transform3d.py l.263-274 `_invert_transformation_matrix` -/
def invertMatrix (T : ℕ) : G ℕ := do
  let Tinv ← push [T] []
  let R ← view T
  let t ← view T
  inplace Tinv [R]
  let Ri ← view Tinv
  let n ← push [Ri] []
  let nt ← mul n t
  inplace Tinv [nt]
  pure Tinv

/-- chain.py l.88-91, the loop of `_fk_impl` over the levels below the first -/
def fkLevels (Tw loc : ℕ) : ℕ → G Unit
  | 0 => pure ()
  | d + 1 => do
    let p ← push [Tw] []
    let l ← push [loc] []
    let m ← mul p l
    inplace Tw [m]
    fkLevels Tw loc d

/-- chain.py l.49-93 `_fk_impl` on joint values `th`, offsets `off` and axes `axes`, for a robot with `levels + 1` levels -/
def fkImpl (th off axes levels : ℕ) : G ℕ := do
  let j ← push [axes, th] [axes, th]
  let loc ← mul off j
  let Tw ← fresh
  let l0 ← push [loc] []
  inplace Tw [l0]
  fkLevels Tw loc levels
  pure Tw

/-- chain.py l.785-812 `SerialChain.jacobian` with a tool: `J` the Jacobian without tool (l.784), `all` the matrices of all frames, `tool` the
matrix of the tool -/
def jacobianTool (J all tool : ℕ) : G ℕ := do
  let Te ← push [all] []
  let Tt ← mul Te tool
  let dp ← push [Tt, Te] []
  let Td ← push [all] []
  let z ← push [Td] []
  let cor ← mul z dp
  let cor' ← push [cor] []
  let J' ← push [J] []
  let Jv ← view J'
  let sum ← push [Jv, cor'] []
  inplace J' [sum]
  pure J'

end PK.AG
