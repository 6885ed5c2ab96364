import Verif.Model.Transform3d

/-!
# Storage of the matrices of `Transform3d` objects (`transforms/transform3d.py`)

`Model/Transform3d.lean` treats a transform as a value.  Here its matrix is a tensor with a storage that several objects
may share: `Transform3d(matrix=m)` (l.178-189, `matrix.view(-1, 4, 4)`), `get_matrix()` (l.251-255), `t[i]` (l.223-224)
and `to` (l.445-468, `self._matrix.to(…)`) do not copy, and a caller can write to a tensor it holds
(`m[0, 1, 3] = 5.0`, `m += …`).

What a call computes is taken from `Model/Transform3d.lean`; what is added is where the result is stored.  PyTorch rules
used: `torch.cat`, `bmm`, `clone`, arithmetic and `permute(…).contiguous()` of 4×4 matrices give a new storage; `view`,
integer indices and slices share it; an index list copies; `Tensor.to` copies exactly when dtype or device differ.

Not modelled: attributes assigned by the caller (`t.device = …`), non-contiguous tensors as `matrix` (for which `view` can
raise), negative indices and slices with a step, points and normals (their results are new tensors).
-/

namespace PK
noncomputable section

/-- A tensor of 4×4 matrices: its storage, the matrices of the storage that it shows, dtype and device. -/
structure MTensor where
  store : ℕ
  rows : List ℕ
  dtype : DType
  device : Device

/-- A `Transform3d` object: class, `_matrix`, and the attributes `dtype` and `device`. -/
structure TObj where
  kind : TKind
  mat : MTensor
  dtype : DType
  device : Device

/-- Storages, the tensors that the caller holds, and the transforms. -/
structure TWorld where
  stores : List (List M4) := []
  tensors : List MTensor := []
  transforms : List TObj := []

/-- the values a tensor shows -/
def TWorld.read (w : TWorld) (m : MTensor) : List M4 := m.rows.map fun r => (w.stores.getD m.store []).getD r 0

/-- the value of a transform in the sense of `Model/Transform3d.lean` -/
def TWorld.value (w : TWorld) (t : TObj) : T3 :=
  ⟨t.kind, w.read t.mat, t.mat.dtype, t.mat.device, t.dtype, t.device⟩

/-- a transform held by the caller -/
def TWorld.transform (w : TWorld) (i : ℕ) : Except Err TObj :=
  match w.transforms[i]? with
  | some t => .ok t
  | none => .error .unmodelled

/-- a tensor held by the caller -/
def TWorld.tensor (w : TWorld) (i : ℕ) : Except Err MTensor :=
  match w.tensors[i]? with
  | some t => .ok t
  | none => .error .unmodelled

/-- a transform whose matrix is a tensor that exists already -/
def TWorld.addAlias (w : TWorld) (t : TObj) : TWorld := { w with transforms := w.transforms ++ [t] }

/-- a transform with a new storage -/
def TWorld.addFresh (w : TWorld) (t : T3) : TWorld :=
  { w with
    stores := w.stores ++ [t.mats]
    transforms := w.transforms ++
      [⟨t.kind, ⟨w.stores.length, List.range t.mats.length, t.mdtype, t.mdevice⟩, t.dtype, t.device⟩] }

/-- `Transform3d(matrix=m)` without `pos` and `rot` (l.186-189, 214-216): device and dtype are those of the tensor -/
def ofTensor (m : MTensor) : TObj := ⟨.plain, m, m.dtype, m.device⟩

/-- The argument of `t[…]` -/
inductive Item where
  | int (i : ℕ)
  | slice (start stop : ℕ)
  | list (is : List ℕ)

/-- `self.get_matrix()[item]` for an integer or a slice: the same storage -/
def MTensor.sub (m : MTensor) : Item → Except Err MTensor
  | .int i => match m.rows[i]? with
    | some r => .ok { m with rows := [r] }
    | none => .error .indexError
  | .slice a b => .ok { m with rows := (m.rows.take b).drop a }
  | .list _ => .error .unmodelled

/-- `self.get_matrix()[is]` with a list of indices: the values -/
def pickMats (ms : List M4) (is : List ℕ) : Except Err (List M4) :=
  is.mapM fun i => match ms[i]? with
    | some m => .ok m
    | none => .error .indexError

/-- One statement of a program.  Numbers refer to the tensors and transforms obtained so far, in order. -/
inductive TOp where
  /-- the caller makes a tensor -/
  | newTensor (ms : List M4) (dtype : DType) (device : Device)
  /-- the caller writes a matrix of a tensor -/
  | write (tensor k : ℕ) (m : M4)
  /-- `Transform3d(matrix=m)` -/
  | ofMatrix (tensor : ℕ)
  /-- `Transform3d(pos=…, rot=…)` and `default_batch_size` -/
  | init (n : ℕ) (pos : Option PosArg) (rot : Option RotArg) (dtype : DType) (device : Device)
  | getMatrix (t : ℕ)
  | getItem (t : ℕ) (i : Item)
  | compose (t : ℕ) (others : List ℕ)
  | inverse (t : ℕ)
  | stack (t : ℕ) (others : List ℕ)
  | translate (t : ℕ) (x : CoordX) (y z : Coord)
  | scale (t : ℕ) (x : CoordX) (y z : Coord)
  | rotate (t : ℕ) (r : RotArg)
  | rotateAxisAngle (t : ℕ) (angle : AngleArg) (axis : List Char) (degrees : Bool)
  | clone (t : ℕ)
  /-- `t.to(device, copy, dtype)` -/
  | move (t : ℕ) (device : Device) (copy : Bool) (dtype : Option DType)

/-- l.445-468 `to`: itself, or a new object whose matrix is `self._matrix.to(device=device, dtype=dtype)`, which is
`self._matrix` when nothing changes. -/
def TWorld.to (w : TWorld) (t : TObj) (device : Device) (copy : Bool) (dtype : Option DType) : TWorld :=
  if copy = false ∧ (dtype = none ∨ dtype = some t.dtype) ∧ t.device = device then w.addAlias t
  else if device = t.mat.device ∧ dtype.getD t.mat.dtype = t.mat.dtype then
    w.addAlias ⟨.plain, t.mat, dtype.getD t.dtype, device⟩
  else w.addFresh ((w.value t).to device copy dtype)

/-- the transform written as a value, stored anew -/
def TWorld.addResult (w : TWorld) (r : Except Err T3) : Except Err TWorld := r.map w.addFresh

/-- l.178-468: what the statements do; `Err` is the exception raised. -/
def TOp.step (w : TWorld) : TOp → Except Err TWorld
  | .newTensor ms d v =>
    .ok { w with
      stores := w.stores ++ [ms]
      tensors := w.tensors ++ [⟨w.stores.length, List.range ms.length, d, v⟩] }
  | .write r k m => do
    let t ← w.tensor r
    match t.rows[k]? with
    | none => .error .indexError
    | some row => .ok { w with stores := w.stores.modify t.store fun s => s.set row m }
  | .ofMatrix r => do return w.addAlias (ofTensor (← w.tensor r))
  | .init n pos rot d v => w.addResult (T3.init (.default n) pos rot d v)
  | .getMatrix t => do
    let o ← w.transform t
    return { w with tensors := w.tensors ++ [o.mat] }
  | .getItem t (.list is) => do
    let o ← w.transform t
    let ms ← pickMats (w.read o.mat) is
    return w.addFresh ⟨.plain, ms, o.mat.dtype, o.mat.device, o.mat.dtype, o.mat.device⟩
  | .getItem t i => do
    let o ← w.transform t
    let m ← o.mat.sub i
    return w.addAlias (ofTensor m)
  -- l.244-248: without arguments the loop does not run and the matrix is `self._matrix`
  | .compose t [] => do
    let o ← w.transform t
    return w.addAlias (ofTensor o.mat)
  | .compose t others => do
    let o ← w.transform t
    let os ← others.mapM w.transform
    w.addResult ((w.value o).compose (os.map w.value))
  | .inverse t => do
    let o ← w.transform t
    return w.addFresh (w.value o).inverse
  | .stack t others => do
    let o ← w.transform t
    let os ← others.mapM w.transform
    return w.addFresh ((w.value o).stack (os.map w.value))
  | .translate t x y z => do
    let o ← w.transform t
    w.addResult ((w.value o).translate x y z)
  | .scale t x y z => do
    let o ← w.transform t
    w.addResult ((w.value o).scale x y z)
  | .rotate t r => do
    let o ← w.transform t
    w.addResult ((w.value o).rotate r)
  | .rotateAxisAngle t a ax deg => do
    let o ← w.transform t
    w.addResult ((w.value o).rotateAxisAngle a ax deg)
  | .clone t => do
    let o ← w.transform t
    return w.addFresh (w.value o).clone
  | .move t device copy dtype => do
    let o ← w.transform t
    return w.to o device copy dtype

/-- A statement in a program that goes on when it raises. -/
def TOp.run (w : TWorld) (op : TOp) : TWorld :=
  match op.step w with
  | .ok w' => w'
  | .error _ => w

/-- A program. -/
def runTOps (w : TWorld) (ops : List TOp) : TWorld := ops.foldl TOp.run w

end
end PK
