import Verif.Model.Tags

/-!
# Tensors with a shape

The operations of PyTorch that `transforms/rotation_conversions.py` and `transforms/math.py` apply to tensors of any
number of dimensions.  PyTorch is not in the repository: each definition states the rule it follows.  A tensor has a
shape, a tag (dtype and device) and a value for each multi-index below the shape; outside of the shape there is a fixed
default.

Views are not represented here (`Model/Alias.lean` has them); where a function writes through a view, its model returns
what it wrote.
-/

namespace PK

/-- `t.shape` -/
abbrev Shape := List ℕ

/-- `i` is an index of a tensor of shape `s`. -/
def ValidIx (i : List ℕ) (s : Shape) : Prop := List.Forall₂ (· < ·) i s

/-- A tensor with entries in `α`. -/
structure Tn (α : Type) [Inhabited α] where
  shape : Shape
  tag : Tag
  get : List ℕ → α
  out : ∀ i, ¬ValidIx i shape → get i = default

namespace Tn
variable {α β γ : Type} [Inhabited α] [Inhabited β] [Inhabited γ]

/-- The tensor with the given entries. -/
noncomputable def ofFn (tag : Tag) (s : Shape) (f : List ℕ → α) : Tn α :=
  ⟨s, tag, fun i => open Classical in if ValidIx i s then f i else default,
    fun _ h => if_neg h⟩

/-! ## Broadcasting -/

/-- Broadcasting of two shapes, last dimension first: sizes are equal, or one of them is 1, or one is missing. -/
def bshapeR : Shape → Shape → Except Err Shape
  | [], t => .ok t
  | s, [] => .ok s
  | a :: s, b :: t => do
    let r ← bshapeR s t
    if a = b then .ok (a :: r) else if a = 1 then .ok (b :: r) else if b = 1 then .ok (a :: r)
    else .error .runtimeError

/-- Broadcasting of two shapes. -/
def bshape (s t : Shape) : Except Err Shape := do
  let r ← bshapeR s.reverse t.reverse
  return r.reverse

/-- The entry of an operand of shape `s` that is used for entry `i` of the result, last dimension first. -/
def bidxR : Shape → List ℕ → List ℕ
  | [], _ => []
  | _, [] => []
  | a :: s, i :: is => (if a = 1 then 0 else i) :: bidxR s is

/-- The entry of an operand of shape `s` that is used for entry `i` of the result. -/
def bidx (s : Shape) (i : List ℕ) : List ℕ := (bidxR s.reverse i.reverse).reverse

/-- dtype and device of an elementwise operation: operands with dimensions take precedence over operands without, within
the same kind of number; an operand without dimensions on the CPU may be combined with a tensor elsewhere. -/
def resTag (a b : Tag) (da db : ℕ) : Except Err Tag := do
  let dev ← if a.dev = b.dev then .ok a.dev
    else if da = 0 ∧ a.dev = cpu then .ok b.dev
    else if db = 0 ∧ b.dev = cpu then .ok a.dev
    else .error .runtimeError
  let prec (hi lo : Dt) : Dt := match hi, lo with
    | .fl d, _ => .fl d
    | .bool, lo => Dt.promote .bool lo
    | hi, .fl d => Dt.promote hi (.fl d)
    | hi, _ => hi
  if (0 < da) = (0 < db) then .ok ⟨a.dt.promote b.dt, dev⟩
  else if 0 < da then .ok ⟨prec a.dt b.dt, dev⟩
  else .ok ⟨prec b.dt a.dt, dev⟩

/-- An elementwise operation of two tensors. -/
noncomputable def bin (f : α → β → γ) (a : Tn α) (b : Tn β) : Except Err (Tn γ) := do
  let s ← bshape a.shape b.shape
  let t ← resTag a.tag b.tag a.shape.length b.shape.length
  return ofFn t s fun i => f (a.get (bidx a.shape i)) (b.get (bidx b.shape i))

noncomputable def add : Tn ℝ → Tn ℝ → Except Err (Tn ℝ) := bin (· + ·)
noncomputable def sub : Tn ℝ → Tn ℝ → Except Err (Tn ℝ) := bin (· - ·)
noncomputable def mul : Tn ℝ → Tn ℝ → Except Err (Tn ℝ) := bin (· * ·)
noncomputable def div : Tn ℝ → Tn ℝ → Except Err (Tn ℝ) := bin (· / ·)
noncomputable def maxT : Tn ℝ → Tn ℝ → Except Err (Tn ℝ) := bin max
/-- `torch.atan2(y, x)` -/
noncomputable def atan2T : Tn ℝ → Tn ℝ → Except Err (Tn ℝ) := bin atan2
/-- `a != b` of boolean tensors -/
noncomputable def neB : Tn Bool → Tn Bool → Except Err (Tn Bool) := bin (fun a b => a != b)

/-- `torch.where(c, a, b)`; dtype and device as `whereT`. -/
noncomputable def sel (c : Tn Bool) (a b : Tn α) : Except Err (Tn α) := do
  let s1 ← bshape a.shape b.shape
  let s ← bshape c.shape s1
  let t ← whereT c.tag a.tag b.tag
  return ofFn t s fun i =>
    bif c.get (bidx c.shape i) then a.get (bidx a.shape i) else b.get (bidx b.shape i)

/-! ## Operations of one tensor -/


/-- An operation of each entry: negation, `torch.cos`, an operation with a Python float, …; the dtype is kept (for
integers it becomes the default float dtype). -/
noncomputable def map (f : ℝ → ℝ) (a : Tn ℝ) : Tn ℝ := ofFn (trig a.tag) a.shape fun i => f (a.get i)

/-- A comparison with a Python number. -/
noncomputable def test (p : ℝ → Prop) (a : Tn ℝ) : Tn Bool :=
  ofFn (eqT a.tag) a.shape fun i => open Classical in decide (p (a.get i))

/-- `torch.ones_like`, `torch.zeros_like` -/
noncomputable def fullLike (a : Tn ℝ) (x : ℝ) : Tn ℝ := ofFn a.tag a.shape fun _ => x

/-- `torch.zeros(s, device, dtype)`, `torch.full(s, x, …)` -/
noncomputable def full (tag : Tag) (s : Shape) (x : ℝ) : Tn ℝ := ofFn tag s fun _ => x

/-- `torch.eye(4, device, dtype)` -/
noncomputable def eye4 (tag : Tag) : Tn ℝ := ofFn tag [4, 4] fun i => if i[0]? = i[1]? then 1 else 0

/-- `torch.unbind(t, -1)` -/
noncomputable def unbind (a : Tn ℝ) : Except Err (List (Tn ℝ)) :=
  match a.shape.getLast? with
  | none => .error .indexError
  | some n => .ok ((List.range n).map fun k => ofFn a.tag a.shape.dropLast fun i => a.get (i ++ [k]))

/-- `a, b, c = l` -/
def unpack3 {α : Type} : List α → Except Err (α × α × α)
  | [a, b, c] => .ok (a, b, c)
  | _ => .error .valueError

/-- `a, b, c, d = l` -/
def unpack4 {α : Type} : List α → Except Err (α × α × α × α)
  | [a, b, c, d] => .ok (a, b, c, d)
  | _ => .error .valueError

/-- nine variables `= l` -/
def unpack9 {α : Type} : List α → Except Err (Fin 9 → α)
  | [a, b, c, d, e, f, g, h, i] => .ok ![a, b, c, d, e, f, g, h, i]
  | _ => .error .valueError

/-- `torch.sum(t, -1, keepdim=True)` -/
noncomputable def sumKeep (a : Tn ℝ) : Except Err (Tn ℝ) :=
  match a.shape.getLast? with
  | none => .error .indexError
  | some n => .ok (ofFn a.tag (a.shape.dropLast ++ [1]) fun i => ∑ k ∈ Finset.range n, a.get (i.dropLast ++ [k]))

/-- `t.sum(-1)`, for a tensor with at least one dimension -/
noncomputable def sum (a : Tn ℝ) : Except Err (Tn ℝ) :=
  match a.shape.getLast? with
  | none => .error .indexError
  | some n => .ok (ofFn a.tag a.shape.dropLast fun i => ∑ k ∈ Finset.range n, a.get (i ++ [k]))

/-- `torch.norm(t, p=2, dim=-1, keepdim=True)`, for a tensor with at least one dimension -/
noncomputable def norm (a : Tn ℝ) : Except Err (Tn ℝ) := do
  let s ← sumKeep (map (fun x => x * x) a)
  return map Real.sqrt s

/-- `t.reshape(s)`: the entries in the same order, last dimension fastest. -/
def ravel : Shape → List ℕ → ℕ
  | [], _ => 0
  | _ :: s, i => i.headD 0 * s.prod + ravel s i.tail

/-- The multi-index of a position. -/
def unravel : Shape → ℕ → List ℕ
  | [], _ => []
  | _ :: s, p => (p / s.prod) :: unravel s (p % s.prod)

/-- `t.reshape(s)` -/
noncomputable def reshape (a : Tn α) (s : Shape) : Except Err (Tn α) :=
  if a.shape.prod = s.prod then .ok (ofFn a.tag s fun i => a.get (unravel a.shape (ravel s i)))
  else .error .runtimeError

/-- `t.unsqueeze(-1)`, `t[..., None]` -/
noncomputable def unsqueeze (a : Tn α) : Tn α := ofFn a.tag (a.shape ++ [1]) fun i => a.get i.dropLast

/-- `t[..., None, -1]` -/
noncomputable def lastNone (a : Tn ℝ) : Except Err (Tn ℝ) :=
  match a.shape.getLast? with
  | none => .error .indexError
  | some 0 => .error .indexError
  | some (n + 1) => .ok (ofFn a.tag (a.shape.dropLast ++ [1]) fun i => a.get (i.dropLast ++ [n]))

/-- `t[..., k]` with `0 ≤ k` -/
noncomputable def selectLast (a : Tn ℝ) (k : ℕ) : Except Err (Tn ℝ) :=
  match a.shape.getLast? with
  | none => .error .indexError
  | some n => if k < n then .ok (ofFn a.tag a.shape.dropLast fun i => a.get (i ++ [k])) else .error .indexError

/-- `t[..., k, :]` with `0 ≤ k` -/
noncomputable def selectRow (a : Tn ℝ) (k : ℕ) : Except Err (Tn ℝ) :=
  match a.shape.reverse with
  | c :: r :: s =>
    if k < r then .ok (ofFn a.tag (s.reverse ++ [c]) fun i => a.get (i.dropLast ++ [k] ++ [i.getLastD 0]))
    else .error .indexError
  | _ => .error .indexError

/-- `t[..., k:n]` with `0 ≤ k`; slices are cut off at the size. -/
noncomputable def sliceLast (a : Tn α) (k n : ℕ) : Except Err (Tn α) :=
  match a.shape.getLast? with
  | none => .error .indexError
  | some m => .ok (ofFn a.tag (a.shape.dropLast ++ [min n m - k]) fun i => a.get (i.dropLast ++ [k + i.getLastD 0]))

/-- `t[..., :n, :]`; slices are cut off at the size. -/
noncomputable def sliceRows (a : Tn ℝ) (n : ℕ) : Except Err (Tn ℝ) :=
  match a.shape.reverse with
  | c :: r :: s => .ok (ofFn a.tag (s.reverse ++ [min n r, c]) fun i => a.get i)
  | _ => .error .indexError

/-- `t.argmax(dim=-1)` for a last dimension of size 4 (the code has no other). -/
noncomputable def argmaxLast4 (a : Tn ℝ) : Except Err (Tn ℕ) :=
  if a.shape.getLast? = some 4 then
    .ok (ofFn ⟨.i64, a.tag.dev⟩ a.shape.dropLast fun i => (argmax4 fun k => a.get (i ++ [k.val])).val)
  else .error .unmodelled

/-- `t.expand(s)`: missing leading dimensions are added, dimensions of size 1 are repeated. -/
noncomputable def expand (a : Tn α) (s : Shape) : Except Err (Tn α) :=
  if bshape a.shape s = .ok s then .ok (ofFn a.tag s fun i => a.get (bidx a.shape i)) else .error .runtimeError

/-- `t.squeeze(-2)` -/
noncomputable def squeezeRow (a : Tn ℝ) : Except Err (Tn ℝ) :=
  match a.shape.reverse with
  | c :: 1 :: s => .ok (ofFn a.tag (s.reverse ++ [c]) fun i => a.get (i.dropLast ++ [0] ++ [i.getLastD 0]))
  | _ :: _ :: _ => .ok a
  | _ => .error .indexError

/-- `t.gather(-2, idx)`, for an index of the same shape as `t` up to the gathered dimension. -/
noncomputable def gatherRow (a : Tn ℝ) (idx : Tn ℕ) : Except Err (Tn ℝ) :=
  open Classical in
  match a.shape.reverse, idx.shape.reverse with
  | c :: r :: s, c' :: _ :: s' =>
    if c = c' ∧ s = s' ∧ (idx.tag.dt = .i64 ∧ idx.tag.dev = a.tag.dev) ∧
        ∀ i, ValidIx i idx.shape → idx.get i < r then
      .ok (ofFn a.tag idx.shape fun i => a.get (i.dropLast.dropLast ++ [idx.get i] ++ [i.getLastD 0]))
    else .error .runtimeError
  | _, _ => .error .indexError

/-- `t.repeat(sizes)` -/
noncomputable def repeatT (a : Tn α) (sizes : List ℕ) : Except Err (Tn α) :=
  if sizes.length < a.shape.length then .error .runtimeError
  else
    let pad := sizes.length - a.shape.length
    let s := List.replicate pad 1 ++ a.shape
    .ok (ofFn a.tag (List.zipWith (· * ·) sizes s) fun i => a.get ((List.zipWith (· % ·) i s).drop pad))

/-! ## Operations of several tensors -/

/-- dtype and device of `torch.stack` and `torch.cat` of tensors of one shape -/
def tags (l : List (Tn α)) : Except Err Tag := stackT (l.map (·.tag))

/-- `torch.stack(l, -1)` -/
noncomputable def stackLast (l : List (Tn ℝ)) : Except Err (Tn ℝ) :=
  match l with
  | [] => .error .runtimeError
  | a :: _ =>
    if ∀ b ∈ l, b.shape = a.shape then do
      let t ← tags l
      return ofFn t (a.shape ++ [l.length]) fun i =>
        match l[i.getLastD 0]? with | some b => b.get i.dropLast | none => 0
    else .error .runtimeError

/-- `torch.stack(l, -2)`, for tensors with at least one dimension -/
noncomputable def stackRows (l : List (Tn ℝ)) : Except Err (Tn ℝ) :=
  match l with
  | [] => .error .runtimeError
  | a :: _ =>
    match a.shape.getLast? with
    | none => .error .indexError
    | some c =>
      if ∀ b ∈ l, b.shape = a.shape then do
        let t ← tags l
        return ofFn t (a.shape.dropLast ++ [l.length, c]) fun i =>
          match l[i.dropLast.getLastD 0]? with
          | some b => b.get (i.dropLast.dropLast ++ [i.getLastD 0])
          | none => 0
      else .error .runtimeError

/-- `torch.cat([a, b], dim=-1)`, for tensors with at least one dimension -/
noncomputable def cat (a b : Tn ℝ) : Except Err (Tn ℝ) :=
  match a.shape.getLast?, b.shape.getLast? with
  | some n, some m =>
    if a.shape.dropLast = b.shape.dropLast then do
      let t ← tags [a, b]
      return ofFn t (a.shape.dropLast ++ [n + m]) fun i =>
        if i.getLastD 0 < n then a.get i else b.get (i.dropLast ++ [i.getLastD 0 - n])
    else .error .runtimeError
  | _, _ => .error .runtimeError

/-- `torch.matmul(a, b)` of tensors with at least two dimensions (the code has no other); dtype and device as
`PK.matmul`. -/
noncomputable def matmulT (a b : Tn ℝ) : Except Err (Tn ℝ) :=
  match a.shape.reverse, b.shape.reverse with
  | k :: n :: s, m :: k' :: s' =>
    if k = k' then do
      let r ← bshape s.reverse s'.reverse
      let t ← PK.matmul a.tag b.tag
      return ofFn t (r ++ [n, m]) fun i =>
        ∑ l ∈ Finset.range k,
          a.get (bidx s.reverse i.dropLast.dropLast ++ [i.dropLast.getLastD 0] ++ [l]) *
            b.get (bidx s'.reverse i.dropLast.dropLast ++ [l] ++ [i.getLastD 0])
    else .error .runtimeError
  | _, _ => .error .unmodelled

/-- `torch.cross(a, b, dim=-1)`: size 3 in the last dimension, the others are broadcast. -/
noncomputable def crossT (a b : Tn ℝ) : Except Err (Tn ℝ) :=
  if a.shape.getLast? = some 3 ∧ b.shape.getLast? = some 3 then do
    let s ← bshape a.shape b.shape
    let t ← resTag a.tag b.tag a.shape.length b.shape.length
    return ofFn t s fun i =>
      let A (k : ℕ) := a.get (bidx a.shape (i.dropLast ++ [k]))
      let B (k : ℕ) := b.get (bidx b.shape (i.dropLast ++ [k]))
      let k := i.getLastD 0
      A ((k + 1) % 3) * B ((k + 2) % 3) - A ((k + 2) % 3) * B ((k + 1) % 3)
  else .error .runtimeError

/-! ## Arithmetic expressions -/

/-- An arithmetic expression of tensors, as Python writes it. -/
inductive TE where
  | leaf (t : Tn ℝ)
  | un (f : ℝ → ℝ) (a : TE)
  | bin (f : ℝ → ℝ → ℝ) (a b : TE)

noncomputable instance : Add TE := ⟨.bin (· + ·)⟩
noncomputable instance : Sub TE := ⟨.bin (· - ·)⟩
noncomputable instance : Mul TE := ⟨.bin (· * ·)⟩
noncomputable instance : Div TE := ⟨.bin (· / ·)⟩
noncomputable instance : Neg TE := ⟨.un (- ·)⟩

/-- Evaluation, operation by operation, left operand first. -/
noncomputable def TE.eval : TE → Except Err (Tn ℝ)
  | .leaf t => .ok t
  | .un f a => do return map f (← a.eval)
  | .bin f a b => do Tn.bin f (← a.eval) (← b.eval)

/-- `torch.stack([e, …], -1)` of expressions -/
noncomputable def stackE (l : List TE) : Except Err (Tn ℝ) := do stackLast (← l.mapM TE.eval)

/-! ## Writing into a tensor -/

/-- The value of an assignment `t[…] = v` to a region of shape `s`: leading dimensions of size 1 of `v` are dropped, the
others are broadcast. -/
noncomputable def valueFor (v : Tn ℝ) (s : Shape) : Except Err (Tn ℝ) :=
  let drop := v.shape.length - s.length
  if (v.shape.take drop).all (· == 1) then
    expand (ofFn v.tag (v.shape.drop drop) fun i => v.get (List.replicate drop 0 ++ i)) s
  else .error .runtimeError

/-- `t[..., :n, :m] = v` for `n, m` at most the sizes -/
noncomputable def setBlock (t : Tn ℝ) (n m : ℕ) (v : Tn ℝ) : Except Err (Tn ℝ) :=
  match t.shape.reverse with
  | c :: r :: s =>
    if n ≤ r ∧ m ≤ c then do
      let w ← valueFor v (s.reverse ++ [n, m])
      return ofFn t.tag t.shape fun i =>
        if i.dropLast.getLastD 0 < n ∧ i.getLastD 0 < m then w.get i else t.get i
    else .error .unmodelled
  | _ => .error .indexError

/-- `t[..., :n, k] = v` for `n` at most the size -/
noncomputable def setColumn (t : Tn ℝ) (n k : ℕ) (v : Tn ℝ) : Except Err (Tn ℝ) :=
  match t.shape.reverse with
  | c :: r :: s =>
    if k < c then
      if n ≤ r then do
        let w ← valueFor v (s.reverse ++ [n])
        return ofFn t.tag t.shape fun i =>
          if i.dropLast.getLastD 0 < n ∧ i.getLastD 0 = k then w.get i.dropLast else t.get i
      else .error .unmodelled
    else .error .indexError
  | _ => .error .indexError

/-- `t[..., r, c] = x` for a Python number `x` -/
noncomputable def setEntry (t : Tn ℝ) (r c : ℕ) (x : ℝ) : Except Err (Tn ℝ) :=
  match t.shape.reverse with
  | c' :: r' :: _ =>
    if r < r' ∧ c < c' then
      .ok (ofFn t.tag t.shape fun i => if i.dropLast.getLastD 0 = r ∧ i.getLastD 0 = c then x else t.get i)
    else .error .indexError
  | _ => .error .indexError

/-- `t[..., k] = v` -/
noncomputable def setLast (t : Tn ℝ) (k : ℕ) (v : Tn ℝ) : Except Err (Tn ℝ) :=
  match t.shape.getLast? with
  | none => .error .indexError
  | some n =>
    if k < n then do
      let w ← valueFor v t.shape.dropLast
      return ofFn t.tag t.shape fun i => if i.getLastD 0 = k then w.get i.dropLast else t.get i
    else .error .indexError

end Tn
end PK
