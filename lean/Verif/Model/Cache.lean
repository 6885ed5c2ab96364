import Verif.Model.Chain

/-!
# The caches of `Chain` and the objects they hand out (`chain.py`)
Line numbers refer to `/repo/src/pytorch_kinematics/chain.py`.

`get_joint_parameter_names` (l.420) and `get_frame_indices` (l.497) are decorated with
`functools.lru_cache`: one cache per method, shared by all chains of the process, keyed by the receiver
(by identity, `Chain` defines no `__eq__`) and the arguments, holding at most 128 entries.  A hit returns
the very object returned the first time.  Tensors and lists are therefore modelled as references into a
heap; a caller can write to an object it has been given.
-/

namespace PK

/-- A torch device (opaque index: `cpu`, `cuda:0`, …). -/
abbrev Dev := ℕ

/-- An index tensor: values and device. -/
structure Tens where
  vals : List ℕ
  dev : Dev
deriving DecidableEq

/-- How the argument of `get_joint_parameter_names` was passed: `lru_cache` keeps these calls apart. -/
inductive NameArg
  | default
  | positional (b : Bool)
  | keyword (b : Bool)
deriving DecidableEq

/-- The value of `exclude_fixed` for such a call (l.421, default `True`). -/
def NameArg.value : NameArg → Bool
  | .default => true
  | .positional b => b
  | .keyword b => b

/-- A chain object; `to` changes only the device here (tensor values are reals). -/
structure ChainObj where
  chain : Chain
  dev : Dev

/-- The part of the interpreter state that the cached methods see. -/
structure World where
  chains : List ChainObj := []
  tensors : List Tens := []
  lists : List (List (Option Name)) := []
  /-- cache of `get_frame_indices`, most recently used first -/
  idxCache : List ((ℕ × List Name) × ℕ) := []
  /-- cache of `get_joint_parameter_names`, most recently used first -/
  nameCache : List ((ℕ × NameArg) × ℕ) := []

/-- Python code over a `World`; an exception keeps the effects made before it. -/
abbrev PyM (α : Type) := World → World × Except Err α

/-- sequencing in `PyM` -/
def PyM.bind {α β : Type} (x : PyM α) (f : α → PyM β) : PyM β := fun w =>
  match x w with
  | (w', .ok a) => f a w'
  | (w', .error e) => (w', .error e)

/-- `functools.lru_cache` maximal size (default, l.420 and l.497) -/
def lruMax : ℕ := 128

/-- cache lookup -/
def lruFind {K : Type} [DecidableEq K] (cache : List (K × ℕ)) (k : K) : Option ℕ :=
  (cache.find? fun e => e.1 = k).map Prod.snd

/-- a hit moves the entry to the front -/
def lruHit {K : Type} [DecidableEq K] (cache : List (K × ℕ)) (k : K) (r : ℕ) : List (K × ℕ) :=
  (k, r) :: cache.eraseP fun e => e.1 = k

/-- a miss adds the entry in front and drops the least recently used one of a full cache -/
def lruMiss {K : Type} (cache : List (K × ℕ)) (k : K) (r : ℕ) : List (K × ℕ) :=
  ((k, r) :: cache).take lruMax

/-- l.497-499 `get_frame_indices` on object `i`: a reference to the tensor. -/
def pyGetFrameIndices (i : ℕ) (names : List Name) : PyM ℕ := fun w =>
  match lruFind w.idxCache (i, names) with
  | some r => ({ w with idxCache := lruHit w.idxCache (i, names) r }, .ok r)
  | none =>
    match w.chains[i]? with
    | none => (w, .error .attributeError)
    | some o =>
      match o.chain.getFrameIndices names with
      | .error e => (w, .error e)
      | .ok v =>
        let r := w.tensors.length
        ({ w with
            tensors := w.tensors ++ [⟨v, o.dev⟩]
            idxCache := lruMiss w.idxCache (i, names) r }, .ok r)

/-- l.420-427 `get_joint_parameter_names` on object `i`: a reference to the list. -/
def pyGetJointParameterNames (i : ℕ) (a : NameArg) : PyM ℕ := fun w =>
  match lruFind w.nameCache (i, a) with
  | some r => ({ w with nameCache := lruHit w.nameCache (i, a) r }, .ok r)
  | none =>
    match w.chains[i]? with
    | none => (w, .error .attributeError)
    | some o =>
      let r := w.lists.length
      ({ w with
          lists := w.lists ++ [o.chain.getJointParameterNames a.value]
          nameCache := lruMiss w.nameCache (i, a) r }, .ok r)

/-- The attribute access `self.…` of the remaining code. -/
def pySelf (i : ℕ) : PyM ChainObj := fun w =>
  match w.chains[i]? with
  | none => (w, .error .attributeError)
  | some o => (w, .ok o)

/-- reading a tensor -/
def pyTensor (r : ℕ) : PyM Tens := fun w =>
  match w.tensors[r]? with
  | none => (w, .error .unmodelled)
  | some t => (w, .ok t)

/-- reading a list -/
def pyList (r : ℕ) : PyM (List (Option Name)) := fun w =>
  match w.lists[r]? with
  | none => (w, .error .unmodelled)
  | some t => (w, .ok t)

/-- effect-free code -/
def pyLift {α : Type} (x : Except Err α) : PyM α := fun w => (w, x)

/-- l.591-593 `get_all_frame_indices` -/
def pyGetAllFrameIndices (i : ℕ) : PyM ℕ :=
  (pySelf i).bind fun o => pyGetFrameIndices i (o.chain.getFrameNames false)

/-- l.575-588 `ensure_tensor` on a dict, like `Chain.ensureTensorDict` but with the list of joint names
that `get_joint_parameter_names()` returns (`n_joints` was stored at construction, l.248). -/
noncomputable def ensureTensorWith (nJoints : ℕ) (names : List (Option Name)) {B : ℕ}
    (d : Dict (Option Name) (Fin B → Option ℝ)) : Except Err (List (Fin B → ℝ)) := by
  classical
  exact do
  let _ ← match d with | [] => Except.error Err.indexError | _ => .ok ()
  let th0 : List (Fin B → Option ℝ) := List.replicate nJoints fun _ => none
  let th ← d.foldlM (fun th kv =>
    if kv.1 ∈ names then
      (if names.idxOf kv.1 < nJoints then Except.ok (th.set (names.idxOf kv.1) kv.2) else .error Err.indexError)
    else .error Err.valueError) th0
  if ∃ col ∈ th, ∃ b, col b = none then .error Err.valueError
  else .ok (th.map fun col b => (col b).getD 0)

/-- l.575-588 on object `i` -/
noncomputable def pyEnsureTensorDict (i : ℕ) {B : ℕ} (d : Dict (Option Name) (Fin B → Option ℝ)) :
    PyM (List (Fin B → ℝ)) :=
  match d with
  | [] => pyLift (.error .indexError)
  | d => (pyGetJointParameterNames i .default).bind fun r =>
      (pyList r).bind fun names => (pySelf i).bind fun o => pyLift (ensureTensorWith o.chain.nJoints names d)

/-- l.554-555 `if frame_indices is None: frame_indices = self.get_all_frame_indices()` -/
def pySelectIndices (i : ℕ) : Option ℕ → PyM ℕ
  | none => pyGetAllFrameIndices i
  | some r => pyLift (.ok r)

/-- l.542-564 `forward_kinematics` on object `i` with a tensor `th` and `frame_indices` absent or a
reference to an index tensor. -/
noncomputable def pyForwardKinematics (i : ℕ) {B : ℕ} (th : List (Fin B → ℝ)) (frameIndices : Option ℕ := none) :
    PyM (Dict Name (Fin B → M4)) :=
  (pySelectIndices i frameIndices).bind fun r =>
  (pySelf i).bind fun o => (pyTensor r).bind fun t => pyLift (o.chain.forwardKinematics th (some t.vals))

/-- l.542-564 with a dictionary of joint values -/
noncomputable def pyForwardKinematicsDict (i : ℕ) {B : ℕ} (d : Dict (Option Name) (Fin B → Option ℝ))
    (frameIndices : Option ℕ := none) : PyM (Dict Name (Fin B → M4)) :=
  (pySelectIndices i frameIndices).bind fun r =>
  (pyEnsureTensorDict i d).bind fun th =>
  (pySelf i).bind fun o => (pyTensor r).bind fun t => pyLift (o.chain.forwardKinematics th (some t.vals))

/-- l.230-348 `Chain(root, device=dev)`: `__init__` calls `self.get_joint_parameter_names()` (l.248), so
the new object's names are cached from the start (the further calls l.287 are hits on that entry). -/
noncomputable def pyNewChain (root : Frame) (dev : Dev) : PyM ℕ := fun w =>
  let i := w.chains.length
  let w' := { w with chains := w.chains ++ [⟨Chain.init root, dev⟩] }
  ((pyGetJointParameterNames i .default w').1, .ok i)

/-- l.350-377 `to(device=dev)`: everything except the caches follows. -/
def pyTo (i : ℕ) (dev : Dev) : PyM Unit := fun w =>
  match w.chains[i]? with
  | none => (w, .error .attributeError)
  | some o => ({ w with chains := w.chains.set i { o with dev := dev } }, .ok ())

/-- The caller writes to an index tensor it holds (`idx += 1`, `idx[0] = 3`, …). -/
def pyWriteTensor (r : ℕ) (vals : List ℕ) : PyM Unit := fun w =>
  match w.tensors[r]? with
  | none => (w, .error .unmodelled)
  | some t => ({ w with tensors := w.tensors.set r { t with vals := vals } }, .ok ())

/-- The caller changes a list it holds (`names.remove(…)`, `names.sort()`, …). -/
def pyWriteList (r : ℕ) (l : List (Option Name)) : PyM Unit := fun w =>
  match w.lists[r]? with
  | none => (w, .error .unmodelled)
  | some _ => ({ w with lists := w.lists.set r l }, .ok ())

/-- One step of a program that uses chains. -/
inductive ChainOp
  | new (root : Frame) (dev : Dev)
  | move (i : ℕ) (dev : Dev)
  | frameIndices (i : ℕ) (names : List Name)
  | allFrameIndices (i : ℕ)
  | jointNames (i : ℕ) (a : NameArg)
  | fk (i : ℕ) (B : ℕ) (th : List (Fin B → ℝ)) (fi : Option ℕ)
  | fkDict (i : ℕ) (B : ℕ) (d : Dict (Option Name) (Fin B → Option ℝ)) (fi : Option ℕ)
  | writeTensor (r : ℕ) (vals : List ℕ)
  | writeList (r : ℕ) (l : List (Option Name))

/-- The effect of a step; exceptions are caught by the program. -/
noncomputable def ChainOp.run (w : World) : ChainOp → World
  | .new root dev => (pyNewChain root dev w).1
  | .move i dev => (pyTo i dev w).1
  | .frameIndices i names => (pyGetFrameIndices i names w).1
  | .allFrameIndices i => (pyGetAllFrameIndices i w).1
  | .jointNames i a => (pyGetJointParameterNames i a w).1
  | .fk i _ th fi => (pyForwardKinematics i th fi w).1
  | .fkDict i _ d fi => (pyForwardKinematicsDict i d fi w).1
  | .writeTensor r vals => (pyWriteTensor r vals w).1
  | .writeList r l => (pyWriteList r l w).1

/-- A program: a sequence of steps. -/
noncomputable def runChainOps (w : World) (ops : List ChainOp) : World := ops.foldl ChainOp.run w

end PK
