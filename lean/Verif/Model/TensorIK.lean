import Verif.Model.TensorChain
import Verif.Model.IK

/-!
# Inverse kinematics on tensors

Line numbers refer to `/repo/src/pytorch_kinematics/ik.py`.  `Model/IK.lean` has the same functions with one entry per
problem and retry; here the joint values of all problems and retries are the rows of one tensor and every operation acts on
whole tensors, as in the code.

Simplifications.  `view` is `reshape`: the tensors it is applied to are contiguous.  `torch.clamp` with two tensors is
`min(max(q, low), high)`.  Entries of joint values, steps and errors are extended scalars, as in `Model/IK.lean`; entries of
`lr` are reals and those of `no_improve_counter` natural numbers.  `debug`, `torch.compile` and the second result of
`do_line_search`, which `solve` ignores, are left out.
-/

namespace PK

noncomputable instance : Inhabited Fl := ⟨.fin 0⟩

namespace Tn
variable {α β : Type} [Inhabited α] [Inhabited β]
open Classical

/-! ## Operations -/

/-- An operation of each entry that keeps dtype and device -/
noncomputable def mapG (f : α → α) (a : Tn α) : Tn α := ofFn a.tag a.shape fun i => f (a.get i)

/-- A comparison of each entry with a Python number -/
noncomputable def testG (p : α → Prop) (a : Tn α) : Tn Bool := ofFn (eqT a.tag) a.shape fun i => decide (p (a.get i))

/-- A comparison of two tensors -/
noncomputable def cmpG (p : α → β → Prop) (a : Tn α) (b : Tn β) : Except Err (Tn Bool) := do
  let r ← bin (fun x y => decide (p x y)) a b
  return ofFn (eqT r.tag) r.shape r.get

/-- `a & b`, `a | b`, `~a` of boolean tensors -/
noncomputable def andB : Tn Bool → Tn Bool → Except Err (Tn Bool) := bin (· && ·)
noncomputable def orB : Tn Bool → Tn Bool → Except Err (Tn Bool) := bin (· || ·)
noncomputable def notB (a : Tn Bool) : Tn Bool := mapG (! ·) a

/-- `t.norm(dim=-1)`, for a tensor with at least one dimension -/
noncomputable def normLast (a : Tn Fl) : Except Err (Tn Fl) :=
  match a.shape.getLast? with
  | none => .error .unmodelled
  | some n => .ok (ofFn a.tag a.shape.dropLast fun i => Fl.norm ((List.range n).map fun k => a.get (i ++ [k])))

/-- `t.any()` -/
noncomputable def anyAll (a : Tn Bool) : Bool := decide (∃ i, ValidIx i a.shape ∧ a.get i = true)

/-- `t.any(dim=1)` of a tensor with two dimensions -/
noncomputable def anyDim1 (a : Tn Bool) : Except Err (Tn Bool) :=
  match a.shape with
  | [n, r] => .ok (ofFn a.tag [n] fun i => decide (∃ k < r, a.get (i ++ [k]) = true))
  | _ => .error .unmodelled

/-- `t.all(dim=1)` of a tensor with two dimensions -/
noncomputable def allDim1 (a : Tn Bool) : Except Err (Tn Bool) :=
  match a.shape with
  | [n, r] => .ok (ofFn a.tag [n] fun i => decide (∀ k < r, a.get (i ++ [k]) = true))
  | _ => .error .unmodelled

/-- `t.sum(dim=1)` of a boolean tensor with two dimensions -/
noncomputable def countDim1 (a : Tn Bool) : Except Err (Tn ℕ) :=
  match a.shape with
  | [n, r] => .ok (ofFn ⟨.i64, a.tag.dev⟩ [n] fun i => ((Finset.range r).filter fun k => a.get (i ++ [k]) = true).card)
  | _ => .error .unmodelled

/-- `t.squeeze()`: the index of the entry of `t` of shape `s` -/
def unsq : Shape → List ℕ → List ℕ
  | [], _ => []
  | n :: s, i => if n = 1 then 0 :: unsq s i else i.headD 0 :: unsq s i.tail

/-- `t.squeeze()` -/
noncomputable def squeezeAll (a : Tn α) : Tn α :=
  ofFn a.tag (a.shape.filter (· ≠ 1)) fun i => a.get (unsq a.shape i)

/-- `torch.cat((a, b), dim=1)` of tensors with three dimensions -/
noncomputable def catMid (a b : Tn ℝ) : Except Err (Tn ℝ) :=
  match a.shape, b.shape with
  | [k, n, c], [k', n', c'] =>
    if k = k' ∧ c = c' then do
      let t ← tags [a, b]
      return ofFn t [k, n + n', c] fun i =>
        if i.getD 1 0 < n then a.get i else b.get [i.headD 0, i.getD 1 0 - n, i.getD 2 0]
    else .error .runtimeError
  | _, _ => .error .unmodelled

/-- `t.sum(dim=1, keepdim=True)` of a tensor with three dimensions -/
noncomputable def sumMidKeep (a : Tn ℝ) : Except Err (Tn ℝ) :=
  match a.shape with
  | [b, n, c] => .ok (ofFn a.tag [b, 1, c] fun i => ∑ k ∈ Finset.range n, a.get [i.headD 0, k, i.getD 2 0])
  | _ => .error .unmodelled

/-- `torch.eye(n)` -/
noncomputable def eyeN (n : ℕ) (tag : Tag) : Tn ℝ := ofFn tag [n, n] fun i => if i.headD 0 = i.getD 1 0 then 1 else 0

/-- `torch.linalg.solve(A, b)` for `(k, n, n)` and `(k, n, m)`: dtype and device must agree, and no matrix may be singular
(`LinAlgError` is a `RuntimeError`). -/
noncomputable def solveT (A b : Tn ℝ) : Except Err (Tn ℝ) :=
  match A.shape, b.shape with
  | [k, n, n'], [k', n'', m] =>
    if n = n' ∧ n = n'' ∧ k = k' then do
      let t ← PK.matmul A.tag b.tag
      let M (i : ℕ) : Matrix (Fin n) (Fin n) ℝ := .of fun r c => A.get [i, r, c]
      if ∀ i < k, (M i).det ≠ 0 then
        return ofFn t [k, n, m] fun i =>
          if h : i.getD 1 0 < n then ((M (i.headD 0))⁻¹.mulVec fun r => b.get [i.headD 0, r, i.getD 2 0]) ⟨i.getD 1 0, h⟩ else 0
      else .error .runtimeError
    else .error .runtimeError
  | _, _ => .error .unmodelled

/-- `t[:, n:] = v` of a tensor with three dimensions -/
noncomputable def setMidFrom (t : Tn ℝ) (n : ℕ) (v : Tn ℝ) : Except Err (Tn ℝ) :=
  match t.shape with
  | [b, r, c] => do
    let w ← valueFor v [b, r - n, c]
    return ofFn t.tag t.shape fun i => if i.getD 1 0 < n then t.get i else w.get [i.headD 0, i.getD 1 0 - n, i.getD 2 0]
  | _ => .error .indexError

/-- `torch.diag_embed(t)` of a tensor with two dimensions -/
noncomputable def diagEmbed (a : Tn ℝ) : Except Err (Tn ℝ) :=
  match a.shape with
  | [b, n] => .ok (ofFn a.tag [b, n, n] fun i => if i.getD 1 0 = i.getD 2 0 then a.get [i.headD 0, i.getD 1 0] else 0)
  | _ => .error .unmodelled

/-- `torch.clamp(t, low, high)` -/
noncomputable def clampT (a lo hi : Tn Fl) : Except Err (Tn Fl) := do
  let b ← bin Fl.max a lo
  bin Fl.min b hi

/-- `t[mask] = False` for a tensor with two dimensions and a mask of its first dimension -/
noncomputable def putFalse (a mask : Tn Bool) : Except Err (Tn Bool) :=
  if mask.shape = a.shape.take 1 then .ok (ofFn a.tag a.shape fun i => a.get i && !mask.get (i.take 1))
  else .error .indexError

/-- `t[mask] *= c`: a mask of the shape of `t`, or one without dimensions, which selects everything or nothing -/
noncomputable def mulWhere (a : Tn ℝ) (mask : Tn Bool) (c : ℝ) : Except Err (Tn ℝ) :=
  if mask.shape = a.shape ∨ mask.shape = [] then
    .ok (ofFn a.tag a.shape fun i => if mask.get (if mask.shape = [] then [] else i) then a.get i * c else a.get i)
  else .error .indexError

/-- The positions that a boolean mask selects -/
def hits (mask : Tn Bool) : List ℕ := (List.range (mask.shape.headD 0)).filter fun k => mask.get [k]

/-- `t[..., mask]` for a mask of the last dimension -/
noncomputable def takeMask (a : Tn α) (mask : Tn Bool) : Except Err (Tn α) :=
  if mask.shape = a.shape.getLast?.toList then
    .ok (ofFn a.tag (a.shape.dropLast ++ [(hits mask).length]) fun i => a.get (i.dropLast ++ [(hits mask).getD (i.getLastD 0) 0]))
  else .error .indexError

/-- `t[..., mask] = v` for a mask of the last dimension and a value of the shape of `t[..., mask]` and the dtype and device of
`t` (the code has no other) -/
noncomputable def putMask (a : Tn α) (mask : Tn Bool) (v : Tn α) : Except Err (Tn α) :=
  if mask.shape = a.shape.getLast?.toList then
    if v.shape = a.shape.dropLast ++ [(hits mask).length] ∧ v.tag = a.tag then
      .ok (ofFn a.tag a.shape fun i =>
        if i.getLastD 0 ∈ hits mask then v.get (i.dropLast ++ [(hits mask).idxOf (i.getLastD 0)]) else a.get i)
    else .error .unmodelled
  else .error .indexError

/-- The tensor with the given finite entries -/
noncomputable def toFl (a : Tn ℝ) : Tn Fl := ofFn a.tag a.shape fun i => .fin (a.get i)

end Tn

open Tn
noncomputable section
open Classical

/-! ## Step kernels -/

/-- l.397-428 `delta_pose(m, target_pos, target_wxyz, out)`: `(dx, pos_diff, rot_diff)` -/
def deltaPoseT (m target_pos target_wxyz : Tn ℝ) (out : Option (Tn ℝ) := none) : Except Err (Tn ℝ × Tn ℝ × Tn ℝ) := do
  let pos_diff ← sub (unsqueezeAt target_pos 1) (← posColumn m)
  let pos_diff ← reshapeInfer pos_diff [3, 1]
  let cur_wxyz ← Tn.matrixToQuaternion (← rotBlock m)
  let diff_wxyz ← Tn.quaternionMultiply (unsqueezeAt target_wxyz 1) (← Tn.quaternionInvert cur_wxyz)
  let diff_axis_angle ← Tn.quaternionToAxisAngle diff_wxyz
  let rot_diff ← reshapeInfer diff_axis_angle [3, 1]
  match out with
  | some out => do
    let out ← setMid out 3 pos_diff
    let out ← setMidFrom out 3 rot_diff
    return (out, pos_diff, rot_diff)
  | none => return (← catMid pos_diff rot_diff, pos_diff, rot_diff)

/-- l.34-47, l.92-105: `m_flat.view(N, M, 4, 4)` and the pose error.  The lines repeat those of `delta_pose`. -/
def kernelDx (m_flat target_pos target_wxyz : Tn ℝ) (M : ℕ) : Except Err (Tn ℝ) :=
  match m_flat.shape with
  | [] => .error .indexError
  | NM :: _ =>
    if M = 0 then .error .zeroDivision
    else do
      let m ← reshape m_flat [NM / M, M, 4, 4]
      let pos_diff ← reshapeInfer (← sub (unsqueezeAt target_pos 1) (← posColumn m)) [3, 1]
      let cur_wxyz ← Tn.matrixToQuaternion (← rotBlock m)
      let diff_wxyz ← Tn.quaternionMultiply (unsqueezeAt target_wxyz 1) (← Tn.quaternionInvert cur_wxyz)
      let diff_axis_angle ← Tn.quaternionToAxisAngle diff_wxyz
      let rot_diff ← reshapeInfer diff_axis_angle [3, 1]
      catMid pos_diff rot_diff

/-- l.49-56, l.107-114: `w * x` -/
def weighT (task_weight : Option (Tn ℝ)) (x : Tn ℝ) : Except Err (Tn ℝ) :=
  match task_weight with
  | some w => do mul (← reshape w [1, 6, 1]) x
  | none => .ok x

/-- l.13-67 `_ik_step_kernel`: `(dq, dx)` -/
def ikStepT (m_flat target_pos target_wxyz J reg_matrix : Tn ℝ) (M : ℕ) (lm : ℝ) (task_weight : Option (Tn ℝ)) :
    Except Err (Tn ℝ × Tn ℝ) := do
  let dx ← kernelDx m_flat target_pos target_wxyz M
  let J_w ← weighT task_weight J
  let dx_w ← weighT task_weight dx
  let tmpA ← add (← matmulT J_w (← transposeLast J_w)) reg_matrix
  let tmpA ← if 0 < lm then do
      let mu := map (lm * ·) (← sumMidKeep (← mul dx_w dx_w))
      add tmpA (← mul mu (eyeN 6 J.tag))
    else pure tmpA
  let A ← solveT tmpA dx_w
  let dq ← matmulT (← transposeLast J_w) A
  return (dq, dx)

/-- l.70-129 `_ik_step_kernel_svd`; `svd` is `torch.linalg.svd`, which is not modelled: `(U, D, Vh)` -/
def ikStepSvdT (svd : Tn ℝ → Tn ℝ × Tn ℝ × Tn ℝ) (m_flat target_pos target_wxyz J reg_matrix : Tn ℝ) (M : ℕ) (lm : ℝ)
    (task_weight : Option (Tn ℝ)) : Except Err (Tn ℝ × Tn ℝ) := do
  let dx ← kernelDx m_flat target_pos target_wxyz M
  let J_w ← weighT task_weight J
  let dx_w ← weighT task_weight dx
  let regularization ← select0 (← select0 reg_matrix 0) 0
  let regularization ← if 0 < lm then do
      let mu := squeezeLast (map (lm * ·) (← sumMidKeep (← mul dx_w dx_w)))
      add regularization mu
    else pure regularization
  let (U, D, Vh) := svd J_w
  let m_sv := D.shape.getD 1 0
  let denom ← add (map (· ^ 2) D) regularization
  let prod ← div D denom
  let inverted ← diagEmbed prod
  let Vh ← sliceMid Vh m_sv
  let total ← matmulT (← matmulT (← transposeLast Vh) inverted) (← transposeLast U)
  let dq ← matmulT total dx_w
  return (dq, dx)

/-- l.445 `self.regularlization * torch.eye(6)` -/
def regMatrixT (t : Tag) (reg : ℝ) : Tn ℝ := map (reg * ·) (eyeN 6 t)

/-- l.341-344 `torch.tensor([position_weight] * 3 + [orientation_weight] * 3)` -/
def taskWeightT (t : Tag) (position_weight orientation_weight : ℝ) : Tn ℝ :=
  ofFn t [6] fun i => if i.headD 0 < 3 then position_weight else orientation_weight

/-- l.462-469: `target_pos` and `target_wxyz` of the `(N, 4, 4)` target poses -/
def targetT (target : Tn ℝ) : Except Err (Tn ℝ × Tn ℝ) := do
  return (← posColumn target, ← Tn.matrixToQuaternion (← rotBlock target))

/-- l.497-499, 553-555, 626-628, 639-641 on joint values that are numbers: `jacobian_tensor(q, True)`, then the kernel -/
def SerialT.ikEval (s : SerialT) (junk : List ℕ → ℝ) (target reg_matrix : Tn ℝ) (M : ℕ) (lm : ℝ) (task_weight : Option (Tn ℝ))
    (q : Tn ℝ) : Except Err (Tn ℝ × Tn ℝ) := do
  let (target_pos, target_wxyz) ← targetT target
  let (J, m) ← s.jacobian junk q
  ikStepT m target_pos target_wxyz J reg_matrix M lm task_weight

/-- the same for `PseudoInverseIKWithSVD`, l.645-660 -/
def SerialT.ikEvalSvd (s : SerialT) (svd : Tn ℝ → Tn ℝ × Tn ℝ × Tn ℝ) (junk : List ℕ → ℝ) (target reg_matrix : Tn ℝ) (M : ℕ)
    (lm : ℝ) (task_weight : Option (Tn ℝ)) (q : Tn ℝ) : Except Err (Tn ℝ × Tn ℝ) := do
  let (target_pos, target_wxyz) ← targetT target
  let (J, m) ← s.jacobian junk q
  ikStepSvdT svd m target_pos target_wxyz J reg_matrix M lm task_weight

/-- l.243-248 on joint values that are numbers: the pose error of `fk_fn(q)[eef_frame_idx].view(-1, M, 4, 4)` -/
def SerialT.ikErr (s : SerialT) (junk : List ℕ → ℝ) (target : Tn ℝ) (M : ℕ) (q : Tn ℝ) : Except Err (Tn ℝ) := do
  let (target_pos, target_wxyz) ← targetT target
  let all ← s.chain.fkImpl junk q
  let m ← reshapeInfer (← select0 all s.eefIdx) [M, 4, 4]
  let (dx, _, _) ← deltaPoseT m target_pos target_wxyz
  return dx

/-! ## IKSolution -/

/-- l.132-160 class `IKSolution` -/
structure SolT where
  iterations : ℕ
  numRetries : ℕ
  dof : ℕ
  solutions : Tn Fl
  remaining : Tn Bool
  errPos : Tn Fl
  errRot : Tn Fl
  convPos : Tn Bool
  convRot : Tn Bool
  conv : Tn Bool
  convPosAny : Tn Bool
  convRotAny : Tn Bool
  convAny : Tn Bool

/-- `torch.full(s, x)` -/
def Tn.fullG {α : Type} [Inhabited α] (t : Tag) (s : Shape) (x : α) : Tn α := ofFn t s fun _ => x

/-- l.133-160 `IKSolution.__init__` -/
def SolT.init (dof N R : ℕ) (t : Tag) : SolT :=
  let b : Tag := eqT t
  { iterations := 0, numRetries := R, dof
    solutions := fullG t [N, R, dof] (.fin 0)
    remaining := fullG b [N] true
    errPos := fullG t [N, R] (.fin 0)
    errRot := fullG t [N, R] (.fin 0)
    convPos := fullG b [N, R] false
    convRot := fullG b [N, R] false
    conv := fullG b [N, R] false
    convPosAny := fullG b [N] false
    convRotAny := fullG b [N] false
    convAny := fullG b [N] false }

/-- l.162-164 `update_remaining_with_keep_mask` -/
def SolT.keep (s : SolT) (mask : Tn Bool) : Except Err SolT := do
  return { s with remaining := ← andB s.remaining mask }

/-- l.166-198 `update` -/
def SolT.update (posTol rotTol : ℝ) (s : SolT) (q err : Tn Fl) (useKeep : Bool := true) (keepMask : Option (Tn Bool) := none) :
    Except Err SolT := do
  let err ← reshapeInfer err [s.numRetries, 6]
  let err_pos ← normLast (← sliceLast err 0 3)
  let err_rot ← normLast (← sliceLast err 3 6)
  let converged_pos := testG (fun x => Fl.lt x (.fin posTol)) err_pos
  let converged_rot := testG (fun x => Fl.lt x (.fin rotTol)) err_rot
  let converged ← andB converged_pos converged_rot
  let converged_any ← anyDim1 converged
  let keep_mask := keepMask.getD (notB converged_any)
  let qq ← reshapeInfer q [s.numRetries, s.dof]
  let s ← if useKeep then s.keep keep_mask else pure s
  let not_converged := notB s.conv
  let not_converged_dof := unsqueeze not_converged
  return { s with
    solutions := ← sel not_converged_dof qq s.solutions
    errPos := ← sel not_converged err_pos s.errPos
    errRot := ← sel not_converged err_rot s.errRot
    convPos := ← orB s.convPos converged_pos
    convRot := ← orB s.convRot converged_rot
    conv := ← orB s.conv converged
    convAny := ← orB s.convAny converged_any }

/-! ## Solver -/

/-- What the solver calls: `step q` is `(dq, dx)` of `jacobian_tensor` and the kernel, `err q` the pose error that the line
search computes. -/
structure EvalT where
  step : Tn Fl → Except Err (Tn Fl × Tn Fl)
  err : Tn Fl → Except Err (Tn Fl)

/-- l.240 `q + lr.unsqueeze(1) * dq` -/
def stepRowsT (q dq : Tn Fl) (lr : Tn ℝ) : Except Err (Tn Fl) := do
  bin Fl.add q (← bin Fl.mulReal (unsqueezeAt lr 1) dq)

/-- l.236-256 the loop: `lr` -/
def LineSearch.loopT (ls : LineSearch) (E : EvalT) (q dq err : Tn Fl) : ℕ → Tn ℝ → Tn Bool → Except Err (Tn ℝ)
  | 0, lr, _ => .ok lr
  | k + 1, lr, remaining =>
    if anyAll remaining then do
      let q_new ← stepRowsT q dq lr
      let dx ← E.err q_new
      let err_new ← normLast (squeezeAll dx)
      let improvement ← bin Fl.sub err err_new
      let improved := testG (fun x => Fl.lt (.fin ls.sufficient) x) improvement
      let lr ← mulWhere lr (notB improved) ls.decrease
      let remaining ← andB remaining (notB improved)
      ls.loopT E q dq err k lr remaining
    else .ok lr

/-- l.222-260 `do_line_search`; `N` is `target_pos.shape[0]` -/
def LineSearch.searchT (ls : LineSearch) (E : EvalT) (N : ℕ) (q dq dx : Tn Fl) (problem_remaining : Tn Bool) :
    Except Err (Tn ℝ) :=
  match q.shape with
  | [] => .error .indexError
  | NM :: _ =>
    if N = 0 then .error .zeroDivision
    else do
      let M := NM / N
      let lr := Tn.full (flTag .f32 q.tag.dev) [NM] ls.maxLr
      let err ← normLast (squeezeAll dx)
      let remaining := fullG (eqT q.tag) [N, M] true
      let remaining ← putFalse remaining (notB problem_remaining)
      let remaining ← reshape remaining [N * M]
      ls.loopT E q dq err ls.maxIter lr remaining

/-- `no_improve_counter`, `err_min` -/
abbrev ProgressT := Tn ℕ × Tn Fl

/-- l.523-529 -/
def NoImp.keepT (m : NoImp) (R : ℕ) (could : Tn Bool) : Except Err (Tn Bool) :=
  match m with
  | .all => allDim1 could
  | .any => anyDim1 could
  | .ratio x => do
    let n ← countDim1 could
    return ofFn (eqT n.tag) n.shape fun i => decide (x < (n.get i : ℝ) / R)

/-- l.507-530 -/
def watchT (noImp : Option NoImp) (patience : ℝ) (R : ℕ) (progress : Option ProgressT) (err : Tn Fl) (sol : SolT) :
    Except Err (Option ProgressT × SolT) :=
  match noImp with
  | none => .ok (progress, sol)
  | some mode =>
    match progress with
    | none => .ok (some (fullG err.tag err.shape 0, err), sol)
    | some (cnt, errMin) => do
      let improved ← cmpG Fl.lt err errMin
      let errMin ← sel improved err errMin
      let cnt ← sel improved (fullG cnt.tag cnt.shape 0) (mapG (· + 1) cnt)
      let could := testG (fun n : ℕ => (n : ℝ) ≤ patience) cnt
      let could ← reshapeInfer could [R]
      let keep ← mode.keepT R could
      let sol ← sol.keep keep
      return (some (cnt, errMin), sol)

/-- state of the main loop -/
structure StateT where
  q : Tn Fl
  sol : SolT
  progress : Option ProgressT

variable {d : ℕ}

/-- `chain.low`, `chain.high`, `_revolute_mask` -/
def IKParams.lowT (p : IKParams d) (t : Tag) : Tn Fl := ofFn t [d] fun i => if h : i.headD 0 < d then p.low ⟨i.headD 0, h⟩ else default
def IKParams.highT (p : IKParams d) (t : Tag) : Tn Fl := ofFn t [d] fun i => if h : i.headD 0 < d then p.high ⟨i.headD 0, h⟩ else default
def IKParams.revT (p : IKParams d) (t : Tag) : Tn Bool :=
  ofFn (eqT t) [d] fun i => if h : i.headD 0 < d then p.revolute ⟨i.headD 0, h⟩ else default

/-- l.539-549: the step -/
def IKParams.moveT (p : IKParams d) (E : EvalT) (N : ℕ) (t : Tag) (q dq dx : Tn Fl) (remaining : Tn Bool) :
    Except Err (Tn Fl) := do
  let q ← match p.lineSearch with
    | some ls => do
      let lr ← ls.searchT E N q dq dx remaining
      stepRowsT q dq lr
    | none => bin Fl.add q (mapG (Fl.mulReal p.lr) dq)
  if p.clamps then clampT q (p.lowT t) (p.highT t) else return q

/-- l.490-549: body of the main loop; `N` problems, `R` retries -/
def IKParams.bodyT (p : IKParams d) (E : EvalT) (N R : ℕ) (t : Tag) (st : StateT) : Except Err StateT := do
  let sol := { st.sol with iterations := st.sol.iterations + 1 }
  let (dq, dx) ← E.step st.q
  let dq := squeezeLast dq
  let err_all := squeezeLast dx
  let err ← normLast (← reshapeInfer err_all [R, 6])
  let sol ← sol.update p.posTol p.rotTol st.q err_all p.esAny
  let (progress, sol) ← watchT p.noImp p.patience R st.progress err sol
  let q ← p.moveT E N t st.q dq dx sol.remaining
  return { q, sol, progress }

/-- l.490-549: `for i in range(max_iterations)` with the early exit -/
def IKParams.loopT (p : IKParams d) (E : EvalT) (N R : ℕ) (t : Tag) : ℕ → StateT → Except Err StateT
  | 0, st => .ok st
  | k + 1, st => if anyAll st.sol.remaining then do
      let st ← p.bodyT E N R t st
      p.loopT E N R t k st
    else .ok st

/-- l.593-607 `_wrap_revolute_joints` -/
def IKParams.wrapT (p : IKParams d) (t : Tag) (q : Tn Fl) : Except Err (Tn Fl) := do
  let center := mapG (Fl.scalePos (1 / 2)) (← bin Fl.add (p.lowT t) (p.highT t))
  let n := mapG Fl.round (mapG (Fl.scalePos (1 / (2 * Real.pi))) (← bin Fl.sub center q))
  let shift := mapG (Fl.scalePos Real.pi) (mapG (Fl.scalePos 2) (← takeMask n (p.revT t)))
  putMask q (p.revT t) (← bin Fl.add (← takeMask q (p.revT t)) shift)

/-- l.625-630: the refinement iterations -/
def IKParams.refineT (p : IKParams d) (E : EvalT) (t : Tag) : ℕ → Tn Fl → Except Err (Tn Fl)
  | 0, q => .ok q
  | k + 1, q => do
    let (dq, _) ← E.step q
    let q ← bin Fl.add q (mapG (Fl.mulReal p.lr) (squeezeLast dq))
    let q ← clampT q (p.lowT t) (p.highT t)
    p.refineT E t k q

/-- `t[:] = False` -/
def Tn.clear (a : Tn Bool) : Tn Bool := fullG a.tag a.shape false

/-- l.609-642 `_enforce_limits` -/
def IKParams.enforceT (p : IKParams d) (E : EvalT) (t : Tag) (s : SolT) : Except Err SolT := do
  let q ← reshapeInfer s.solutions [d]
  let q ← p.wrapT t q
  let q ← clampT q (p.lowT t) (p.highT t)
  let q ← p.refineT E t p.nRefine q
  let s := { s with conv := s.conv.clear, convAny := s.convAny.clear, convPos := s.convPos.clear, convRot := s.convRot.clear }
  let (_, dx) ← E.step q
  s.update p.posTol p.rotTol q (squeezeLast dx) false

/-- l.474-484: the starting rows of `N` problems -/
def startT (initial : Tn Fl) (N R d : ℕ) : Except Err (Tn Fl) :=
  if initial.shape.prod = N * d * R then reshapeInfer initial [d]
  else if initial.shape.prod = d * R then repeatT initial [N, 1]
  else if initial.shape.prod = d then repeatT (unsqueezeAt initial 0) [N * R, 1]
  else .error .valueError

/-- l.459-587 `PseudoInverseIK.solve` for `N` target poses; `initial` is `initial_config`, `R` is `num_retries` -/
def IKParams.solveT (p : IKParams d) (E : EvalT) (N R : ℕ) (t : Tag) (initial : Tn Fl) : Except Err SolT := do
  let sol := SolT.init d N R t
  let q ← startT initial N R d
  let st ← p.loopT E N R t p.maxIter ⟨q, sol, none⟩
  let (_, dx) ← E.step st.q
  let sol ← st.sol.update p.posTol p.rotTol st.q (squeezeLast dx) p.esAny
  if p.enforce && p.hasFiniteLimits then p.enforceT E t sol else return sol

/-! ## Joint values that are not numbers -/

/-- a finite value; 0 for the others -/
def Fl.numPart : Fl → ℝ
  | .fin x => x
  | _ => 0

/-- the joint values with 0 for those that are not finite -/
def finPart (q : Tn Fl) : Tn ℝ := ofFn q.tag q.shape fun i => (q.get i).numPart

/-- row `b` -/
def rowFl (q : Tn Fl) (b : ℕ) : List Fl := (List.range (q.shape.getD 1 0)).map fun k => q.get [b, k]

/-- What `solve` computes from its joint values, l.497-499 and l.241-246.  The scalars of the chain and of the kernel are reals,
so rows of finite joint values are computed as they stand; every operation on the way treats rows separately.  For a row with a
NaN or an infinity nothing is said but that the result is a function `bad` of the problem and the row and that the line search
gets the same error (`(dq, dx)` by component). -/
def SerialT.evalFl (s : SerialT) (junk : List ℕ → ℝ) (target reg_matrix : Tn ℝ) (M : ℕ) (lm : ℝ) (task_weight : Option (Tn ℝ))
    (bad : ℕ → List Fl → (ℕ → Fl) × (ℕ → Fl)) : EvalT :=
  let patch (q : Tn Fl) (pick : (ℕ → Fl) × (ℕ → Fl) → ℕ → Fl) (x : Tn ℝ) : Tn Fl := ofFn x.tag x.shape fun i =>
    let row := rowFl q (i.headD 0)
    if ∃ y ∈ row, y.isFinite = false then pick (bad (i.headD 0 / M) row) (i.getD 1 0) else .fin (x.get i)
  { step := fun q => do
      let (dq, dx) ← s.ikEval junk target reg_matrix M lm task_weight (finPart q)
      return (patch q Prod.fst dq, patch q Prod.snd dx)
    err := fun q => do
      let dx ← s.ikErr junk target M (finPart q)
      return patch q Prod.snd dx }

end
end PK
