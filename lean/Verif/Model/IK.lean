import Verif.Model.Serial
import Verif.Model.RotConv
import Verif.Model.Fl

/-!
# Model of `ik.py`
Line numbers refer to `/repo/src/pytorch_kinematics/ik.py`.

`N` problems, `R` retries each, `d` degrees of freedom; the flattened row `i * R + r` of the code is the pair `(i, r)`.
Joint values, steps and errors of the solver are extended scalars (limits may be infinite, wrapping may produce NaN).
The solver is written over an arbitrary evaluation function `Eval`; `Realises` says when it is the one the code computes.

Not modelled: `debug` plots, `torch.compile`, dtype/device, values of `early_stopping_no_improvement` other than
`None`, `"all"`, `"any"` and a float.
-/

namespace PK
open Matrix
noncomputable section
open Classical

/-! ## step kernels -/

/-- first three components -/
def head3 (v : Fin 6 → ℝ) : V3 := ![v 0, v 1, v 2]
/-- last three components -/
def tail3 (v : Fin 6 → ℝ) : V3 := ![v 3, v 4, v 5]
/-- `torch.cat((a, b))` of two 3-vectors -/
def cat33 (a b : V3) : Fin 6 → ℝ := ![a 0, a 1, a 2, b 0, b 1, b 2]

/-- `v.norm()` of a 6-vector -/
def norm6 (v : Fin 6 → ℝ) : ℝ := Real.sqrt (∑ i, v i * v i)

/-- l.397-428 `delta_pose`, one row; the same expression is repeated in the kernels l.40-48, l.96-104 -/
def deltaPose (m : M4) (tpos : V3) (tq : Quat) : Fin 6 → ℝ :=
  let posDiff : V3 := fun i => tpos i - posPart m i
  let cur := matrixToQuaternion (rotPart m)
  let diff := quaternionMultiply tq (quaternionInvert cur)
  cat33 posDiff (quaternionToAxisAngle diff)

/-- l.51-57 `w * J`, `w * dx` -/
def weightJ {d : ℕ} (w : Option (Fin 6 → ℝ)) (J : Matrix (Fin 6) (Fin d) ℝ) : Matrix (Fin 6) (Fin d) ℝ :=
  match w with
  | some w => Matrix.of fun i j => w i * J i j
  | none => J
/-- l.51-57 -/
def weightDx (w : Option (Fin 6 → ℝ)) (dx : Fin 6 → ℝ) : Fin 6 → ℝ :=
  match w with
  | some w => fun i => w i * dx i
  | none => dx

/-- l.61-65: the matrix of the linear system; `reg_matrix = regularlization * eye(6)` (l.445) -/
def dlsMatrix {d : ℕ} (Jw : Matrix (Fin 6) (Fin d) ℝ) (dxw : Fin 6 → ℝ) (reg lm : ℝ) : Matrix (Fin 6) (Fin 6) ℝ :=
  if 0 < lm then Jw * Jwᵀ + reg • (1 : Matrix (Fin 6) (Fin 6) ℝ) + (lm * ∑ i, dxw i * dxw i) • (1 : Matrix (Fin 6) (Fin 6) ℝ)
  else Jw * Jwᵀ + reg • (1 : Matrix (Fin 6) (Fin 6) ℝ)

/-- l.13-67 `_ik_step_kernel`, one row. `torch.linalg.solve(A, b)` is `A⁻¹ b`; it raises for singular `A`, which cannot
happen for `reg > 0` (`C54`). Returns `(dq, dx)`. -/
def ikStepKernel {d : ℕ} (m : M4) (tpos : V3) (tq : Quat) (J : Matrix (Fin 6) (Fin d) ℝ) (reg lm : ℝ)
    (w : Option (Fin 6 → ℝ)) : (Fin d → ℝ) × (Fin 6 → ℝ) :=
  let dx := deltaPose m tpos tq
  let Jw := weightJ w J
  let dxw := weightDx w dx
  let A := (dlsMatrix Jw dxw reg lm)⁻¹ *ᵥ dxw
  (Jwᵀ *ᵥ A, dx)

/-- What `torch.linalg.svd(J)` returns for a `(6, d)` matrix: `U (6,6)`, `D (min 6 d)`, `Vh (d,d)`. -/
structure SVD (d : ℕ) where
  U : Matrix (Fin 6) (Fin 6) ℝ
  D : Fin (min 6 d) → ℝ
  Vh : Matrix (Fin d) (Fin d) ℝ

/-- l.113-126 with the decomposition given: `(Vh[:m_sv])ᵀ @ diag(D/(D²+λ)) @ Uᵀ @ dx`. The inner product of an
`(m_sv, m_sv)` and a `(6, 6)` matrix raises RuntimeError unless `m_sv = 6`. -/
def svdStep {d : ℕ} (s : SVD d) (lam : ℝ) (dxw : Fin 6 → ℝ) : Except Err (Fin d → ℝ) :=
  if h : min 6 d = 6 then
    let prod : Fin 6 → ℝ := fun i => s.D (Fin.cast h.symm i) / (s.D (Fin.cast h.symm i) ^ 2 + lam)
    let V : Matrix (Fin 6) (Fin d) ℝ := Matrix.of fun i j => s.Vh ⟨i.val, by omega⟩ j
    .ok ((Vᵀ * Matrix.diagonal prod * s.Uᵀ) *ᵥ dxw)
  else .error .runtimeError

/-- l.70-129 `_ik_step_kernel_svd`, one row, for a given singular value decomposition of the weighted Jacobian. -/
def ikStepKernelSvd {d : ℕ} (m : M4) (tpos : V3) (tq : Quat) (s : SVD d) (reg lm : ℝ)
    (w : Option (Fin 6 → ℝ)) : Except Err ((Fin d → ℝ) × (Fin 6 → ℝ)) := do
  let dx := deltaPose m tpos tq
  let dxw := weightDx w dx
  let lam := if 0 < lm then reg + lm * ∑ i, dxw i * dxw i else reg
  return (← svdStep s lam dxw, dx)

/-! ## IKSolution -/

/-- a row of joint values -/
abbrev QRow (d : ℕ) := Fin d → Fl

/-- l.132-198 class `IKSolution` -/
structure Sol (N R d : ℕ) where
  iterations : ℕ
  solutions : Fin N → Fin R → QRow d
  remaining : Fin N → Bool
  errPos : Fin N → Fin R → Fl
  errRot : Fin N → Fin R → Fl
  convPos : Fin N → Fin R → Bool
  convRot : Fin N → Fin R → Bool
  conv : Fin N → Fin R → Bool
  convPosAny : Fin N → Bool
  convRotAny : Fin N → Bool
  convAny : Fin N → Bool

/-- l.133-160 `IKSolution.__init__` -/
def Sol.init (N R d : ℕ) : Sol N R d where
  iterations := 0
  solutions := fun _ _ _ => .fin 0
  remaining := fun _ => true
  errPos := fun _ _ => .fin 0
  errRot := fun _ _ => .fin 0
  convPos := fun _ _ => false
  convRot := fun _ _ => false
  conv := fun _ _ => false
  convPosAny := fun _ => false
  convRotAny := fun _ => false
  convAny := fun _ => false

/-- `.norm()` over a dimension of extended scalars -/
def Fl.norm (l : List Fl) : Fl :=
  if ∃ x ∈ l, x = .nan then .nan
  else if ∀ x ∈ l, x.isFinite = true then .fin (Real.sqrt (l.map fun x => match x with | .fin y => y * y | _ => 0).sum)
  else .pinf

/-- multiplication by a real -/
def Fl.mulReal (c : ℝ) : Fl → Fl
  | .nan => .nan
  | .fin x => .fin (c * x)
  | .pinf => if 0 < c then .pinf else if c < 0 then .ninf else .nan
  | .ninf => if 0 < c then .ninf else if c < 0 then .pinf else .nan

/-- l.162-164 `update_remaining_with_keep_mask` -/
def Sol.keep {N R d : ℕ} (s : Sol N R d) (mask : Fin N → Bool) : Sol N R d :=
  { s with remaining := fun i => s.remaining i && mask i }

/-- l.166-198 `update`. -/
def Sol.update {N R d : ℕ} (posTol rotTol : ℝ) (s : Sol N R d) (q : Fin N → Fin R → QRow d)
    (err : Fin N → Fin R → Fin 6 → Fl) (useKeep : Bool := true) (keepMask : Option (Fin N → Bool) := none) :
    Sol N R d :=
  let errPos := fun i r => Fl.norm [err i r 0, err i r 1, err i r 2]
  let errRot := fun i r => Fl.norm [err i r 3, err i r 4, err i r 5]
  let cp := fun i r => decide (Fl.lt (errPos i r) (.fin posTol))
  let cr := fun i r => decide (Fl.lt (errRot i r) (.fin rotTol))
  let c := fun i r => cp i r && cr i r
  let cAny := fun i => decide (∃ r, c i r = true)
  let keepMask := keepMask.getD fun i => !cAny i
  let s := if useKeep then s.keep keepMask else s
  { s with
    solutions := fun i r => if s.conv i r then s.solutions i r else q i r
    errPos := fun i r => if s.conv i r then s.errPos i r else errPos i r
    errRot := fun i r => if s.conv i r then s.errRot i r else errRot i r
    convPos := fun i r => s.convPos i r || cp i r
    convRot := fun i r => s.convRot i r || cr i r
    conv := fun i r => s.conv i r || c i r
    convAny := fun i => s.convAny i || cAny i }

/-! ## solver -/

/-- the Jacobian–pose–kernel evaluation (l.497-499, l.553-555, l.626-628, l.639-641) of one row for problem `i`: `(dq, dx)` -/
abbrev Eval (N d : ℕ) := Fin N → QRow d → QRow d × (Fin 6 → Fl)

/-- `q + lr * dq` (l.240, l.547, l.629) -/
def stepRow {d : ℕ} (lr : ℝ) (q dq : QRow d) : QRow d := fun j => Fl.add (q j) (Fl.mulReal lr (dq j))

/-- norm of a pose error -/
def errNorm (dx : Fin 6 → Fl) : Fl := Fl.norm [dx 0, dx 1, dx 2, dx 3, dx 4, dx 5]

/-- l.215-220 `BacktrackingLineSearch` -/
structure LineSearch where
  maxLr : ℝ := 1
  decrease : ℝ := 1 / 2
  maxIter : ℕ := 5
  sufficient : ℝ := 1 / 100

/-- l.251-252 `err - err_new > sufficient_decrease` -/
def improvedBy (suff : ℝ) (err errNew : Fl) : Bool := decide (Fl.lt (.fin suff) (Fl.sub err errNew))

/-- one pass of the loop l.236-256: `(lr, remaining)` -/
def LineSearch.pass {N R : ℕ} (ls : LineSearch) (err : Fin N → Fin R → Fl)
    (errAt : Fin N → Fin R → ℝ → Fl) (st : (Fin N → Fin R → ℝ) × (Fin N → Fin R → Bool)) :
    (Fin N → Fin R → ℝ) × (Fin N → Fin R → Bool) :=
  let improved := fun i r => improvedBy ls.sufficient (err i r) (errAt i r (st.1 i r))
  (fun i r => if improved i r then st.1 i r else st.1 i r * ls.decrease,
   fun i r => st.2 i r && !improved i r)

/-- l.236-256: the loop with its early exit -/
def LineSearch.loop {N R : ℕ} (ls : LineSearch) (err : Fin N → Fin R → Fl)
    (errAt : Fin N → Fin R → ℝ → Fl) :
    ℕ → (Fin N → Fin R → ℝ) × (Fin N → Fin R → Bool) → (Fin N → Fin R → ℝ) × (Fin N → Fin R → Bool)
  | 0, st => st
  | k + 1, st => if ∃ i r, st.2 i r = true then ls.loop err errAt k (ls.pass err errAt st) else st

/-- l.222-260 `do_line_search` (the learning rates; `solve` ignores the mean improvement). `errAt i r lr` is the norm of
the pose error at `q + lr * dq`. -/
def LineSearch.search {N R : ℕ} (ls : LineSearch) (err : Fin N → Fin R → Fl)
    (errAt : Fin N → Fin R → ℝ → Fl) (problemRemaining : Fin N → Bool) : Fin N → Fin R → ℝ :=
  (ls.loop err errAt ls.maxIter (fun _ _ => ls.maxLr, fun i _ => problemRemaining i)).1

/-- `early_stopping_no_improvement` -/
inductive NoImp where
  | all | any | ratio (x : ℝ)

/-- Solver parameters, l.266-366, 432-457. -/
structure IKParams (d : ℕ) where
  low : Fin d → Fl
  high : Fin d → Fl
  revolute : Fin d → Bool
  posTol : ℝ
  rotTol : ℝ
  maxIter : ℕ
  lr : ℝ
  lineSearch : Option LineSearch
  esAny : Bool
  noImp : Option NoImp
  patience : ℝ
  enforce : Bool
  nRefine : ℕ
  clampToLimits : Bool

/-- l.523-529: which problems are kept -/
def NoImp.keep {N R : ℕ} (m : NoImp) (could : Fin N → Fin R → Bool) : Fin N → Bool :=
  match m with
  | .all => fun i => decide (∀ r, could i r = true)
  | .any => fun i => decide (∃ r, could i r = true)
  | .ratio x => fun i => decide (x < ((Finset.univ.filter fun r => could i r = true).card : ℝ) / R)

/-- `no_improve_counter`, `err_min` -/
abbrev Progress (N R : ℕ) := (Fin N → Fin R → ℕ) × (Fin N → Fin R → Fl)

/-- l.508-529: progress bookkeeping; the second component is the keep mask, absent on the first iteration -/
def progressStep {N R : ℕ} (mode : NoImp) (patience : ℝ) (pr : Option (Progress N R)) (err : Fin N → Fin R → Fl) :
    Progress N R × Option (Fin N → Bool) :=
  match pr with
  | none => ((fun _ _ => 0, err), none)
  | some (cnt, errMin) =>
    let improved := fun i r => decide (Fl.lt (err i r) (errMin i r))
    let errMin' := fun i r => if improved i r then err i r else errMin i r
    let cnt' := fun i r => if improved i r then 0 else cnt i r + 1
    let could := fun i r => decide ((cnt' i r : ℝ) ≤ patience)
    ((cnt', errMin'), some (mode.keep could))

/-- state of the main loop -/
structure IKState (N R d : ℕ) where
  q : Fin N → Fin R → QRow d
  sol : Sol N R d
  progress : Option (Progress N R)

variable {N R d : ℕ}

/-- clamping of a row to the chain limits -/
def IKParams.clampRow (p : IKParams d) (q : QRow d) : QRow d := fun j => Fl.clamp (q j) (p.low j) (p.high j)

/-- l.326 `clamp_to_limits and torch.isfinite(serial_chain.low).any()` -/
def IKParams.clamps (p : IKParams d) : Bool := p.clampToLimits && decide (∃ j, (p.low j).isFinite = true)

/-- l.539-546: learning rates of this iteration -/
def IKParams.rates (p : IKParams d) (ev : Eval N d) (q : Fin N → Fin R → QRow d)
    (out : Fin N → Fin R → QRow d × (Fin 6 → Fl)) (remaining : Fin N → Bool) : Fin N → Fin R → ℝ :=
  match p.lineSearch with
  | none => fun _ _ => p.lr
  | some ls =>
    ls.search (fun i r => errNorm (out i r).2)
      (fun i r lr => errNorm (ev i (stepRow lr (q i r) (out i r).1)).2) remaining

/-- l.506-530: progress bookkeeping and the solution record after it -/
def IKParams.watch (p : IKParams d) (progress : Option (Progress N R)) (err : Fin N → Fin R → Fl) (sol : Sol N R d) :
    Option (Progress N R) × Sol N R d :=
  match p.noImp with
  | none => (progress, sol)
  | some mode =>
    let (pr, mask) := progressStep mode p.patience progress err
    (some pr, match mask with | none => sol | some m => sol.keep m)

/-- l.490-549: body of the main loop -/
def IKParams.body (p : IKParams d) (ev : Eval N d) (st : IKState N R d) : IKState N R d :=
  let out := fun i r => ev i (st.q i r)
  let sol := { st.sol with iterations := st.sol.iterations + 1 }.update p.posTol p.rotTol st.q (fun i r => (out i r).2) p.esAny
  let (progress, sol) := p.watch st.progress (fun i r => errNorm (out i r).2) sol
  let lr := p.rates ev st.q out sol.remaining
  let q := fun i r => stepRow (lr i r) (st.q i r) (out i r).1
  { q := if p.clamps then fun i r => p.clampRow (q i r) else q, sol, progress }

/-- l.490-549: `for i in range(max_iterations)` with the early exit -/
def IKParams.loop (p : IKParams d) (ev : Eval N d) : ℕ → IKState N R d → IKState N R d
  | 0, st => st
  | k + 1, st => if ∃ i, st.sol.remaining i = true then p.loop ev k (p.body ev st) else st

/-- l.593-607 `_wrap_revolute_joints`, one row -/
def IKParams.wrapRow (p : IKParams d) (q : QRow d) : QRow d := fun j =>
  let center := Fl.scalePos (1 / 2) (Fl.add (p.low j) (p.high j))
  let n := Fl.round (Fl.scalePos (1 / (2 * Real.pi)) (Fl.sub center (q j)))
  if p.revolute j then Fl.add (q j) (Fl.scalePos (2 * Real.pi) n) else q j

/-- l.626-630: one clamped refinement step -/
def IKParams.refine (p : IKParams d) (ev : Eval N d) (i : Fin N) (q : QRow d) : QRow d :=
  p.clampRow (stepRow p.lr q (ev i q).1)

/-- l.609-642 `_enforce_limits` -/
def IKParams.enforceLimits (p : IKParams d) (ev : Eval N d) (s : Sol N R d) : Sol N R d :=
  let q := fun i r => (p.refine ev i)^[p.nRefine] (p.clampRow (p.wrapRow (s.solutions i r)))
  let s := { s with
    conv := fun _ _ => false, convAny := fun _ => false, convPos := fun _ _ => false, convRot := fun _ _ => false }
  s.update p.posTol p.rotTol q (fun i r => (ev i (q i r)).2) false

/-- l.589-591 `_has_finite_limits` -/
def IKParams.hasFiniteLimits (p : IKParams d) : Bool :=
  decide (∃ j, (p.low j).isFinite = true) || decide (∃ j, (p.high j).isFinite = true)

/-- the solution after the loop and the final check (l.551-559) -/
def IKParams.solveCore (p : IKParams d) (ev : Eval N d) (q0 : Fin N → Fin R → QRow d) : IKState N R d :=
  let st := p.loop ev p.maxIter ⟨q0, Sol.init N R d, none⟩
  { st with sol := st.sol.update p.posTol p.rotTol st.q (fun i r => (ev i (st.q i r)).2) p.esAny }

/-- l.459-587 `PseudoInverseIK.solve` from initial joint values -/
def IKParams.solve (p : IKParams d) (ev : Eval N d) (q0 : Fin N → Fin R → QRow d) : Sol N R d :=
  let sol := (p.solveCore ev q0).sol
  if p.enforce && p.hasFiniteLimits then p.enforceLimits ev sol else sol

/-- `ev` is what the code computes on this chain for these targets (l.462-470, 497-499): Jacobian and end pose from
`jacobian_tensor` of the row, then the step kernel.  For a row with a NaN or infinite joint value only one fact is
used: some entry of the error is not finite (`sin`, `cos` of the value are NaN and so is the rotation block of every
later pose, or the value is added to the position).  That `jacobian_tensor` treats rows separately is
`jacobianTensor_rowwise`. -/
structure Realises (s : SerialChain) (targets : Fin N → M4) (reg lm : ℝ) (w : Option (Fin 6 → ℝ)) (ev : Eval N d) : Prop where
  finite : ∀ i (q : Fin d → ℝ), ∃ J m, s.jacobianTensor (B := 1) (List.ofFn fun j _ => q j) = .ok (J, m) ∧ J.length = d ∧
    let k := ikStepKernel (m 0) (posPart (targets i)) (matrixToQuaternion (rotPart (targets i)))
      (Matrix.of fun k (j : Fin d) => (J.getD j fun _ _ => 0) 0 k) reg lm w
    ev i (fun j => .fin (q j)) = (fun j => .fin (k.1 j), fun a => .fin (k.2 a))
  propagates : ∀ i (q : QRow d), (∃ j, (q j).isFinite = false) → ∃ a, ((ev i q).2 a).isFinite = false

/-! ## initial configurations -/

/-- `retry_configs`: a 2-D tensor given by its rows, or a 3-D tensor -/
inductive RetryArg where
  | mat (cols : ℕ) (rows : List (List ℝ))
  | batch (rows cols : ℕ) (blocks : List (List (List ℝ)))

/-- l.363-366: the shape check of the constructor and `num_retries = shape[-2]` -/
def RetryArg.check (dof : ℕ) : RetryArg → Except Err ℕ
  | .mat cols rows => if cols ≠ dof then .error .valueError else .ok rows.length
  | .batch rows _ _ => if rows ≠ dof then .error .valueError else .ok rows

/-- l.474-485: the `(M * num_retries, dof)` starting rows, in order, for a 2-D tensor that passed the check -/
def RetryArg.start (dof M R : ℕ) : RetryArg → Except Err (List (List ℝ))
  | .mat _ rows =>
    if rows.length * dof = M * dof * R then .ok rows
    else if rows.length * dof = dof * R then .ok (List.replicate M rows).flatten
    else .error .valueError
  | .batch r c blocks =>
    if blocks.length * r * c = M * dof * R then
      -- `reshape(-1, dof)` is the list of rows when `c = dof`
      if c = dof then .ok blocks.flatten else .error .valueError
    else if blocks.length * r * c = dof * R then .error .runtimeError
    else .error .valueError

end
end PK
