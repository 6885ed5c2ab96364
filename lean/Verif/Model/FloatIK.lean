import Verif.Model.FloatRot
import Verif.Model.FloatJac
import Verif.Model.IK

/-!
# The solver in floating-point arithmetic

Line numbers refer to `/repo/src/pytorch_kinematics/ik.py`.  `Model/IK.lean` follows `solve` with exact elementary operations on
extended scalars.  Here these operations are arbitrary (`SolverArith`); with the exact ones the two agree
(`solveWith_exact`).  Comparisons, `clamp` and rounding to an integer are exact; tolerances and limits are taken as stored in the
dtype of the solver.
-/

namespace PK
noncomputable section
open Classical

/-- l.397-428 `delta_pose`, one row, operation by operation; the same in the kernels l.40-48, l.96-104 -/
def deltaPoseFl (m : TrigMachine) (M : M4) (tpos : V3) (tq : Quat) : Fin 6 → ℝ :=
  let posDiff : V3 := fun i => m.rnd (tpos i - posPart M i)
  let cur := matrixToQuaternionFl m.toMachine (rotPart M)
  let diff := quaternionMultiplyFl m.toMachine tq (quaternionInvert cur)
  cat33 posDiff (quaternionToAxisAngleFl m diff)

/-- the elementary operations of the solver on extended scalars -/
structure SolverArith where
  add : Fl → Fl → Fl
  sub : Fl → Fl → Fl
  /-- product with a learning rate -/
  mulReal : ℝ → Fl → Fl
  /-- product with a positive constant -/
  scalePos : ℝ → Fl → Fl
  /-- `.norm()` -/
  norm : List Fl → Fl
  /-- product of learning rates -/
  mul : ℝ → ℝ → ℝ

/-- the operations of `Model/IK.lean` -/
def SolverArith.exact : SolverArith where
  add := Fl.add
  sub := Fl.sub
  mulReal := Fl.mulReal
  scalePos := Fl.scalePos
  norm := Fl.norm
  mul := (· * ·)

variable {N R d : ℕ} (ar : SolverArith)

/-- l.166-198 `update`, cf. `Sol.update` -/
def Sol.updateWith (posTol rotTol : ℝ) (s : Sol N R d) (q : Fin N → Fin R → QRow d)
    (err : Fin N → Fin R → Fin 6 → Fl) (useKeep : Bool := true) (keepMask : Option (Fin N → Bool) := none) :
    Sol N R d :=
  let errPos := fun i r => ar.norm [err i r 0, err i r 1, err i r 2]
  let errRot := fun i r => ar.norm [err i r 3, err i r 4, err i r 5]
  let cp := fun i r => decide (Fl.lt (errPos i r) (.fin posTol))
  let cr := fun i r => decide (Fl.lt (errRot i r) (.fin rotTol))
  let c := fun i r => cp i r && cr i r
  let cAny := fun i => decide (∃ r, c i r = true)
  let keepMask := keepMask.getD fun i => !cAny i
  let s := if useKeep then s.keep keepMask else s
  { s with
    solutions := fun i r => if s.conv i r then s.solutions i r else q i r
    errPos := fun i r => if s.conv i r then s.errPos i r else errPos i r
    errRot := fun i r => if s.conv i r then s.errRot i r else errRot i r
    convPos := fun i r => s.convPos i r || cp i r
    convRot := fun i r => s.convRot i r || cr i r
    conv := fun i r => s.conv i r || c i r
    convAny := fun i => s.convAny i || cAny i }

/-- `q + lr * dq` (l.240, l.547, l.629) -/
def stepRowWith (lr : ℝ) (q dq : QRow d) : QRow d := fun j => ar.add (q j) (ar.mulReal lr (dq j))

/-- norm of a pose error -/
def errNormWith (dx : Fin 6 → Fl) : Fl := ar.norm [dx 0, dx 1, dx 2, dx 3, dx 4, dx 5]

/-- one pass of the loop l.236-256, cf. `LineSearch.pass` -/
def LineSearch.passWith (ls : LineSearch) (err : Fin N → Fin R → Fl)
    (errAt : Fin N → Fin R → ℝ → Fl) (st : (Fin N → Fin R → ℝ) × (Fin N → Fin R → Bool)) :
    (Fin N → Fin R → ℝ) × (Fin N → Fin R → Bool) :=
  let improved := fun i r => decide (Fl.lt (.fin ls.sufficient) (ar.sub (err i r) (errAt i r (st.1 i r))))
  (fun i r => if improved i r then st.1 i r else ar.mul (st.1 i r) ls.decrease,
   fun i r => st.2 i r && !improved i r)

/-- l.236-256: the loop with its early exit -/
def LineSearch.loopWith (ls : LineSearch) (err : Fin N → Fin R → Fl)
    (errAt : Fin N → Fin R → ℝ → Fl) :
    ℕ → (Fin N → Fin R → ℝ) × (Fin N → Fin R → Bool) → (Fin N → Fin R → ℝ) × (Fin N → Fin R → Bool)
  | 0, st => st
  | k + 1, st => if ∃ i r, st.2 i r = true then ls.loopWith err errAt k (ls.passWith ar err errAt st) else st

/-- l.222-260 `do_line_search` -/
def LineSearch.searchWith (ls : LineSearch) (err : Fin N → Fin R → Fl)
    (errAt : Fin N → Fin R → ℝ → Fl) (problemRemaining : Fin N → Bool) : Fin N → Fin R → ℝ :=
  (ls.loopWith ar err errAt ls.maxIter (fun _ _ => ls.maxLr, fun i _ => problemRemaining i)).1

/-- l.539-546: learning rates of this iteration -/
def IKParams.ratesWith (p : IKParams d) (ev : Eval N d) (q : Fin N → Fin R → QRow d)
    (out : Fin N → Fin R → QRow d × (Fin 6 → Fl)) (remaining : Fin N → Bool) : Fin N → Fin R → ℝ :=
  match p.lineSearch with
  | none => fun _ _ => p.lr
  | some ls =>
    ls.searchWith ar (fun i r => errNormWith ar (out i r).2)
      (fun i r lr => errNormWith ar (ev i (stepRowWith ar lr (q i r) (out i r).1)).2) remaining

/-- l.490-549: body of the main loop -/
def IKParams.bodyWith (p : IKParams d) (ev : Eval N d) (st : IKState N R d) : IKState N R d :=
  let out := fun i r => ev i (st.q i r)
  let sol := { st.sol with iterations := st.sol.iterations + 1 }.updateWith ar p.posTol p.rotTol st.q (fun i r => (out i r).2) p.esAny
  let (progress, sol) := p.watch st.progress (fun i r => errNormWith ar (out i r).2) sol
  let lr := p.ratesWith ar ev st.q out sol.remaining
  let q := fun i r => stepRowWith ar (lr i r) (st.q i r) (out i r).1
  { q := if p.clamps then fun i r => p.clampRow (q i r) else q, sol, progress }

/-- l.490-549: `for i in range(max_iterations)` with the early exit -/
def IKParams.loopWith (p : IKParams d) (ev : Eval N d) : ℕ → IKState N R d → IKState N R d
  | 0, st => st
  | k + 1, st => if ∃ i, st.sol.remaining i = true then p.loopWith ev k (p.bodyWith ar ev st) else st

/-- l.593-607 `_wrap_revolute_joints`, one row -/
def IKParams.wrapRowWith (p : IKParams d) (q : QRow d) : QRow d := fun j =>
  let center := ar.scalePos (1 / 2) (ar.add (p.low j) (p.high j))
  let n := Fl.round (ar.scalePos (1 / (2 * Real.pi)) (ar.sub center (q j)))
  if p.revolute j then ar.add (q j) (ar.scalePos (2 * Real.pi) n) else q j

/-- l.626-630: one clamped refinement step -/
def IKParams.refineWith (p : IKParams d) (ev : Eval N d) (i : Fin N) (q : QRow d) : QRow d :=
  p.clampRow (stepRowWith ar p.lr q (ev i q).1)

/-- l.609-642 `_enforce_limits` -/
def IKParams.enforceLimitsWith (p : IKParams d) (ev : Eval N d) (s : Sol N R d) : Sol N R d :=
  let q := fun i r => (p.refineWith ar ev i)^[p.nRefine] (p.clampRow (p.wrapRowWith ar (s.solutions i r)))
  let s := { s with
    conv := fun _ _ => false, convAny := fun _ => false, convPos := fun _ _ => false, convRot := fun _ _ => false }
  s.updateWith ar p.posTol p.rotTol q (fun i r => (ev i (q i r)).2) false

/-- the solution after the loop and the final check (l.551-559) -/
def IKParams.solveCoreWith (p : IKParams d) (ev : Eval N d) (q0 : Fin N → Fin R → QRow d) : IKState N R d :=
  let st := p.loopWith ar ev p.maxIter ⟨q0, Sol.init N R d, none⟩
  { st with sol := st.sol.updateWith ar p.posTol p.rotTol st.q (fun i r => (ev i (st.q i r)).2) p.esAny }

/-- l.459-587 `PseudoInverseIK.solve` from initial joint values -/
def IKParams.solveWith (p : IKParams d) (ev : Eval N d) (q0 : Fin N → Fin R → QRow d) : Sol N R d :=
  let sol := (p.solveCoreWith ar ev q0).sol
  if p.enforce && p.hasFiniteLimits then p.enforceLimitsWith ar ev sol else sol

end

/-- the norm of three stored numbers is that of the machine, and a norm below a number has finite arguments -/
structure SolverArith.NormOf (ar : SolverArith) (m : TrigMachine) : Prop where
  fin : ∀ a b c : ℝ, ar.norm [.fin a, .fin b, .fin c] = .fin (m.norm ![a, b, c])
  finite : ∀ (l : List Fl) (t : ℝ), Fl.lt (ar.norm l) (.fin t) → ∀ x ∈ l, x.isFinite = true

/-- `ev` is what the code computes on this chain for these targets in this arithmetic, as far as the errors go: the pose of
`jacobian_tensor` and `delta_pose` with the quaternion of the target (l.462-470, 497-499); the proposed step may be anything
(`torch.linalg.solve`, `torch.linalg.svd`).  A non-finite joint value gives a non-finite error entry, as in `Realises`. -/
structure ReportsErrorFl {N d : ℕ} (m : TrigMachine) (s : SerialChain) (targets : Fin N → M4) (ev : Eval N d) : Prop where
  finite : ∀ i (q : Fin d → ℝ), ∃ J T, s.jacobianTensorFl m.toMachine (B := 1) (List.ofFn fun j _ => q j) = .ok (J, T) ∧
    (ev i (fun j => .fin (q j))).2 = fun a =>
      .fin (deltaPoseFl m (T 0) (posPart (targets i)) (matrixToQuaternionFl m.toMachine (rotPart (targets i))) a)
  propagates : ∀ i (q : QRow d), (∃ j, (q j).isFinite = false) → ∃ a, ((ev i q).2 a).isFinite = false

end PK
