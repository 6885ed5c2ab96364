import Verif.Model.IK
import Verif.Model.Chain

/-!
# Model of `ik.py`: the solver object
Line numbers refer to `/repo/src/pytorch_kinematics/ik.py`. Random draws are parameters; dtype and device are left out.
-/

namespace PK
noncomputable section

/-- `config_sampling_method`: the two names, a function returning a `(rows, cols)` tensor given as `(cols, rows)`, or any
other value -/
inductive Sampling where
  | uniform | gaussian
  | fn (f : ℕ → ℕ × List (List ℝ))
  | other

/-- l.374-387 `sample_configs`: the sampled tensor as `(cols, rows)`. `draws` are the rows of `torch.rand`/`torch.randn` of
shape `(num_configs, dof)`; `limits` are the rows of `joint_limits`. `draws * (hi - lo) + lo` is broadcast: a single row of
limits serves all joints, and a single joint is repeated for every row of limits. -/
def sampleConfigs (method : Sampling) (limits : Option (List (ℝ × ℝ))) (dof num : ℕ) (draws : List (List ℝ)) :
    Except Err (ℕ × List (List ℝ)) :=
  match method with
  | .uniform =>
    match limits with
    | none => .error .valueError
    | some ls =>
      if ls.length = dof then .ok (dof, draws.map fun row => List.zipWith (fun u l => u * (l.2 - l.1) + l.1) row ls)
      else match ls with
        | [l] => .ok (dof, draws.map fun row => row.map fun u => u * (l.2 - l.1) + l.1)
        | _ =>
          if dof = 1 then
            .ok (ls.length, draws.map fun row => row.flatMap fun u => ls.map fun l => u * (l.2 - l.1) + l.1)
          else .error .runtimeError
  | .gaussian => .ok (dof, draws)
  | .fn f => .ok (f num)
  | .other => .error .valueError

/-- l.201-205 `gaussian_around_config(config, std)`: the function it returns, for given draws of shape
`(num_configs, len(config))` -/
def gaussianAroundConfig (config : List ℝ) (std : ℝ) (draws : ℕ → List (List ℝ)) : Sampling :=
  .fn fun num => (config.length, (draws num).map fun row => List.zipWith (fun z c => z * std + c) row config)

/-- l.347-366, the part of the constructor that determines `initial_config` and `num_retries` -/
def ikConstruct (retry : Option RetryArg) (numRetries : Option ℕ) (method : Sampling) (limits : Option (List (ℝ × ℝ)))
    (dof : ℕ) (draws : ℕ → List (List ℝ)) : Except Err (RetryArg × ℕ) :=
  match retry, numRetries with
  | none, none => .error .valueError
  | none, some n => do
    let (c, rows) ← sampleConfigs method limits dof n (draws n)
    return (.mat c rows, rows.length)
  | some a, _ => do
    let r ← a.check dof
    return (a, r)

/-- The attributes of a solver that `solve` reads, and the ones that survive a call: `no_improve_counter` and `err_min`
(shape `(N, R)` of the last call), l.342-345. `err` and `err_all` are overwritten before they are read. -/
structure IKObj (R d : ℕ) where
  params : IKParams d
  initial : RetryArg
  progress : Option (Σ N, Progress N R)

/-- l.368-372 `clear` -/
def IKObj.clear {R d : ℕ} (o : IKObj R d) : IKObj R d := { o with progress := none }

/-- the `(N * R, d)` starting rows as a table per problem and retry -/
def startTable (N R d : ℕ) (rows : List (List ℝ)) : Fin N → Fin R → QRow d :=
  fun i r j => .fin ((rows.getD (i.val * R + r.val) []).getD j.val 0)

/-- what the loop finds in `no_improve_counter`/`err_min`; tensors left from a call with another number of problems do not
fit (RuntimeError in `self.err < self.err_min`) -/
def IKObj.found {R d : ℕ} (o : IKObj R d) (N : ℕ) : Except Err (Option (Progress N R)) :=
  match o.progress with
  | none => .ok none
  | some ⟨n, pr⟩ => if h : n = N then .ok (some (h ▸ pr)) else .error .runtimeError

/-- l.459-587 `solve` as a method of the object: result and new state -/
def IKObj.solve {N R d : ℕ} (o : IKObj R d) (ev : Eval N d) : Except Err (Sol N R d × IKObj R d) := do
  let o := o.clear
  let rows ← o.initial.start d N R
  let pr ← o.found N
  let p := o.params
  let st := p.loop ev p.maxIter ⟨startTable N R d rows, Sol.init N R d, pr⟩
  let sol := st.sol.update p.posTol p.rotTol st.q (fun i r => (ev i (st.q i r)).2) p.esAny
  let sol := if p.enforce && p.hasFiniteLimits then p.enforceLimits ev sol else sol
  return (sol, { o with progress := st.progress.map fun x => ⟨N, x⟩ })

/-- the state after a history of calls; a call that raises leaves the cleared object -/
def IKObj.after {R d : ℕ} (o : IKObj R d) : List (Σ N, Eval N d) → IKObj R d
  | [] => o
  | ⟨_, ev⟩ :: rest =>
    match o.solve ev with
    | .ok (_, o') => o'.after rest
    | .error _ => o.clear.after rest

end
end PK
