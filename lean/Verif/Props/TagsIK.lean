import Verif.Model.TagsIK
import Verif.Props.Tags

/-! # dtype and device in the inverse kinematics (C96) -/

namespace PK

/-- Everything in the solution has dtype `d` (or is boolean) and is on `v`. -/
structure SolTags.At (s : SolTags) (d : DType) (v : Device) : Prop where
  solutions : s.solutions = flTag d v
  errPos : s.errPos = flTag d v
  errRot : s.errRot = flTag d v
  remaining : s.remaining = ⟨.bool, v⟩
  convergedPos : s.convergedPos = ⟨.bool, v⟩
  convergedRot : s.convergedRot = ⟨.bool, v⟩
  converged : s.converged = ⟨.bool, v⟩
  convergedAny : s.convergedAny = ⟨.bool, v⟩

/-- `d'` is not wider than `d` -/
def DType.Le (d' d : DType) : Prop := d' = d ∨ d = .f64

theorem promote_le {d' d : DType} (h : d'.Le d) : (Dt.fl d').promote (.fl d) = .fl d ∧ (Dt.fl d).promote (.fl d') = .fl d := by
  rcases h with rfl | rfl
  · cases d' <;> exact ⟨rfl, rfl⟩
  · cases d' <;> exact ⟨rfl, rfl⟩

theorem ew_le {d' d : DType} (h : d'.Le d) (v : Device) : ew (flTag d' v) (flTag d v) = .ok (flTag d v) := by
  simp only [ew, flTag, if_true, (promote_le h).1]

theorem whereT_self {c : Tag} {v : Device} (hc : c.dev = v) (d : DType) :
    whereT c (flTag d v) (flTag d v) = .ok (flTag d v) := by
  simp only [whereT, flTag, hc, and_self, if_true, (promote_le (.inl rfl)).1]

theorem deltaPose_at {d' d : DType} (h : d'.Le d) (v : Device) :
    deltaPoseTag (flTag d v) (flTag d' v) = .ok (flTag d v) := by
  simp only [deltaPoseTag, ew_le h, ok_bind, ew_self]

theorem ikStep_at {d' d : DType} (h : d'.Le d) (v : Device) (damped : Bool) :
    ikStepTag damped (flTag d v) (flTag d' v) (flTag d v) (flTag d v) (flTag d v) = .ok (flTag d v, flTag d v) := by
  cases damped <;> simp [ikStepTag, deltaPose_at h, ok_bind, ew_self, matmul_self, pure_ok]

theorem ikStepSvd_at {d' d : DType} (h : d'.Le d) (v : Device) (damped : Bool) :
    ikStepSvdTag damped (flTag d v) (flTag d' v) (flTag d v) (flTag d v) (flTag d v) = .ok (flTag d v, flTag d v) := by
  cases damped <;> simp [ikStepSvdTag, deltaPose_at h, ok_bind, ew_self, matmul_self, pure_ok]

theorem step_at {s : SerialTags} {d' d : DType} {v : Device} (hs : s.At d v) (h : d'.Le d) (o : SolveOpts) (cfg : Tag) :
    (SolverTags.withConfigs s cfg).step o (flTag d v) (flTag d' v) = .ok (flTag d v, flTag d v) := by
  simp only [SolverTags.step, SolverTags.withConfigs, hs.dtype, hs.device]
  rw [C93_fk hs.toAt, if_pos rfl, ok_bind, hs.jacobianOf, ok_bind]
  split_ifs
  · exact ikStepSvd_at h v _
  · exact ikStep_at h v _

/-- a step from joint values of another dtype or device raises -/
theorem step_error {s : SerialTags} {d : DType} {v : Device} (hs : s.At d v) (o : SolveOpts) (cfg q target : Tag)
    (hq : q ≠ flTag d v) : (SolverTags.withConfigs s cfg).step o q target = .error .runtimeError := by
  simp only [SolverTags.step, SolverTags.withConfigs]
  rw [C93_fk hs.toAt, if_neg hq, error_bind]

theorem ew_bool (v : Device) : ew ⟨.bool, v⟩ ⟨.bool, v⟩ = .ok ⟨.bool, v⟩ := ew_self _

theorem SolTags.At.update {sol : SolTags} {d : DType} {v : Device} (h : sol.At d v) (km : Bool) :
    ∃ sol', sol.update (flTag d v) (flTag d v) km = .ok sol' ∧ sol'.At d v := by
  have e : eqT (flTag d v) = ⟨.bool, v⟩ := rfl
  have e2 : whereT ⟨.bool, v⟩ (flTag d v) (flTag d v) = .ok (flTag d v) := whereT_self rfl d
  cases km
  · simp only [SolTags.update, e, h.remaining, h.converged, h.solutions, h.errPos, h.errRot, h.convergedPos, h.convergedRot,
      h.convergedAny, e2, ew_bool, ok_bind, pure_ok]
    exact ⟨_, rfl, rfl, rfl, rfl, rfl, rfl, rfl, rfl, rfl⟩
  · simp only [SolTags.update, e, h.remaining, h.converged, h.solutions, h.errPos, h.errRot, h.convergedPos, h.convergedRot,
      h.convergedAny, e2, ew_bool, ok_bind, pure_ok, if_true]
    exact ⟨_, rfl, rfl, rfl, rfl, rfl, rfl, rfl, rfl, rfl⟩

theorem f32_le (d : DType) : DType.f32.Le d := by cases d <;> simp [DType.Le]

theorem lineSearchSteps_at {c : ChainTags} {d' d : DType} {v : Device} (hc : c.At d v) (h : d'.Le d) : ∀ k,
    lineSearchSteps c (flTag .f32 v) (flTag d v) (flTag d v) (flTag d' v) (flTag d v) ⟨.bool, v⟩ k = .ok ()
  | 0 => rfl
  | k + 1 => by
    have e : eqT (flTag d v) = ⟨.bool, v⟩ := rfl
    have e2 : index (flTag .f32 v) ⟨.bool, v⟩ = .ok (flTag .f32 v) := index_dev rfl
    simp only [lineSearchSteps, ew_le (f32_le d), ok_bind, ew_self, C93_fk hc, if_true, deltaPose_at h, e, e2]
    exact lineSearchSteps_at hc h k

theorem lineSearch_at {c : ChainTags} {d' d : DType} {v : Device} (hc : c.At d v) (h : d'.Le d) (k : ℕ) :
    lineSearchTag c (flTag d v) (flTag d v) (flTag d' v) (flTag d v) ⟨.bool, v⟩ k = .ok (flTag .f32 v) := by
  have e2 : index ⟨.bool, v⟩ ⟨.bool, v⟩ = .ok ⟨.bool, v⟩ := index_dev rfl
  have e3 : (flTag d v).dev = v := rfl
  simp only [lineSearchTag, e3, e2, ok_bind, lineSearchSteps_at hc h, pure_ok]

theorem clamp_at {c : ChainTags} {d : DType} {v : Device} (hc : c.At d v) : clampTag c (flTag d v) = .ok (flTag d v) := by
  simp only [clampTag, hc.low, hc.high, ew_self, ok_bind]

theorem stepQ_at {s : SerialTags} {d' d : DType} {v : Device} (hs : s.At d v) (h : d'.Le d) (o : SolveOpts) (cfg : Tag)
    {sol : SolTags} (hsol : sol.At d v) :
    stepQTag (SolverTags.withConfigs s cfg) o (flTag d v) (flTag d v) (flTag d v) (flTag d' v) sol = .ok (flTag d v) := by
  have e : stepTag s.toChainTags o.lineSearch (flTag d v) (flTag d v) (flTag d v) (flTag d' v) sol = .ok (flTag d v) := by
    cases o.lineSearch with
    | none => exact ew_self _
    | some k => simp only [stepTag, hsol.remaining, lineSearch_at hs.toAt h, ok_bind, ew_le (f32_le d), ew_self]
  unfold stepQTag
  simp only [SolverTags.withConfigs]
  rw [e, ok_bind]
  split_ifs
  · exact clamp_at hs.toAt
  · rfl

theorem solveLoop_at {s : SerialTags} {d' d : DType} {v : Device} (hs : s.At d v) (h : d'.Le d) (o : SolveOpts) (cfg : Tag) :
    ∀ (k : ℕ) (sol : SolTags), sol.At d v →
      ∃ sol', solveLoop (SolverTags.withConfigs s cfg) o (flTag d' v) k (flTag d v) sol = .ok (flTag d v, sol') ∧ sol'.At d v
  | 0, sol, hsol => ⟨sol, rfl, hsol⟩
  | k + 1, sol, hsol => by
    obtain ⟨sol1, e1, h1⟩ := hsol.update o.keepMask
    have h2 : ∃ sol2, noImproveTag o.noImprove sol1 (flTag d v) = .ok sol2 ∧ sol2.At d v := by
      cases o.noImprove
      · exact ⟨sol1, rfl, h1⟩
      · have e : eqT (flTag d v) = ⟨.bool, v⟩ := rfl
        simp only [noImproveTag, if_true, e, h1.remaining, ew_bool, ok_bind, pure_ok]
        exact ⟨_, rfl, h1.solutions, h1.errPos, h1.errRot, rfl, h1.convergedPos, h1.convergedRot, h1.converged, h1.convergedAny⟩
    obtain ⟨sol2, e2, h2⟩ := h2
    obtain ⟨sol3, e3, h3⟩ := solveLoop_at hs h o cfg k sol2 h2
    refine ⟨sol3, ?_, h3⟩
    unfold solveLoop
    rw [step_at hs h]
    simp only [ok_bind]
    rw [e1, ok_bind, e2, ok_bind, stepQ_at hs h o cfg h2, ok_bind, e3]

theorem wrap_at {s : SerialTags} {d : DType} {v : Device} (hs : s.At d v) (cfg : Tag) :
    wrapTag (SolverTags.withConfigs s cfg) (flTag d v) = .ok (flTag d v) := by
  have e : index (flTag d v) ⟨.bool, v⟩ = .ok (flTag d v) := index_dev rfl
  have e2 : indexPut (flTag d v) ⟨.bool, v⟩ (flTag d v) = .ok (flTag d v) := by simp [indexPut, flTag]
  simp only [wrapTag, SolverTags.withConfigs, hs.low, hs.high, hs.device, ew_self, ok_bind, e, e2]

theorem refine_at {s : SerialTags} {d' d : DType} {v : Device} (hs : s.At d v) (h : d'.Le d) (o : SolveOpts) (cfg : Tag) :
    ∀ k, refineTag (SolverTags.withConfigs s cfg) o (flTag d' v) k (flTag d v) = .ok (flTag d v)
  | 0 => rfl
  | k + 1 => by
    have hc : clampTag (SolverTags.withConfigs s cfg).chain.toChainTags (flTag d v) = .ok (flTag d v) := clamp_at hs.toAt
    simp only [refineTag, step_at hs h, ok_bind, hc, ew_self, refine_at hs h o cfg k]

/-- C96 (partial): on a serial chain at dtype `d` on device `v`, with initial configurations of that dtype and device
and target poses on that device of a dtype not wider, `solve` succeeds whatever the kernel, the damping, the line search,
the clamping, the limit enforcement and the number of iterations, and everything it returns is of that dtype on that
device.  Missing: `C96_gaussian_fails`, `C96_limits_fails`, `C96_target_fails`. -/
theorem C96_solve_partial {s : SerialTags} {d' d : DType} {v : Device} (hs : s.At d v) (h : d'.Le d) (o : SolveOpts) :
    ∃ sol, (SolverTags.withConfigs s (flTag d v)).solve o (flTag d' v) = .ok sol ∧ sol.At d v := by
  have h0 : (SolTags.init d v).At d v := ⟨rfl, rfl, rfl, rfl, rfl, rfl, rfl, rfl⟩
  obtain ⟨sol1, e1, h1⟩ := solveLoop_at hs h o (flTag d v) o.iters _ h0
  obtain ⟨sol2, e2, h2⟩ := h1.update o.keepMask
  have hd : (SolverTags.withConfigs s (flTag d v)).chain.dtype = d := hs.dtype
  have hv : (SolverTags.withConfigs s (flTag d v)).device = v := hs.device
  have hi : (SolverTags.withConfigs s (flTag d v)).initialConfig = flTag d v := rfl
  unfold SolverTags.solve
  simp only [hd, hv, hi]
  rw [e1]
  simp only [ok_bind]
  rw [step_at hs h]
  simp only [ok_bind]
  rw [e2, ok_bind]
  cases o.limits with
  | none => exact ⟨sol2, rfl, h2⟩
  | some n =>
    have hc : clampTag (SolverTags.withConfigs s (flTag d v)).chain.toChainTags (flTag d v) = .ok (flTag d v) :=
      clamp_at hs.toAt
    obtain ⟨sol3, e3, h3⟩ := h2.update false
    refine ⟨sol3, ?_, h3⟩
    simp only [enforceTag, h2.solutions, wrap_at hs, ok_bind, hc, refine_at hs h, step_at hs h, e3]

/-- a solver whose configurations are elsewhere cannot solve anything -/
theorem solve_error {s : SerialTags} {d : DType} {v : Device} (hs : s.At d v) (o : SolveOpts) (cfg target : Tag)
    (hq : cfg ≠ flTag d v) : (SolverTags.withConfigs s cfg).solve o target = .error .runtimeError := by
  have hi : (SolverTags.withConfigs s cfg).initialConfig = cfg := rfl
  unfold SolverTags.solve
  cases e : o.iters with
  | zero =>
    simp only [solveLoop, ok_bind, hi]
    rw [step_error hs o cfg cfg target hq, error_bind]
  | succ k =>
    simp only [solveLoop, hi]
    rw [step_error hs o cfg cfg target hq, error_bind, error_bind]

/-- C96: sampling uniformly within limits of the chain's dtype on its device gives configurations of that dtype, so the
solver built with `num_retries` works. -/
theorem C96_uniform {s : SerialTags} {d' d : DType} {v : Device} (hs : s.At d v) (h : d'.Le d) (o : SolveOpts) :
    ∃ sol, (SolverTags.sampled s (.uniform (flTag d v)) >>= fun ik => ik.solve o (flTag d' v)) = .ok sol ∧ sol.At d v := by
  have e : SolverTags.sampled s (.uniform (flTag d v)) = .ok (SolverTags.withConfigs s (flTag d v)) := by
    simp only [SolverTags.sampled, sampleTag, hs.device, ew_self, ok_bind, ew_le (f32_le d), pure_ok]
  rw [e, ok_bind]
  exact C96_solve_partial hs h o

/-- C96 is false for float64 chains and sampling by `"gaussian"`: the solver is built, and `solve` raises `RuntimeError`
for every target and every option. -/
theorem C96_gaussian_fails {s : SerialTags} {v : Device} (hs : s.At .f64 v) (o : SolveOpts) (target : Tag) :
    (SolverTags.sampled s .gaussian >>= fun ik => ik.solve o target) = .error .runtimeError := by
  simp only [SolverTags.sampled, sampleTag, hs.device, ok_bind, pure_ok]
  refine solve_error hs o _ target ?_
  intro e
  cases congrArg Tag.dt e

/-- C96 is false for float64 chains and float32 joint limits, such as `torch.tensor(chain.get_joint_limits())`. -/
theorem C96_limits_fails {s : SerialTags} {v : Device} (hs : s.At .f64 v) (o : SolveOpts) (target : Tag) :
    (SolverTags.sampled s (.uniform (flTag .f32 v)) >>= fun ik => ik.solve o target) = .error .runtimeError := by
  simp only [SolverTags.sampled, sampleTag, hs.device, ew_self, ok_bind, pure_ok]
  refine solve_error hs o _ target ?_
  intro e
  cases congrArg Tag.dt e

/-- the error of a target wider than the chain -/
theorem ikStep_wide (v : Device) (damped : Bool) :
    ikStepTag damped (flTag .f32 v) (flTag .f64 v) (flTag .f32 v) (flTag .f32 v) (flTag .f32 v) = .error .runtimeError := by
  have e1 : ew (flTag .f64 v) (flTag .f32 v) = .ok (flTag .f64 v) := by simp [ew, flTag, Dt.promote]
  have e2 : ew (flTag .f32 v) (flTag .f64 v) = .ok (flTag .f64 v) := by simp [ew, flTag, Dt.promote]
  have e3 : matmul (flTag .f32 v) (flTag .f64 v) = .error .runtimeError := by simp [matmul, flTag]
  cases damped <;> simp [ikStepTag, deltaPoseTag, e1, e2, ok_bind, ew_self, matmul_self, error_bind, e3]

theorem ikStepSvd_wide (v : Device) (damped : Bool) :
    ikStepSvdTag damped (flTag .f32 v) (flTag .f64 v) (flTag .f32 v) (flTag .f32 v) (flTag .f32 v) = .error .runtimeError := by
  have e1 : ew (flTag .f64 v) (flTag .f32 v) = .ok (flTag .f64 v) := by simp [ew, flTag, Dt.promote]
  have e2 : ew (flTag .f32 v) (flTag .f64 v) = .ok (flTag .f64 v) := by simp [ew, flTag, Dt.promote]
  have e3 : matmul (flTag .f32 v) (flTag .f64 v) = .error .runtimeError := by simp [matmul, flTag]
  cases damped <;> simp [ikStepSvdTag, deltaPoseTag, e1, e2, ok_bind, ew_self, matmul_self, error_bind, e3]

/-- C96 is false for targets of a wider dtype: float64 poses and a float32 chain raise `RuntimeError`, although float32
poses and a float64 chain work. -/
theorem C96_target_fails {s : SerialTags} {v : Device} (hs : s.At .f32 v) (o : SolveOpts) :
    (SolverTags.withConfigs s (flTag .f32 v)).solve o (flTag .f64 v) = .error .runtimeError := by
  have hstep : ∀ cfg, (SolverTags.withConfigs s cfg).step o (flTag .f32 v) (flTag .f64 v) = .error .runtimeError := by
    intro cfg
    simp only [SolverTags.step, SolverTags.withConfigs, hs.dtype, hs.device]
    rw [C93_fk hs.toAt, if_pos rfl, ok_bind, hs.jacobianOf, ok_bind]
    split_ifs
    · exact ikStepSvd_wide v _
    · exact ikStep_wide v _
  have hi : (SolverTags.withConfigs s (flTag .f32 v)).initialConfig = flTag .f32 v := rfl
  unfold SolverTags.solve
  cases e : o.iters with
  | zero =>
    simp only [solveLoop, ok_bind, hi]
    rw [hstep, error_bind]
  | succ k =>
    simp only [solveLoop, hi]
    rw [hstep, error_bind, error_bind]

/-- the serial chain of the example, at float64 on another device: it can be solved on from given configurations, and not
from gaussian ones -/
example : ∃ s sol, SerialTags.init exTagFrames 1 exTagFrames .f32 cpu = .ok s ∧
    (SolverTags.withConfigs (s.to (some .f64) (some 1)) (flTag .f64 1)).solve
      ⟨false, true, false, true, some 3, true, some 10, 50⟩ (flTag .f32 1) = .ok sol ∧ sol.At .f64 1 ∧
    (SolverTags.sampled (s.to (some .f64) (some 1)) .gaussian >>= fun ik =>
      ik.solve ⟨false, true, false, true, some 3, true, some 10, 50⟩ (flTag .f32 1)) = .error .runtimeError := by
  obtain ⟨s, hs⟩ : ∃ s, SerialTags.init exTagFrames 1 exTagFrames .f32 cpu = .ok s := ⟨_, rfl⟩
  have h : (s.to (some .f64) (some 1)).At .f64 1 := C93_moved_serial hs [(some .f64, some 1)] (by simp)
  obtain ⟨sol, h1, h2⟩ := C96_solve_partial h (f32_le .f64) ⟨false, true, false, true, some 3, true, some 10, 50⟩
  exact ⟨s, sol, hs, h1, h2, C96_gaussian_fails h _ _⟩

end PK
