import Verif.Lemmas.TensorEval

/-!
# C123: inverse kinematics on whole tensors

`N` target poses with `R` starting values each are handled as one tensor of `N * R` rows; row `i * R + r` belongs to retry `r`
of problem `i`.  The theorems say which row of which input every entry of an output depends on.
-/

namespace PK
open Tn Matrix Spec

noncomputable section
variable {N R d : ℕ} {dt : DType} {v : Device}

/-! ## Tensors as tables -/

theorem mat_tab {a : Tn ℝ} {n r c : ℕ} {t : Tag} (h : HasMat a [n] r c t) : a = tab3 t fun b : Fin n => matAt r c a [b.val] :=
  eq_tab3 h.1 h.2 fun _ _ _ => rfl

theorem vec_tab {a : Tn ℝ} {n k : ℕ} {t : Tag} (h : HasVec a [n] k t) : a = tab2 t fun b : Fin n => vecAt k a [b.val] :=
  eq_tab2 h.1 h.2 fun _ _ => rfl

theorem quat_tab {a : Tn ℝ} {n : ℕ} {t : Tag} (h : HasVec a [n] 4 t) :
    a = tab2 t fun b : Fin n => (quatAt a [b.val]).vec := by
  refine eq_tab2 h.1 h.2 fun b k => ?_
  fin_cases k <;> rfl

/-- the six weights of an optional `(6,)` tensor -/
def weightsOf (w : Option (Tn ℝ)) : Option (Fin 6 → ℝ) := w.map fun w k => w.get [k.val]

theorem weights_tab {w : Option (Tn ℝ)} {t : Tag} (h : ∀ x ∈ w, HasNum x [6] t) : w = (weightsOf w).map (tab1 t) := by
  cases w with
  | none => rfl
  | some x => exact congrArg some (eq_tab1 (h x rfl).1 (h x rfl).2 fun _ => rfl)

/-! ## The pose error -/

/-- C123: `delta_pose` of `N` times `R` current poses and `N` targets: row `i * R + r` is the error of pose `(i, r)` towards
target `i`, the second and third output are its position and rotation part; writing into `out` gives the same. -/
theorem C123_delta_pose (m tp tq : Tn ℝ) (out : Option (Tn ℝ)) (hm : HasMat m [N, R] 4 4 (flTag dt v))
    (hp : HasVec tp [N] 3 (flTag dt v)) (hq : HasVec tq [N] 4 (flTag dt v))
    (ho : ∀ o ∈ out, HasMat o [N * R] 6 1 (flTag dt v)) :
    ∃ dx pos rot, deltaPoseT m tp tq out = .ok (dx, pos, rot) ∧ HasMat dx [N * R] 6 1 (flTag dt v) ∧
      HasMat pos [N * R] 3 1 (flTag dt v) ∧ HasMat rot [N * R] 3 1 (flTag dt v) ∧
      ∀ i < N, ∀ r < R,
        let e := deltaPose (matAt 4 4 m [i, r]) (vecAt 3 tp [i]) (quatAt tq [i])
        (∀ k : Fin 6, dx.get [i * R + r, k, 0] = e k) ∧
        (∀ k : Fin 3, pos.get [i * R + r, k, 0] = head3 e k ∧ rot.get [i * R + r, k, 0] = tail3 e k) := by
  have h := deltaPose_rows dt v (N := N) (R := R) (matAt 4 4 m) (fun i => vecAt 3 tp [i.val]) (fun i => quatAt tq [i.val])
    (out.map fun o b => matAt 6 1 o [b.val])
  have e : (out.map fun o (b : Fin (N * R)) => matAt 6 1 o [b.val]).map (tab3 (flTag dt v)) = out := by
    cases out with
    | none => rfl
    | some o => exact congrArg some (mat_tab (ho o rfl)).symm
  have e1 : ofM (flTag dt v) [N, R] 4 4 (fun i => matAt 4 4 m i) = m := hm.eq.symm
  rw [← vec_tab hp, ← quat_tab hq] at h
  refine ⟨_, _, _, (by rw [← h]; congr 1; exacts [e1.symm, e.symm]), ⟨rfl, rfl⟩, ⟨rfl, rfl⟩, ⟨rfl, rfl⟩, fun i hi r hr => ?_⟩
  have hx := pr_divNat (⟨i, hi⟩ : Fin N) (⟨r, hr⟩ : Fin R)
  have hy := pr_modNat (⟨i, hi⟩ : Fin N) (⟨r, hr⟩ : Fin R)
  refine ⟨fun k => ?_, fun k => ⟨?_, ?_⟩⟩
  all_goals
    refine (tab3_get _ _ (pr ⟨i, hi⟩ ⟨r, hr⟩) k 0).trans ?_
    rw [hx, hy]
    rfl

/-- C123: in geometric terms, for rigid poses: the position part of row `i * R + r` is the difference of positions, and turning
the current orientation `(i, r)` about the direction of the rotation part, by its length, gives the orientation of target `i`. -/
theorem C123_delta_pose_geometry (m target tp tq : Tn ℝ) (hm : HasMat m [N, R] 4 4 (flTag dt v))
    (ht : HasMat target [N] 4 4 (flTag dt v)) (htt : targetT target = .ok (tp, tq))
    (hrm : ∀ i < N, ∀ r < R, IsRigid (matAt 4 4 m [i, r])) (hrt : ∀ i < N, IsRigid (matAt 4 4 target [i])) :
    ∃ dx pos rot, deltaPoseT m tp tq = .ok (dx, pos, rot) ∧ ∀ i < N, ∀ r < R,
      let cur := matAt 4 4 m [i, r]
      let goal := matAt 4 4 target [i]
      let turn : V3 := fun k => dx.get [i * R + r, 3 + k.val, 0]
      let θ := rotAngle (rotPart goal * (rotPart cur)ᵀ)
      (∀ k : Fin 3, dx.get [i * R + r, k, 0] = posPart goal k - posPart cur k) ∧
      (∃ k : V3, IsUnitV k ∧ turn = (fun j => vlen turn * k j) ∧ rotAbout k θ * rotPart cur = rotPart goal) ∧
      θ ≤ vlen turn ∧ vlen turn ≤ θ * (1 + 1e-13) ∧ (1e-6 ≤ θ → vlen turn = θ) := by
  rw [mat_tab ht, target_rows] at htt
  obtain ⟨rfl, rfl⟩ := Prod.mk.inj (Except.ok.inj htt)
  obtain ⟨dx, pos, rot, h1, -, -, -, h2⟩ := C123_delta_pose m (tab2 (flTag dt v) fun i : Fin N => posPart (matAt 4 4 target [i.val]))
    (tab2 (flTag dt v) fun i : Fin N => (matrixToQuaternion (rotPart (matAt 4 4 target [i.val]))).vec) none hm ⟨rfl, rfl⟩ ⟨rfl, rfl⟩ (by simp)
  refine ⟨dx, pos, rot, h1, fun i hi r hr => ?_⟩
  obtain ⟨h3, -⟩ := h2 i hi r hr
  have e1 : vecAt 3 (tab2 (flTag dt v) fun i : Fin N => posPart (matAt 4 4 target [i.val])) [i] = posPart (matAt 4 4 target [i]) :=
    funext fun k => tab2_get (flTag dt v) (fun i : Fin N => posPart (matAt 4 4 target [i.val])) ⟨i, hi⟩ k
  have e2 : quatAt (tab2 (flTag dt v) fun i : Fin N => (matrixToQuaternion (rotPart (matAt 4 4 target [i.val]))).vec) [i] =
      matrixToQuaternion (rotPart (matAt 4 4 target [i])) := by
    have h := fun k => tab2_get (flTag dt v) (fun i : Fin N => (matrixToQuaternion (rotPart (matAt 4 4 target [i.val]))).vec) ⟨i, hi⟩ k
    rw [quatAt]
    have h0 := h 0; have h1 := h 1; have h2 := h 2; have h3 := h 3
    simp only [List.cons_append, List.nil_append]
    exact Quat.ext h0 h1 h2 h3
  rw [e1, e2] at h3
  obtain ⟨a1, a2, a3, a4, a5, -⟩ := C58_delta_pose _ _ (hrm i hi r hr) (hrt i hi)
  have et : (fun k : Fin 3 => dx.get [i * R + r, 3 + k.val, 0]) =
      tail3 (deltaPose (matAt 4 4 m [i, r]) (posPart (matAt 4 4 target [i])) (matrixToQuaternion (rotPart (matAt 4 4 target [i])))) := by
    funext k
    fin_cases k
    exacts [h3 3, h3 4, h3 5]
  have eh : ∀ k : Fin 3, dx.get [i * R + r, k, 0] =
      head3 (deltaPose (matAt 4 4 m [i, r]) (posPart (matAt 4 4 target [i])) (matrixToQuaternion (rotPart (matAt 4 4 target [i])))) k := by
    intro k
    fin_cases k
    exacts [h3 0, h3 1, h3 2]
  simp only [et]
  exact ⟨fun k => (eh k).trans (a1 k), a2, a3, a4, a5⟩

/-! ## The step -/

/-- the matrix the kernel inverts is regular -/
theorem dls_regular {J : Matrix (Fin 6) (Fin d) ℝ} {dx : Fin 6 → ℝ} {reg lm : ℝ} {w : Option (Fin 6 → ℝ)} (hreg : 0 < reg) :
    (dlsMatrix (weightJ w J) (weightDx w dx) reg lm).det ≠ 0 := by
  rw [dlsMatrix_eq]
  exact ((Matrix.isUnit_iff_isUnit_det _).1 (gram_isUnit _ (damping_pos hreg _ _))).ne_zero

section kernel
variable (m tp tq J : Tn ℝ) (reg lm : ℝ) (w : Option (Tn ℝ)) (hR : 0 < R) (hm : HasMat m [N * R] 4 4 (flTag dt v))
  (hp : HasVec tp [N] 3 (flTag dt v)) (hq : HasVec tq [N] 4 (flTag dt v)) (hJ : HasMat J [N * R] 6 d (flTag dt v))
  (hw : ∀ x ∈ w, HasNum x [6] (flTag dt v)) (hreg : 0 < reg)
include hR hm hp hq hJ hw hreg

/-- C123: the step kernel computes row `i * R + r` from pose, Jacobian `i * R + r` and target `i` alone: it reports the pose
error of that row and the step is the unique minimiser of the weighted damped least-squares objective of that row. -/
theorem C123_kernel :
    ∃ dq dx, ikStepT m tp tq J (regMatrixT (flTag dt v) reg) R lm w = .ok (dq, dx) ∧ HasMat dq [N * R] d 1 (flTag dt v) ∧
      HasMat dx [N * R] 6 1 (flTag dt v) ∧ ∀ i < N, ∀ r < R,
        let e := deltaPose (matAt 4 4 m [i * R + r]) (vecAt 3 tp [i]) (quatAt tq [i])
        let step : Fin d → ℝ := fun j => dq.get [i * R + r, j, 0]
        let weights := (weightsOf w).getD fun _ => 1
        let obj := dlsObjective (matAt 6 d J [i * R + r]) weights e (damping reg lm weights e)
        (∀ k : Fin 6, dx.get [i * R + r, k, 0] = e k) ∧ ∀ y, obj step ≤ obj y ∧ (obj y = obj step → y = step) := by
  have h := ikStep_rows (N := N) dt v hR (fun b => matAt 4 4 m [b.val]) (fun i => vecAt 3 tp [i.val]) (fun i => quatAt tq [i.val])
    (fun b => matAt 6 d J [b.val]) reg lm (weightsOf w) fun b => dls_regular hreg
  have em : tab3 (flTag dt v) (fun b : Fin (N * R) => matAt 4 4 m [b.val]) = m := (mat_tab hm).symm
  have eJ : tab3 (flTag dt v) (fun b : Fin (N * R) => matAt 6 d J [b.val]) = J := (mat_tab hJ).symm
  rw [← vec_tab hp, ← quat_tab hq, ← weights_tab hw] at h
  refine ⟨_, _, (by rw [← h]; congr 1; exacts [em.symm, eJ.symm]), ⟨rfl, rfl⟩, ⟨rfl, rfl⟩, fun i hi r hr => ?_⟩
  have hx := pr_divNat (⟨i, hi⟩ : Fin N) (⟨r, hr⟩ : Fin R)
  refine ⟨fun k => ?_, fun y => ?_⟩
  · refine (tab3_get _ _ (pr ⟨i, hi⟩ ⟨r, hr⟩) k 0).trans ?_
    rw [hx]
    rfl
  · have hstep : (fun j : Fin d => (tab3 (flTag dt v) fun (b : Fin (N * R)) k (_ : Fin 1) =>
        (ikStepKernel (matAt 4 4 m [b.val]) (vecAt 3 tp [b.divNat.val]) (quatAt tq [b.divNat.val]) (matAt 6 d J [b.val]) reg lm
          (weightsOf w)).1 k).get [i * R + r, j, 0]) =
        (ikStepKernel (matAt 4 4 m [i * R + r]) (vecAt 3 tp [i]) (quatAt tq [i]) (matAt 6 d J [i * R + r]) reg lm (weightsOf w)).1 := by
      funext j
      refine (tab3_get _ _ (pr ⟨i, hi⟩ ⟨r, hr⟩) j 0).trans ?_
      rw [hx]
      rfl
    rw [hstep]
    exact C54_step_minimises (matAt 4 4 m [i * R + r]) (vecAt 3 tp [i]) (quatAt tq [i]) (matAt 6 d J [i * R + r]) reg lm (weightsOf w)
      hreg y

/-- `torch.linalg.svd(Jw, full_matrices=True)` on a batch: some singular value decomposition of every weighted Jacobian -/
def DecomposesT (svd : Tn ℝ → Tn ℝ × Tn ℝ × Tn ℝ) (n d : ℕ) (t : Tag) (w : Option (Tn ℝ)) (J : Tn ℝ) : Prop :=
  ∀ Jw : Tn ℝ, HasMat Jw [n] 6 d t →
    (∀ b < n, matAt 6 d Jw [b] = .of fun i j => ((weightsOf w).getD fun _ => 1) i * matAt 6 d J [b] i j) →
    ∃ U D V, svd Jw = (U, D, V) ∧ HasMat U [n] 6 6 t ∧ HasVec D [n] (min 6 d) t ∧ HasMat V [n] d d t ∧
      ∀ b < n, IsSVD (matAt 6 d Jw [b]) ⟨matAt 6 6 U [b], vecAt (min 6 d) D [b], matAt d d V [b]⟩

omit hR hm hp hq hw hreg in
theorem DecomposesT.rows {svd : Tn ℝ → Tn ℝ × Tn ℝ × Tn ℝ} (hs : DecomposesT svd (N * R) d (flTag dt v) w J) :
    ∃ S : Fin (N * R) → SVD d, svd (tab3 (flTag dt v) fun b : Fin (N * R) => weightJ (weightsOf w) (matAt 6 d J [b.val])) =
        (tab3 (flTag dt v) fun b => (S b).U, tab2 (flTag dt v) fun b => (S b).D, tab3 (flTag dt v) fun b => (S b).Vh) ∧
      ∀ b, IsSVD (.of fun i j => ((weightsOf w).getD fun _ => 1) i * matAt 6 d J [b.val] i j) (S b) := by
  have hrow : ∀ b : Fin (N * R), matAt 6 d (tab3 (flTag dt v) fun b : Fin (N * R) => weightJ (weightsOf w) (matAt 6 d J [b.val])) [b.val] =
      .of fun i j => ((weightsOf w).getD fun _ => 1) i * matAt 6 d J [b.val] i j := by
    intro b
    ext i j
    refine (tab3_get (flTag dt v) _ b i j).trans ?_
    rw [weightJ_apply]
    rfl
  obtain ⟨U, D, V, h1, h2, h3, h4, h5⟩ := hs (tab3 (flTag dt v) fun b : Fin (N * R) => weightJ (weightsOf w) (matAt 6 d J [b.val]))
    ⟨rfl, rfl⟩ fun b hb => hrow ⟨b, hb⟩
  refine ⟨fun b => ⟨matAt 6 6 U [b.val], vecAt (min 6 d) D [b.val], matAt d d V [b.val]⟩, ?_, fun b => ?_⟩
  · rw [h1]
    refine Prod.ext (mat_tab h2) (Prod.ext (vec_tab h3) (mat_tab h4))
  · have := h5 b.val b.2
    rwa [hrow b] at this

/-- C123: with at least six joints the kernel with the singular value decomposition returns the tensors of the default
kernel, whichever decomposition of every row is used. -/
theorem C123_kernel_svd (svd : Tn ℝ → Tn ℝ × Tn ℝ × Tn ℝ) (hs : DecomposesT svd (N * R) d (flTag dt v) w J) (hd : 6 ≤ d) :
    ikStepSvdT svd m tp tq J (regMatrixT (flTag dt v) reg) R lm w = ikStepT m tp tq J (regMatrixT (flTag dt v) reg) R lm w := by
  obtain ⟨S, h1, h2⟩ := DecomposesT.rows J w hJ hs
  have hk := ikStep_rows (N := N) dt v hR (fun b => matAt 4 4 m [b.val]) (fun i => vecAt 3 tp [i.val]) (fun i => quatAt tq [i.val])
    (fun b => matAt 6 d J [b.val]) reg lm (weightsOf w) fun b => dls_regular hreg
  have hv := ikStepSvd_rows (N := N) dt v hR svd (fun b => matAt 4 4 m [b.val]) (fun i => vecAt 3 tp [i.val]) (fun i => quatAt tq [i.val])
    (fun b => matAt 6 d J [b.val]) reg lm (weightsOf w) S h1 hd _
    fun b => C55_svd_step_partial hd _ _ _ _ reg lm (weightsOf w) hreg (S b) (h2 b)
  have em : tab3 (flTag dt v) (fun b : Fin (N * R) => matAt 4 4 m [b.val]) = m := (mat_tab hm).symm
  have eJ : tab3 (flTag dt v) (fun b : Fin (N * R) => matAt 6 d J [b.val]) = J := (mat_tab hJ).symm
  rw [← vec_tab hp, ← quat_tab hq, ← weights_tab hw] at hk hv
  rw [← em, ← eJ]
  exact hv.trans hk.symm

/-- C123: with fewer than six joints it raises RuntimeError, for every batch. -/
theorem C123_kernel_svd_few_joints (svd : Tn ℝ → Tn ℝ × Tn ℝ × Tn ℝ) (hs : DecomposesT svd (N * R) d (flTag dt v) w J) (hd : d < 6) :
    ikStepSvdT svd m tp tq J (regMatrixT (flTag dt v) reg) R lm w = .error .runtimeError := by
  obtain ⟨S, h1, -⟩ := DecomposesT.rows J w hJ hs
  have hv := ikStepSvd_small (N := N) dt v hR svd (fun b => matAt 4 4 m [b.val]) (fun i => vecAt 3 tp [i.val]) (fun i => quatAt tq [i.val])
    (fun b => matAt 6 d J [b.val]) reg lm (weightsOf w) S h1 hd
  have em : tab3 (flTag dt v) (fun b : Fin (N * R) => matAt 4 4 m [b.val]) = m := (mat_tab hm).symm
  have eJ : tab3 (flTag dt v) (fun b : Fin (N * R) => matAt 6 d J [b.val]) = J := (mat_tab hJ).symm
  rw [← vec_tab hp, ← quat_tab hq, ← weights_tab hw] at hv
  rw [← em, ← eJ]
  exact hv

end kernel

/-- C123: without retries both kernels raise ZeroDivisionError, whatever the other tensors are. -/
theorem C123_kernel_no_retries (svd : Tn ℝ → Tn ℝ × Tn ℝ × Tn ℝ) (m tp tq J reg : Tn ℝ) (lm : ℝ) (w : Option (Tn ℝ))
    (hm : m.shape ≠ []) :
    ikStepT m tp tq J reg 0 lm w = .error .zeroDivision ∧ ikStepSvdT svd m tp tq J reg 0 lm w = .error .zeroDivision := by
  have h : kernelDx m tp tq 0 = .error .zeroDivision := by
    rw [kernelDx]
    cases hs : m.shape with
    | nil => exact absurd hs hm
    | cons a l => rfl
  rw [ikStepT, ikStepSvdT, h, error_bind, error_bind]
  exact ⟨rfl, rfl⟩

/-! ## The starting values -/

/-- The accepted forms of `initial_config`: `(N, R, d)` values for every retry, `(R, d)` values for all problems, or one
configuration `(d,)` for everything. -/
def StartsFrom (t : Tag) (initial : Tn Fl) (q0 : Fin N → Fin R → QRow d) : Prop :=
  initial.tag = t ∧
    ((initial.shape = [N, R, d] ∧ ∀ i r j, q0 i r j = initial.get [i.val, r.val, j.val]) ∨
     (initial.shape = [R, d] ∧ ∀ i r j, q0 i r j = initial.get [r.val, j.val]) ∨
     (initial.shape = [d] ∧ ∀ i r j, q0 i r j = initial.get [j.val]))

theorem StartsFrom.start {t : Tag} {initial : Tn Fl} {q0 : Fin N → Fin R → QRow d} (h : StartsFrom t initial q0) (hR : 0 < R)
    (hd : 0 < d) : startT initial N R d = .ok (tab2 t (flat q0)) := by
  obtain ⟨ht, ⟨hs, hg⟩ | ⟨hs, hg⟩ | ⟨hs, hg⟩⟩ := h
  · rw [show initial = tab3 t q0 from eq_tab3 hs ht fun i r j => (hg i r j).symm]
    exact start_all t hR hd q0
  · rw [show initial = tab2 t fun (r : Fin R) (j : Fin d) => initial.get [r.val, j.val] from eq_tab2 hs ht fun _ _ => rfl, start_shared t hR hd]
    rw [show q0 = fun (_ : Fin N) (r : Fin R) (j : Fin d) => initial.get [r.val, j.val] from funext fun i => funext fun r => funext fun j => hg i r j]
  · rw [show initial = tab1 t fun j : Fin d => initial.get [j.val] from eq_tab1 hs ht fun _ => rfl, start_one t hR hd]
    rw [show q0 = fun (_ : Fin N) (_ : Fin R) (j : Fin d) => initial.get [j.val] from funext fun i => funext fun r => funext fun j => hg i r j]

/-- C123: the three accepted forms of `initial_config` become the `(N * R, d)` starting tensor; row `i * R + r` belongs to retry
`r` of problem `i`. -/
theorem C123_start (t : Tag) (initial : Tn Fl) (q0 : Fin N → Fin R → QRow d) (h : StartsFrom t initial q0) (hR : 0 < R)
    (hd : 0 < d) :
    ∃ q, startT initial N R d = .ok q ∧ q.shape = [N * R, d] ∧ q.tag = t ∧
      ∀ (i : Fin N) (r : Fin R) (j : Fin d), q.get [i * R + r, j] = q0 i r j := by
  refine ⟨_, h.start hR hd, rfl, rfl, fun i r j => ?_⟩
  refine (tab2_get t (flat q0) (pr i r) j).trans ?_
  rw [flat_pr]

/-- C123: any other number of starting values raises ValueError, before anything is computed. -/
theorem C123_start_invalid (p : IKParams d) (E : EvalT) (t : Tag) (initial : Tn Fl) (h1 : initial.shape.prod ≠ N * d * R)
    (h2 : initial.shape.prod ≠ d * R) (h3 : initial.shape.prod ≠ d) : p.solveT E N R t initial = .error .valueError := by
  rw [IKParams.solveT, startT, if_neg h1, if_neg h2, if_neg h3]
  rfl

/-! ## The solver -/

section solver
variable (root rf fe : Frame) (rootName : Name) (path : List Frame) (h : WF root) (hs : StartsAt root rf rootName)
  (hp : IsPath rf path) (hl : path.getLast? = some fe) (hd : d = (pathJoints path).length) (hd0 : 0 < d) (hR : 0 < R)
  (target : Tn ℝ) (ht : HasMat target [N] 4 4 (flTag dt v)) {reg : ℝ} (hreg : 0 < reg) (lm : ℝ) (w : Option (Tn ℝ))
  (hw : ∀ x ∈ w, HasNum x [6] (flTag dt v)) (bad : ℕ → List Fl → (ℕ → Fl) × (ℕ → Fl))
  (hbad : ∀ i l, (∃ y ∈ l, y.isFinite = false) → ∃ a < 6, ((bad i l).2 a).isFinite = false) (junk : List ℕ → ℝ)
  (p : IKParams d) (initial : Tn Fl) (q0 : Fin N → Fin R → QRow d) (h0 : StartsFrom (flTag dt v) initial q0)
include h hs hp hl hd hd0 hR ht hreg hw hbad h0

/-- C123: the solver on tensors computes, for every problem `i` and retry `r`, what the solver for rows (C51-C60, C72) computes
with the evaluation of the pose error and the step for target `i`. -/
theorem C123_solve :
    ∃ (s : SerialChain) (ev : Eval N d), SerialChain.init root fe.name rootName = .ok s ∧
      Realises s (fun i => matAt 4 4 target [i.val]) reg lm (weightsOf w) ev ∧
      ∃ sol, p.solveT ((s.tensors dt v).evalFl junk target (regMatrixT (flTag dt v) reg) R lm w bad) N R (flTag dt v) initial = .ok sol ∧
        sol.iterations = (p.solve ev q0).iterations ∧
        sol.solutions.shape = [N, R, d] ∧ sol.errPos.shape = [N, R] ∧ sol.errRot.shape = [N, R] ∧ sol.conv.shape = [N, R] ∧
        sol.convAny.shape = [N] ∧ sol.solutions.tag = flTag dt v ∧
        ∀ (i : Fin N) (r : Fin R), (∀ j : Fin d, sol.solutions.get [i, r, j] = (p.solve ev q0).solutions i r j) ∧
          sol.errPos.get [i, r] = (p.solve ev q0).errPos i r ∧ sol.errRot.get [i, r] = (p.solve ev q0).errRot i r ∧
          sol.convPos.get [i, r] = (p.solve ev q0).convPos i r ∧ sol.convRot.get [i, r] = (p.solve ev q0).convRot i r ∧
          sol.conv.get [i, r] = (p.solve ev q0).conv i r ∧ sol.convAny.get [i.val] = (p.solve ev q0).convAny i ∧
          sol.remaining.get [i.val] = (p.solve ev q0).remaining i := by
  obtain ⟨rest, rfl⟩ := isPath_head hp
  have hws := serialRoot_wf (h.sub hs.1) hp
  have hE := evalFl_rowWise dt v hws hd hR (fun i : Fin N => matAt 4 4 target [i.val]) hreg lm (weightsOf w) bad junk
  have et : tab3 (flTag dt v) (fun b : Fin N => matAt 4 4 target [b.val]) = target := (mat_tab ht).symm
  rw [← weights_tab hw] at hE
  refine ⟨serialOf rf rest, rowEval (d := d) rf rest (fun i : Fin N => matAt 4 4 target [i.val]) reg lm (weightsOf w) bad,
    serialInit_ok h hs hp hl rfl, rowEval_realises hws hd _ reg lm _ hbad, _,
    (congrArg (fun x => p.solveT (((serialOf rf rest).tensors dt v).evalFl junk x (regMatrixT (flTag dt v) reg) R lm w bad) N R
      (flTag dt v) initial) et.symm).trans (solve_tensors hE hR hd0 p (h0.start hR hd0)),
    rfl, rfl, rfl, rfl, rfl, rfl, rfl, fun i r => ?_⟩
  · exact ⟨fun j => tab3_get _ _ i r j, tab2_get _ _ i r, tab2_get _ _ i r, tab2_get _ _ i r, tab2_get _ _ i r, tab2_get _ _ i r,
      tab1_get _ _ i, tab1_get _ _ i⟩

/-- C123: entry `(i, r)` of `converged` is a promise about entry `(i, r)` of `solutions` and target `i`: the joint values are
numbers and forward kinematics of them is within both tolerances of that target. -/
theorem C123_converged_reaches_target (hr : RigidTree root) (hrt : ∀ i < N, IsRigid (matAt 4 4 target [i])) :
    ∃ s sol, SerialChain.init root fe.name rootName = .ok s ∧
      p.solveT ((s.tensors dt v).evalFl junk target (regMatrixT (flTag dt v) reg) R lm w bad) N R (flTag dt v) initial = .ok sol ∧
      ∀ i < N, ∀ r < R, sol.conv.get [i, r] = true →
        ∃ (x : Fin d → ℝ) (T : Fin 1 → M4), (∀ j : Fin d, sol.solutions.get [i, r, j] = .fin (x j)) ∧
          s.fkEnd (.tensor 1 (List.ofFn fun j _ => x j)) = .ok ⟨1, T⟩ ∧
          vlen (posPart (matAt 4 4 target [i]) - posPart (T 0)) < p.posTol ∧
          rotAngle (rotPart (matAt 4 4 target [i]) * (rotPart (T 0))ᵀ) < p.rotTol := by
  obtain ⟨s, ev, h1, h2, sol, h3, -, -, -, -, -, -, -, h4⟩ := C123_solve root rf fe rootName path h hs hp hl hd hd0 hR target ht hreg lm w hw bad
    hbad junk p initial q0 h0
  refine ⟨s, sol, h1, h3, fun i hi r hr' hc => ?_⟩
  obtain ⟨a1, -, -, -, -, a2, -⟩ := h4 ⟨i, hi⟩ ⟨r, hr'⟩
  obtain ⟨x, T, b1, b2, b3, b4⟩ := C51_converged_reaches_target root rf fe rootName path h hr hs hp hl hd _ (fun i => hrt i.val i.2) s h1 ev
    h2.reportsError p q0 ⟨i, hi⟩ ⟨r, hr'⟩ (a2.symm.trans hc)
  exact ⟨x, T, fun j => (a1 j).trans (congrFun b1 j), b2, b3, b4⟩

/-- C123: entries `(i, r)` of `err_pos` and `err_rot` are the distance and the angle between forward kinematics of entry `(i, r)`
of `solutions` and target `i`, converged or not. -/
theorem C123_errors_of_solution (hr : RigidTree root) (hrt : ∀ i < N, IsRigid (matAt 4 4 target [i])) :
    ∃ s sol, SerialChain.init root fe.name rootName = .ok s ∧
      p.solveT ((s.tensors dt v).evalFl junk target (regMatrixT (flTag dt v) reg) R lm w bad) N R (flTag dt v) initial = .ok sol ∧
      ∀ i < N, ∀ r < R, ∀ x : Fin d → ℝ, (∀ j : Fin d, sol.solutions.get [i, r, j] = .fin (x j)) →
        ∃ T ea, s.fkEnd (.tensor 1 (List.ofFn fun j _ => x j)) = .ok ⟨1, T⟩ ∧
          sol.errPos.get [i, r] = .fin (vlen (posPart (matAt 4 4 target [i]) - posPart (T 0))) ∧
          sol.errRot.get [i, r] = .fin ea ∧
          let θ := rotAngle (rotPart (matAt 4 4 target [i]) * (rotPart (T 0))ᵀ)
          θ ≤ ea ∧ ea ≤ θ * (1 + 1e-13) ∧ (1e-6 ≤ θ → ea = θ) := by
  obtain ⟨s, ev, h1, h2, sol, h3, -, -, -, -, -, -, -, h4⟩ := C123_solve root rf fe rootName path h hs hp hl hd hd0 hR target ht hreg lm w hw bad
    hbad junk p initial q0 h0
  refine ⟨s, sol, h1, h3, fun i hi r hr' x hx => ?_⟩
  obtain ⟨a1, a2, a3, -⟩ := h4 ⟨i, hi⟩ ⟨r, hr'⟩
  obtain ⟨T, ea, b1, b2, b3, b4⟩ := C72_errors_of_solution root rf fe rootName path h hr hs hp hl hd _ (fun i => hrt i.val i.2) s h1 ev
    h2.reportsError p q0 ⟨i, hi⟩ ⟨r, hr'⟩ x (funext fun j => (a1 j).symm.trans (hx j))
  exact ⟨T, ea, b1, a2.trans b2, a3.trans b3, b4⟩

/-- C123: with enforcement and finite limits every entry of `solutions` is a number within the limits of its joint. -/
theorem C123_within_limits (lo hi : Fin d → ℝ) (hlo : ∀ j, p.low j = .fin (lo j)) (hhi : ∀ j, p.high j = .fin (hi j))
    (hle : ∀ j, lo j ≤ hi j) (he : p.enforce = true) (hq : ∀ i r, QRow.Finite (q0 i r)) :
    ∃ s sol, SerialChain.init root fe.name rootName = .ok s ∧
      p.solveT ((s.tensors dt v).evalFl junk target (regMatrixT (flTag dt v) reg) R lm w bad) N R (flTag dt v) initial = .ok sol ∧
      ∀ i < N, ∀ r < R, ∀ j : Fin d, ∃ x, sol.solutions.get [i, r, j] = .fin x ∧ lo j ≤ x ∧ x ≤ hi j := by
  obtain ⟨s, ev, h1, h2, sol, h3, -, -, -, -, -, -, -, h4⟩ := C123_solve root rf fe rootName path h hs hp hl hd hd0 hR target ht hreg lm w hw bad
    hbad junk p initial q0 h0
  refine ⟨s, sol, h1, h3, fun i hi' r hr' j => ?_⟩
  obtain ⟨a1, -⟩ := h4 ⟨i, hi'⟩ ⟨r, hr'⟩
  obtain ⟨x, b1, b2⟩ := C52_within_limits p lo hi hlo hhi hle he ev h2.finiteSteps q0 hq ⟨i, hi'⟩ ⟨r, hr'⟩
  exact ⟨x j, (a1 j).trans (congrFun b1 j), b2 j⟩

/-- C123: a problem of a batch is solved as if it were alone: for target `i` given on its own as a `(1, 4, 4)` tensor with the
starting values of problem `i`, every retry that converges alone converges in the batch, with the same solution (without line
search and limit enforcement, which look at the whole batch). -/
theorem C123_batch_keeps_solutions (hls : p.lineSearch = none) (hen : p.enforce = false) (i : Fin N) (one : Tn ℝ)
    (h1 : HasMat one [1] 4 4 (flTag dt v)) (hrow : matAt 4 4 one [0] = matAt 4 4 target [i.val]) (start1 : Tn Fl)
    (hst : StartsFrom (N := 1) (flTag dt v) start1 fun _ => q0 i) :
    ∃ s batch alone, SerialChain.init root fe.name rootName = .ok s ∧
      p.solveT ((s.tensors dt v).evalFl junk target (regMatrixT (flTag dt v) reg) R lm w bad) N R (flTag dt v) initial = .ok batch ∧
      p.solveT ((s.tensors dt v).evalFl junk one (regMatrixT (flTag dt v) reg) R lm w fun _ => bad i) 1 R (flTag dt v) start1 =
        .ok alone ∧
      ∀ r < R, alone.conv.get [0, r] = true →
        batch.conv.get [i, r] = true ∧ ∀ j : Fin d, batch.solutions.get [i, r, j] = alone.solutions.get [0, r, j] := by
  obtain ⟨rest, rfl⟩ := isPath_head hp
  have hws := serialRoot_wf (h.sub hs.1) hp
  have et : tab3 (flTag dt v) (fun b : Fin N => matAt 4 4 target [b.val]) = target := (mat_tab ht).symm
  have eo : tab3 (flTag dt v) (fun b : Fin 1 => matAt 4 4 one [b.val]) = one := (mat_tab h1).symm
  have hE := evalFl_rowWise dt v hws hd hR (fun i : Fin N => matAt 4 4 target [i.val]) hreg lm (weightsOf w) bad junk
  have hF := evalFl_rowWise dt v hws hd hR (fun i : Fin 1 => matAt 4 4 one [i.val]) hreg lm (weightsOf w) (fun _ => bad i) junk
  rw [← weights_tab hw] at hE hF
  have hev : rowEval (d := d) rf rest (fun i : Fin 1 => matAt 4 4 one [i.val]) reg lm (weightsOf w) (fun _ => bad i) =
      fun _ => rowEval rf rest (fun i : Fin N => matAt 4 4 target [i.val]) reg lm (weightsOf w) bad i := by
    funext k q
    obtain rfl : k = 0 := Subsingleton.elim _ _
    simp only [rowEval, Fin.val_zero, hrow]
  rw [hev] at hF
  have e1 := solve_tensors hE hR hd0 p (h0.start hR hd0)
  have e2 := solve_tensors hF hR hd0 p (hst.start hR hd0)
  refine ⟨serialOf rf rest, _, _, serialInit_ok h hs hp hl rfl,
    (congrArg (fun x => p.solveT (((serialOf rf rest).tensors dt v).evalFl junk x (regMatrixT (flTag dt v) reg) R lm w bad) N R
      (flTag dt v) initial) et.symm).trans e1,
    (congrArg (fun x => p.solveT (((serialOf rf rest).tensors dt v).evalFl junk x (regMatrixT (flTag dt v) reg) R lm w fun _ => bad i) 1 R
      (flTag dt v) start1) eo.symm).trans e2, fun r hr hc => ?_⟩
  · have hcore : ∀ {M : ℕ} (ev : Eval M d) (q : Fin M → Fin R → QRow d), p.solve ev q = (p.solveCore ev q).sol := by
      intro M ev q
      simp [IKParams.solve, hen]
    have hc' := (tab2_get _ _ (0 : Fin 1) (⟨r, hr⟩ : Fin R)).symm.trans hc
    rw [hcore] at hc'
    obtain ⟨a1, a2⟩ := C59_batch_keeps_solutions p hls _ q0 i ⟨r, hr⟩ hc'
    refine ⟨(tab2_get _ _ i (⟨r, hr⟩ : Fin R)).trans (by rw [hcore]; exact a1), fun j => ?_⟩
    refine (tab3_get _ _ i (⟨r, hr⟩ : Fin R) j).trans (Eq.trans ?_ (tab3_get _ _ (0 : Fin 1) (⟨r, hr⟩ : Fin R) j).symm)
    rw [hcore, hcore]
    exact congrFun a2 j

end solver

/-- a failing evaluation fails the call -/
theorem solveT_step_error {p : IKParams d} {E : EvalT} {t : Tag} {initial q : Tn Fl} {e : Err} (h0 : startT initial N R d = .ok q)
    (he : E.step q = .error e) : p.solveT E N R t initial = .error e := by
  have hl : ∀ k (sol : SolT) pr, (∃ e', p.loopT E N R t k ⟨q, sol, pr⟩ = .error e' ∧ e' = e) ∨
      p.loopT E N R t k ⟨q, sol, pr⟩ = .ok ⟨q, sol, pr⟩ := by
    intro k sol pr
    cases k with
    | zero => exact .inr rfl
    | succ k =>
      rw [IKParams.loopT]
      split
      · refine .inl ⟨e, ?_, rfl⟩
        rw [IKParams.bodyT, he, error_bind, error_bind]
      · exact .inr rfl
  rw [IKParams.solveT]
  simp only [h0, ok_bind]
  obtain ⟨e', h1, rfl⟩ | h1 := hl p.maxIter (SolT.init d N R t) none
  · rw [h1, error_bind]
  · rw [h1, ok_bind]
    dsimp only
    rw [he, error_bind]

/-- C123: without retries the solver raises ZeroDivisionError, for every chain with joints, targets and (empty) starting values. -/
theorem C123_no_retries (root rf fe : Frame) (rootName : Name) (path : List Frame) (h : WF root) (hs : StartsAt root rf rootName)
    (hp : IsPath rf path) (hl : path.getLast? = some fe) (hd : d = (pathJoints path).length) (hd0 : 0 < d) (target : Tn ℝ)
    (ht : HasMat target [N] 4 4 (flTag dt v)) (reg : Tn ℝ) (lm : ℝ) (w : Option (Tn ℝ)) (bad : ℕ → List Fl → (ℕ → Fl) × (ℕ → Fl))
    (junk : List ℕ → ℝ) (p : IKParams d) (initial : Tn Fl) (h0 : initial.shape.prod = 0) (hi : initial.tag = flTag dt v) :
    ∃ s, SerialChain.init root fe.name rootName = .ok s ∧
      p.solveT ((s.tensors dt v).evalFl junk target reg 0 lm w bad) N 0 (flTag dt v) initial = .error .zeroDivision := by
  obtain ⟨rest, rfl⟩ := isPath_head hp
  have hws := serialRoot_wf (h.sub hs.1) hp
  refine ⟨serialOf rf rest, serialInit_ok h hs hp hl rfl, ?_⟩
  have h1 : startT initial N 0 d = .ok (tab2 (flTag dt v) fun (b : Fin 0) (_ : Fin d) => b.elim0) := by
    rw [startT, if_pos (by rw [h0, Nat.mul_zero]), reshapeInfer, if_neg (by simp; omega), h0, Nat.zero_div]
    obtain ⟨x, hx, hsx, htx, -⟩ := reshape_at (a := initial) (s := [0, d]) (by rw [h0]; simp)
    rw [hx]
    exact congrArg Except.ok (eq_tab2 hsx (htx.trans hi) fun b => b.elim0)
  refine solveT_step_error h1 ?_
  have et : target = tab3 (flTag dt v) (fun b : Fin N => matAt 4 4 target [b.val]) := mat_tab ht
  have e2 : ((serialOf rf rest).tensors dt v).ikEval junk target reg 0 lm w
      (tab2 (flTag dt v) fun (b : Fin 0) (j : Fin d) => (b.elim0 : ℝ)) = .error .zeroDivision := by
    rw [et, SerialT.ikEval]
    refine (congrArg (· >>= _) (target_rows dt v _)).trans ?_
    rw [ok_bind]
    dsimp only
    rw [jacobian_rows dt v hws hd, ok_bind]
    exact (C123_kernel_no_retries (fun x => (x, x, x)) _ _ _ _ _ _ _ (List.cons_ne_nil _ _)).1
  have e3 : finPart (tab2 (flTag dt v) fun (b : Fin 0) (_ : Fin d) => b.elim0) =
      tab2 (flTag dt v) fun (b : Fin 0) (j : Fin d) => (b.elim0 : ℝ) := by
    rw [finPart_tab]
    exact congrArg (tab2 _) (funext fun b => b.elim0)
  rw [SerialT.evalFl]
  dsimp only
  rw [e3, e2, error_bind]

/-- C123: the solver of a chain without movable joints raises, for all arguments. -/
theorem C123_no_joints (p : IKParams 0) (E : EvalT) (t : Tag) (initial : Tn Fl) :
    p.solveT E N R t initial = .error (if initial.shape.prod = 0 then .runtimeError else .valueError) := by
  rw [IKParams.solveT, startT]
  by_cases h : initial.shape.prod = 0
  · rw [if_pos (by rw [h]; ring), reshapeInfer, if_pos (by simp), if_pos h]
    rfl
  · rw [if_neg (by simpa using h), if_neg (by simpa using h), if_neg h, if_neg h]
    rfl

/-! ### the hypotheses are met -/

/-- two problems with three retries for the arm with two joints, started from one configuration; identity targets, the default
weights, an evaluation that answers nan for joint values that are not numbers; a single value is not a valid start -/
example : ∃ path, WF exTree ∧ RigidTree exTree ∧ StartsAt exTree exTree [] ∧ IsPath exTree path ∧ (pathJoints path).length = 2 ∧
    HasMat (ofM (flTag .f32 0) [2] 4 4 fun _ r c => (1 : M4) r c) [2] 4 4 (flTag .f32 0) ∧
    (∀ i < 2, IsRigid (matAt 4 4 (ofM (flTag .f32 0) [2] 4 4 fun _ r c => (1 : M4) r c) [i])) ∧
    (∀ x ∈ some (taskWeightT (flTag .f32 0) 1 0.5), HasNum x [6] (flTag .f32 0)) ∧
    (∀ (l : List Fl), (∃ y ∈ l, y.isFinite = false) → ∃ a < 6, ((fun _ : ℕ => Fl.nan) a).isFinite = false) ∧
    StartsFrom (N := 2) (R := 3) (d := 2) (flTag .f32 0) (tab1 (flTag .f32 0) ![Fl.fin 1, Fl.fin 2]) (fun _ _ => ![Fl.fin 1, Fl.fin 2]) ∧
    StartsFrom (N := 2) (R := 3) (d := 2) (flTag .f32 0) (tab2 (flTag .f32 0) fun (r : Fin 3) (_ : Fin 2) => Fl.fin r.val) (fun _ r _ => Fl.fin r.val) ∧
    (∀ (p : IKParams 2) E, p.solveT E 2 3 (flTag .f32 0) (tab1 (flTag .f32 0) ![Fl.fin 1]) = .error .valueError) := by
  refine ⟨[exTree, exTree.children[0], exTree.children[0].children[0]], exTree_wf, exTree_rigid,
    ⟨by rw [preorder_eq]; simp, .inl ⟨rfl, rfl⟩⟩,
    IsPath.snoc [exTree] _ _ (IsPath.snoc [] _ _ IsPath.single (by simp)) (by simp), ?_, ⟨rfl, rfl⟩, fun i hi => ?_, ?_,
    fun _ _ => ⟨0, by omega, rfl⟩, ⟨rfl, .inr (.inr ⟨rfl, fun _ _ j => (tab1_get _ _ j).symm⟩)⟩,
    ⟨rfl, .inr (.inl ⟨rfl, fun _ r j => (tab2_get (flTag .f32 0) (fun (r : Fin 3) (_ : Fin 2) => Fl.fin r.val) r j).symm⟩)⟩, fun p E => C123_start_invalid p E _ _ (by simp) (by simp) (by simp)⟩
  · simp [exTree, pathJoints, Frame.joint, Frame.children, Moving]
  · rw [matAt_ofM (validIx_one_iff.2 hi)]
    exact isRigid_one
  · rintro x hx
    obtain rfl := Option.some.inj hx
    exact ⟨rfl, rfl⟩

/-- the decompositions exist: rows of unit vectors decompose as themselves -/
example : ∃ svd, DecomposesT svd 2 6 (flTag .f64 0) none (ofM (flTag .f64 0) [2] 6 6 fun _ r c => (1 : Matrix (Fin 6) (Fin 6) ℝ) r c) := by
  refine ⟨fun Jw => (Jw, full (flTag .f64 0) [2, 6] 1, Jw), fun Jw h1 h2 => ⟨_, _, _, rfl, h1, ⟨rfl, rfl⟩, h1, fun b hb => ?_⟩⟩
  have e : matAt 6 6 Jw [b] = 1 := by
    rw [h2 b hb, matAt_ofM (validIx_one_iff.2 hb)]
    ext i j
    simp [weightsOf]
  have e1 : vecAt 6 (full (flTag .f64 0) [2, 6] 1) [b] = fun _ => 1 := funext fun k => ofFn_get (by simp [ValidIx, hb])
  rw [e]
  refine ⟨by simp, by simp, fun i j => ?_⟩
  show (1 : Matrix (Fin 6) (Fin 6) ℝ) i j = ∑ k : Fin 6, (1 : Matrix (Fin 6) (Fin 6) ℝ) i k * vecAt 6 (full (flTag .f64 0) [2, 6] 1) [b] k *
    (1 : Matrix (Fin 6) (Fin 6) ℝ) k j
  rw [e1]
  simp [Matrix.one_apply]

end
end PK
