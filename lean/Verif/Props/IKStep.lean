import Verif.Model.IK
import Verif.Lemmas.Exc
import Mathlib.LinearAlgebra.Matrix.NonsingularInverse
import Mathlib.Tactic.Positivity

/-! # C54, C55: the step kernels -/

namespace PK
open Matrix

namespace Spec

/-- The damping of one row: `reg`, plus `lm * |W dx|²` when `lm > 0`. -/
noncomputable def damping (reg lm : ℝ) (w dx : Fin 6 → ℝ) : ℝ :=
  open Classical in reg + if 0 < lm then lm * ∑ k, (w k * dx k) ^ 2 else 0

/-- The weighted damped least-squares objective `|W (J y - dx)|² + lam |y|²`. -/
def dlsObjective {d : ℕ} (J : Matrix (Fin 6) (Fin d) ℝ) (w dx : Fin 6 → ℝ) (lam : ℝ) (y : Fin d → ℝ) : ℝ :=
  ∑ k, (w k * (∑ j, J k j * y j - dx k)) ^ 2 + lam * ∑ j, y j ^ 2

/-- `(U, D, Vh)` is a singular value decomposition of the `(6, d)` matrix `J`: orthogonal factors and
`J = U diag(D) Vh` with the rectangular diagonal. -/
structure IsSVD {d : ℕ} (J : Matrix (Fin 6) (Fin d) ℝ) (s : SVD d) : Prop where
  U_orth : s.U * s.Uᵀ = 1
  V_orth : s.Vh * s.Vhᵀ = 1
  prod : ∀ i j, J i j = ∑ k : Fin (min 6 d), s.U i ⟨k, by omega⟩ * s.D k * s.Vh ⟨k, by omega⟩ j

end Spec
open Spec

/-- weights as a vector; no weights is all ones -/
def wVec (w : Option (Fin 6 → ℝ)) : Fin 6 → ℝ := w.getD fun _ => 1

theorem weightJ_apply {d : ℕ} (w : Option (Fin 6 → ℝ)) (J : Matrix (Fin 6) (Fin d) ℝ) (i : Fin 6) (j : Fin d) :
    weightJ w J i j = wVec w i * J i j := by cases w <;> simp [weightJ, wVec]

theorem weightDx_apply (w : Option (Fin 6 → ℝ)) (dx : Fin 6 → ℝ) (i : Fin 6) :
    weightDx w dx i = wVec w i * dx i := by cases w <;> simp [weightDx, wVec]

theorem damping_pos {reg lm : ℝ} (h : 0 < reg) (w dx : Fin 6 → ℝ) : 0 < damping reg lm w dx := by
  unfold damping
  split_ifs with hl
  · have : 0 ≤ ∑ k, (w k * dx k) ^ 2 := Finset.sum_nonneg fun k _ => sq_nonneg _
    positivity
  · linarith

theorem dlsMatrix_eq {d : ℕ} (Jw : Matrix (Fin 6) (Fin d) ℝ) (w : Option (Fin 6 → ℝ)) (dx : Fin 6 → ℝ) (reg lm : ℝ) :
    dlsMatrix Jw (weightDx w dx) reg lm = Jw * Jwᵀ + damping reg lm (wVec w) dx • (1 : Matrix (Fin 6) (Fin 6) ℝ) := by
  unfold dlsMatrix damping
  split_ifs with h
  · rw [add_smul, add_assoc]
    congr 3
    apply congrArg
    apply Finset.sum_congr rfl
    intro i _
    rw [weightDx_apply]; ring
  · rw [add_zero]

theorem dot_self_eq_zero {n : ℕ} {x : Fin n → ℝ} (h : x ⬝ᵥ x = 0) : x = 0 := by
  ext i
  have hs : ∀ j ∈ Finset.univ, (0:ℝ) ≤ x j * x j := fun j _ => mul_self_nonneg _
  have := (Finset.sum_eq_zero_iff_of_nonneg hs).1 h i (Finset.mem_univ i)
  exact mul_self_eq_zero.1 this

theorem dotSelf_nonneg {n : ℕ} (x : Fin n → ℝ) : 0 ≤ x ⬝ᵥ x := Finset.sum_nonneg fun _ _ => mul_self_nonneg _

/-- the regularised Gram matrix is invertible -/
theorem gram_isUnit {d : ℕ} (A : Matrix (Fin 6) (Fin d) ℝ) {lam : ℝ} (h : 0 < lam) :
    IsUnit (A * Aᵀ + lam • (1 : Matrix (Fin 6) (Fin 6) ℝ)) := by
  rw [← Matrix.mulVec_injective_iff_isUnit]
  intro x y hxy
  have hz : (A * Aᵀ + lam • (1 : Matrix (Fin 6) (Fin 6) ℝ)) *ᵥ (x - y) = 0 := by
    rw [Matrix.mulVec_sub]; exact sub_eq_zero.2 hxy
  have h1 : (x - y) ⬝ᵥ ((A * Aᵀ + lam • (1 : Matrix (Fin 6) (Fin 6) ℝ)) *ᵥ (x - y)) =
      (Aᵀ *ᵥ (x - y)) ⬝ᵥ (Aᵀ *ᵥ (x - y)) + lam * ((x - y) ⬝ᵥ (x - y)) := by
    rw [Matrix.add_mulVec, dotProduct_add, Matrix.smul_mulVec, Matrix.one_mulVec, dotProduct_smul, smul_eq_mul,
      ← Matrix.mulVec_mulVec, Matrix.dotProduct_mulVec, ← Matrix.mulVec_transpose]
  rw [hz, dotProduct_zero] at h1
  have h2 := dotSelf_nonneg (Aᵀ *ᵥ (x - y))
  have h3 := dotSelf_nonneg (x - y)
  have h4 : (x - y) ⬝ᵥ (x - y) = 0 := by
    by_contra hne
    have : 0 < (x - y) ⬝ᵥ (x - y) := lt_of_le_of_ne h3 (Ne.symm hne)
    nlinarith
  exact sub_eq_zero.1 (dot_self_eq_zero h4)

/-- C54: the linear system of every step has exactly one solution. -/
theorem C54_system_solvable {d : ℕ} (J : Matrix (Fin 6) (Fin d) ℝ) (dx : Fin 6 → ℝ) (reg lm : ℝ)
    (w : Option (Fin 6 → ℝ)) (hreg : 0 < reg) :
    ∃! a, dlsMatrix (weightJ w J) (weightDx w dx) reg lm *ᵥ a = weightDx w dx := by
  rw [dlsMatrix_eq]
  have hu := gram_isUnit (weightJ w J) (damping_pos (lm := lm) hreg (wVec w) dx)
  have hd := (Matrix.isUnit_iff_isUnit_det _).1 hu
  refine ⟨(weightJ w J * (weightJ w J)ᵀ + damping reg lm (wVec w) dx • (1 : Matrix (Fin 6) (Fin 6) ℝ))⁻¹ *ᵥ weightDx w dx,
    by beta_reduce; rw [Matrix.mulVec_mulVec, Matrix.mul_nonsing_inv _ hd, Matrix.one_mulVec], ?_⟩
  intro a ha
  exact Matrix.mulVec_injective_iff_isUnit.2 hu
    (by beta_reduce; rw [ha, Matrix.mulVec_mulVec, Matrix.mul_nonsing_inv _ hd, Matrix.one_mulVec])

theorem dlsObjective_eq {d : ℕ} (J : Matrix (Fin 6) (Fin d) ℝ) (w : Option (Fin 6 → ℝ)) (dx : Fin 6 → ℝ) (lam : ℝ)
    (y : Fin d → ℝ) : dlsObjective J (wVec w) dx lam y =
      (weightJ w J *ᵥ y - weightDx w dx) ⬝ᵥ (weightJ w J *ᵥ y - weightDx w dx) + lam * (y ⬝ᵥ y) := by
  unfold dlsObjective
  congr 1
  · apply Finset.sum_congr rfl
    intro k _
    have : (weightJ w J *ᵥ y - weightDx w dx) k = wVec w k * (∑ j, J k j * y j - dx k) := by
      rw [Pi.sub_apply, weightDx_apply, mul_sub, Finset.mul_sum, Matrix.mulVec, dotProduct]
      congr 1
      apply Finset.sum_congr rfl
      intro j _
      rw [weightJ_apply]; ring
    rw [this]; ring
  · congr 1
    apply Finset.sum_congr rfl
    intro j _; ring

/-- C54: the step is the unique minimiser of the weighted damped least-squares objective, for the error `dx` it
reports, for every Jacobian with any number of joints (none included), target, weights and damping. -/
theorem C54_step_minimises {d : ℕ} (m : M4) (tpos : V3) (tq : Quat) (J : Matrix (Fin 6) (Fin d) ℝ) (reg lm : ℝ)
    (w : Option (Fin 6 → ℝ)) (hreg : 0 < reg) (y : Fin d → ℝ) :
    let dq := (ikStepKernel m tpos tq J reg lm w).1
    let dx := (ikStepKernel m tpos tq J reg lm w).2
    let weights : Fin 6 → ℝ := w.getD fun _ => 1
    let obj := dlsObjective J weights dx (damping reg lm weights dx)
    obj dq ≤ obj y ∧ (obj y = obj dq → y = dq) := by
  intro dq dx weights obj
  have hlam := damping_pos (lm := lm) hreg weights dx
  set lam := damping reg lm weights dx with hl
  set A := weightJ w J with hA
  set b := weightDx w dx with hb
  have hu := gram_isUnit A hlam
  have hd := (Matrix.isUnit_iff_isUnit_det _).1 hu
  set a := (A * Aᵀ + lam • (1 : Matrix (Fin 6) (Fin 6) ℝ))⁻¹ *ᵥ b with ha
  have hdq : dq = Aᵀ *ᵥ a := by
    change Aᵀ *ᵥ ((dlsMatrix A (weightDx w dx) reg lm)⁻¹ *ᵥ weightDx w dx) = _
    rw [dlsMatrix_eq]; rfl
  have hsol : A *ᵥ (Aᵀ *ᵥ a) - b = -(lam • a) := by
    have : (A * Aᵀ + lam • (1 : Matrix (Fin 6) (Fin 6) ℝ)) *ᵥ a = b := by
      rw [ha, Matrix.mulVec_mulVec, Matrix.mul_nonsing_inv _ hd, Matrix.one_mulVec]
    rw [Matrix.add_mulVec, Matrix.smul_mulVec, Matrix.one_mulVec, ← Matrix.mulVec_mulVec] at this
    rw [← this]; abel
  have hobj : ∀ z, obj z = (A *ᵥ z - b) ⬝ᵥ (A *ᵥ z - b) + lam * (z ⬝ᵥ z) := fun z => dlsObjective_eq J w dx lam z
  set h := y - dq with hh
  have hy : y = dq + h := by rw [hh]; abel
  have key : obj y = obj dq + (A *ᵥ h) ⬝ᵥ (A *ᵥ h) + lam * (h ⬝ᵥ h) := by
    rw [hobj, hobj, hy]
    have e1 : A *ᵥ (dq + h) - b = A *ᵥ h - lam • a := by
      rw [Matrix.mulVec_add, hdq, add_sub_right_comm, hsol]; abel
    have e2 : A *ᵥ dq - b = -(lam • a) := by rw [hdq, hsol]
    have e3 : dq ⬝ᵥ h = a ⬝ᵥ (A *ᵥ h) := by
      rw [hdq, Matrix.dotProduct_mulVec, Matrix.mulVec_transpose]
    rw [e1, e2]
    simp only [dotProduct_add, add_dotProduct, dotProduct_sub, sub_dotProduct, dotProduct_smul, smul_dotProduct,
      neg_dotProduct, dotProduct_neg, smul_eq_mul, dotProduct_comm h dq, e3, dotProduct_comm (A *ᵥ h) a]
    ring
  have h1 := dotSelf_nonneg (A *ᵥ h)
  have h2 := dotSelf_nonneg h
  refine ⟨by rw [key]; nlinarith, fun he => ?_⟩
  rw [key] at he
  have : h ⬝ᵥ h = 0 := by
    by_contra hne
    have : 0 < h ⬝ᵥ h := lt_of_le_of_ne h2 (Ne.symm hne)
    nlinarith
  have := dot_self_eq_zero this
  rw [hy, this, add_zero]

/-- a rank-deficient Jacobian of a two-joint arm with the default parameters -/
example (y : Fin 2 → ℝ) :
    let J : Matrix (Fin 6) (Fin 2) ℝ := !![0, 0; 1, 1; 0, 0; 0, 0; 0, 0; 1, 1]
    let k := ikStepKernel 1 ![1, 2, 3] ⟨1, 0, 0, 0⟩ J 1e-9 0.1 (some fun _ => 1)
    dlsObjective J (fun _ => 1) k.2 (damping 1e-9 0.1 (fun _ => 1) k.2) k.1 ≤
      dlsObjective J (fun _ => 1) k.2 (damping 1e-9 0.1 (fun _ => 1) k.2) y :=
  (C54_step_minimises _ _ _ _ _ _ (some fun _ => 1) (by norm_num) y).1

/-! ## C55 -/

theorem svd_thin {d : ℕ} {J : Matrix (Fin 6) (Fin d) ℝ} {s : SVD d} (hs : IsSVD J s) (h : min 6 d = 6) :
    let V : Matrix (Fin 6) (Fin d) ℝ := Matrix.of fun i j => s.Vh ⟨i.val, by omega⟩ j
    let D : Fin 6 → ℝ := fun i => s.D (Fin.cast h.symm i)
    V * Vᵀ = 1 ∧ J = s.U * Matrix.diagonal D * V := by
  intro V D
  constructor
  · ext i k
    have hv := congrFun (congrFun hs.V_orth ⟨i.val, by omega⟩) ⟨k.val, by omega⟩
    rw [Matrix.mul_apply] at hv ⊢
    refine hv.trans ?_
    rw [Matrix.one_apply, Matrix.one_apply]
    simp [Fin.ext_iff]
  · ext i j
    rw [hs.prod i j, Matrix.mul_apply]
    refine Fintype.sum_equiv (finCongr h) _ _ fun k => ?_
    rw [Matrix.mul_diagonal]
    rfl

/-- C55, the part that holds: with at least six joints the SVD kernel returns exactly the step of the default kernel,
whichever singular value decomposition of the weighted Jacobian is used. -/
theorem C55_svd_step_partial {d : ℕ} (hd : 6 ≤ d) (m : M4) (tpos : V3) (tq : Quat) (J : Matrix (Fin 6) (Fin d) ℝ)
    (reg lm : ℝ) (w : Option (Fin 6 → ℝ)) (hreg : 0 < reg) (s : SVD d)
    (hs : IsSVD (Matrix.of fun i j => (w.getD fun _ => 1) i * J i j) s) :
    ikStepKernelSvd m tpos tq s reg lm w = .ok (ikStepKernel m tpos tq J reg lm w) := by
  have hmin : min 6 d = 6 := by omega
  have hJ : (Matrix.of fun i j => (w.getD fun _ => 1) i * J i j) = weightJ w J := by
    ext i j; rw [weightJ_apply]; rfl
  rw [hJ] at hs
  obtain ⟨hV, hdec⟩ := svd_thin hs hmin
  set dx := deltaPose m tpos tq with hdx
  have hlam := damping_pos (lm := lm) hreg (wVec w) dx
  set lam := damping reg lm (wVec w) dx with hl
  have hlam' : (open Classical in if 0 < lm then reg + lm * ∑ i, weightDx w dx i * weightDx w dx i else reg) = lam := by
    rw [hl, damping]
    split_ifs with h
    · congr 2
      apply Finset.sum_congr rfl
      intro i _
      rw [weightDx_apply]; ring
    · rw [add_zero]
  unfold ikStepKernelSvd
  simp only [← hdx]
  rw [hlam']
  unfold svdStep
  rw [dif_pos hmin, ok_bind]
  unfold ikStepKernel
  simp only [← hdx]
  rw [dlsMatrix_eq, ← hl]
  change Except.ok _ = Except.ok _
  congr 2
  set V : Matrix (Fin 6) (Fin d) ℝ := Matrix.of fun i j => s.Vh ⟨i.val, by omega⟩ j with hVdef
  set D : Fin 6 → ℝ := fun i => s.D (Fin.cast hmin.symm i) with hD
  have hUU : s.Uᵀ * s.U = 1 := mul_eq_one_comm.1 hs.U_orth
  have hne : ∀ i, D i ^ 2 + lam ≠ 0 := fun i => by have := sq_nonneg (D i); positivity
  have hgram : weightJ w J * (weightJ w J)ᵀ + lam • (1 : Matrix (Fin 6) (Fin 6) ℝ) =
      s.U * Matrix.diagonal (fun i => D i ^ 2 + lam) * s.Uᵀ := by
    have e1 : weightJ w J * (weightJ w J)ᵀ = s.U * Matrix.diagonal (fun i => D i ^ 2) * s.Uᵀ := by
      rw [hdec, Matrix.transpose_mul, Matrix.transpose_mul, Matrix.diagonal_transpose]
      calc s.U * diagonal D * V * (Vᵀ * (diagonal D * s.Uᵀ))
          = s.U * diagonal D * (V * Vᵀ) * (diagonal D * s.Uᵀ) := by simp only [Matrix.mul_assoc]
        _ = s.U * (diagonal D * diagonal D) * s.Uᵀ := by rw [hV]; simp only [Matrix.mul_assoc, Matrix.one_mul]
        _ = _ := by rw [Matrix.diagonal_mul_diagonal]; simp only [sq]
    have e2 : lam • (1 : Matrix (Fin 6) (Fin 6) ℝ) = s.U * Matrix.diagonal (fun _ => lam) * s.Uᵀ := by
      have : (Matrix.diagonal fun _ : Fin 6 => lam) = lam • (1 : Matrix (Fin 6) (Fin 6) ℝ) := by
        rw [Matrix.smul_one_eq_diagonal]
      rw [this, Matrix.mul_smul, Matrix.mul_one, Matrix.smul_mul, hs.U_orth]
    rw [e1, e2, ← Matrix.add_mul, ← Matrix.mul_add, Matrix.diagonal_add]
  have hinv : (weightJ w J * (weightJ w J)ᵀ + lam • (1 : Matrix (Fin 6) (Fin 6) ℝ))⁻¹ =
      s.U * Matrix.diagonal (fun i => (D i ^ 2 + lam)⁻¹) * s.Uᵀ := by
    apply Matrix.inv_eq_right_inv
    rw [hgram]
    calc s.U * diagonal (fun i => D i ^ 2 + lam) * s.Uᵀ * (s.U * diagonal (fun i => (D i ^ 2 + lam)⁻¹) * s.Uᵀ)
        = s.U * diagonal (fun i => D i ^ 2 + lam) * (s.Uᵀ * s.U) * diagonal (fun i => (D i ^ 2 + lam)⁻¹) * s.Uᵀ := by
          simp only [Matrix.mul_assoc]
      _ = s.U * (diagonal (fun i => D i ^ 2 + lam) * diagonal (fun i => (D i ^ 2 + lam)⁻¹)) * s.Uᵀ := by
          rw [hUU]; simp only [Matrix.mul_assoc, Matrix.mul_one]
      _ = 1 := by
          rw [Matrix.diagonal_mul_diagonal]
          have : (fun i => (D i ^ 2 + lam) * (D i ^ 2 + lam)⁻¹) = fun _ => (1:ℝ) := by
            ext i; exact mul_inv_cancel₀ (hne i)
          rw [this, Matrix.diagonal_one, Matrix.mul_one, hs.U_orth]
  rw [hinv, Matrix.mulVec_mulVec]
  congr 1
  have hJt : (weightJ w J)ᵀ = Vᵀ * (diagonal D * s.Uᵀ) := by
    rw [hdec, Matrix.transpose_mul, Matrix.transpose_mul, Matrix.diagonal_transpose]
  rw [hJt]
  calc Vᵀ * diagonal (fun i => D i / (D i ^ 2 + lam)) * s.Uᵀ
      = Vᵀ * (diagonal D * diagonal (fun i => (D i ^ 2 + lam)⁻¹)) * s.Uᵀ := by
        rw [Matrix.diagonal_mul_diagonal]; simp only [div_eq_mul_inv]
    _ = Vᵀ * (diagonal D * (s.Uᵀ * s.U) * diagonal (fun i => (D i ^ 2 + lam)⁻¹)) * s.Uᵀ := by
        rw [hUU, Matrix.mul_one]
    _ = _ := by simp only [Matrix.mul_assoc]

/-- C55 fails for chains with fewer than six joints: the kernel multiplies a `(d, d)` by a `(6, 6)` matrix and raises. -/
theorem C55_fails_few_joints {d : ℕ} (hd : d < 6) (m : M4) (tpos : V3) (tq : Quat) (s : SVD d) (reg lm : ℝ)
    (w : Option (Fin 6 → ℝ)) : ikStepKernelSvd m tpos tq s reg lm w = .error .runtimeError := by
  unfold ikStepKernelSvd svdStep
  have h : ¬ min 6 d = 6 := by omega
  simp only [dif_neg h, error_bind]

/-- a decomposition of a seven-joint Jacobian with one zero singular value -/
example : IsSVD (d := 7) (Matrix.of fun i j => if i.val = j.val ∧ i.val < 5 then 2 else 0)
    ⟨1, fun k => if k.val < 5 then 2 else 0, 1⟩ := by
  refine ⟨by simp, by simp, fun i j => ?_⟩
  rw [Finset.sum_eq_single (⟨i.val, by have := i.isLt; omega⟩ : Fin (min 6 7))]
  · simp only [Matrix.of_apply, Matrix.one_apply, Fin.ext_iff, if_true, one_mul]
    split_ifs <;> simp_all <;> omega
  · intro k _ hk
    dsimp only
    rw [Matrix.one_apply, if_neg, zero_mul, zero_mul]
    intro h
    exact hk (Fin.ext (congrArg Fin.val h).symm)
  · simp

end PK
