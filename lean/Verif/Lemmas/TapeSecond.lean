import Verif.Lemmas.TapeSmooth
import Mathlib.Analysis.Calculus.ContDiff.Basic
import Mathlib.Analysis.Calculus.FDeriv.Prod
import Mathlib.Analysis.Calculus.FDeriv.Linear
import Mathlib.Analysis.Calculus.Deriv.Pi
import Mathlib.Analysis.Calculus.Deriv.Comp

/-!
# Second derivatives of losses of the results of a record
-/

namespace PK.AD
open Finset Sum Spec
open scoped Classical

noncomputable section

variable {ι μ : Type} [Fintype ι] [Fintype μ]

/-- the pairing `Σ w j * x j` as a linear map -/
def pairing (w : ι → ℝ) : (ι → ℝ) →L[ℝ] ℝ := ∑ j, w j • (ContinuousLinearMap.proj j : (ι → ℝ) →L[ℝ] ℝ)

theorem pairing_apply (w d : ι → ℝ) : pairing w d = ∑ j, w j * d j := by
  simp [pairing, ContinuousLinearMap.sum_apply]

/-- a function with all weighted derivatives is differentiable -/
theorem hasFDerivAt_of_vjp {f : (ι → ℝ) → μ → ℝ} {x : ι → ℝ} {G : (μ → ℝ) → ι → ℝ} (h : ∀ g, IsVJP f x g (G g)) :
    HasFDerivAt f (ContinuousLinearMap.pi fun k => pairing (G (Pi.single k 1))) x := by
  rw [hasFDerivAt_pi]
  intro k
  have := h (Pi.single k 1)
  unfold IsVJP at this
  have he : (fun x => ∑ k', (Pi.single k (1 : ℝ) : μ → ℝ) k' * f x k') = fun x => f x k := by
    funext x
    rw [Finset.sum_eq_single k]
    · simp
    · intro b _ hb; simp [Pi.single_eq_of_ne hb]
    · simp
  rw [he] at this
  exact this

theorem fderiv_sum_partials {L : (μ → ℝ) → ℝ} (T d : μ → ℝ) : fderiv ℝ L T d = ∑ k, partials L T k * d k := by
  have hd : d = ∑ k, d k • (Pi.single k (1 : ℝ) : μ → ℝ) := by
    funext i
    simp [Finset.sum_apply, Pi.single_apply]
  conv_lhs => rw [hd]
  rw [map_sum]
  apply sum_congr rfl
  intro k _
  rw [map_smul, smul_eq_mul, mul_comm]
  rfl

/-- pairing the derivative of a record with a gradient -/
theorem pair_deriv {f : (ι → ℝ) → μ → ℝ} {x : ι → ℝ} {G : (μ → ℝ) → ι → ℝ} (h : ∀ g, IsVJP f x g (G g)) (g : μ → ℝ) (d : ι → ℝ) :
    ∑ k, g k * pairing (G (Pi.single k 1)) d = pairing (G g) d := by
  have h1 := hasFDerivAt_of_vjp h
  have h2 : HasFDerivAt (fun x => ∑ k, g k * f x k) (∑ k, g k • pairing (G (Pi.single k 1))) x := by
    refine HasFDerivAt.fun_sum fun k _ => ?_
    exact ((hasFDerivAt_pi.1 h1) k).const_mul (g k)
  have h3 : HasFDerivAt (fun x => ∑ k, g k * f x k) (pairing (G g)) x := h g
  have := congrArg (fun A : (ι → ℝ) →L[ℝ] ℝ => A d) (h2.unique h3)
  simpa [ContinuousLinearMap.sum_apply] using this

/-- along one input -/
theorem vjp_entry [DecidableEq ι] {f : (ι → ℝ) → μ → ℝ} {x : ι → ℝ} {g : μ → ℝ} {G : ι → ℝ} (h : IsVJP f x g G) (i : ι) :
    HasDerivAt (fun s => ∑ k, g k * f (Function.update x i s) k) (G i) (x i) := by
  have h1 : HasFDerivAt (fun x => ∑ k, g k * f x k) (pairing G) (Function.update x i (x i)) := by
    rw [Function.update_eq_self]; exact h
  have h2 := h1.comp_hasDerivAt (x i) (hasDerivAt_update x i (x i))
  refine h2.congr_deriv ?_
  rw [pairing_apply, Finset.sum_eq_single i]
  · simp
  · intro j _ hj; simp [Pi.single_eq_of_ne hj]
  · simp

/-- **First derivative.**  For a loss of the results that is differentiable there, the backward pass started with the partial derivatives
of the loss returns the derivative of the loss. -/
theorem Prog.smooth_loss (p : Prog ι μ) (hp : p.Smooth) (L : (μ → ℝ) → ℝ) (x : ι → ℝ) (hL : DifferentiableAt ℝ L (p.runR x)) :
    HasFDerivAt (fun x => L (p.runR x)) (pairing (p.grad.runR (Sum.elim x (partials L (p.runR x))))) x := by
  have hv : ∀ g, IsVJP p.runR x g (p.grad.runR (Sum.elim x g)) := fun g => (p.smooth_sound .maskScaled hp x g).2.2
  have := hL.hasFDerivAt.comp x (hasFDerivAt_of_vjp hv)
  refine this.congr_fderiv ?_
  ext1 d
  rw [ContinuousLinearMap.comp_apply, fderiv_sum_partials, ← pair_deriv hv]
  rfl

/-- **Second derivative.** -/
theorem Prog.smooth_second (p : Prog ι μ) (hp : p.Smooth) (L : (μ → ℝ) → ℝ) (hL : ContDiff ℝ 2 L) (x v : ι → ℝ)
    (u : ι → ℝ) (w : μ → ℝ) (huw : p.grad.grad.runR (Sum.elim (Sum.elim x (partials L (p.runR x))) v) = Sum.elim u w) :
    HasFDerivAt (fun x => fderiv ℝ (fun x => L (p.runR x)) x v)
      (pairing fun j => u j + p.grad.runR (Sum.elim x (partials (fun T => ∑ k, w k * partials L T k) (p.runR x))) j) x := by
  have hLd : Differentiable ℝ L := hL.differentiable (by norm_num)
  have hpart : ∀ k, Differentiable ℝ fun T => partials L T k := by
    intro k
    have h1 : ContDiff ℝ 1 (fderiv ℝ L) := hL.fderiv_right (by norm_num)
    exact (h1.clm_apply contDiff_const).differentiable (by norm_num)
  have h1 : (fun x => fderiv ℝ (fun x => L (p.runR x)) x v)
      = fun x => ∑ j, v j * p.grad.runR (Sum.elim x (partials L (p.runR x))) j := by
    funext x
    rw [(p.smooth_loss hp L x (hLd _)).fderiv, pairing_apply]
    apply sum_congr rfl
    intro j _
    ring
  rw [h1]
  have hv : ∀ g, IsVJP p.runR x g (p.grad.runR (Sum.elim x g)) := fun g => (p.smooth_sound .maskScaled hp x g).2.2
  have hf := hasFDerivAt_of_vjp hv
  -- the gradient of the loss along the results
  have hg : HasFDerivAt (fun x => partials L (p.runR x))
      ((ContinuousLinearMap.pi fun k => fderiv ℝ (fun T => partials L T k) (p.runR x)).comp
        (ContinuousLinearMap.pi fun k => pairing (p.grad.runR (Sum.elim x (Pi.single k 1))))) x := by
    have : HasFDerivAt (fun T => partials L T) (ContinuousLinearMap.pi fun k => fderiv ℝ (fun T => partials L T k) (p.runR x)) (p.runR x) := by
      rw [hasFDerivAt_pi]
      exact fun k => (hpart k _).hasFDerivAt
    exact this.comp x hf
  set A := ((ContinuousLinearMap.pi fun k => fderiv ℝ (fun T => partials L T k) (p.runR x)).comp
        (ContinuousLinearMap.pi fun k => pairing (p.grad.runR (Sum.elim x (Pi.single k 1))))) with hA
  have hin : HasFDerivAt (fun x => Sum.elim x (partials L (p.runR x)))
      (ContinuousLinearMap.pi (Sum.elim (fun i => (ContinuousLinearMap.proj i : (ι → ℝ) →L[ℝ] ℝ)) fun k => (ContinuousLinearMap.proj k).comp A)) x := by
    rw [hasFDerivAt_pi]
    rintro (i | k)
    · exact (ContinuousLinearMap.proj i : (ι → ℝ) →L[ℝ] ℝ).hasFDerivAt
    · exact (hasFDerivAt_pi'.1 hg) k
  have hs := (p.grad.smooth_sound .maskScaled (p.smooth_grad hp) (Sum.elim x (partials L (p.runR x))) v).2.2
  rw [huw] at hs
  have hs' : HasFDerivAt (fun z => ∑ j, v j * p.grad.runR z j) (pairing (Sum.elim u w)) (Sum.elim x (partials L (p.runR x))) := hs
  have := hs'.comp x hin
  refine this.congr_fderiv ?_
  ext1 d
  rw [ContinuousLinearMap.comp_apply, pairing_apply, pairing_apply, Fintype.sum_sum_type]
  simp only [Sum.elim_inl, Sum.elim_inr, ContinuousLinearMap.pi_apply, ContinuousLinearMap.proj_apply, ContinuousLinearMap.comp_apply, add_mul,
    sum_add_distrib]
  congr 1
  have h3 : HasFDerivAt (fun T => ∑ k, w k * partials L T k) (∑ k, w k • fderiv ℝ (fun T => partials L T k) (p.runR x)) (p.runR x) :=
    HasFDerivAt.fun_sum fun k _ => ((hpart k _).hasFDerivAt).const_mul (w k)
  have h4 : ∀ e, ∑ k, w k * fderiv ℝ (fun T => partials L T k) (p.runR x) e
      = ∑ m, partials (fun T => ∑ k, w k * partials L T k) (p.runR x) m * e m := by
    intro e
    rw [← fderiv_sum_partials, h3.fderiv]
    simp [ContinuousLinearMap.sum_apply]
  refine Eq.trans ?_ (pairing_apply _ d)
  rw [← pair_deriv hv]
  simp only [hA, ContinuousLinearMap.comp_apply, ContinuousLinearMap.pi_apply]
  rw [h4]
  rfl

/-- the same in terms of the passes -/
theorem Prog.second_passes (nr : NormRule) (p : Prog ι μ) (hp : p.Smooth) (F : (ι → ℝ) → μ → ℝ) (hF : F = p.runR) (L : (μ → ℝ) → ℝ)
    (hL : ContDiff ℝ 2 L) (x v : ι → ℝ) :
    ∃ u w h, p.grad.run (up (Sum.elim x (partials L (F x)))) = p.back nr (up x) (up (partials L (F x))) ∧
      p.grad.back nr (up (Sum.elim x (partials L (F x)))) (up v) = up (Sum.elim u w) ∧
      p.back nr (up x) (up (partials (fun T => ∑ k, w k * partials L T k) (F x))) = up h ∧
      IsGrad (fun x => fderiv ℝ (fun x => L (F x)) x v) x fun j => u j + h j := by
  subst hF
  obtain ⟨u, w, huw⟩ : ∃ u w, p.grad.grad.runR (Sum.elim (Sum.elim x (partials L (p.runR x))) v) = Sum.elim u w :=
    ⟨fun i => p.grad.grad.runR (Sum.elim (Sum.elim x (partials L (p.runR x))) v) (inl i),
      fun i => p.grad.grad.runR (Sum.elim (Sum.elim x (partials L (p.runR x))) v) (inr i), by funext i; cases i <;> rfl⟩
  refine ⟨u, w, _, ?_, ?_, Prog.back_eq_grad _ hp _ _, ?_⟩
  · rw [Prog.back_eq_grad _ hp]
    exact (p.grad.smooth_sound nr (p.smooth_grad hp) _ (fun _ => 0)).1
  · rw [Prog.back_eq_grad _ (p.smooth_grad hp), huw]
  · exact p.smooth_second hp L hL x v u w huw

end
end PK.AD
