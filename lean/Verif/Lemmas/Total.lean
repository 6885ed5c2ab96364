import Verif.Props.Serial
import Mathlib.Analysis.Calculus.FDeriv.Pi
import Mathlib.Analysis.Calculus.Deriv.Pi
import Mathlib.Analysis.Calculus.Deriv.Prod
import Mathlib.Analysis.Calculus.FDeriv.Mul
import Mathlib.Analysis.Calculus.FDeriv.Comp

/-!
# Total derivative of a pose with respect to all joint values
-/

namespace PK
open Spec Matrix

/-- entry `c` of a row of joint values -/
noncomputable def look {n : ℕ} (q : Fin n → ℝ) (c : ℕ) : ℝ := if h : c < n then q ⟨c, h⟩ else 0

/-- row `b` of a joint tensor -/
noncomputable def rowOf {B : ℕ} (n : ℕ) (th : List (Fin B → ℝ)) (b : Fin B) : Fin n → ℝ := fun k => (th.getD k fun _ => 0) b

theorem colVal_look {root : Frame} {B n : ℕ} (th : List (Fin B → ℝ)) (hn : th.length = n) (b : Fin B) (j : Joint) :
    colVal root th b j = look (rowOf n th b) (column root j) := by
  unfold colVal look rowOf
  split_ifs with h
  · rfl
  · rw [List.getD, List.getElem?_eq_none (by omega)]; rfl

theorem differentiable_look {n : ℕ} (c : ℕ) : Differentiable ℝ (fun q : Fin n → ℝ => look q c) := by
  unfold look
  split_ifs with h
  · exact differentiable_apply _
  · exact differentiable_const _

theorem differentiable_localT {n : ℕ} {f : Frame} (hf : Moving f.joint → IsUnitV f.joint.axis) {g : (Fin n → ℝ) → ℝ}
    (hg : Differentiable ℝ g) (i l : Fin 4) : Differentiable ℝ (fun q => localT f (g q) i l) := by
  have hm : ∀ r s, Differentiable ℝ (fun q => motion f.joint (g q) r s) := fun r s =>
    Differentiable.comp (g := fun y => motion f.joint y r s) (fun x => (hasDerivAt_motion hf x r s).differentiableAt) hg
  simp only [localT, Matrix.mul_apply]
  exact Differentiable.fun_sum fun s _ => (hm s l).const_mul _

theorem differentiable_pathT {n : ℕ} {root : Frame} : ∀ (p : List Frame), (∀ f ∈ p, Moving f.joint → IsUnitV f.joint.axis) →
    ∀ i l, Differentiable ℝ (fun q : Fin n → ℝ => pathT (fun j => look q (column root j)) p i l)
  | [], _, i, l => by simp only [pathT, List.map_nil, List.prod_nil]; exact differentiable_const _
  | f :: p, hp, i, l => by
    have h1 := fun r s => differentiable_localT (n := n) (hp f (by simp)) (differentiable_look (column root f.joint)) r s
    have h2 := differentiable_pathT (n := n) (root := root) p (fun g hg => hp g (by simp [hg]))
    have e : ∀ q : Fin n → ℝ, pathT (fun j => look q (column root j)) (f :: p) i l =
        ∑ s, localT f (look q (column root f.joint)) i s * pathT (fun j => look q (column root j)) p s l := by
      intro q
      rw [pathT, List.map_cons, List.prod_cons, Matrix.mul_apply]; rfl
    simp only [e]
    exact Differentiable.fun_sum fun s _ => (h1 i s).mul (h2 s l)

/-- partial derivatives of a differentiable function along a curve -/
theorem hasDerivAt_along {n : ℕ} {F : (Fin n → ℝ) → ℝ} (hF : Differentiable ℝ F) {Q : ℝ → Fin n → ℝ} {v c : Fin n → ℝ} {t0 : ℝ}
    (hQ : ∀ k, HasDerivAt (fun t => Q t k) (v k) t0)
    (hc : ∀ k, HasDerivAt (fun x => F (Function.update (Q t0) k x)) (c k) (Q t0 k)) :
    HasDerivAt (fun t => F (Q t)) (∑ k, v k * c k) t0 := by
  have hD := (hF (Q t0)).hasFDerivAt
  have hQ' : HasDerivAt Q v t0 := hasDerivAt_pi.2 hQ
  have h1 := hD.comp_hasDerivAt t0 hQ'
  have h2 : ∀ k, fderiv ℝ F (Q t0) (Pi.single k 1) = c k := by
    intro k
    have hu := hasDerivAt_update (Q t0) k (Q t0 k)
    have hD' : HasFDerivAt F (fderiv ℝ F (Q t0)) (Function.update (Q t0) k (Q t0 k)) := by rw [Function.update_eq_self]; exact hD
    exact (hD'.comp_hasDerivAt (Q t0 k) hu).unique (hc k)
  have h3 : fderiv ℝ F (Q t0) v = ∑ k, v k * c k := by
    conv_lhs => rw [← Finset.univ_sum_single v]
    rw [map_sum]
    refine Finset.sum_congr rfl fun k _ => ?_
    rw [← h2 k, ← smul_eq_mul, ← map_smul]
    congr 1
    funext j
    by_cases hj : j = k
    · subst hj; simp
    · simp [hj]
  rw [h3] at h1
  exact h1

theorem rowOf_setEntry {B n : ℕ} (th : List (Fin B → ℝ)) (hn : th.length = n) (k : Fin n) (b : Fin B) (x : ℝ) :
    rowOf n (setEntry th k b x) b = Function.update (rowOf n th b) k x := by
  funext i
  unfold rowOf setEntry List.getD
  rw [List.getElem?_modify]
  by_cases h : i = k
  · subst h
    rw [List.getElem?_eq_getElem (by omega)]; simp
  · have : ¬ k.val = i.val := fun e => h (Fin.ext e.symm)
    rw [Function.update_of_ne h]; simp [this]

end PK
