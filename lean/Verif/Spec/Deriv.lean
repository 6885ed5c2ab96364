import Verif.Spec.Tree
import Mathlib.Analysis.SpecialFunctions.Trigonometric.Deriv

/-! # What a derivative of forward kinematics is -/

namespace PK.Spec
open PK Matrix

/-- Matrix of `v ↦ w × v`. -/
def hat (w : V3) : M3 := Matrix.of fun i j => crossProduct w (Pi.single j 1) i

/-- Joint tensor with the entry of row `b`, column `k` replaced by `x`. -/
def setEntry {B : ℕ} (th : List (Fin B → ℝ)) (k : ℕ) (b : Fin B) (x : ℝ) : List (Fin B → ℝ) :=
  th.modify k fun c => Function.update c b x

/-- `Σ G[l,b,i,j] * T[l,b,i,j]`: the loss whose gradient with respect to the poses `T` is `G`. -/
def weighted {B : ℕ} (G T : List (Fin B → M4)) : ℝ :=
  (List.zipWith (fun g t => ∑ b, ∑ i, ∑ j, g b i j * t b i j) G T).sum

/-- `P` moves with linear velocity `v` and angular velocity `w` at `x`:
`dp/dx = v`, `dR/dx = hat(w) R`, entry by entry. -/
def HasTwistAt (P : ℝ → M4) (v w : V3) (x : ℝ) : Prop :=
  (∀ i : Fin 3, HasDerivAt (fun y => P y i.castSucc 3) (v i) x) ∧
  ∀ i j : Fin 3, HasDerivAt (fun y => P y i.castSucc j.castSucc)
    ((hat w * Matrix.of fun r s : Fin 3 => P x r.castSucc s.castSucc) i j) x

/-- Row `b` of the matrix product `J * qd`, for a Jacobian given by its columns. -/
noncomputable def jacTimes {B : ℕ} (J : List (Fin B → Fin 6 → ℝ)) (b : Fin B) (qd : ℕ → ℝ) (i : Fin 6) : ℝ :=
  ∑ k ∈ Finset.range J.length, (J.getD k fun _ _ => 0) b i * qd k

end PK.Spec
