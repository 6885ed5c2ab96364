import Verif.Spec.Deriv
import Mathlib.Analysis.Calculus.FDeriv.Pi

/-! # Losses on the tensor of all frame poses, and their gradients -/

namespace PK.Spec
open PK Matrix

/-- the entries of an `(N, B, 4, 4)` tensor -/
abbrev Tens (N B : ℕ) := Fin N → Fin B → Fin 4 → Fin 4 → ℝ

/-- the entries of a list of `N` batches of matrices -/
def entriesOf {B : ℕ} (N : ℕ) (T : List (Fin B → M4)) : Tens N B := fun l b i j => (T.getD l 0) b i j

/-- the list of batches of matrices with given entries -/
def tensorOf {N B : ℕ} (X : Tens N B) : List (Fin B → M4) := List.ofFn fun l b => Matrix.of (X l b)

/-- the tensor that is 1 at one place and 0 elsewhere -/
def unitAt {N B : ℕ} (l : Fin N) (b : Fin B) (i j : Fin 4) : Tens N B :=
  Pi.single l (Pi.single b (Pi.single i (Pi.single j 1)))

/-- the gradient of a loss: the tensor of its partial derivatives -/
noncomputable def gradOf {N B : ℕ} (L : Tens N B → ℝ) (X : Tens N B) : List (Fin B → M4) :=
  tensorOf fun l b i j => fderiv ℝ L X (unitAt l b i j)

end PK.Spec
