import Verif.Spec.Float
import Verif.Model.Fl

/-!
# Poses in IEEE arithmetic
-/

namespace PK.Spec
noncomputable section

/-- the value of joint `j` in row `b` of the joint values, which may be an infinity or NaN -/
def colI (root : Frame) {B : ℕ} (th : List (Fin B → Fl)) (b : Fin B) (j : Joint) : Fl :=
  (th.getD (column root j) fun _ => .fin 0) b

/-- a table of numbers without infinities and NaN, which are the entries of a matrix close to `X` (see `Within`) -/
def WithinI (g l : ℝ) (X' : Fin 4 → Fin 4 → Fl) (X : M4) : Prop :=
  ∃ Y : M4, (∀ i j, X' i j = .fin (Y i j)) ∧ Within g l Y X

end
end PK.Spec
