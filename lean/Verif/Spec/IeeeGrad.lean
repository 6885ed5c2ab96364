import Verif.Model.Fl

/-!
# Finite numbers of bounded size
-/

namespace PK.Spec

/-- a finite number of size at most `c` -/
def Fb (c : ℝ) (x : Fl) : Prop := ∃ y, x = .fin y ∧ |y| ≤ c

end PK.Spec
