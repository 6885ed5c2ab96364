import Verif.Spec.Float
import Verif.Spec.T3
import Verif.Model.FloatT3
import Mathlib.LinearAlgebra.Matrix.NonsingularInverse

/-!
# Computed transforms and the exact ones they stand for
-/

namespace PK.Spec
noncomputable section

/-- The transform `t` has `n` rows and stands for the rigid matrices `M 0, M 1, …` (all the same if there is one row only): every row is
`M i` up to a relative error `F - 1`, with translations of length at most `l`.  A `Rotate` has no translation, exactly; `Scale` is
excluded. -/
structure Stands (F l : ℝ) (t : T3) (n : ℕ) (M : ℕ → M4) : Prop where
  rows : t.mats.length = n
  one : n = 1 → ∀ i, M i = M 0
  near : ∀ i (h : i < t.mats.length), Within (F - 1) l t.mats[i] (M i)
  rotate : t.kind = .rotate → ∀ N ∈ t.mats, posPart N = 0
  rotate' : t.kind = .rotate → ∀ i < n, posPart (M i) = 0
  translate : t.kind = .translate → ∀ i < n, rotPart (M i) = 1
  not_scale : t.kind ≠ .scale

/-- The computed point `x'` stands for `x`, which is at most `s` from the origin: relative error `Q - 1`. -/
structure PointNear (Q s : ℝ) (x' x : V3) : Prop where
  len : vlen x ≤ s
  near : vlen (x' - x) ≤ (Q - 1) * s

end
end PK.Spec

namespace PK
open Spec
noncomputable section

/-- batch size of an expression, none if the sizes do not fit -/
def Pipe.size (n : ℕ → ℕ) : Pipe → Option ℕ
  | .leaf k => some (n k)
  | .compose a b => (a.size n).bind fun x => (b.size n).bind fun y =>
    open scoped Classical in if Compat x y then some (bsize x y) else none
  | .inverse a => a.size n

/-- the exact value of row `i` -/
def Pipe.value (M : ℕ → ℕ → M4) : Pipe → ℕ → M4
  | .leaf k, i => M k i
  | .compose a b, i => a.value M i * b.value M i
  | .inverse a, i => (a.value M i)⁻¹

/-- translations add up -/
def Pipe.reach (l : ℕ → ℝ) : Pipe → ℝ
  | .leaf k => l k
  | .compose a b => a.reach l + b.reach l
  | .inverse a => a.reach l

/-- how often the errors of the leaves enter -/
def Pipe.leaves : Pipe → ℕ
  | .leaf _ => 1
  | .compose a b => a.leaves + b.leaves
  | .inverse a => 2 * a.leaves

/-- how often rounding enters -/
def Pipe.rounds : Pipe → ℕ
  | .leaf _ => 0
  | .compose a b => a.rounds + b.rounds + 1
  | .inverse a => 2 * a.rounds + 1

end
end PK
