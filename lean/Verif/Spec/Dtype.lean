import Verif.Model.Tags

/-!
# Floating dtypes as sets of numbers
-/

namespace PK.Spec

/-- Number of binary digits of the significand -/
def digits : DType → ℕ
  | .f32 => 24
  | .f64 => 53

/-- The numbers of a floating dtype, without limits for the exponent -/
def floats (d : DType) : Set ℝ := {x | ∃ m e : ℤ, |m| < 2 ^ digits d ∧ x = m * (2 : ℝ) ^ e}

/-- `rd d x` is a number of dtype `d`, and `x` itself if `x` is one.  Every rounding mode is of this kind. -/
structure IsRounding (rd : DType → ℝ → ℝ) : Prop where
  mem : ∀ d x, rd d x ∈ floats d
  fix : ∀ d x, x ∈ floats d → rd d x = x

/-- The matrix that a matrix of dtype `d'` becomes in a computation of dtype `d` -/
noncomputable def asDt (rd : DType → ℝ → ℝ) (d d' : DType) {n m : ℕ} (M : Matrix (Fin n) (Fin m) ℝ) : Matrix (Fin n) (Fin m) ℝ :=
  if d = d' then M else M.map (rd d)

/-- The row of an operand of `n` rows that belongs to row `i` of the result -/
def bcRow (n i : ℕ) : ℕ := if n = 1 then 0 else i

/-- The dtype of an operation on tensors of two floating dtypes -/
def wider : DType → DType → DType
  | .f32, .f32 => .f32
  | _, _ => .f64

end PK.Spec
