import Mathlib.Data.Real.Basic
import Mathlib.Analysis.SpecialFunctions.Trigonometric.Basic
import Mathlib.Algebra.Order.Round

/-!
# Extended scalars

Joint limits are `-inf/inf` when absent, and a missing joint value in a dictionary is NaN, so the code
relies on IEEE special values.  `Fl` is a real extended by these three values with ideal IEEE rules
(no rounding, no signed zero).
-/

namespace PK

/-- An ideal floating-point number: a real, ±∞ or NaN. -/
inductive Fl where
  | nan | ninf | fin (x : ℝ) | pinf

namespace Fl
noncomputable section
open Classical

/-- IEEE addition. -/
def add : Fl → Fl → Fl
  | nan, _ => nan | _, nan => nan
  | ninf, pinf => nan | pinf, ninf => nan
  | ninf, _ => ninf | _, ninf => ninf
  | pinf, _ => pinf | _, pinf => pinf
  | fin x, fin y => fin (x + y)

/-- IEEE negation. -/
def neg : Fl → Fl
  | nan => nan | ninf => pinf | pinf => ninf | fin x => fin (-x)

/-- IEEE subtraction. -/
def sub (a b : Fl) : Fl := add a (neg b)

/-- Multiplication by a positive real constant (`* 2 * math.pi`, `/ 2`, `/ (2*math.pi)`). -/
def scalePos (c : ℝ) : Fl → Fl
  | nan => nan | ninf => ninf | pinf => pinf | fin x => fin (c * x)

/-- `torch.round`: round half to even. -/
def roundEven (x : ℝ) : ℤ :=
  let f := ⌊x⌋
  let d := x - f
  if d < 1 / 2 then f else if 1 / 2 < d then f + 1 else if f % 2 = 0 then f else f + 1

/-- `torch.round` on extended values. -/
def round : Fl → Fl
  | nan => nan | ninf => ninf | pinf => pinf | fin x => fin (roundEven x)

/-- IEEE `<`: false whenever an operand is NaN. -/
def lt : Fl → Fl → Prop
  | fin x, fin y => x < y
  | ninf, fin _ => True | ninf, pinf => True | fin _, pinf => True
  | _, _ => False

/-- IEEE `<=`: false whenever an operand is NaN. -/
def le : Fl → Fl → Prop
  | fin x, fin y => x ≤ y
  | ninf, ninf => True | pinf, pinf => True
  | ninf, fin _ => True | ninf, pinf => True | fin _, pinf => True
  | _, _ => False

/-- elementwise maximum propagating NaN -/
def max (a b : Fl) : Fl :=
  match a, b with
  | nan, _ => nan | _, nan => nan
  | a, b => if lt a b then b else a

/-- elementwise minimum propagating NaN -/
def min (a b : Fl) : Fl :=
  match a, b with
  | nan, _ => nan | _, nan => nan
  | a, b => if lt b a then b else a

/-- `torch.clamp(x, lo, hi) = min(max(x, lo), hi)`, propagating NaN. -/
def clamp (x lo hi : Fl) : Fl := min (max x lo) hi

/-- `torch.isfinite`. -/
def isFinite : Fl → Bool
  | fin _ => true | _ => false

end
end Fl

end PK
