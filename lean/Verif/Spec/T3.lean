import Verif.Spec.Rot

/-!
# Specification of batches

`pick l i` is element `i` of a batch that may have been broadcast: a batch of one serves every index.
-/

namespace PK.Spec

/-- element `i` of a broadcast batch -/
def pick {α : Type} (l : List α) (i : ℕ) : Option α := if l.length = 1 then l[0]? else l[i]?

/-- size of the result of combining batches of sizes `n` and `m` -/
def bsize (n m : ℕ) : ℕ := if n = 1 then m else n

/-- batch sizes that can be combined -/
def Compat (n m : ℕ) : Prop := n = m ∨ n = 1 ∨ m = 1

/-- Apply a homogeneous matrix to every row of a list of points. -/
def actRows {P : ℕ} (T : M4) (X : Matrix (Fin P) (Fin 3) ℝ) : Matrix (Fin P) (Fin 3) ℝ :=
  Matrix.of fun p => act T (X p)

/-- Linear part of a homogeneous matrix applied to a direction. -/
def actDir (T : M4) (v : V3) : V3 := fun i =>
  T i.castSucc 0 * v 0 + T i.castSucc 1 * v 1 + T i.castSucc 2 * v 2

end PK.Spec
