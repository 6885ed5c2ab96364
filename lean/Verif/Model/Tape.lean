import Verif.Model.Fl
import Verif.Model.RotConv
import Mathlib.Algebra.BigOperators.Group.Finset.Basic
import Mathlib.Data.Fintype.BigOperators

/-!
# PyTorch's reverse differentiation, entry by entry

A function of `/repo` that calls tensor operations is recorded by PyTorch as a graph of operations.  `backward` visits
them in reverse order and adds, for every operand, the gradient of the result times a local factor; the factors are those of
PyTorch's `derivatives.yaml` (trusted, as the documentation of PyTorch is elsewhere).  Values and gradients are extended
scalars (`Fl`): `0 / 0`, `0 * inf` and `inf - inf` are NaN, as in IEEE arithmetic; otherwise scalars are exact.  Zeros are unsigned, so
an infinity may have the wrong sign (NaN or not is unaffected).

`Prog ι μ` is such a record from inputs `ι` to results `μ`, in stages: stage `κ` appends one value for every `k : κ`, computed by one
operation from the inputs and the previous stages.  In the records below every value is used, so every value receives a gradient
(zero for entries not selected by `where` or `gather`).
-/

namespace PK.AD
noncomputable section
open Classical

instance : Zero Fl := ⟨.fin 0⟩
instance : Add Fl := ⟨Fl.add⟩

theorem zero_def : (0 : Fl) = .fin 0 := rfl

instance : AddCommMonoid Fl where
  add_assoc a b c := by
    show Fl.add (Fl.add a b) c = Fl.add a (Fl.add b c)
    cases a <;> cases b <;> cases c <;> simp [Fl.add, add_assoc]
  add_comm a b := by
    show Fl.add a b = Fl.add b a
    cases a <;> cases b <;> simp [Fl.add, add_comm]
  zero_add a := by
    show Fl.add (.fin 0) a = a
    cases a <;> simp [Fl.add]
  add_zero a := by
    show Fl.add a (.fin 0) = a
    cases a <;> simp [Fl.add]
  nsmul := nsmulRec

/-- an infinity with the sign of a number, NaN for zero: `inf * x` -/
def infTimes (x : ℝ) : Fl := if 0 < x then .pinf else if x < 0 then .ninf else .nan

/-- IEEE multiplication -/
def mul : Fl → Fl → Fl
  | .nan, _ => .nan | _, .nan => .nan
  | .fin x, .fin y => .fin (x * y)
  | .fin x, .pinf => infTimes x | .pinf, .fin x => infTimes x
  | .fin x, .ninf => infTimes (-x) | .ninf, .fin x => infTimes (-x)
  | .pinf, .pinf => .pinf | .ninf, .ninf => .pinf
  | .pinf, .ninf => .ninf | .ninf, .pinf => .ninf

/-- IEEE division (with positive zeros) -/
def div : Fl → Fl → Fl
  | .nan, _ => .nan | _, .nan => .nan
  | .fin x, .fin y => if y = 0 then infTimes x else .fin (x / y)
  | .fin _, .pinf => .fin 0 | .fin _, .ninf => .fin 0
  | .pinf, .fin y => if 0 ≤ y then .pinf else .ninf
  | .ninf, .fin y => if 0 ≤ y then .ninf else .pinf
  | _, _ => .nan

/-- a function of a number; the functions below are not applied to infinities -/
def lift (f : ℝ → ℝ) : Fl → Fl
  | .fin x => .fin (f x) | _ => .nan

/-- `torch.sqrt` -/
def sqrt : Fl → Fl
  | .fin x => if x < 0 then .nan else .fin (Real.sqrt x)
  | .pinf => .pinf | _ => .nan

/-- `torch.acos` -/
def acos : Fl → Fl
  | .fin x => if x < -1 ∨ 1 < x then .nan else .fin (Real.arccos x)
  | _ => .nan

/-- `torch.atan2` -/
def atan2 : Fl → Fl → Fl
  | .fin y, .fin x => .fin (PK.atan2 y x)
  | _, _ => .nan

/-- `torch.norm` of three numbers -/
def norm3 : Fl → Fl → Fl → Fl
  | .fin x, .fin y, .fin z => .fin (PK.norm3 ![x, y, z])
  | _, _, _ => .nan

/-- the derivative of `torch.norm` at zero: versions of PyTorch differ in whether the incoming gradient is multiplied before or after the
undefined direction is replaced by zero (`self * (grad / norm).masked_fill(norm == 0, 0)` or
`grad * (self / norm).masked_fill(norm == 0, 0)`) -/
inductive NormRule where | maskScaled | maskDirection

/-- operations on entries -/
inductive Op (ι : Type) where
  /-- sums, differences, products with and sums with Python numbers: `c + Σ a x` -/
  | lin (c : ℝ) (l : List (ℝ × ι))
  | mul (a b : ι)
  | div (a b : ι)
  /-- `1 / x` -/
  | recip (a : ι)
  | sqrt (a : ι)
  /-- `x ** 2`, `torch.square` -/
  | sq (a : ι)
  | sin (a : ι)
  | cos (a : ι)
  | acos (a : ι)
  | abs (a : ι)
  | atan2 (y x : ι)
  /-- `torch.clamp(x, min=c)` -/
  | clampMin (c : ℝ) (a : ι)
  /-- `torch.clamp(x, lo, hi)` -/
  | clamp (lo hi : ℝ) (a : ι)
  /-- `x.max(c)` with a constant tensor -/
  | maxC (a : ι) (c : ℝ)
  | norm3 (a b c : ι)
  /-- selection by values: `where`, `gather` -/
  | pick (f : (ι → Fl) → ι)

variable {ι κ μ : Type}

/-- the value of an operation -/
def Op.eval (env : ι → Fl) : Op ι → Fl
  | .lin c l => .fin c + (l.map fun p => AD.mul (.fin p.1) (env p.2)).sum
  | .mul a b => AD.mul (env a) (env b)
  | .div a b => AD.div (env a) (env b)
  | .recip a => AD.div (.fin 1) (env a)
  | .sqrt a => AD.sqrt (env a)
  | .sq a => AD.mul (env a) (env a)
  | .sin a => lift Real.sin (env a)
  | .cos a => lift Real.cos (env a)
  | .acos a => AD.acos (env a)
  | .abs a => lift (fun x => |x|) (env a)
  | .atan2 y x => AD.atan2 (env y) (env x)
  | .clampMin c a => Fl.max (env a) (.fin c)
  | .clamp lo hi a => Fl.clamp (env a) (.fin lo) (.fin hi)
  | .maxC a c => Fl.max (env a) (.fin c)
  | .norm3 a b c => AD.norm3 (env a) (env b) (env c)
  | .pick f => env (f env)

/-- `torch.sign` -/
def sgn : Fl → Fl
  | .fin x => .fin (if 0 < x then 1 else if x < 0 then -1 else 0)
  | .pinf => .fin 1 | .ninf => .fin (-1) | .nan => .nan

/-- one entry of the gradient of `torch.norm`: `s` the entry, `n` the norm, `g` the gradient of the norm -/
def normBack (nr : NormRule) (s n g : Fl) : Fl :=
  match nr with
  | .maskScaled => AD.mul s (if n = .fin 0 then .fin 0 else AD.div g n)
  | .maskDirection => AD.mul g (if n = .fin 0 then .fin 0 else AD.div s n)

/-- PyTorch's `derivatives.yaml`: what an operation adds to the gradients of its operands; `v` is the value, `g` its gradient -/
def Op.pull (nr : NormRule) (env : ι → Fl) (v g : Fl) : Op ι → List (ι × Fl)
  | .lin _ l => l.map fun p => (p.2, AD.mul g (.fin p.1))
  | .mul a b => [(a, AD.mul g (env b)), (b, AD.mul g (env a))]
  | .div a b => [(a, AD.div g (env b)), (b, AD.mul (Fl.neg g) (AD.div (AD.div (env a) (env b)) (env b)))]
  | .recip a => [(a, AD.mul (Fl.neg g) (AD.mul v v))]
  | .sqrt a => [(a, AD.div g (AD.mul (.fin 2) v))]
  | .sq a => [(a, AD.mul g (AD.mul (.fin 2) (env a)))]
  | .sin a => [(a, AD.mul g (lift Real.cos (env a)))]
  | .cos a => [(a, AD.mul g (Fl.neg (lift Real.sin (env a))))]
  | .acos a => [(a, AD.mul g (Fl.neg (AD.div (.fin 1) (AD.sqrt (.fin 1 + Fl.neg (AD.mul (env a) (env a)))))))]
  | .abs a => [(a, AD.mul g (sgn (env a)))]
  | .atan2 y x =>
    let r := AD.div (.fin 1) (AD.mul (env y) (env y) + AD.mul (env x) (env x))
    [(y, AD.mul g (AD.mul (env x) r)), (x, AD.mul g (AD.mul (Fl.neg (env y)) r))]
  | .clampMin c a => [(a, if Fl.le (.fin c) (env a) then g else .fin 0)]
  | .clamp lo hi a => [(a, if Fl.le (.fin lo) (env a) ∧ Fl.le (env a) (.fin hi) then g else .fin 0)]
  | .maxC a c => [(a, if Fl.lt (env a) (.fin c) then .fin 0 else if env a = .fin c then AD.div g (.fin 2) else g)]
  | .norm3 a b c => [(a, normBack nr (env a) v g), (b, normBack nr (env b) v g), (c, normBack nr (env c) v g)]
  | .pick f => [(f env, g)]

/-- records of operations -/
inductive Prog : Type → Type → Type 1 where
  | ret {ι μ : Type} (out : μ → ι) : Prog ι μ
  | stage {ι μ : Type} (κ : Type) [Fintype κ] (f : κ → Op ι) (p : Prog (ι ⊕ κ) μ) : Prog ι μ

/-- the results -/
def Prog.run : {ι μ : Type} → Prog ι μ → (ι → Fl) → μ → Fl
  | _, _, .ret out, env => fun k => env (out k)
  | _, _, @Prog.stage _ _ _ _ f p, env => p.run (Sum.elim env fun k => (f k).eval env)

/-- sum of the contributions to one entry -/
def total (l : List (ι × Fl)) (j : ι) : Fl := (l.map fun p => if p.1 = j then p.2 else 0).sum

/-- `backward`: the gradients of the inputs for gradients `g` of the results -/
def Prog.back (nr : NormRule) : {ι μ : Type} → [Fintype μ] → Prog ι μ → (ι → Fl) → (μ → Fl) → ι → Fl
  | _, _, _, .ret out, _, g => fun j => ∑ k, if out k = j then g k else 0
  | _, _, _, @Prog.stage _ _ _ _ f p, env, g =>
    let v := fun k => (f k).eval env
    let a := p.back nr (Sum.elim env v) g
    fun j => a (.inl j) + ∑ k, total ((f k).pull nr env (v k) (a (.inr k))) j

end
end PK.AD
