import Verif.Model.Chain
import Verif.Model.Tape
import Mathlib.Data.Int.Log

/-!
# Forward kinematics with infinities, NaN and underflow

`Model/Float.lean` has the rounding errors of `_fk_impl` on an arithmetic without bounds on the exponent.  Here numbers are
those of IEEE 754: results that are too large become infinite, results that are tiny lose digits, and infinities and NaN take part in the
operations (`Fl`, `Fl.add`, `AD.mul`).  Joint values may be any numbers, including infinities and NaN.

Simplifications: zeros have no sign; link and joint offsets and axes are finite numbers (`Frame` stores reals).
-/

namespace PK
noncomputable section

/-- a 4x4 matrix of floating-point numbers -/
abbrev FM4 := Fin 4 → Fin 4 → Fl

/-- a matrix of finite numbers -/
def finM (A : M4) : FM4 := fun i j => .fin (A i j)

/-- An IEEE arithmetic. -/
structure Ieee where
  /-- relative error of an operation -/
  u : ℝ
  /-- additional absolute error of an operation: underflow -/
  η : ℝ
  /-- results up to this number do not overflow -/
  big : ℝ
  /-- error of `cos` and `sin` -/
  κ : ℝ
  /-- relative error of the products in a matrix product -/
  γ : ℝ
  /-- additional absolute error of an entry of a matrix product -/
  ζ : ℝ
  u_nonneg : 0 ≤ u
  η_nonneg : 0 ≤ η
  γ_nonneg : 0 ≤ γ
  ζ_nonneg : 0 ≤ ζ
  /-- the result of an operation on finite numbers whose exact result is the argument -/
  rnd : ℝ → Fl
  rnd_ok : ∀ x, |x| ≤ big → ∃ y, rnd x = .fin y ∧ |y - x| ≤ u * |x| + η
  /-- `torch.cos`; undefined for infinities -/
  cos : Fl → Fl
  cos_ok : ∀ x, ∃ y, cos (.fin x) = .fin y ∧ |y - Real.cos x| ≤ κ
  cos_strict : ∀ x, x.isFinite = false → (cos x).isFinite = false
  /-- `torch.sin` -/
  sin : Fl → Fl
  sin_ok : ∀ x, ∃ y, sin (.fin x) = .fin y ∧ |y - Real.sin x| ≤ κ
  sin_strict : ∀ x, x.isFinite = false → (sin x).isFinite = false
  /-- `@` for 4x4 matrices -/
  mul : FM4 → FM4 → FM4
  mul_ok : ∀ (A B : M4) i j, ∑ k, |A i k * B k j| ≤ big →
    ∃ z, mul (finM A) (finM B) i j = .fin z ∧ |z - ∑ k, A i k * B k j| ≤ γ * ∑ k, |A i k * B k j| + ζ
  /-- products with 0 and 1 and sums with 0 are exact -/
  mul_last : ∀ A B : M4, A 3 = ![0, 0, 0, 1] → B 3 = ![0, 0, 0, 1] → ∀ j, mul (finM A) (finM B) 3 j = .fin ((![0, 0, 0, 1] : Fin 4 → ℝ) j)
  /-- a sum of products with an infinity or NaN among its operands is not finite -/
  mul_strict : ∀ (A B : FM4) i j k, (A i k).isFinite = false ∨ (B k j).isFinite = false → (mul A B i j).isFinite = false

/-- the result of an operation with the exact result `x` (or the infinity or NaN `x`) -/
def Ieee.res (m : Ieee) : Fl → Fl
  | .fin x => m.rnd x
  | x => x

/-- `a + b`, `a - b` and `a * b` of numbers -/
def Ieee.add (m : Ieee) (a b : Fl) : Fl := m.res (Fl.add a b)
@[inherit_doc Ieee.add] def Ieee.sub (m : Ieee) (a b : Fl) : Fl := m.res (Fl.sub a b)
@[inherit_doc Ieee.add] def Ieee.times (m : Ieee) (a b : Fl) : Fl := m.res (AD.mul a b)

/-- rotation_conversions.py:475-525 `axis_and_angle_to_matrix_33`, operation by operation, written into the matrix of
`axis_and_angle_to_matrix_44` -/
def axisAndAngle44I (m : Ieee) (axis : V3) (theta : Fl) : FM4 :=
  let c := m.cos theta
  let omc := m.sub (.fin 1) c
  let s := m.sin theta
  let kx := Fl.fin (axis 0); let ky := Fl.fin (axis 1); let kz := Fl.fin (axis 2)
  let kk (a b : Fl) : Fl := m.times (m.times a b) omc
  ![![m.add c (kk kx kx), m.sub (kk kx ky) (m.times kz s), m.add (kk kx kz) (m.times ky s), .fin 0],
    ![m.add (kk ky kx) (m.times kz s), m.add c (kk ky ky), m.sub (kk ky kz) (m.times kx s), .fin 0],
    ![m.sub (kk kz kx) (m.times ky s), m.add (kk kz ky) (m.times kx s), m.add c (kk kz kz), .fin 0],
    ![.fin 0, .fin 0, .fin 0, .fin 1]]

/-- rotation_conversions.py:452-472 `axis_and_d_to_pris_matrix` -/
def axisAndDToPrisI (m : Ieee) (axis : V3) (d : Fl) : FM4 :=
  ![![.fin 1, .fin 0, .fin 0, m.times (.fin (axis 0)) d],
    ![.fin 0, .fin 1, .fin 0, m.times (.fin (axis 1)) d],
    ![.fin 0, .fin 0, .fin 1, m.times (.fin (axis 2)) d],
    ![.fin 0, .fin 0, .fin 0, .fin 1]]

/-- `Chain.__init__` (chain.py:318-322): the static offsets, `lo @ jo` -/
def Chain.staticI (m : Ieee) (root : Frame) : List FM4 :=
  let names := root.jointParamNames
  let st := buildLoop names [(root, -1, 0)] { axes := List.replicate names.length ![0, 0, 0] }
  List.zipWith (fun lo jo => m.mul (finM (lo.getD 1)) (finM (jo.getD 1))) st.linkOffsets st.jointOffsets

/-- chain.py:55-61 one transform per joint, then gathered per frame with `[:, jidx]` -/
def perFrameI {B : ℕ} (f : V3 → Fl → FM4) (axes : List V3) (jidx : List ℕ) (th : List (Fin B → Fl)) :
    Except Err (List (Fin B → FM4)) := do
  let cols ← broadcastCols axes.length th
  let mats : List (Fin B → FM4) := List.zipWith (fun a col => fun b => f a (col b)) axes cols
  jidx.mapM fun i => match mats[i]? with
    | some m => .ok m
    | none => .error .indexError

/-- chain.py:51-82; `torch.where` selects, so what is computed for the other joint types does not matter -/
def Chain.localTransformsI (m : Ieee) (c : Chain) (static : List FM4) {B : ℕ} (th : List (Fin B → Fl)) :
    Except Err (List (Fin B → FM4)) := do
  let rev ← if 0 < th.length ∧ c.hasRevolute = true
    then some <$> perFrameI (axisAndAngle44I m) c.axes c.jointIndicesClamped th else pure none
  let pris ← if 0 < th.length ∧ c.hasPrismatic = true
    then some <$> perFrameI (axisAndDToPrisI m) c.axes c.jointIndicesClamped th else pure none
  let eye : List (Fin B → FM4) := List.replicate c.numFrames fun _ => finM 1
  let jt ←
    if c.hasRevolute && !c.hasPrismatic then do
      let r ← bound rev
      pure (List.zipWith (fun t (re : (Fin B → FM4) × (Fin B → FM4)) => if t = 1 then re.1 else re.2)
        c.jointTypeIndices (List.zip r eye))
    else if c.hasPrismatic && !c.hasRevolute then do
      let r ← bound pris
      pure (List.zipWith (fun t (re : (Fin B → FM4) × (Fin B → FM4)) => if t = 2 then re.1 else re.2)
        c.jointTypeIndices (List.zip r eye))
    else if c.hasRevolute && c.hasPrismatic then do
      let r ← bound rev
      let s ← bound pris
      let j1 := List.zipWith (fun t (re : (Fin B → FM4) × (Fin B → FM4)) => if t = 1 then re.1 else re.2)
        c.jointTypeIndices (List.zip r eye)
      pure (List.zipWith (fun t (re : (Fin B → FM4) × (Fin B → FM4)) => if t = 2 then re.1 else re.2)
        c.jointTypeIndices (List.zip s j1))
    else pure eye
  pure (List.zipWith (fun o j => fun b => m.mul o (j b)) static jt)

/-- a batch of matrices, multiplied by the machine -/
structure IMat (m : Ieee) (B : ℕ) where
  mat : Fin B → FM4

instance (m : Ieee) (B : ℕ) : Mul (IMat m B) := ⟨fun a b => ⟨fun r => m.mul (a.mat r) (b.mat r)⟩⟩

/-- chain.py:13-93 `_fk_impl`; the accumulation `fkAccum` is that of the exact model, over the machine's product -/
def Chain.fkTensorI (m : Ieee) (c : Chain) (static : List FM4) {B : ℕ} (th : List (Fin B → Fl)) :
    Except Err (List (Fin B → FM4)) := do
  let locals ← c.localTransformsI m static th
  let out ← fkAccum c.numFrames c.directParentIdx c.bfsLevels (locals.map (IMat.mk (m := m)))
  return out.map IMat.mat

/-- chain.py:542-564 `forward_kinematics` of the chain constructed and evaluated on the machine -/
def forwardKinematicsI (m : Ieee) (root : Frame) {B : ℕ} (th : List (Fin B → Fl)) :
    Except Err (Dict Name (Fin B → FM4)) := do
  let c := Chain.init root
  let fis ← c.getAllFrameIndices
  let all ← c.fkTensorI m (Chain.staticI m root) th
  fis.foldlM (fun d fi => do
    let name ← c.idxToFrame.item fi
    match all[fi]? with
    | some m => .ok (d.set name m)
    | none => .error .indexError) []

/-! ## IEEE formats -/

/-- rounding to the nearest number with `p` binary digits and exponent at least `e`, ties to even; below `2 ^ e` the
spacing stays that of the smallest exponent (subnormal numbers) -/
def ieeeNear (p : ℕ) (e : ℤ) (x : ℝ) : ℝ :=
  let s : ℤ := max (Int.log 2 |x|) e - ((p : ℤ) - 1)
  (Fl.roundEven (x * 2 ^ (-s)) : ℝ) * 2 ^ s

/-- the same, with overflow to an infinity beyond the largest number, `(2 - 2 ^ (1 - p)) * 2 ^ E` -/
def ieeeRnd (p : ℕ) (e E : ℤ) (x : ℝ) : Fl :=
  open Classical in
  if |ieeeNear p e x| ≤ (2 - 2 ^ (1 - (p : ℤ))) * 2 ^ E then .fin (ieeeNear p e x) else if 0 < x then .pinf else .ninf

/-- an operation on finite numbers followed by rounding; infinities and NaN stay -/
def ieeeRes (p : ℕ) (e E : ℤ) : Fl → Fl
  | .fin x => ieeeRnd p e E x
  | x => x

/-- `@`: products are summed from left to right -/
def ieeeMul (p : ℕ) (e E : ℤ) (A B : FM4) : FM4 := fun i j =>
  let t (k : Fin 4) : Fl := ieeeRes p e E (AD.mul (A i k) (B k j))
  let add (a b : Fl) : Fl := ieeeRes p e E (Fl.add a b)
  add (add (add (t 0) (t 1)) (t 2)) (t 3)

end
end PK
