import Verif.Model.Chain

/-!
# Forward kinematics in floating-point arithmetic

The other files compute with real numbers.  Here the operations of `_fk_impl` are those of a machine: every elementary
operation and every matrix product makes an error.  The machine is arbitrary; what is known about it are the usual bounds
(relative error of an operation at most the unit roundoff, absolute error of `cos` and `sin`, and the error of sums of products
in terms of the absolute values of the products, which holds for every order of summation, with and without fused
multiply-add).  Underflow and overflow are not modelled: stored numbers and results are reals.
-/

namespace PK
noncomputable section

/-- A floating-point arithmetic. -/
structure Machine where
  /-- unit roundoff -/
  u : ℝ
  /-- error of a product in a matrix product -/
  γ : ℝ
  /-- error of `cos` and `sin` -/
  κ : ℝ
  γ_nonneg : 0 ≤ γ
  /-- the result of an operation whose exact result is the argument -/
  rnd : ℝ → ℝ
  rnd_err : ∀ x, |rnd x - x| ≤ u * |x|
  /-- `torch.cos` -/
  cos : ℝ → ℝ
  cos_err : ∀ x, |cos x - Real.cos x| ≤ κ
  /-- `torch.sin` -/
  sin : ℝ → ℝ
  sin_err : ∀ x, |sin x - Real.sin x| ≤ κ
  /-- `@` for 4x4 matrices -/
  mul : M4 → M4 → M4
  /-- each product that enters a sum is off by a relative error of at most `γ` -/
  mul_err : ∀ A B i j, ∃ θ : Fin 4 → ℝ, (∀ k, |θ k| ≤ γ) ∧ mul A B i j = ∑ k, A i k * B k j * (1 + θ k)
  /-- products with 0 and 1 and sums with 0 are exact -/
  mul_last : ∀ A B : M4, A 3 = ![0, 0, 0, 1] → B 3 = ![0, 0, 0, 1] → mul A B 3 = ![0, 0, 0, 1]
  /-- a row of `torch.einsum('nbij,nj->nbi', _, _)` -/
  dot : V3 → V3 → ℝ
  dot_err : ∀ a b, ∃ θ : Fin 3 → ℝ, (∀ k, |θ k| ≤ γ) ∧ dot a b = ∑ k, a k * b k * (1 + θ k)
  /-- `a * b - c * d`, a component of `torch.cross` -/
  det2 : ℝ → ℝ → ℝ → ℝ → ℝ
  det2_err : ∀ a b c d, ∃ θ θ' : ℝ, |θ| ≤ γ ∧ |θ'| ≤ γ ∧ det2 a b c d = a * b * (1 + θ) - c * d * (1 + θ')

/-- rotation_conversions.py:495-525 `axis_and_angle_to_matrix_33`, operation by operation -/
def axisAndAngle33Fl (m : Machine) (axis : V3) (theta : ℝ) : M3 :=
  let c := m.cos theta
  let omc := m.rnd (1 - c)
  let s := m.sin theta
  let kx := axis 0; let ky := axis 1; let kz := axis 2
  let kk (a b : ℝ) : ℝ := m.rnd (m.rnd (a * b) * omc)
  !![m.rnd (c + kk kx kx), m.rnd (kk kx ky - m.rnd (kz * s)), m.rnd (kk kx kz + m.rnd (ky * s));
     m.rnd (kk ky kx + m.rnd (kz * s)), m.rnd (c + kk ky ky), m.rnd (kk ky kz - m.rnd (kx * s));
     m.rnd (kk kz kx - m.rnd (ky * s)), m.rnd (kk kz ky + m.rnd (kx * s)), m.rnd (c + kk kz kz)]

/-- rotation_conversions.py:475-492 `axis_and_angle_to_matrix_44` -/
def axisAndAngle44Fl (m : Machine) (axis : V3) (theta : ℝ) : M4 := hom (axisAndAngle33Fl m axis theta) ![0, 0, 0]

/-- rotation_conversions.py:452-472 `axis_and_d_to_pris_matrix` -/
def axisAndDToPrisFl (m : Machine) (axis : V3) (d : ℝ) : M4 := hom 1 fun i => m.rnd (axis i * d)

/-- `Chain.__init__` (chain.py:230-348): the only arithmetic is `lo @ jo` (l.318-322) -/
def Chain.initFl (m : Machine) (root : Frame) : Chain :=
  let names := root.jointParamNames
  let st := buildLoop names [(root, -1, 0)] { axes := List.replicate names.length ![0, 0, 0] }
  { Chain.init root with
    staticOffsets := List.zipWith (fun lo jo => m.mul (lo.getD 1) (jo.getD 1)) st.linkOffsets st.jointOffsets }

/-- chain.py:51-82, with the joint transforms and the product of the machine (the same steps as `Chain.localTransforms`) -/
def Chain.localTransformsFl (m : Machine) (c : Chain) {B : ℕ} (th : List (Fin B → ℝ)) : Except Err (List (Fin B → M4)) := do
  let rev ← if 0 < th.length ∧ c.hasRevolute = true
    then some <$> perFrame (axisAndAngle44Fl m) c.axes c.jointIndicesClamped th else pure none
  let pris ← if 0 < th.length ∧ c.hasPrismatic = true
    then some <$> perFrame (axisAndDToPrisFl m) c.axes c.jointIndicesClamped th else pure none
  let eye : List (Fin B → M4) := List.replicate c.numFrames 1
  let jt ←
    if c.hasRevolute && !c.hasPrismatic then do
      let r ← bound rev
      pure (List.zipWith (fun t (re : (Fin B → M4) × (Fin B → M4)) => if t = 1 then re.1 else re.2)
        c.jointTypeIndices (List.zip r eye))
    else if c.hasPrismatic && !c.hasRevolute then do
      let r ← bound pris
      pure (List.zipWith (fun t (re : (Fin B → M4) × (Fin B → M4)) => if t = 2 then re.1 else re.2)
        c.jointTypeIndices (List.zip r eye))
    else if c.hasRevolute && c.hasPrismatic then do
      let r ← bound rev
      let s ← bound pris
      let j1 := List.zipWith (fun t (re : (Fin B → M4) × (Fin B → M4)) => if t = 1 then re.1 else re.2)
        c.jointTypeIndices (List.zip r eye)
      pure (List.zipWith (fun t (re : (Fin B → M4) × (Fin B → M4)) => if t = 2 then re.1 else re.2)
        c.jointTypeIndices (List.zip s j1))
    else pure eye
  pure (List.zipWith (fun o j => fun b => m.mul o (j b)) c.staticOffsets jt)

/-- a batch of matrices, multiplied by the machine -/
structure FlMat (m : Machine) (B : ℕ) where
  mat : Fin B → M4

instance (m : Machine) (B : ℕ) : Mul (FlMat m B) := ⟨fun a b => ⟨fun r => m.mul (a.mat r) (b.mat r)⟩⟩

/-- chain.py:13-93 `_fk_impl`; the accumulation `fkAccum` is that of the exact model, over the machine's product -/
def Chain.fkTensorFl (m : Machine) (c : Chain) {B : ℕ} (th : List (Fin B → ℝ)) : Except Err (List (Fin B → M4)) := do
  let locals ← c.localTransformsFl m th
  let out ← fkAccum c.numFrames c.directParentIdx c.bfsLevels (locals.map (FlMat.mk (m := m)))
  return out.map FlMat.mat

/-- chain.py:542-564 `forward_kinematics` of the chain constructed and evaluated on the machine -/
def forwardKinematicsFl (m : Machine) (root : Frame) {B : ℕ} (th : List (Fin B → ℝ))
    (frameIndices : Option (List ℕ) := none) : Except Err (Dict Name (Fin B → M4)) := do
  let c := Chain.initFl m root
  let fis ← match frameIndices with
    | none => c.getAllFrameIndices
    | some l => .ok l
  let all ← c.fkTensorFl m th
  fis.foldlM (fun d fi => do
    let name ← c.idxToFrame.item fi
    match all[fi]? with
    | some m => .ok (d.set name m)
    | none => .error .indexError) []

end
end PK
