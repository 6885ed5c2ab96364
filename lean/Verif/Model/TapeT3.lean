import Verif.Model.TapeFk
import Verif.Model.TapeSo3
import Verif.Model.Transform3d

/-!
# Records of transforms

What PyTorch records when transforms are constructed from tensors that require gradients, composed, inverted and applied
(`/repo/src/pytorch_kinematics/transforms/transform3d.py`, line numbers without file name refer to it; `rc` is `rotation_conversions.py`).
Whether a call raises depends on shapes only, so the record is computed from the shapes.  Copies between dtypes and devices, `clone`, `expand`,
`repeat`, `cat`, `stack`, `view` and assignments to slices move entries; they appear as indices, an entry that is repeated receives the sum of
the gradients.
-/

namespace PK.AD
noncomputable section
open Classical Sum

abbrev E4 := Fin 4 × Fin 4

/-! ## Batches -/

/-- two records on the same inputs -/
def Prog.par {ι μ ν : Type} (p : Prog ι μ) (q : Prog ι ν) : Prog ι (μ ⊕ ν) :=
  p.andThen ((q.rename inl).andThen (.ret (Sum.elim (fun m => inl (inr m)) inr)))

/-- the same operations on every element of a batch -/
def Prog.batch (n : ℕ) : {ι μ : Type} → Prog ι μ → Prog (Fin n × ι) (Fin n × μ)
  | _, _, .ret out => .ret fun k => (k.1, out k.2)
  | _, _, @Prog.stage _ _ σ _ f p => .stage (Fin n × σ) (fun k => (f k.2).rename fun i => (k.1, i)) <|
    (p.batch n).rename fun k => Sum.elim (fun i => inl (k.1, i)) (fun s => inr (k.1, s)) k.2

/-- an entry of an argument: a Python number, or an entry of an input tensor -/
inductive Src (ι : Type) where
  | num (c : ℝ)
  | var (i : ι)

/-- the value of an entry -/
def Src.at {ι : Type} (x : ι → ℝ) : Src ι → ℝ
  | .num c => c
  | .var i => x i

/-- an entry as an operation -/
def Src.op {ι : Type} : Src ι → Op ι
  | .num c => .lin c []
  | .var i => .lin 0 [(1, i)]

/-- the record of a batch of tensors with entries `α` -/
structure Rec (ι α : Type) where
  n : ℕ
  p : Prog ι (Fin n × α)

/-- a batch of arguments -/
def Rec.src {ι α : Type} [Fintype α] (l : List (α → Src ι)) : Rec ι α :=
  ⟨l.length, .stage (Fin l.length × α) (fun k => (l.get k.1 k.2).op) (.ret inr)⟩

/-- an operation on every element -/
def Rec.map {ι α β : Type} (op : Prog α β) (r : Rec ι α) : Rec ι β :=
  ⟨r.n, r.p.andThen ((op.batch r.n).rename inr)⟩

/-- an operation on pairs of elements -/
def Rec.zip {ι α β γ : Type} (op : Prog (α ⊕ β) γ) (r : Rec ι α) (s : Rec ι β) (idx : List (Fin r.n × Fin s.n)) : Rec ι γ :=
  ⟨idx.length, (r.p.par s.p).andThen <| (op.batch idx.length).rename fun k =>
    inr (Sum.elim (fun a => inl ((idx.get k.1).1, a)) (fun b => inr ((idx.get k.1).2, b)) k.2)⟩

/-- elements of a batch, possibly repeated -/
def Rec.gather {ι α : Type} (r : Rec ι α) (idx : List (Fin r.n)) : Rec ι α :=
  ⟨idx.length, r.p.andThen (.ret fun k => inr (idx.get k.1, k.2))⟩

/-- `torch.cat` of two batches -/
def Rec.append {ι α : Type} (r s : Rec ι α) : Rec ι α :=
  ⟨r.n + s.n, (r.p.par s.p).andThen
    (.ret fun k => inr (Fin.addCases (fun i => inl (i, k.2)) (fun j => inr (j, k.2)) k.1))⟩

/-- l.724-751 `_broadcast_bmm`, with another product: which elements meet -/
def Rec.bzip {ι α β γ : Type} (op : Prog (α ⊕ β) γ) (r : Rec ι α) (s : Rec ι β) : Except Err (Rec ι γ) :=
  match PK.bzip Prod.mk (List.finRange r.n) (List.finRange s.n) with
  | .ok idx => .ok (r.zip op s idx)
  | .error e => .error e

/-- `torch.cat` along the last dimension -/
def Rec.catLast {ι α β γ : Type} (op : Prog (α ⊕ β) γ) (r : Rec ι α) (s : Rec ι β) : Except Err (Rec ι γ) :=
  match PK.catLast Prod.mk (List.finRange r.n) (List.finRange s.n) with
  | .ok idx => .ok (r.zip op s idx)
  | .error e => .error e

/-! ## One element -/

/-- `a @ b` -/
def mulP (n : ℕ) : Prog ((Fin n × Fin n) ⊕ (Fin n × Fin n)) (Fin n × Fin n) :=
  .stage ((Fin n × Fin n) × Fin n) (fun p => .mul (inl (p.1.1, p.2)) (inr (p.2, p.1.2))) <|
  .stage (Fin n × Fin n) (fun p => .lin 0 ((List.finRange n).map fun k => (1, inr (p, k)))) <|
  .ret inr

/-- `transpose(1, 2)` -/
def transposeP (n : ℕ) : Prog (Fin n × Fin n) (Fin n × Fin n) := .ret fun p => (p.2, p.1)

/-- l.493-499: `xyz` into the last column of identities -/
def translateP : Prog (Fin 3) E4 :=
  .stage E4 (fun p => if h : (p.1 : ℕ) < 3 ∧ (p.2 : ℕ) = 3 then .lin 0 [(1, ⟨p.1, h.1⟩)] else .lin (if p.1 = p.2 then 1 else 0) []) (.ret inr)

/-- l.534-539: `xyz` onto the diagonal of identities -/
def scaleP : Prog (Fin 3) E4 :=
  .stage E4 (fun p => if h : (p.1 : ℕ) < 3 ∧ p.1 = p.2 then .lin 0 [(1, ⟨p.1, h.1⟩)] else .lin (if p.1 = p.2 then 1 else 0) []) (.ret inr)

/-- l.578-584: `R` into the first three rows and columns of identities -/
def rotateP : Prog E3 E4 :=
  .stage E4 (fun p => if h : (p.1 : ℕ) < 3 ∧ (p.2 : ℕ) < 3 then .lin 0 [(1, (⟨p.1, h.1⟩, ⟨p.2, h.2⟩))]
    else .lin (if p.1 = p.2 then 1 else 0) []) (.ret inr)

/-- rc l.174-181: one of `one`, `zero`, `cos`, `sin`, `-sin` -/
def axisEntry {κ : Type} (c s : κ) : Ax → E3 → Op κ
  | .X, (0, 0) => .lin 1 [] | .X, (1, 1) => .lin 0 [(1, c)] | .X, (1, 2) => .lin 0 [(-1, s)]
  | .X, (2, 1) => .lin 0 [(1, s)] | .X, (2, 2) => .lin 0 [(1, c)]
  | .Y, (0, 0) => .lin 0 [(1, c)] | .Y, (0, 2) => .lin 0 [(1, s)] | .Y, (1, 1) => .lin 1 []
  | .Y, (2, 0) => .lin 0 [(-1, s)] | .Y, (2, 2) => .lin 0 [(1, c)]
  | .Z, (0, 0) => .lin 0 [(1, c)] | .Z, (0, 1) => .lin 0 [(-1, s)] | .Z, (1, 0) => .lin 0 [(1, s)]
  | .Z, (1, 1) => .lin 0 [(1, c)] | .Z, (2, 2) => .lin 1 []
  | _, _ => .lin 0 []

/-- rc l.157-182 `_axis_angle_rotation` -/
def axisP (a : Ax) : Prog Unit E3 :=
  .stage Unit (fun _ => .cos ()) <|
  .stage Unit (fun _ => .sin (inl ())) <|
  .stage E3 (fun p => axisEntry (inl (inr ())) (inr ()) a p) <|
  .ret inr

/-- l.621-627: `angle / 180.0 * math.pi` when degrees are given, then `_axis_angle_rotation` -/
def axisAngleP (a : Ax) (degrees : Bool) : Prog Unit E3 :=
  .stage Unit (fun _ => .lin 0 [(if degrees then 1 / 180 else 1, ())]) <|
  .stage Unit (fun _ => .lin 0 [(if degrees then Real.pi else 1, inr ())]) <|
  (axisP a).rename inr

/-- rc l.206-207: `functools.reduce(torch.matmul, map(_axis_angle_rotation, "XYZ", …))` -/
def eulerP : Prog (Fin 3) E3 :=
  ((axisP .X).rename fun _ => (0 : Fin 3)).andThen <|
  ((axisP .Y).rename fun _ => inl (1 : Fin 3)).andThen <|
  ((mulP 3).rename (Sum.elim (fun p => inl (inr p)) inr)).andThen <|
  ((axisP .Z).rename fun _ => inl (inl (inl (2 : Fin 3)))).andThen <|
  (mulP 3).rename (Sum.elim (fun p => inl (inr p)) inr)

/-- l.199-201: the matrix with `(pos, 1)` as last column -/
def withPosP : Prog (E4 ⊕ Fin 3) E4 :=
  .stage E4 (fun p => if (p.2 : ℕ) < 3 then .lin 0 [(1, inl p)]
    else if h : (p.1 : ℕ) < 3 then .lin 0 [(1, inr ⟨p.1, h⟩)] else .lin 1 []) (.ret inr)

/-- l.211-212: the matrix with `rot` over a zero row as first three columns -/
def withRotP : Prog (E3 ⊕ E4) E4 :=
  .stage E4 (fun p => if hj : (p.2 : ℕ) < 3 then
      (if hi : (p.1 : ℕ) < 3 then .lin 0 [(1, inl (⟨p.1, hi⟩, ⟨p.2, hj⟩))] else .lin 0 [])
    else .lin 0 [(1, inr p)]) (.ret inr)

/-- l.264-274 `_invert_transformation_matrix` -/
def invertP : Prog E4 E4 :=
  .stage E3 (fun p => .lin 0 [(-1, (p.2.castSucc, p.1.castSucc))]) <|                    -- -T[:, :3, :3].transpose(1, 2)
  .stage E3 (fun p => .mul (inr p) (inl (p.2.castSucc, 3))) <|
  .stage (Fin 3) (fun i => .lin 0 [(1, inr (i, 0)), (1, inr (i, 1)), (1, inr (i, 2))]) <|     -- … @ T[:, :3, 3:]
  .stage E4 (fun p => if h : (p.1 : ℕ) < 3 then
      (if (p.2 : ℕ) < 3 then .lin 0 [(1, inl (inl (inl (p.2, p.1))))] else .lin 0 [(1, inr ⟨p.1, h⟩)])
    else .lin 0 [(1, inl (inl (inl p)))]) <|
  .ret inr

/-- l.501-508 `Translate._get_matrix_inverse`: the product with a constant mask -/
def invertTranslateP : Prog E4 E4 :=
  .stage E4 (fun p => .lin 0 [(if (p.1 : ℕ) < 3 ∧ (p.2 : ℕ) = 3 then -1 else 1, p)]) (.ret inr)

/-- l.541-548 `Scale._get_matrix_inverse`: `diag_embed(1.0 / diagonals)` -/
def invertScaleP : Prog E4 E4 :=
  .stage (Fin 4) (fun i => .recip (i, i)) <|
  .stage E4 (fun p => if p.1 = p.2 then .lin 0 [(1, inr p.1)] else .lin 0 []) <|
  .ret inr

/-- l.328-343 `transform_points` without `eps` -/
def pointsP (P : ℕ) : Prog ((Fin P × Fin 3) ⊕ E4) (Fin P × Fin 3) :=
  .stage (Fin P × Fin 4) (fun p => if h : (p.2 : ℕ) < 3 then .lin 0 [(1, inl (p.1, ⟨p.2, h⟩))] else .lin 1 []) <|   -- cat([points, ones])
  .stage ((Fin P × Fin 4) × Fin 4) (fun p => .mul (inr (p.1.1, p.2)) (inl (inr (p.1.2, p.2)))) <|
  .stage (Fin P × Fin 4) (fun p => .lin 0 [(1, inr (p, 0)), (1, inr (p, 1)), (1, inr (p, 2)), (1, inr (p, 3))]) <|
  .stage (Fin P × Fin 3) (fun p => .div (inr (p.1, p.2.castSucc)) (inr (p.1, 3))) <|
  .ret inr

/-- l.368-373 `transform_normals`: `normals @ mat` with the inverse matrix -/
def normalsP (P : ℕ) : Prog ((Fin P × Fin 3) ⊕ E4) (Fin P × Fin 3) :=
  .stage ((Fin P × Fin 3) × Fin 3) (fun p => .mul (inl (p.1.1, p.2)) (inr (p.2.castSucc, p.1.2.castSucc))) <|
  .stage (Fin P × Fin 3) (fun p => .lin 0 [(1, inr (p, 0)), (1, inr (p, 1)), (1, inr (p, 2))]) <|
  .ret inr

/-! ## Arguments whose entries may be entries of input tensors -/

/-- cf. `Coord` -/
inductive CoordS (ι : Type) where
  | none
  | scalar (x : Src ι)
  | vec (xs : List (Src ι))

/-- cf. `CoordX` -/
inductive CoordXS (ι : Type) where
  | coord (c : CoordS ι)
  | mat3 (rows : List (Fin 3 → Src ι))
  | matBad

/-- cf. `AngleArg` -/
inductive AngleS (ι : Type) where
  | scalar (x : Src ι)
  | vec (xs : List (Src ι))
  | bad

/-- cf. `RotArg` -/
inductive RotS (ι : Type) where
  | mat (r : E3 → Src ι)
  | mats (rs : List (E3 → Src ι))
  | quat (q : Fin 4 → Src ι)
  | quats (qs : List (Fin 4 → Src ι))
  | angles (e : Fin 3 → Src ι)
  | anglesBatch (es : List (Fin 3 → Src ι))

/-- cf. `PosArg` -/
inductive PosS (ι : Type) where
  | single (p : Fin 3 → Src ι)
  | batch (ps : List (Fin 3 → Src ι))

/-- cf. `MatArg` -/
inductive MatS (ι : Type) where
  | default (n : ℕ)
  | single (m : E4 → Src ι)
  | batch (ms : List (E4 → Src ι))
  | badShape

/-- cf. `Points` -/
inductive PointsS (ι : Type) (P : ℕ) where
  | flat (x : Fin P × Fin 3 → Src ι)
  | batch (xs : List (Fin P × Fin 3 → Src ι))
  | other

section values
variable {ι : Type} (x : ι → ℝ)

/-- a vector of entries -/
def v3At (v : Fin 3 → Src ι) : V3 := fun i => (v i).at x
def m3At (m : E3 → Src ι) : M3 := Matrix.of fun i j => (m (i, j)).at x
def m4At (m : E4 → Src ι) : M4 := Matrix.of fun i j => (m (i, j)).at x
def qAt (q : Fin 4 → Src ι) : Quat := ⟨(q 0).at x, (q 1).at x, (q 2).at x, (q 3).at x⟩
def ptsAt {P : ℕ} (m : Fin P × Fin 3 → Src ι) : Matrix (Fin P) (Fin 3) ℝ := Matrix.of fun i j => (m (i, j)).at x

def CoordS.at : CoordS ι → Coord
  | .none => .none
  | .scalar c => .scalar (c.at x)
  | .vec cs => .vec (cs.map (Src.at x))

def CoordXS.at : CoordXS ι → CoordX
  | .coord c => .coord (c.at x)
  | .mat3 rows => .mat3 (rows.map (v3At x))
  | .matBad => .matBad

def AngleS.at : AngleS ι → AngleArg
  | .scalar c => .scalar (c.at x)
  | .vec cs => .vec (cs.map (Src.at x))
  | .bad => .bad

def RotS.at : RotS ι → RotArg
  | .mat r => .mat (m3At x r)
  | .mats rs => .mats (rs.map (m3At x))
  | .quat q => .quat (qAt x q)
  | .quats qs => .quats (qs.map (qAt x))
  | .angles e => .angles (v3At x e)
  | .anglesBatch es => .anglesBatch (es.map (v3At x))

def PosS.at : PosS ι → PosArg
  | .single p => .single (v3At x p)
  | .batch ps => .batch (ps.map (v3At x))

def MatS.at : MatS ι → MatArg
  | .default n => .default n
  | .single m => .single (m4At x m)
  | .batch ms => .batch (ms.map (m4At x))
  | .badShape => .badShape

def PointsS.at {P : ℕ} : PointsS ι P → Points P
  | .flat m => .flat (ptsAt x m)
  | .batch ms => .batch (ms.map (ptsAt x))
  | .other => .other

end values

/-! ## Shapes -/

variable {ι : Type}

/-- l.633-647, cf. `handleCoord` -/
def handleCoordS : CoordS ι → Except Err (List (Src ι))
  | .none => .error .runtimeError
  | .scalar x => .ok [x]
  | .vec xs => .ok xs

/-- cf. `expandVec` -/
def expandS (n : ℕ) : List (Src ι) → List (Src ι)
  | [x] => List.replicate n x
  | l => l

/-- l.650-704, cf. `handleInput` -/
def handleInputS (x : CoordXS ι) (y z : CoordS ι) (allowSingleton : Bool) : Except Err (List (Fin 3 → Src ι)) :=
  match x with
  | .matBad => .error .valueError
  | .mat3 rows =>
    match y, z with
    | .none, .none => .ok rows
    | _, _ => .error .valueError
  | .coord c => do
    let (y, z) := match allowSingleton, y, z with
      | true, .none, .none => (c, c)
      | _, y, z => (y, z)
    let xs ← handleCoordS c
    let ys ← handleCoordS y
    let zs ← handleCoordS z
    let n := max xs.length (max ys.length zs.length)
    if (xs.length ≠ 1 ∧ xs.length ≠ n) ∨ (ys.length ≠ 1 ∧ ys.length ≠ n) ∨ (zs.length ≠ 1 ∧ zs.length ≠ n) then
      .error .valueError
    else
      return List.zipWith (fun a bc => ![a, bc.1, bc.2]) (expandS n xs) ((expandS n ys).zip (expandS n zs))

/-- l.707-721, cf. `handleAngle` -/
def handleAngleS : AngleS ι → Except Err (List (Src ι))
  | .scalar x => .ok [x]
  | .vec xs => .ok xs
  | .bad => .error .valueError

/-- l.203-206, cf. `RotArg.toMats` -/
def RotS.tape : RotS ι → Rec ι E3 × Bool
  | .mat r => (.src [r], false)
  | .mats rs => (.src rs, true)
  | .quat q => ((Rec.src [q]).map q2m, false)
  | .quats qs => ((Rec.src qs).map q2m, true)
  | .angles e => ((Rec.src [e]).map eulerP, false)
  | .anglesBatch [a, b, c] => (.src [fun p => ![a, b, c] p.1 p.2], false)
  | .anglesBatch es => ((Rec.src es).map eulerP, true)

/-- l.178-189, cf. `initMatrix` -/
def MatS.tape : MatS ι → Except Err (Rec ι E4)
  | .default n => .ok (.src (List.replicate n fun p => .num (if p.1 = p.2 then 1 else 0)))
  | .single m => .ok (.src [m])
  | .batch ms => .ok (.src ms)
  | .badShape => .error .valueError

/-- l.197-198, l.209-210, cf. `repeatTo` -/
def Rec.repeatTo {α : Type} (batched : Bool) (n : ℕ) (r : Rec ι α) : Rec ι α :=
  if batched = true ∧ r.n = 1 ∧ 1 < n then r.gather ((List.replicate n (List.finRange r.n)).flatten) else r

/-- l.191-201, cf. `setPos` -/
def Rec.setPos (r : Rec ι E4) : Option (PosS ι) → Except Err (Rec ι E4)
  | none => .ok r
  | some (.single p) => r.catLast withPosP (.src [p])
  | some (.batch ps) => (r.repeatTo true ps.length).catLast withPosP (.src ps)

/-- l.202-212, cf. `setRot` -/
def Rec.setRot (r : Rec ι E4) : Option (RotS ι) → Except Err (Rec ι E4)
  | none => .ok r
  | some q => q.tape.1.catLast withRotP (r.repeatTo q.tape.2 q.tape.1.n)

/-! ## Programs that build transforms -/

/-- Transforms built by a user: constructors (`Transform3d`, `Translate`, `Scale`, `Rotate`, `RotateAxisAngle`), `compose`, `inverse`, `stack`
and indexing.  The methods `translate`, `scale`, `rotate` and `rotate_axis_angle` compose with a constructed transform (l.411-421).  Tensors are
on one device. -/
inductive TExpr (ι : Type) where
  | init (m : MatS ι) (pos : Option (PosS ι)) (rot : Option (RotS ι)) (d : DType)
  | translate (x : CoordXS ι) (y z : CoordS ι) (d : DType)
  | scale (x : CoordXS ι) (y z : CoordS ι) (d : DType)
  | rotate (r : RotS ι) (d : DType)
  | rotateAxisAngle (angle : AngleS ι) (axis : List Char) (degrees : Bool)
  | compose (s t : TExpr ι)
  | inverse (t : TExpr ι)
  | stack (s t : TExpr ι)
  | get (t : TExpr ι) (i : ℕ)

/-- the calls, on given values of the input tensors -/
def TExpr.build (x : ι → ℝ) : TExpr ι → Except Err T3
  | .init m pos rot d => T3.init (m.at x) (pos.map (PosS.at x)) (rot.map (RotS.at x)) d cpu
  | .translate a b c d => T3.mkTranslate (a.at x) (b.at x) (c.at x) d cpu
  | .scale a b c d => T3.mkScale (a.at x) (b.at x) (c.at x) d cpu
  | .rotate r d => .ok (T3.mkRotate (r.at x) d cpu)
  | .rotateAxisAngle a axis degrees => T3.mkRotateAxisAngle (a.at x) axis degrees cpu
  | .compose s t => do
    let a ← s.build x
    let b ← t.build x
    a.compose [b]
  | .inverse t => do return (← t.build x).inverse
  | .stack s t => do
    let a ← s.build x
    let b ← t.build x
    return a.stack [b]
  | .get t i => do (← t.build x).get i

/-- l.257-262, l.501, l.541, l.586-590 `_get_matrix_inverse` -/
def inverseP : TKind → Prog E4 E4
  | .plain => invertP
  | .translate => invertTranslateP
  | .scale => invertScaleP
  | .rotate => transposeP 4

/-- the class of the object, and the record of its matrices -/
def TExpr.tape : TExpr ι → Except Err (TKind × Rec ι E4)
  | .init m pos rot _ =>
    match m.tape with
    | .error e => .error e
    | .ok r => match r.setPos pos with
      | .error e => .error e
      | .ok r => match r.setRot rot with
        | .error e => .error e
        | .ok r => .ok (.plain, r)
  | .translate a b c _ =>
    match handleInputS a b c false with
    | .error e => .error e
    | .ok l => .ok (.translate, (Rec.src l).map translateP)
  | .scale a b c _ =>
    match handleInputS a b c true with
    | .error e => .error e
    | .ok l => .ok (.scale, (Rec.src l).map scaleP)
  | .rotate r _ => .ok (.rotate, r.tape.1.map rotateP)
  | .rotateAxisAngle angle axis degrees =>
    match axis.map Char.toUpper with
    | [c] =>
      match letterAx c with
      | some a =>
        match handleAngleS angle with
        | .error e => .error e
        | .ok l => .ok (.rotate, ((Rec.src (l.map fun s (_ : Unit) => s)).map (axisAngleP a degrees)).map rotateP)
      | none => .error .valueError
    | _ => .error .valueError
  | .compose s t =>
    match s.tape with
    | .error e => .error e
    | .ok (_, r) => match t.tape with
      | .error e => .error e
      | .ok (_, r') => match r.bzip (mulP 4) r' with
        | .error e => .error e
        | .ok q => .ok (.plain, q)
  | .inverse t =>
    match t.tape with
    | .error e => .error e
    | .ok (k, r) => .ok (.plain, r.map (inverseP k))
  | .stack s t =>
    match s.tape with
    | .error e => .error e
    | .ok (_, r) => match t.tape with
      | .error e => .error e
      | .ok (_, r') => .ok (.plain, r.append r')
  | .get t i =>
    match t.tape with
    | .error e => .error e
    | .ok (_, r) => if h : i < r.n then .ok (.plain, r.gather [⟨i, h⟩]) else .error .indexError

/-- the record of points or normals -/
def PointsS.tape {P : ℕ} : PointsS ι P → Except Err (Rec ι (Fin P × Fin 3))
  | .flat m => .ok (.src [m])
  | .batch ms => .ok (.src ms)
  | .other => .error .valueError

/-- l.301-349 `t.transform_points(points)` -/
def TExpr.points {P : ℕ} (t : TExpr ι) (pts : PointsS ι P) : Except Err (Rec ι (Fin P × Fin 3)) :=
  match t.tape with
  | .error e => .error e
  | .ok (_, r) => match pts.tape with
    | .error e => .error e
    | .ok q => q.bzip (pointsP P) r

/-- l.351-384 `t.transform_normals(normals)` -/
def TExpr.normals {P : ℕ} (t : TExpr ι) (pts : PointsS ι P) : Except Err (Rec ι (Fin P × Fin 3)) :=
  match t.tape with
  | .error e => .error e
  | .ok (k, r) => match pts.tape with
    | .error e => .error e
    | .ok q => q.bzip (normalsP P) (r.map (inverseP k))

end
end PK.AD
