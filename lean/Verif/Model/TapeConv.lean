import Verif.Model.TapeFk
import Verif.Model.RotConv

/-!
# Records of the conversions between rotation matrices, Euler angles, 6D and 9D vectors, and of quaternion algebra

What PyTorch records when they are called on a tensor that requires a gradient; one batch element, entry by entry.
Line numbers refer to `/repo/src/pytorch_kinematics/transforms/rotation_conversions.py`.  Copies into fresh tensors (`stack`, `cat`, assignment to slices)
are recorded as sums with one summand.
-/

namespace PK.AD
noncomputable section
open Classical Sum

variable {ι μ : Type}

/-- product of 3x3 matrices (`torch.matmul`) with entries `A` and `B`, then `p` -/
def mm3 (A B : Fin 3 × Fin 3 → ι) (p : Prog ((ι ⊕ (Fin 3 × Fin 3) × Fin 3) ⊕ Fin 3 × Fin 3) μ) : Prog ι μ :=
  .stage ((Fin 3 × Fin 3) × Fin 3) (fun q => .mul (A (q.1.1, q.2)) (B (q.2, q.1.2))) <|
  .stage (Fin 3 × Fin 3) (fun q => .lin 0 [(1, inr (q, 0)), (1, inr (q, 1)), (1, inr (q, 2))]) p

/-- l.172-180 one entry of `R_flat`: the constant, and the terms with `cos` (`true`) and `sin` (`false`) -/
def axEntry : Ax → Fin 3 × Fin 3 → ℝ × List (ℝ × Bool)
  | .X, (0, 0) => (1, []) | .X, (1, 1) => (0, [(1, true)]) | .X, (1, 2) => (0, [(-1, false)])
  | .X, (2, 1) => (0, [(1, false)]) | .X, (2, 2) => (0, [(1, true)])
  | .Y, (0, 0) => (0, [(1, true)]) | .Y, (0, 2) => (0, [(1, false)]) | .Y, (1, 1) => (1, [])
  | .Y, (2, 0) => (0, [(-1, false)]) | .Y, (2, 2) => (0, [(1, true)])
  | .Z, (0, 0) => (0, [(1, true)]) | .Z, (0, 1) => (0, [(-1, false)]) | .Z, (1, 0) => (0, [(1, false)])
  | .Z, (1, 1) => (0, [(1, true)]) | .Z, (2, 2) => (1, [])
  | _, _ => (0, [])

/-- l.157-182 and l.206-207: the three rotations and their product -/
def eulMat (a : Fin 3 → Ax) : Prog (Fin 3) (Fin 3 × Fin 3) :=
  .stage (Fin 3) (fun i => .cos i) <|
  .stage (Fin 3) (fun i => .sin (inl i)) <|
  .stage (Fin 3 × (Fin 3 × Fin 3)) (fun q =>
    .lin (axEntry (a q.1) q.2).1 ((axEntry (a q.1) q.2).2.map fun t => (t.1, if t.2 then inl (inr q.1) else inr q.1))) <|
  mm3 (fun q => inr (0, q)) (fun q => inr (1, q)) <|
  mm3 inr (fun q => inl (inl (inr (2, q)))) <|
  .ret inr

/-- l.185-207 `euler_angles_to_matrix` -/
def eulMatRec (conv : List Char) : Except Err (Prog (Fin 3) (Fin 3 × Fin 3)) :=
  (parseConvention conv).map fun a => eulMat ![a.1, a.2.1, a.2.2]

/-- l.232-240: signs and indices of the two operands of `atan2` -/
def tanOps (axis other : Ax) (horizontal taitBryan : Bool) : (ℝ × Fin 3) × (ℝ × Fin 3) :=
  let p : Fin 3 × Fin 3 := match axis with | .X => (2, 1) | .Y => (0, 2) | .Z => (1, 0)
  let i1 := if horizontal then p.2 else p.1
  let i2 := if horizontal then p.1 else p.2
  let even : Bool := match axis, other with
    | .X, .Y => true | .Y, .Z => true | .Z, .X => true | _, _ => false
  if horizontal = even then ((1, i1), (1, i2))
  else if taitBryan then ((-1, i2), (1, i1))
  else ((1, i2), (-1, i1))

/-- l.272-275: the entry of which the middle angle is computed, and its sign -/
def midOp (a c : Ax) : ℝ × (Fin 3 × Fin 3) :=
  let i0 := indexFromLetter a
  let i2 := indexFromLetter c
  if i0 = i2 then (1, (i0, i0))
  else (if (i0.val : ℤ) - (i2.val : ℤ) = -1 ∨ (i0.val : ℤ) - (i2.val : ℤ) = 2 then -1 else 1, (i0, i2))

/-- l.282-290: the operands of the two calls of `atan2` -/
def outOps (a b c : Ax) : Fin 2 × Fin 2 → ℝ × (Fin 3 × Fin 3) :=
  let i0 := indexFromLetter a
  let i2 := indexFromLetter c
  let u := tanOps a b false (i0 ≠ i2)
  let v := tanOps c b true (i0 ≠ i2)
  fun q => match q with
    | (0, 0) => (u.1.1, (u.1.2, i2)) | (0, 1) => (u.2.1, (u.2.2, i2))
    | (1, 0) => (v.1.1, (i0, v.1.2)) | (1, 1) => (v.2.1, (i0, v.2.2))

/-- l.270-291.  `asin x` is recorded as `π/2 - acos x`: the value is the same, and so is the rule for the gradient,
`grad * 1 / sqrt(1 - x * x)`. -/
def matEul (a b c : Ax) : Prog (Fin 3 × Fin 3) (Fin 3) :=
  .stage Unit (fun _ => .lin 0 [midOp a c]) <|
  .stage Unit (fun _ => .acos (inr ())) <|
  .stage Unit (fun _ => if a = c then .lin 0 [(1, inr ())] else .lin (Real.pi / 2) [(-1, inr ())]) <|        -- central_angle
  .stage (Fin 2 × Fin 2) (fun q => .lin 0 [((outOps a b c q).1, inl (inl (inl (outOps a b c q).2)))]) <|
  .stage (Fin 2) (fun i => .atan2 (inr (i, 0)) (inr (i, 1))) <|
  .ret ![inr 0, inl (inl (inr ())), inr 1]

/-- l.252-291 `matrix_to_euler_angles` -/
def matEulRec (conv : List Char) : Except Err (Prog (Fin 3 × Fin 3) (Fin 3)) :=
  (parseConvention conv).map fun a => matEul a.1 a.2.1 a.2.2

/-- l.382-392: signs and indices of the products of one component -/
def qmTerms : Fin 4 → List (ℝ × (Fin 4 × Fin 4)) :=
  ![[(1, (0, 0)), (-1, (1, 1)), (-1, (2, 2)), (-1, (3, 3))],
    [(1, (0, 1)), (1, (1, 0)), (1, (2, 3)), (-1, (3, 2))],
    [(1, (0, 2)), (-1, (1, 3)), (1, (2, 0)), (1, (3, 1))],
    [(1, (0, 3)), (1, (1, 2)), (-1, (2, 1)), (1, (3, 0))]]

/-- l.375-393 `quaternion_raw_multiply` -/
def qMul : Prog (Fin 4 ⊕ Fin 4) (Fin 4) :=
  .stage (Fin 4 × Fin 4) (fun p => .mul (inl p.1) (inr p.2)) <|
  .stage (Fin 4) (fun k => .lin 0 ((qmTerms k).map fun t => (t.1, inr t.2))) <|
  .ret inr

/-- `quaternions[..., 0:1] < 0` -/
def negReal (w : Fl) : Prop := Fl.lt w (.fin 0)

/-- l.360-372 `standardize_quaternion` of the entries `v` -/
def qStdOn (v : Fin 4 → ι) : Prog ι (Fin 4) :=
  .stage (Fin 4) (fun k => .lin 0 [(-1, v k)]) <|
  .stage (Fin 4) (fun k => .pick fun env => if negReal (env (inl (v 0))) then inr k else inl (v k)) <|
  .ret inr

/-- l.360-372 `standardize_quaternion` -/
def qStd : Prog (Fin 4) (Fin 4) := qStdOn id

/-- l.396-410 `quaternion_multiply` -/
def qMultiply : Prog (Fin 4 ⊕ Fin 4) (Fin 4) :=
  .stage (Fin 4 × Fin 4) (fun p => .mul (inl p.1) (inr p.2)) <|
  .stage (Fin 4) (fun k => .lin 0 ((qmTerms k).map fun t => (t.1, inr t.2))) <|
  qStdOn inr

/-- l.413-426 `quaternion_invert` -/
def qInv : Prog (Fin 4) (Fin 4) :=
  .stage (Fin 4) (fun k => .lin 0 [(if k = 0 then 1 else -1, k)]) <| .ret inr

/-- l.429-449 `quaternion_apply` -/
def qApply : Prog (Fin 4 ⊕ Fin 3) (Fin 3) :=
  .stage (Fin 4) ![.lin 0 [], .lin 0 [(1, inr 0)], .lin 0 [(1, inr 1)], .lin 0 [(1, inr 2)]] <|          -- point_as_quaternion
  (qMul.rename (Sum.elim (fun k => inl (inl k)) inr)).andThen <|
  (qInv.rename fun k => inl (inl (inl k))).andThen <|
  (qMul.rename (Sum.elim (fun k => inl (inr k)) inr)).andThen <|
  .ret fun k => inr k.succ

/-- l.631-637 `F.normalize(v, dim=-1)`: `v / v.norm(2, dim, keepdim=True).clamp_min(1e-12)`, then `p` -/
def normalize3 (v : Fin 3 → ι) (p : Prog (((ι ⊕ Unit) ⊕ Unit) ⊕ Fin 3) μ) : Prog ι μ :=
  .stage Unit (fun _ => .norm3 (v 0) (v 1) (v 2)) <|
  .stage Unit (fun _ => .clampMin 1e-12 (inr ())) <|
  .stage (Fin 3) (fun k => .div (inl (inl (v k))) (inr ())) p

/-- l.636 `torch.cross`: signs and indices of the products of one component -/
def crossTerms : Fin 3 → List (ℝ × (Fin 3 × Fin 3)) :=
  ![[(1, (1, 2)), (-1, (2, 1))], [(1, (2, 0)), (-1, (0, 2))], [(1, (0, 1)), (-1, (1, 0))]]

/-- the entries of `d6`, and of the first normalization -/
abbrev R6 := ((Fin 6 ⊕ Unit) ⊕ Unit) ⊕ Fin 3

/-- the entries up to the second argument of `F.normalize` -/
abbrev R6' := (((R6 ⊕ Fin 3) ⊕ Unit) ⊕ Fin 3) ⊕ Fin 3

/-- l.636-637: from the second normalization on -/
def rot6dStack : Prog (((R6' ⊕ Unit) ⊕ Unit) ⊕ Fin 3) (Fin 3 × Fin 3) :=
  .stage (Fin 3 × Fin 3) (fun p => .mul (inl (inl (inl (inl (inl (inl (inl (inr p.1)))))))) (inr p.2)) <|
  .stage (Fin 3 × Fin 3) (fun p => match p.1 with                                                          -- stack((b1, b2, b3))
    | 0 => .lin 0 [(1, inl (inl (inl (inl (inl (inl (inl (inl (inr p.2)))))))))]
    | 1 => .lin 0 [(1, inl (inr p.2))]
    | 2 => .lin 0 ((crossTerms p.2).map fun t => (t.1, inr t.2))) <|
  .ret inr

/-- l.634-637: from the first normalization on -/
def rot6dTail : Prog R6 (Fin 3 × Fin 3) :=
  .stage (Fin 3) (fun k => .mul (inr k) (inl (inl (inl (![3, 4, 5] k))))) <|                                -- b1 * a2
  .stage Unit (fun _ => .lin 0 [(1, inr 0), (1, inr 1), (1, inr 2)]) <|                                      -- .sum(-1)
  .stage (Fin 3) (fun k => .mul (inr ()) (inl (inl (inr k)))) <|                                            -- … * b1
  .stage (Fin 3) (fun k => .lin 0 [(1, inl (inl (inl (inl (inl (inl (![3, 4, 5] k))))))), (-1, inr k)]) <|
  normalize3 (inr : Fin 3 → R6') rot6dStack                                                                -- b2

/-- l.616-637 `rotation_6d_to_matrix` -/
def rot6d : Prog (Fin 6) (Fin 3 × Fin 3) := normalize3 ![0, 1, 2] rot6dTail                                  -- b1

/-- l.668-670 and l.684-687: one entry of the identity after the rotation and the translation have been written into it -/
def homOp (rot : Fin 3 × Fin 3 → ι) (pos : Fin 3 → ι) (p : Fin 4 × Fin 4) : Op ι :=
  if h : (p.1 : ℕ) < 3 ∧ (p.2 : ℕ) < 3 then .lin 0 [(1, rot (⟨p.1, h.1⟩, ⟨p.2, h.2⟩))]
  else if h : (p.1 : ℕ) < 3 ∧ (p.2 : ℕ) = 3 then .lin 0 [(1, pos ⟨p.1, h.1⟩)]
  else .lin (if p.1 = p.2 then 1 else 0) []

/-- l.664-670 `se3_9d_to_matrix44` -/
def se3Mat : Prog (Fin 9) (Fin 4 × Fin 4) :=
  (rot6d.rename (Fin.castLE (by norm_num))).andThen <|
  .stage (Fin 4 × Fin 4) (homOp inr fun k => inl (![6, 7, 8] k)) <|
  .ret inr

/-- l.681-687 `pos_rot_to_matrix`; `inl` the position, `inr` the quaternion in the order xyzw -/
def posRotMat : Prog (Fin 3 ⊕ Fin 4) (Fin 4 × Fin 4) :=
  (q2m.rename fun k => inr (![3, 0, 1, 2] k)).andThen <|
  .stage (Fin 4 × Fin 4) (homOp inr fun k => inl (inl k)) <|
  .ret inr

end
end PK.AD
