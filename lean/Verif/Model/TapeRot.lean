import Verif.Model.Tape
import Verif.Model.Math

/-!
# Records of the rotation conversions

What PyTorch records when the conversions are called on a tensor that requires a gradient; one batch element, entry by entry.
Without file name, line numbers refer to `/repo/src/pytorch_kinematics/transforms/rotation_conversions.py`.  Repeated products of the same two
entries are recorded once.
-/

namespace PK.AD
noncomputable section
open Classical Sum

/-- l.44-72 `quaternion_to_matrix`: `two_s * (…)` before the diagonal is subtracted from one -/
def q2mInner : Fin 3 × Fin 3 → List (ℝ × (Fin 4 × Fin 4))
  | (0, 0) => [(1, (2, 2)), (1, (3, 3))] | (0, 1) => [(1, (1, 2)), (-1, (3, 0))] | (0, 2) => [(1, (1, 3)), (1, (2, 0))]
  | (1, 0) => [(1, (1, 2)), (1, (3, 0))] | (1, 1) => [(1, (1, 1)), (1, (3, 3))] | (1, 2) => [(1, (2, 3)), (-1, (1, 0))]
  | (2, 0) => [(1, (1, 3)), (-1, (2, 0))] | (2, 1) => [(1, (2, 3)), (1, (1, 0))] | (2, 2) => [(1, (1, 1)), (1, (2, 2))]

/-- l.44-72 `quaternion_to_matrix` -/
def q2m : Prog (Fin 4) (Fin 3 × Fin 3) :=
  .stage (Fin 4) (fun i => .mul i i) <|                                                  -- quaternions * quaternions
  .stage Unit (fun _ => .lin 0 [(1, inr 0), (1, inr 1), (1, inr 2), (1, inr 3)]) <|        -- .sum(-1)
  .stage Unit (fun _ => .recip (inr ())) <|                                               -- 2.0 / … is reciprocal, then product
  .stage Unit (fun _ => .lin 0 [(2, inr ())]) <|                                          -- two_s
  .stage (Fin 4 × Fin 4) (fun p => .mul (inl (inl (inl (inl p.1)))) (inl (inl (inl (inl p.2))))) <|  -- j * j, i * j, …
  .stage (Fin 3 × Fin 3) (fun p => .lin 0 ((q2mInner p).map fun t => (t.1, inr t.2))) <|    -- j * j + k * k, …
  .stage (Fin 3 × Fin 3) (fun p => .mul (inl (inl (inr ()))) (inr p)) <|                    -- two_s * (…)
  .stage (Fin 3 × Fin 3) (fun p => if p.1 = p.2 then .lin 1 [(-1, inr p)] else .lin 0 [(1, inr p)]) <|
  .ret inr

/-- l.120-130: the signs of `m00`, `m11`, `m22` in the four sums -/
def diagSign : Fin 4 → Fin 3 → ℝ := ![![1, 1, 1], ![1, -1, -1], ![-1, 1, -1], ![-1, -1, 1]]

/-- l.133-141: the entries of `quat_by_rijk` off the diagonal -/
def m2qOff : Fin 4 × Fin 4 → List (ℝ × (Fin 3 × Fin 3))
  | (0, 1) => [(1, (2, 1)), (-1, (1, 2))] | (0, 2) => [(1, (0, 2)), (-1, (2, 0))] | (0, 3) => [(1, (1, 0)), (-1, (0, 1))]
  | (1, 0) => [(1, (2, 1)), (-1, (1, 2))] | (1, 2) => [(1, (1, 0)), (1, (0, 1))] | (1, 3) => [(1, (0, 2)), (1, (2, 0))]
  | (2, 0) => [(1, (0, 2)), (-1, (2, 0))] | (2, 1) => [(1, (1, 0)), (1, (0, 1))] | (2, 3) => [(1, (1, 2)), (1, (2, 1))]
  | (3, 0) => [(1, (1, 0)), (-1, (0, 1))] | (3, 1) => [(1, (2, 0)), (1, (0, 2))] | (3, 2) => [(1, (2, 1)), (1, (1, 2))]
  | (_, _) => []

/-- `argmax` of four extended scalars, cf. `argmax4` -/
def argmaxFl (a : Fin 4 → Fl) : Fin 4 :=
  if Fl.le (a 1) (a 0) ∧ Fl.le (a 2) (a 0) ∧ Fl.le (a 3) (a 0) then 0
  else if Fl.le (a 2) (a 1) ∧ Fl.le (a 3) (a 1) then 1
  else if Fl.le (a 3) (a 2) then 2 else 3

/-- the inputs, the sums, their positive parts, `q_abs` -/
abbrev M2Q := ((Fin 3 × Fin 3 ⊕ Fin 4) ⊕ Fin 4) ⊕ Fin 4

/-- l.144-154: from the denominators on; `sel` is the index of the candidate, `none` for `argmax` -/
def m2qPick (sel : Option (Fin 4)) : Prog ((M2Q ⊕ Fin 4 × Fin 4) ⊕ Fin 4) (Fin 4) :=
  .stage (Fin 4) (fun c => .lin 0 [(2, inr c)]) <|
  .stage (Fin 4 × Fin 4) (fun p => .div (inl (inl (inr p))) (inr p.1)) <|                 -- quat_candidates
  .stage (Fin 4) (fun k => .pick fun env =>
    inr (sel.getD (argmaxFl fun c => env (inl (inl (inl (inl (inr c)))))), k)) <|         -- gather
  .ret inr

/-- l.132-154: from `quat_by_rijk` on -/
def m2qTail (sel : Option (Fin 4)) : Prog M2Q (Fin 4) :=
  .stage (Fin 4 × Fin 4) (fun p => if p.1 = p.2 then .sq (inr p.1)
    else .lin 0 ((m2qOff p).map fun t => (t.1, inl (inl (inl t.2))))) <|                  -- quat_by_rijk
  .stage (Fin 4) (fun c => .maxC (inl (inr c)) 0.1) <|                                   -- q_abs.max(flr)
  m2qPick sel

/-- l.101-154 `matrix_to_quaternion` -/
def m2qWith (sel : Option (Fin 4)) : Prog (Fin 3 × Fin 3) (Fin 4) :=
  .stage (Fin 4) (fun c => .lin 1 [(diagSign c 0, (0, 0)), (diagSign c 1, (1, 1)), (diagSign c 2, (2, 2))]) <|
  .stage (Fin 4) (fun c => .clampMin 0 (inr c)) <|                                       -- l.93-98
  .stage (Fin 4) (fun c => .sqrt (inr c)) <|                                             -- q_abs
  m2qTail sel

/-- l.101-154 `matrix_to_quaternion` -/
abbrev m2q : Prog (Fin 3 × Fin 3) (Fin 4) := m2qWith none

/-- `where(angles.abs() < eps, small, large)` -/
def smallAngle (angles : Fl) : Prop := match angles with
  | .fin x => |x| < 1e-6
  | _ => False

/-- l.602-613 `quaternion_to_axis_angle`, from the half angles on -/
def q2aHalf : Prog ((Fin 4 ⊕ Unit) ⊕ Unit) (Fin 3) :=
  .stage Unit (fun _ => .lin 0 [(2, inr ())]) <|                                           -- angles
  .stage Unit (fun _ => .mul (inr ()) (inr ())) <|
  .stage Unit (fun _ => .lin 0.5 [(-(1 / 48), inr ())]) <|                                 -- small_theta
  .stage Unit (fun _ => .sin (inl (inl (inl (inr ()))))) <|
  .stage Unit (fun _ => .div (inr ()) (inl (inl (inl (inr ()))))) <|                       -- large_theta
  .stage Unit (fun _ => .pick fun env =>
    if smallAngle (env (inl (inl (inl (inl (inr ())))))) then inl (inl (inr ())) else inr ()) <|
  .stage (Fin 3) (fun k => .div (inl (inl (inl (inl (inl (inl (inl (inl k.succ)))))))) (inr ())) <|
  .ret inr

/-- l.590-613 `quaternion_to_axis_angle` -/
def q2a : Prog (Fin 4) (Fin 3) :=
  .stage Unit (fun _ => .norm3 1 2 3) <|                                                  -- norms
  .stage Unit (fun _ => .atan2 (inr ()) (inl 0)) <|                                        -- half_angles
  q2aHalf

/-- l.563-587 `axis_angle_to_quaternion` -/
def a2q : Prog (Fin 3) (Fin 4) :=
  .stage Unit (fun _ => .norm3 0 1 2) <|                                                  -- angles
  .stage Unit (fun _ => .lin 0 [(0.5, inr ())]) <|                                         -- half_angles
  .stage Unit (fun _ => .mul (inl (inr ())) (inl (inr ()))) <|
  .stage Unit (fun _ => .lin 0.5 [(-(1 / 48), inr ())]) <|                                 -- small_theta
  .stage Unit (fun _ => .sin (inl (inl (inr ())))) <|
  .stage Unit (fun _ => .div (inr ()) (inl (inl (inl (inl (inr ())))))) <|                 -- large_theta
  .stage Unit (fun _ => .pick fun env =>
    if smallAngle (env (inl (inl (inl (inl (inl (inr ()))))))) then inl (inl (inr ())) else inr ()) <|
  .stage (Option (Fin 3)) (fun k => match k with
    | none => .cos (inl (inl (inl (inl (inl (inr ()))))))
    | some k => .mul (inl (inl (inl (inl (inl (inl (inl k))))))) (inr ())) <|
  .ret (fun k => inr (k.cases none some))

/-- l.495-524 `axis_and_angle_to_matrix_33`: signs and indices of the terms with `s` -/
def aa33Sin : Fin 3 × Fin 3 → List (ℝ × Fin 3)
  | (0, 1) => [(-1, 2)] | (0, 2) => [(1, 1)] | (1, 0) => [(1, 2)] | (1, 2) => [(-1, 0)] | (2, 0) => [(-1, 1)] | (2, 1) => [(1, 0)]
  | (_, _) => []

/-- l.495-524 `axis_and_angle_to_matrix_33`; the last input is `theta` -/
def aa33 : Prog (Fin 3 ⊕ Unit) (Fin 3 × Fin 3) :=
  .stage Unit (fun _ => .cos (inr ())) <|
  .stage Unit (fun _ => .lin 1 [(-1, inr ())]) <|                                         -- one_minus_c
  .stage Unit (fun _ => .sin (inl (inl (inr ())))) <|
  .stage (Fin 3 × Fin 3) (fun p => .mul (inl (inl (inl (inl p.1)))) (inl (inl (inl (inl p.2))))) <|
  .stage (Fin 3 × Fin 3) (fun p => .mul (inr p) (inl (inl (inr ())))) <|
  .stage (Fin 3) (fun k => .mul (inl (inl (inl (inl (inl (inl k)))))) (inl (inl (inr ())))) <|
  .stage (Fin 3 × Fin 3) (fun p =>
    if p.1 = p.2 then .lin 0 [(1, inl (inl (inl (inl (inl (inr ())))))), (1, inl (inr p))]
    else .lin 0 ((1, inl (inr p)) :: (aa33Sin p).map fun t => (t.1, inr t.2))) <|
  .ret inr

/-- `math.py` l.80-139 `acos_linear_extrapolation` with l.142-153, one element: the masked assignments record only the branch of the
element -/
def acosProg (lower upper x : ℝ) : Prog Unit Unit :=
  if x ≤ lower then .stage Unit (fun _ => .lin (Real.arccos lower - lower * dacosDx lower) [(dacosDx lower, ())]) (.ret inr)
  else if upper ≤ x then .stage Unit (fun _ => .lin (Real.arccos upper - upper * dacosDx upper) [(dacosDx upper, ())]) (.ret inr)
  else .stage Unit (fun _ => .acos ()) (.ret inr)

/-- `math.py` l.38-45 `quaternion_close` with `eps = 1e-4`, from the products `torch.sum(q1 * q2, dim=-1)` -/
def closeFl {N : ℕ} (dots : Fin N → Fl) : Prop := ∀ n, match dots n with
  | .fin x => 1 - x ^ 2 < 1e-4
  | _ => False

/-- inputs, products, `cos_theta`, `cos_theta` clamped, `abs_dot`, its square, `1.0 - …`, `sin_half_theta` -/
abbrev AD7 (N : ℕ) := (((((((Fin N × (Fin 4 ⊕ Fin 4)) ⊕ Fin N × Fin 4) ⊕ Fin N) ⊕ Fin N) ⊕ Fin N) ⊕ Fin N) ⊕ Fin N) ⊕ Fin N

/-- `math.py` l.30-35: from `2.0 * …` on -/
def angDistRest (N : ℕ) : Prog (AD7 N ⊕ Fin N) (Fin N) :=
  .stage (Fin N) (fun n => .lin 0 [(2, inr n)]) <|                                        -- theta
  .stage (Fin N) (fun _ => .lin 0 []) <|
  .stage (Fin N) (fun n => .pick fun env =>
    if closeFl (fun n => env (inl (inl (inl (inl (inl (inl (inl (inl (inr n)))))))))) then inr n else inl (inr n)) <|   -- theta[close] = 0
  .ret inr

/-- `math.py` l.30-35: from `torch.atan2` on -/
def angDistTail (N : ℕ) : Prog (AD7 N) (Fin N) :=
  .stage (Fin N) (fun n => .atan2 (inr n) (inl (inl (inl (inr n))))) <|
  angDistRest N

/-- `math.py` l.13-35 `quaternion_angular_distance` of a batch; the inputs are `q1` and `q2` -/
def angDist (N : ℕ) : Prog (Fin N × (Fin 4 ⊕ Fin 4)) (Fin N) :=
  .stage (Fin N × Fin 4) (fun p => .mul (p.1, inl p.2) (p.1, inr p.2)) <|
  .stage (Fin N) (fun n => .lin 0 [(1, inr (n, 0)), (1, inr (n, 1)), (1, inr (n, 2)), (1, inr (n, 3))]) <|   -- cos_theta
  .stage (Fin N) (fun n => .clamp (-1) 1 (inr n)) <|
  .stage (Fin N) (fun n => .abs (inr n)) <|                                               -- abs_dot
  .stage (Fin N) (fun n => .sq (inr n)) <|
  .stage (Fin N) (fun n => .lin 1 [(-1, inr n)]) <|
  .stage (Fin N) (fun n => .sqrt (inr n)) <|                                              -- sin_half_theta
  angDistTail N

end
end PK.AD
