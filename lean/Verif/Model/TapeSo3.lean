import Verif.Model.Tape
import Verif.Model.So3

/-!
# Records of the functions of `so3.py`

What PyTorch records for one batch element, entry by entry.  Line numbers refer to `/repo/src/pytorch_kinematics/transforms/so3.py`.
Branches that depend on values (`math.py` l.126-137, masked assignments) and values without gradient (`sign`, a comparison converted to a number) are
fixed by the values of the recorded call, which are arguments of the record.
-/

namespace PK.AD
noncomputable section
open Classical Sum

variable {ι : Type}

/-- entries of a 3x3 matrix -/
abbrev E3 := Fin 3 × Fin 3

/-- l.217-252 `hat`: sign and component -/
def hatTerms : E3 → List (ℝ × Fin 3)
  | (0, 1) => [(-1, 2)] | (0, 2) => [(1, 1)] | (1, 0) => [(1, 2)] | (1, 2) => [(-1, 0)] | (2, 0) => [(-1, 1)] | (2, 1) => [(1, 0)]
  | (_, _) => []

/-- l.130-139: from `fac1`, `fac2` and `log_rot` on -/
def expTail (fac1 fac2 : ι) (v : Fin 3 → ι) : Prog ι E3 :=
  .stage E3 (fun p => .lin 0 ((hatTerms p).map fun t => (t.1, v t.2))) <|                            -- skews
  .stage (E3 × Fin 3) (fun p => .mul (inr (p.1.1, p.2)) (inr (p.2, p.1.2))) <|
  .stage E3 (fun p => .lin 0 [(1, inr (p, 0)), (1, inr (p, 1)), (1, inr (p, 2))]) <|                   -- skews_square
  .stage E3 (fun p => .mul (inl (inl (inl fac1))) (inl (inl (inr p)))) <|
  .stage E3 (fun p => .mul (inl (inl (inl (inl fac2)))) (inl (inr p))) <|
  .stage E3 (fun p => .lin (if p.1 = p.2 then 1 else 0) [(1, inl (inr p)), (1, inr p)]) <|
  .ret inr

/-- l.125-139: from the clamped `nrms` on -/
def expRest : Prog (((Fin 3 ⊕ Fin 3) ⊕ Unit) ⊕ Unit) E3 :=
  .stage Unit (fun _ => .sqrt (inr ())) <|                                                             -- rot_angles
  .stage Unit (fun _ => .recip (inr ())) <|                                                            -- rot_angles_inv
  .stage Unit (fun _ => .sin (inl (inr ()))) <|
  .stage Unit (fun _ => .mul (inl (inr ())) (inr ())) <|                                               -- fac1
  .stage Unit (fun _ => .mul (inl (inl (inr ()))) (inl (inl (inr ())))) <|
  .stage Unit (fun _ => .cos (inl (inl (inl (inl (inr ())))))) <|
  .stage Unit (fun _ => .lin 1 [(-1, inr ())]) <|
  .stage Unit (fun _ => .mul (inl (inl (inr ()))) (inr ())) <|                                         -- fac2
  expTail (inl (inl (inl (inl (inr ()))))) (inr ()) (fun k => inl (inl (inl (inl (inl (inl (inl (inl (inl (inl (inl k)))))))))))

/-- l.92-141 `so3_exp_map` -/
def expMap (eps : ℝ) : Prog (Fin 3) E3 :=
  .stage (Fin 3) (fun i => .mul i i) <|
  .stage Unit (fun _ => .lin 0 [(1, inr 0), (1, inr 1), (1, inr 2)]) <|                                -- nrms
  .stage Unit (fun _ => .clampMin eps (inr ())) <|
  expRest

/-- `math.py` l.126-137 `acos_linear_extrapolation` of the number `x` stored at `a` -/
def acosOp (lower upper x : ℝ) (a : ι) : Op ι :=
  if x ≤ lower then .lin (Real.arccos lower - lower * dacosDx lower) [(dacosDx lower, a)]
  else if upper ≤ x then .lin (Real.arccos upper - upper * dacosDx upper) [(dacosDx upper, a)]
  else .acos a

/-- l.74-89 of `so3_rotation_angle` with `cos_bound = bound > 0`, then a record that reads the angle; `x` is the cosine -/
def angleThen {μ : Type} (bound x : ℝ) (R : E3 → ι) (p : Prog (((ι ⊕ Unit) ⊕ Unit) ⊕ Unit) μ) : Prog ι μ :=
  .stage Unit (fun _ => .lin 0 [(1, R (0, 0)), (1, R (1, 1)), (1, R (2, 2))]) <|                        -- rot_trace
  .stage Unit (fun _ => .lin (-(1 * 0.5)) [(0.5, inr ())]) <|                                           -- phi_cos
  .stage Unit (fun _ => acosOp (-(1 - bound)) (1 - bound) x (inr ())) p

/-- `phi_cos` -/
def phiCos (R : E3 → ℝ) : ℝ := (R (0, 0) + R (1, 1) + R (2, 2) - 1) * 0.5

/-- l.40-89 `so3_rotation_angle` of `R0` -/
def rotAngle (bound : ℝ) (R0 : E3 → ℝ) : Prog E3 Unit := angleThen bound (phiCos R0) id (.ret inr)

/-- l.74-91 with `cos_bound <= 0` -/
def rotAngleRaw : Prog E3 Unit :=
  .stage Unit (fun _ => .lin 0 [(1, (0, 0)), (1, (1, 1)), (1, (2, 2))]) <|
  .stage Unit (fun _ => .lin (-(1 * 0.5)) [(0.5, inr ())]) <|
  .stage Unit (fun _ => .acos (inr ())) <|
  .ret inr

/-- entries of `R1 R2^T` -/
def relEntries (e : E3 ⊕ E3 → ℝ) (p : E3) : ℝ := ∑ k, e (inl (p.1, k)) * e (inr (p.2, k))

/-- l.12-37 `so3_relative_angle` of the pair `e0`; the inputs are `R1` and `R2` -/
def relAngle (e0 : E3 ⊕ E3 → ℝ) : Prog (E3 ⊕ E3) Unit :=
  .stage (E3 × Fin 3) (fun p => .mul (inl (p.1.1, p.2)) (inr (p.1.2, p.2))) <|
  .stage E3 (fun p => .lin 0 [(1, inr (p, 0)), (1, inr (p, 1)), (1, inr (p, 2))]) <|
  angleThen 1e-4 (phiCos (relEntries e0)) inr (.ret inr)

/-- l.170-180: the rest of `so3_log_map`; `s` is the sine of the recorded angle, of which `sign` and `== 0` pass no gradient -/
def logTail (eps s : ℝ) : Prog (((E3 ⊕ Unit) ⊕ Unit) ⊕ Unit) (Fin 3) :=
  .stage Unit (fun _ => .sin (inr ())) <|                                                               -- phi_sin
  .stage Unit (fun _ => .abs (inr ())) <|
  .stage Unit (fun _ => .clampMin eps (inr ())) <|
  .stage Unit (fun _ => .lin (signR s) []) <|
  .stage Unit (fun _ => .mul (inl (inr ())) (inr ())) <|
  .stage Unit (fun _ => .lin ((if s = 0 then 1 else 0) * eps) [(1, inr ())]) <|                          -- phi_denom
  .stage Unit (fun _ => .lin 0 [(2, inr ())]) <|
  .stage Unit (fun _ => .div (inl (inl (inl (inl (inl (inl (inl (inr ())))))))) (inr ())) <|
  .stage E3 (fun p => .lin 0 [(1, inl (inl (inl (inl (inl (inl (inl (inl (inl (inl (inl p))))))))))),
    (-1, inl (inl (inl (inl (inl (inl (inl (inl (inl (inl (inl (p.2, p.1))))))))))))]) <|
  .stage E3 (fun p => .mul (inl (inr ())) (inr p)) <|                                                   -- log_rot_hat
  .ret fun k => inr (![(2, 1), (0, 2), (1, 0)] k)                                                        -- hat_inv

/-- l.144-180 `so3_log_map` of `R0`; hat_inv's check of skew symmetry reads a value and records nothing -/
def logMap (eps : ℝ) (R0 : E3 → ℝ) : Prog E3 (Fin 3) :=
  angleThen 1e-4 (phiCos R0) id (logTail eps (Real.sin (acosExtrapElem (-(1 - 1e-4)) (1 - 1e-4) (phiCos R0))))

end
end PK.AD
