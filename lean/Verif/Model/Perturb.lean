import Verif.Model.RotConv

/-!
# `transforms/perturbation.py`
-/

namespace PK
noncomputable section

/-- The draws of one `torch.randn` call each (perturbation.py:24-36), one row. -/
structure PerturbDraw where
  /-- row of `torch.randn((num_perturbations, 3))`, before scaling -/
  t : V3
  /-- entry of `torch.randn(num_perturbations)`, before scaling -/
  angle : ℝ
  /-- row of the `torch.randn` for the axis, used when no axis is given -/
  axis : V3

/-- `delta_t` (perturbation.py:24, 32-33) -/
def perturbDeltaT (d : PerturbDraw) (tSigma : ℝ) (axis : Option V3) (perp : Bool) : V3 :=
  let dt : V3 := fun i => d.t i * tSigma
  match axis with
  | some a => if perp then fun i => dt i - dot dt a * a i else dt
  | none => dt

/-- `axis_angle` (perturbation.py:27-36) -/
def perturbAxis (d : PerturbDraw) (axis : Option V3) : V3 :=
  match axis with
  | some a => a
  | none => fun i => d.axis i / norm3 d.axis

/-- `sample_perturbations` (perturbation.py:5-45), one row per draw; `T` is the row's transform (one transform is
broadcast to all rows).  The distribution of the draws is not modelled: theorems hold for all draws. -/
def samplePerturbation (T : M4) (d : PerturbDraw) (radSigma tSigma : ℝ) (axis : Option V3) (perp : Bool) : M4 :=
  let deltaR := axisAndAngleToMatrix33 (perturbAxis d axis) (d.angle * radSigma)
  hom (deltaR * rotPart T) (fun i => posPart T i + perturbDeltaT d tSigma axis perp i)

/-- the whole batch: `num_perturbations` rows -/
def samplePerturbations {N : ℕ} (T : Fin N → M4) (d : Fin N → PerturbDraw) (radSigma tSigma : ℝ) (axis : Option V3)
    (perp : Bool) : Fin N → M4 :=
  fun n => samplePerturbation (T n) (d n) radSigma tSigma axis perp

end
end PK
