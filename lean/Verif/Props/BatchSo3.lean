import Verif.Lemmas.TensorSo3
import Verif.Props.So3

/-!
# C128: the functions of `so3.py` on tensors
-/

namespace PK
open Tn Spec Classical Real Matrix
variable {d : DType} {v : Device} {N : ℕ}

theorem hasVec_vecsOf (T : Tag) (f : Fin N → V3) : HasVec (vecsOf T N f) [N] 3 T := ⟨rfl, rfl⟩
theorem hasMat_matsOf (T : Tag) (f : Fin N → M3) : HasMat (matsOf T N f) [N] 3 3 T := ⟨rfl, rfl⟩

/-- C128 (`hat`, `hat_inv`): on a tensor of shape `(N, 3)` row `n` of `hat` is the matrix of the cross product with row `n`;
`hat_inv` gives the rows back, unless the batch is empty. -/
theorem C128_hat {x : Tn ℝ} (h : HasVec x [N] 3 (flTag d v)) :
    ∃ H, hatT x = .ok H ∧ HasMat H [N] 3 3 (flTag d v) ∧ (∀ (n : Fin N) y, matAt 3 3 H [n] *ᵥ y = crossProduct (vecAt 3 x [n]) y) ∧
      (0 < N → ∃ w, hatInvT H = .ok w ∧ HasVec w [N] 3 (flTag d v) ∧ ∀ n : Fin N, vecAt 3 w [n] = vecAt 3 x [n]) := by
  refine ⟨_, (congrArg hatT h.rows).trans (hatT_vecsOf _), hasMat_matsOf _ _, fun n y => ?_, fun hN => ?_⟩
  · rw [matsOf_matAt, ← (C43_hat (Fin.pos n) fun n => vecAt 3 x [n]).1]
  · refine ⟨_, by rw [hatInvT_matsOf, (C43_hat hN fun n => vecAt 3 x [n]).2]; rfl, hasVec_vecsOf _ _, fun n => vecsOf_vecAt n⟩

/-- C128 (`hat_inv`): a batch with a matrix that is not skew-symmetric to `1e-5` is refused, an empty batch raises, and
every other batch of shape `(N, 3, 3)` gives the entries `(2,1)`, `(0,2)`, `(1,0)` of each matrix. -/
theorem C128_hat_inv {H : Tn ℝ} (h : HasMat H [N] 3 3 (flTag d v)) :
    ((∃ (n : Fin N) (i j : Fin 3), 1e-5 < |matAt 3 3 H [n] i j + matAt 3 3 H [n] j i|) → hatInvT H = .error .valueError) ∧
    (N = 0 → hatInvT H = .error .runtimeError) ∧
    (0 < N → (∀ (n : Fin N) (i j : Fin 3), |matAt 3 3 H [n] i j + matAt 3 3 H [n] j i| ≤ 1e-5) →
      ∃ w, hatInvT H = .ok w ∧ HasVec w [N] 3 (flTag d v) ∧
        ∀ n : Fin N, vecAt 3 w [n] = ![matAt 3 3 H [n] 2 1, matAt 3 3 H [n] 0 2, matAt 3 3 H [n] 1 0]) := by
  have e := (congrArg hatInvT h.rows).trans (hatInvT_matsOf _)
  refine ⟨fun ⟨n, i, j, hb⟩ => ?_, fun h0 => ?_, fun h0 hs => ?_⟩
  · rw [e, C43_hat_inv_rejects _ n i j hb]; rfl
  · rw [e, hatInv, if_pos h0]; rfl
  · rw [hatInv, if_neg h0.ne', if_neg (by push_neg; exact hs)] at e
    exact ⟨_, e, hasVec_vecsOf _ _, fun n => vecsOf_vecAt n⟩

/-- C128 (`so3_exp_map`): on a tensor of shape `(N, 3)`, row `n` of the result depends on row `n` alone; with the default
`eps` it is the rotation about the row by its length, for rows of length at least 0.01. -/
theorem C128_exp {x : Tn ℝ} (h : HasVec x [N] 3 (flTag d v)) :
    (∀ eps, 0 < eps → ∃ R, so3ExpMapT x eps = .ok R ∧ HasMat R [N] 3 3 (flTag d v) ∧
      ∀ n : Fin N, matAt 3 3 R [n] = so3ExpMap (vecAt 3 x [n]) eps) ∧
    ∃ R, so3ExpMapT x = .ok R ∧ HasMat R [N] 3 3 (flTag d v) ∧ ∀ n : Fin N, 0.01 ≤ vlen (vecAt 3 x [n]) →
      matAt 3 3 R [n] = rotAbout (fun i => vecAt 3 x [n] i / vlen (vecAt 3 x [n])) (vlen (vecAt 3 x [n])) ∧ IsRot (matAt 3 3 R [n]) := by
  constructor
  · intro eps _
    exact ⟨_, (congrArg (so3ExpMapT · eps) h.rows).trans (so3ExpMapT_vecsOf _ _), hasMat_matsOf _ _, fun n => matsOf_matAt n⟩
  · refine ⟨_, (congrArg (so3ExpMapT · 1e-4) h.rows).trans (so3ExpMapT_vecsOf _ _), hasMat_matsOf _ _, fun n hn => ?_⟩
    rw [matsOf_matAt]
    exact C43_exp_is_rotation _ hn

/-- C128 (`so3_log_map` after `so3_exp_map`), the part that holds: rows shorter than `π - bandAngle` come back, exactly from
the length `bandAngle` on.  Missing: rows near half turns (`C128_log_half_turn_fails`) and the empty batch
(`C128_log_empty_fails`). -/
theorem C128_log_exp_partial (junk : List ℕ → ℝ) {x : Tn ℝ} (h : HasVec x [N] 3 (flTag d v)) (hN : 0 < N)
    (hv : ∀ n : Fin N, vlen (vecAt 3 x [n]) ≤ π - bandAngle) :
    ∃ R w, so3ExpMapT x = .ok R ∧ so3LogMapT junk R = .ok w ∧ HasVec w [N] 3 (flTag d v) ∧
      ∀ n : Fin N, (bandAngle ≤ vlen (vecAt 3 x [n]) → vecAt 3 w [n] = vecAt 3 x [n]) ∧
        ∃ c : ℝ, |c - 1| ≤ 1e-4 ∧ vecAt 3 w [n] = c • vecAt 3 x [n] := by
  obtain ⟨w, hw, hr⟩ := C43_log_exp_partial hN (fun n => vecAt 3 x [n]) hv
  refine ⟨_, _, (congrArg (so3ExpMapT · 1e-4) h.rows).trans (so3ExpMapT_vecsOf _ _), by rw [so3LogMapT_matsOf, hw]; rfl,
    hasVec_vecsOf _ _, fun n => ?_⟩
  rw [vecsOf_vecAt]
  exact hr n

/-- C128 (`so3_exp_map` after `so3_log_map`), the part that holds: a rotation by an angle between `bandAngle` and
`π - bandAngle` comes back, and its logarithm is as long as its angle; below `bandAngle` the entries are off by at most
`1e-5`.  The other matrices of the batch do not matter.  Missing: half turns, the empty batch. -/
theorem C128_exp_log_partial (junk : List ℕ → ℝ) {R : Tn ℝ} (h : HasMat R [N] 3 3 (flTag d v)) (hN : 0 < N)
    (hR : ∀ n : Fin N, IsRot (matAt 3 3 R [n])) :
    ∃ w Q, so3LogMapT junk R = .ok w ∧ HasVec w [N] 3 (flTag d v) ∧ so3ExpMapT w = .ok Q ∧ HasMat Q [N] 3 3 (flTag d v) ∧
      ∀ n : Fin N, (bandAngle ≤ rotAngle (matAt 3 3 R [n]) → rotAngle (matAt 3 3 R [n]) ≤ π - bandAngle →
          matAt 3 3 Q [n] = matAt 3 3 R [n] ∧ vlen (vecAt 3 w [n]) = rotAngle (matAt 3 3 R [n])) ∧
        (rotAngle (matAt 3 3 R [n]) ≤ bandAngle → ∀ i j, |matAt 3 3 Q [n] i j - matAt 3 3 R [n] i j| ≤ 1e-5) := by
  obtain ⟨w, hw, hr⟩ := C43_exp_log_partial hN (fun n => matAt 3 3 R [n]) hR
  refine ⟨_, _, (congrArg (so3LogMapT junk · 1e-4) h.rows).trans (by rw [so3LogMapT_matsOf, hw]; rfl), hasVec_vecsOf _ _,
    so3ExpMapT_vecsOf _ _, hasMat_matsOf _ _, fun n => ?_⟩
  rw [matsOf_matAt, vecsOf_vecAt]
  exact hr n

/-- C128 (`so3_relative_angle`, `so3_rotation_angle`): entry `n` belongs to the pair `n` alone; the cosine is exact, the
angle is exact between `bandAngle` and `π - bandAngle`. -/
theorem C128_relative_angle (junk : List ℕ → ℝ) {R1 R2 : Tn ℝ} (h1 : HasMat R1 [N] 3 3 (flTag d v)) (h2 : HasMat R2 [N] 3 3 (flTag d v))
    (r1 : ∀ n : Fin N, IsRot (matAt 3 3 R1 [n])) (r2 : ∀ n : Fin N, IsRot (matAt 3 3 R2 [n])) :
    ∃ c a, so3RelativeAngleT junk R1 R2 true = .ok c ∧ so3RelativeAngleT junk R1 R2 = .ok a ∧
      c.shape = [N] ∧ c.tag = flTag d v ∧ a.shape = [N] ∧ a.tag = flTag d v ∧
      ∀ n : Fin N, c.get [n] = .fin (cos (rotAngle (matAt 3 3 R1 [n] * (matAt 3 3 R2 [n])ᵀ))) ∧
        (bandAngle ≤ rotAngle (matAt 3 3 R1 [n] * (matAt 3 3 R2 [n])ᵀ) → rotAngle (matAt 3 3 R1 [n] * (matAt 3 3 R2 [n])ᵀ) ≤ π - bandAngle →
          a.get [n] = .fin (rotAngle (matAt 3 3 R1 [n] * (matAt 3 3 R2 [n])ᵀ))) := by
  obtain ⟨c, a, hc, ha, hr⟩ := C43_relative_angle (fun n => matAt 3 3 R1 [n]) (fun n => matAt 3 3 R2 [n]) r1 r2
  have e : ∀ b, so3RelativeAngleT junk R1 R2 b =
      (so3RelativeAngle (fun n : Fin N => matAt 3 3 R1 [n]) (fun n => matAt 3 3 R2 [n]) b).map fun x => toFl (lineOf (flTag d v) N x) := by
    intro b
    refine (congrArg₂ (so3RelativeAngleT junk · · b) h1.rows h2.rows).trans ?_
    rw [so3RelativeAngleT, permute_matsOf, ok_bind, bmm_matsOf, ok_bind, so3RotationAngleT_matsOf _ _ _ _ _ (.inr (by norm_num))]
    rfl
  have hg : ∀ (x : Fin N → ℝ) (n : Fin N), (toFl (lineOf (flTag d v) N x)).get [n] = .fin (x n) := by
    intro x n
    rw [toFl, ofFn_get (by exact valid1.2 n.2), lineOf_get]
  refine ⟨_, _, by rw [e, hc]; rfl, by rw [e, ha]; rfl, rfl, rfl, rfl, rfl, fun n => ?_⟩
  rw [hg, hg]
  refine ⟨by rw [(hr n).1], fun b1 b2 => by rw [(hr n).2 b1 b2]⟩

/-- C128 (`so3_rotation_angle`) for any batch of shape `(N, 3, 3)`: a trace outside `[-1-eps, 3+eps]` anywhere in the batch
raises ValueError, also from `so3_log_map`; otherwise entry `n` of the cosines is `(trace - 1) / 2` of matrix `n`, and with
`cos_bound = 0` entry `n` of the angles is its arccos, NaN if the cosine is outside `[-1, 1]`. -/
theorem C128_rotation_angle (junk : List ℕ → ℝ) {R : Tn ℝ} (h : HasMat R [N] 3 3 (flTag d v)) (eps : ℝ) :
    ((∃ n : Fin N, (matAt 3 3 R [n]).trace < -1 - eps ∨ 3 + eps < (matAt 3 3 R [n]).trace) →
      ∀ ca cb, so3RotationAngleT junk R eps ca cb = .error .valueError) ∧
    ((∀ n : Fin N, -1 - eps ≤ (matAt 3 3 R [n]).trace ∧ (matAt 3 3 R [n]).trace ≤ 3 + eps) →
      (∀ cb, ∃ c, so3RotationAngleT junk R eps true cb = .ok c ∧ c.shape = [N] ∧ c.tag = flTag d v ∧
        ∀ n : Fin N, c.get [n] = .fin (((matAt 3 3 R [n]).trace - 1) / 2)) ∧
      ∃ a, so3RotationAngleT junk R eps false 0 = .ok a ∧ a.shape = [N] ∧ a.tag = flTag d v ∧
        ∀ n : Fin N, (|((matAt 3 3 R [n]).trace - 1) / 2| ≤ 1 → a.get [n] = .fin (arccos (((matAt 3 3 R [n]).trace - 1) / 2))) ∧
          (1 < |((matAt 3 3 R [n]).trace - 1) / 2| → a.get [n] = .nan)) := by
  have ht : ∀ n : Fin N, (matAt 3 3 R [n]).trace = matAt 3 3 R [n] 0 0 + matAt 3 3 R [n] 1 1 + matAt 3 3 R [n] 2 2 := fun n => by
    rw [Matrix.trace, Fin.sum_univ_three]; rfl
  have e := (congrArg (phiCosT · eps) h.rows).trans (phiCosT_matsOf _ _)
  simp only [← ht] at e
  constructor
  · intro hb ca cb
    rw [if_pos hb] at e
    rw [so3RotationAngleT, e]
    rfl
  · intro hg
    rw [if_neg (by push_neg; exact hg)] at e
    have hl : ∀ n : Fin N, (lineOf (flTag d v) N fun n => ((matAt 3 3 R [n]).trace - 1) * 0.5).get [n] = ((matAt 3 3 R [n]).trace - 1) / 2 := by
      intro n
      rw [lineOf_get]
      ring
    constructor
    · intro cb
      refine ⟨_, by rw [so3RotationAngleT, e]; rfl, rfl, rfl, fun n => ?_⟩
      rw [toFl, ofFn_get (by exact valid1.2 n.2), hl]
    · refine ⟨_, by rw [so3RotationAngleT, e, ok_bind, if_neg (by decide), phiT, if_neg (lt_irrefl _)], rfl, rfl, fun n => ?_⟩
      rw [mapFl, ofFn_get (by exact valid1.2 n.2), hl]
      constructor
      · intro h1
        rw [abs_le] at h1
        exact if_neg (by rintro (h | h) <;> linarith)
      · intro h1
        refine if_pos ?_
        rcases lt_abs.1 h1 with h | h
        · exact .inr h
        · exact .inl (by linarith)

/-- C128: any other shape is refused with ValueError by `hat`, `so3_exp_map`, `hat_inv`, `so3_rotation_angle` and
`so3_log_map`. -/
theorem C128_shapes (junk : List ℕ → ℝ) :
    (∀ x : Tn ℝ, (∀ N, x.shape ≠ [N, 3]) → hatT x = .error .valueError ∧ ∀ eps, so3ExpMapT x eps = .error .valueError) ∧
    (∀ R : Tn ℝ, (∀ N, R.shape ≠ [N, 3, 3]) → hatInvT R = .error .valueError ∧ (∀ eps, so3LogMapT junk R eps = .error .valueError) ∧
      ∀ eps ca cb, so3RotationAngleT junk R eps ca cb = .error .valueError) := by
  constructor
  · intro x hx
    have : ∀ s : Shape, x.shape = s → (∀ N, s ≠ [N, 3]) → hatT x = .error .valueError ∧ ∀ eps, so3ExpMapT x eps = .error .valueError := by
      intro s hs hx
      unfold hatT so3ExpMapT
      rw [hs]
      rcases s with _ | ⟨a, _ | ⟨b, _ | ⟨c, s⟩⟩⟩
      · exact ⟨rfl, fun _ => rfl⟩
      · exact ⟨rfl, fun _ => rfl⟩
      · have hb : b ≠ 3 := fun h => hx a (by rw [h])
        exact ⟨if_pos hb, fun _ => if_pos hb⟩
      · exact ⟨rfl, fun _ => rfl⟩
    exact this _ rfl hx
  · intro R hR
    have hb : batchOf33 R = .error .valueError := by
      unfold batchOf33
      rcases h : R.shape with _ | ⟨a, _ | ⟨b, _ | ⟨c, _ | ⟨e, s⟩⟩⟩⟩
      · rfl
      · rfl
      · rfl
      · refine if_pos ?_
        by_contra hc
        push_neg at hc
        exact hR a (by rw [h, hc.1, hc.2])
      · rfl
    refine ⟨by rw [hatInvT, hb]; rfl, fun eps => by rw [so3LogMapT, hb]; rfl, fun eps ca cb => ?_⟩
    rw [so3RotationAngleT, phiCosT, hb]
    rfl

/-- C128 fails for the code at half turns: the logarithm of every half turn is zero, whose exponential is the identity. -/
theorem C128_log_half_turn_fails (junk : List ℕ → ℝ) {R : Tn ℝ} (h : HasMat R [N] 3 3 (flTag d v)) (hN : 0 < N)
    (hR : ∀ n : Fin N, IsRot (matAt 3 3 R [n])) (hpi : ∀ n : Fin N, rotAngle (matAt 3 3 R [n]) = π) :
    ∃ w Q, so3LogMapT junk R = .ok w ∧ so3ExpMapT w = .ok Q ∧
      ∀ n : Fin N, vecAt 3 w [n] = 0 ∧ matAt 3 3 Q [n] = 1 ∧ matAt 3 3 R [n] ≠ 1 := by
  obtain ⟨hw, hr⟩ := C43_log_half_turn_fails hN (fun n => matAt 3 3 R [n]) hR hpi
  refine ⟨_, _, (congrArg (so3LogMapT junk · 1e-4) h.rows).trans (by rw [so3LogMapT_matsOf, hw]; rfl), so3ExpMapT_vecsOf _ _, fun n => ?_⟩
  rw [matsOf_matAt, vecsOf_vecAt]
  exact ⟨rfl, hr n⟩

/-- C128 fails for the code on the empty batch: the exponential of no vectors is a tensor of no matrices, whose logarithm
raises RuntimeError. -/
theorem C128_log_empty_fails (junk : List ℕ → ℝ) {x : Tn ℝ} (h : HasVec x [0] 3 (flTag d v)) :
    ∃ R, so3ExpMapT x = .ok R ∧ HasMat R [0] 3 3 (flTag d v) ∧ so3LogMapT junk R = .error .runtimeError := by
  refine ⟨_, (congrArg (so3ExpMapT · 1e-4) h.rows).trans (so3ExpMapT_vecsOf _ _), hasMat_matsOf _ _, ?_⟩
  rw [so3LogMapT_matsOf, so3LogMap, so3RotationAngle]
  simp only
  rw [if_neg (by rintro ⟨n, -⟩; exact n.elim0), if_neg (by decide), if_pos (by norm_num)]
  have : ∀ f : Fin 0 → ℝ, acosLinearExtrapolation f (.scalar (1 - 1e-4)) = .ok fun n => n.elim0 := by
    intro f
    unfold acosLinearExtrapolation Bound.unpack
    simp only
    rw [if_neg (by norm_num), if_neg (by norm_num)]
    exact congrArg _ (funext fun n => n.elim0)
  rw [this, ok_bind, hatInv, if_pos rfl]
  rfl

/-- C128 fails for the code: the documented `ValueError if R1 or R2 is of incorrect shape` of `so3_relative_angle` is a
RuntimeError for two matrices without a batch dimension and for batches of different sizes. -/
theorem C128_relative_shape_fails (junk : List ℕ → ℝ) (ca : Bool) {R1 R2 : Tn ℝ} :
    (HasMat R1 [] 3 3 (flTag d v) → HasMat R2 [] 3 3 (flTag d v) → so3RelativeAngleT junk R1 R2 ca = .error .runtimeError) ∧
    (∀ M, M ≠ N → HasMat R1 [M] 3 3 (flTag d v) → HasMat R2 [N] 3 3 (flTag d v) → so3RelativeAngleT junk R1 R2 ca = .error .runtimeError) := by
  constructor
  · intro _ h2
    rw [so3RelativeAngleT, permute, if_neg]
    · rfl
    · rw [h2.1]
      intro hp
      exact absurd hp.length_eq (by decide)
  · intro M hM h1 h2
    rw [so3RelativeAngleT, h2.rows, permute_matsOf, ok_bind, h1.rows]
    have : bmm (matsOf (flTag d v) M fun n => matAt 3 3 R1 [n]) (matsOf (flTag d v) N fun n => (matAt 3 3 R2 [n])ᵀ) = .error .runtimeError := by
      show (if M = N ∧ (3 : ℕ) = 3 then _ else _) = _
      exact if_neg fun h => hM h.1
    rw [this]
    rfl

/-- C128 fails for the code: `so3_relative_angle` also accepts batches of matrices that are not 3 by 3: with three rows and
any number of columns it returns a tensor, whatever the columns, as long as the trace of the product is that of a rotation. -/
theorem C128_relative_accepts (junk : List ℕ → ℝ) : ∃ R1 R2 : Tn ℝ, HasMat R1 [1] 3 1 (flTag .f64 cpu) ∧ HasMat R2 [1] 3 1 (flTag .f64 cpu) ∧
    ∃ c, so3RelativeAngleT junk R1 R2 true = .ok c ∧ c.shape = [1] ∧ c.get [0] = .fin 0 := by
  refine ⟨box (flTag .f64 cpu) 1 3 1 fun _ j _ => if j = 0 then 1 else 0, box (flTag .f64 cpu) 1 3 1 fun _ j _ => if j = 0 then 1 else 0,
    ⟨rfl, rfl⟩, ⟨rfl, rfl⟩, ?_⟩
  have e : box (flTag .f64 cpu) 1 3 3 (fun _ j l => ∑ x ∈ Finset.range 1, (if j = 0 then (1 : ℝ) else 0) * (if l = 0 then 1 else 0)) =
      matsOf (flTag .f64 cpu) 1 fun _ => !![1, 0, 0; 0, 0, 0; 0, 0, 0] := by
    refine eq_matsOf rfl rfl fun n j l => ?_
    rw [box_get n.2 j.2 l.2]
    fin_cases j <;> fin_cases l <;> simp
  rw [so3RelativeAngleT, permute_box, ok_bind, bmm_box, ok_bind, e, so3RotationAngleT_matsOf _ _ _ _ _ (.inl rfl), so3RotationAngle]
  simp only
  rw [if_neg (by simp; norm_num)]
  simp only [if_true]
  refine ⟨_, rfl, rfl, ?_⟩
  refine (ofFn_get (by exact valid1.2 Nat.one_pos)).trans (congrArg Fl.fin ((lineOf_get (0 : Fin 1)).trans ?_))
  norm_num
  rfl

/-! ## Concrete cases -/

/-- a batch with a quarter turn about `z` and a turn by one about `x`: lengths inside the band -/
example : HasVec (vecsOf (flTag .f32 cpu) 2 ![![0, 0, 3/2], ![1, 0, 0]]) [2] 3 (flTag .f32 cpu) ∧
    ∀ n : Fin 2, 0.01 ≤ vlen (vecAt 3 (vecsOf (flTag .f32 cpu) 2 ![![0, 0, 3/2], ![1, 0, 0]]) [n]) := by
  refine ⟨hasVec_vecsOf _ _, fun n => ?_⟩
  rw [vecsOf_vecAt]
  fin_cases n
  · refine Real.le_sqrt_of_sq_le ?_
    simp
    norm_num
  · refine Real.le_sqrt_of_sq_le ?_
    simp
    norm_num
/-- a batch of half turns -/
example : IsRot (!![1, 0, 0; 0, -1, 0; 0, 0, -1] : M3) := by
  constructor
  · refine (Matrix.mem_orthogonalGroup_iff (Fin 3) ℝ).2 ?_
    ext i j; fin_cases i <;> fin_cases j <;> simp [Matrix.mul_apply, Fin.sum_univ_three]
  · simp [Matrix.det_fin_three]
/-- a batch that `hat_inv` refuses -/
example : 1e-5 < |matAt 3 3 (matsOf (flTag .f32 cpu) 2 fun _ => (1 : M3)) [1] 0 0 + matAt 3 3 (matsOf (flTag .f32 cpu) 2 fun _ => (1 : M3)) [1] 0 0| := by
  have := matsOf_matAt (T := flTag .f32 cpu) (f := fun _ : Fin 2 => (1 : M3)) 1
  simp only [Fin.val_one] at this
  rw [this]
  norm_num

end PK
